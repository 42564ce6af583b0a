import Verif.SpecifiersLemmas
/-!
C27 type specifiers, C72 qualifiers.
-/
namespace Verif.Specifiers
open Verif Simple

/-- C27, all of 6.7.2p2 but `long double`: for every sequence of specifier keywords, whose type
specifiers are in any order one of the lists, the type is the one listed. -/
theorem specifiers_accepted_partial (ks rest : List TType) (h : IsSpecifiers ks rest) (r : ST × List TType)
    (hr : r ∈ allowed) (hp : (typeSpecifiers ks).Perm r.2) (hd : r.1 ≠ .ldouble) :
    ∃ c, typeOf (ks ++ rest) = .ok (r.1, c) := by
  have := (typeOf_spec h).1 r hr hp
  rw [if_neg hd] at this
  exact ⟨_, this⟩

/-- C27: every other sequence is rejected. -/
theorem specifiers_rejected (ks rest : List TType) (h : IsSpecifiers ks rest)
    (hno : ∀ r ∈ allowed, ¬ (typeSpecifiers ks).Perm r.2) : typeOf (ks ++ rest) = .fail :=
  (typeOf_spec h).2 hno

/-- C27 violated: `long double` denotes `double`. -/
theorem specifiers_violated :
    ¬ (∀ (ks rest : List TType), IsSpecifiers ks rest → ∀ r ∈ allowed, (typeSpecifiers ks).Perm r.2 →
        ∃ c, typeOf (ks ++ rest) = .ok (r.1, c)) := by
  intro h
  obtain ⟨c, hc⟩ := h [.T_KLONG, .T_KDOUBLE] [.T_IDENT] ⟨by decide, by
      intro t ht
      simp only [List.head?_cons, Option.some.injEq] at ht
      subst ht; decide⟩ (.ldouble, [.T_KLONG, .T_KDOUBLE]) (by decide) (by decide)
  have : typeOf ([.T_KLONG, .T_KDOUBLE] ++ [.T_IDENT]) = .ok (.double, false) := by decide +kernel
  rw [this] at hc
  simp at hc

/-- `long const unsigned static int long x` is `unsigned long long`. -/
example : IsSpecifiers [.T_KLONG, .T_KCONST, .T_KUNSIGNED, .T_KSTATIC, .T_KINT, .T_KLONG] [.T_IDENT] ∧
    (typeSpecifiers [.T_KLONG, .T_KCONST, .T_KUNSIGNED, .T_KSTATIC, .T_KINT, .T_KLONG]).Perm [.T_KUNSIGNED, .T_KLONG, .T_KLONG, .T_KINT] ∧
    (∀ r ∈ allowed, ¬ (typeSpecifiers [.T_KLONG, .T_KSHORT]).Perm r.2) := by
  refine ⟨⟨by decide, ?_⟩, by decide, by decide⟩
  intro t ht
  simp only [List.head?_cons, Option.some.injEq] at ht
  subst ht; decide

/-- C72: with at most one `const`, the type is qualified exactly if there is one. Missing:
more than one. -/
theorem const_qualified_partial (ks rest : List TType) (h : IsSpecifiers ks rest) (hc : ks.count .T_KCONST ≤ 1) (t : ST) (c : Bool)
    (ht : typeOf (ks ++ rest) = .ok (t, c)) : c = true ↔ .T_KCONST ∈ ks := by
  have hcase : c = (ks.count .T_KCONST == 1) := by
    by_cases hex : ∃ r ∈ allowed, (typeSpecifiers ks).Perm r.2
    · obtain ⟨r, hr, hp⟩ := hex
      rw [(typeOf_spec h).1 r hr hp] at ht
      simp only [Res.ok.injEq, Prod.mk.injEq] at ht
      exact ht.2.symm
    · rw [(typeOf_spec h).2 (fun r hr hp => hex ⟨r, hr, hp⟩)] at ht
      simp at ht
  rw [hcase, beq_iff_eq]
  constructor
  · intro e; exact List.count_pos_iff.mp (by omega)
  · intro e; have := List.count_pos_iff.mpr e; omega

/-- C72 violated: `const const int` is not const-qualified (6.7.3p5 says it is as if once). -/
theorem const_qualified_violated :
    ¬ (∀ (ks rest : List TType), IsSpecifiers ks rest → ∀ (t : ST) (c : Bool), typeOf (ks ++ rest) = .ok (t, c) →
        (c = true ↔ .T_KCONST ∈ ks)) := by
  intro h
  have := h [.T_KCONST, .T_KCONST, .T_KINT] [.T_IDENT] ⟨by decide, by
      intro t ht
      simp only [List.head?_cons, Option.some.injEq] at ht
      subst ht; decide⟩ .int false (by decide +kernel)
  revert this; decide

example : [TType.T_KCONST, .T_KINT].count .T_KCONST ≤ 1 ∧ typeOf ([.T_KCONST, .T_KINT] ++ [.T_IDENT]) = .ok (.int, true) := by
  constructor <;> decide +kernel

end Verif.Specifiers
