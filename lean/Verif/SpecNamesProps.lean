import Verif.SpecNamesLemmas
/-!
C96: declaration specifiers with structures, unions, enumerations and typedef names.
-/
namespace Verif.SpecNamesProps
open Verif Simple Specifiers SpecNames

/-- For every text, if the specifiers in front of it denote a type, the compiler finds this type
and stops at the first token that is not part of them.  Missing: `long double`. -/
theorem specifiers_named_partial (toks : List Tk) (t : Named) (hr : NoAtomic (split false toks).2)
    (h : Denotes (split false toks).1 t) (hd : t ≠ .simple .ldouble) : typeOf toks = .ok (t, (split false toks).2) := by
  obtain ⟨-, h2, h3⟩ := typeOf_spec toks hr
  rcases h with ⟨-, r, hr, hp, rfl⟩ | ⟨n, hn, hk, rfl⟩
  · rw [h2 r hr hp, if_neg (fun e => hd (by rw [e]))]
  · rw [h3 (fun t _ => by rw [hk]; simp) (fun r hr hp => allowed_ne_nil r hr (by rw [hk] at hp; exact hp.symm.eq_nil)), hn]
    rfl

/-- `static T const T;` with a typedef name `T`: the second `T` is the declarator. -/
example : split false [.kw .T_KSTATIC, .ident (some 3), .kw .T_KCONST, .ident (some 3), .kw .T_SEMI_COLON] =
      ([.kw .T_KSTATIC, .ident (some 3), .kw .T_KCONST], [.ident (some 3), .kw .T_SEMI_COLON]) ∧
    Denotes [.kw .T_KSTATIC, .ident (some 3), .kw .T_KCONST] (.data 3) ∧
    typeOf [.kw .T_KSTATIC, .ident (some 3), .kw .T_KCONST, .ident (some 3), .kw .T_SEMI_COLON] =
      .ok (.data 3, [.ident (some 3), .kw .T_SEMI_COLON]) := by
  have e : split false [.kw .T_KSTATIC, .ident (some 3), .kw .T_KCONST, .ident (some 3), .kw .T_SEMI_COLON] =
      ([.kw .T_KSTATIC, .ident (some 3), .kw .T_KCONST], [.ident (some 3), .kw .T_SEMI_COLON]) := by decide +kernel
  have d : Denotes [.kw .T_KSTATIC, .ident (some 3), .kw .T_KCONST] (.data 3) := .inr ⟨3, by decide, by decide, rfl⟩
  refine ⟨e, d, ?_⟩
  have := specifiers_named_partial [.kw .T_KSTATIC, .ident (some 3), .kw .T_KCONST, .ident (some 3), .kw .T_SEMI_COLON] (.data 3)
    (by rw [e]; simp [NoAtomic]) (by rw [e]; exact d) (by simp)
  rwa [e] at this

/-- For every text, if the specifiers in front of it denote no type, the compiler rejects it.
Missing: specifiers with the name of a type and something else that names one. -/
theorem specifiers_unnamed_partial (toks : List Tk) (hr : NoAtomic (split false toks).2)
    (h : ∀ t, ¬ Denotes (split false toks).1 t) (hn : names (split false toks).1 = []) : typeOf toks = .fail := by
  obtain ⟨h1, -, h3⟩ := typeOf_spec toks hr
  by_cases hv : Valid (typeKw (split false toks).1)
  · rw [h3 hv (fun r hr hp => h _ (.inl ⟨hn, r, hr, hp, rfl⟩)), hn]; rfl
  · exact h1 hv

/-- `const x;` and `signed float x;` -/
example : names (split false [.kw .T_KCONST, .ident none]).1 = [] ∧ (∀ t, ¬ Denotes (split false [.kw .T_KCONST, .ident none]).1 t) ∧
    names (split false [.kw .T_KSIGNED, .kw .T_KFLOAT, .ident none]).1 = [] ∧
    (∀ t, ¬ Denotes (split false [.kw .T_KSIGNED, .kw .T_KFLOAT, .ident none]).1 t) := by
  refine ⟨by decide +kernel, fun t h => ?_, by decide +kernel, fun t h => ?_⟩
  · rcases h with ⟨-, r, hr, hp, -⟩ | ⟨n, hn, -⟩
    · revert r; decide +kernel
    · have := congrArg List.length hn; rw [List.length_singleton] at this; revert this; decide +kernel
  · rcases h with ⟨-, r, hr, hp, -⟩ | ⟨n, hn, -⟩
    · revert r; decide +kernel
    · have := congrArg List.length hn; rw [List.length_singleton] at this; revert this; decide +kernel

/-- Violated: `int struct S x;` is accepted, as `int`. -/
theorem keyword_and_tag_violated :
    ¬ ∀ toks, NoAtomic (split false toks).2 → (∀ t, ¬ Denotes (split false toks).1 t) → typeOf toks = .fail := by
  intro h
  have := h [.kw .T_KINT, .tag 0, .ident none] (by unfold NoAtomic; decide +kernel) (fun t ht => by
    rcases ht with ⟨hn, -⟩ | ⟨n, -, hk, -⟩
    · exact absurd hn (by decide +kernel)
    · exact absurd hk (by decide +kernel))
  rw [show typeOf [.kw .T_KINT, .tag 0, .ident none] = .ok (.simple .int, [.ident none]) by decide +kernel] at this
  simp at this

/-- Violated: `struct A struct B x;` is accepted, as `struct B`. -/
theorem two_tags_violated :
    ¬ ∀ toks, NoAtomic (split false toks).2 → (∀ t, ¬ Denotes (split false toks).1 t) → typeOf toks = .fail := by
  intro h
  have := h [.tag 0, .tag 1, .ident none] (by unfold NoAtomic; decide +kernel) (fun t ht => by
    rcases ht with ⟨hn, -⟩ | ⟨n, hn, -⟩
    · exact absurd hn (by decide +kernel)
    · rw [show names (split false [.tag 0, .tag 1, .ident none]).1 = [0, 1] by decide +kernel] at hn
      simp at hn)
  rw [show typeOf [.tag 0, .tag 1, .ident none] = .ok (.data 1, [.ident none]) by decide +kernel] at this
  simp at this

/-- Violated: `T short double x;` is accepted, as `T`. -/
theorem name_and_keywords_violated :
    ¬ ∀ toks, NoAtomic (split false toks).2 → (∀ t, ¬ Denotes (split false toks).1 t) → typeOf toks = .fail := by
  intro h
  have := h [.ident (some 0), .kw .T_KSHORT, .kw .T_KDOUBLE, .ident none] (by unfold NoAtomic; decide +kernel) (fun t ht => by
    rcases ht with ⟨hn, -⟩ | ⟨n, -, hk, -⟩
    · exact absurd hn (by decide +kernel)
    · exact absurd hk (by decide +kernel))
  rw [show typeOf [.ident (some 0), .kw .T_KSHORT, .kw .T_KDOUBLE, .ident none] = .ok (.data 0, [.ident none]) by decide +kernel] at this
  simp at this

end Verif.SpecNamesProps
