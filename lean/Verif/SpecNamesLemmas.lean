import Verif.SpecNamesSpec
import Verif.SpecifiersLemmas
namespace Verif.SpecNames
open Verif Simple Specifiers

theorem keywords_eq (l : List Tk) : l = (keywords l).1.map .kw ++ (keywords l).2 := by
  induction l with
  | nil => rfl
  | cons k r ih =>
    cases k with
    | kw t => rw [keywords, List.map_cons, List.cons_append, ← ih]
    | tag _ => rfl
    | ident _ => rfl

/-- The last type named. -/
def lastName (d : Option Nat) (l : List Tk) : Option Nat := (names l).getLast?.or d

theorem lastName_cons_tag (d : Option Nat) (n : Nat) (l : List Tk) : lastName d (.tag n :: l) = lastName (some n) l := by
  simp only [lastName, names, List.filterMap_cons]
  cases h : (List.filterMap _ l) with
  | nil => simp
  | cons a b => simp [List.getLast?_cons_cons, List.getLast?_cons]

theorem lastName_cons_ident (d : Option Nat) (n : Nat) (l : List Tk) : lastName d (.ident (some n) :: l) = lastName (some n) l := by
  simp only [lastName, names, List.filterMap_cons]
  cases h : (List.filterMap _ l) with
  | nil => simp
  | cons a b => simp [List.getLast?_cons_cons, List.getLast?_cons]

theorem names_kws (pre : List TType) (l : List Tk) : names (pre.map .kw ++ l) = names l := by
  induction pre with
  | nil => rfl
  | cons t pre ih => rw [List.map_cons, List.cons_append, ← ih]; rfl

theorem lastName_kws (d : Option Nat) (pre : List TType) (l : List Tk) : lastName d (pre.map .kw ++ l) = lastName d l := by
  rw [lastName, lastName, names_kws]

theorem keywords_rest (l : List Tk) (t : TType) (r : List Tk) : (keywords l).2 ≠ .kw t :: r := by
  induction l with
  | nil => simp [keywords]
  | cons k l ih =>
    cases k with
    | kw u => rw [keywords]; exact ih
    | tag _ => simp [keywords]
    | ident _ => simp [keywords]

theorem typeKw_kws (pre : List TType) (h : ∀ t ∈ pre, t ∈ typeKeywords) (l : List Tk) : typeKw (pre.map .kw ++ l) = pre ++ typeKw l := by
  induction pre with
  | nil => rfl
  | cons t pre ih =>
    have := ih (fun x hx => h x (List.mem_cons_of_mem _ hx))
    simp only [typeKw, List.map_cons, List.cons_append, List.filterMap_cons, if_pos (h t List.mem_cons_self)] at this ⊢
    rw [this]

theorem split_kws (pre : List TType) (h : ∀ t ∈ pre, t ∈ typeKeywords) (seen : Bool) (l : List Tk) :
    split seen (pre.map .kw ++ l) = (pre.map .kw ++ (split (seen || !pre.isEmpty) l).1, (split (seen || !pre.isEmpty) l).2) := by
  induction pre generalizing seen with
  | nil => simp
  | cons t pre ih =>
    have ht := h t List.mem_cons_self
    rw [List.map_cons, List.cons_append, split, if_pos (by simp [isSpecifier, ht]),
      ih (fun x hx => h x (List.mem_cons_of_mem _ hx))]
    simp [isType, ht]

theorem loop_spec : ∀ (n fuel : Nat) (s : St), s.toks.length = n → n < fuel → NoAtomic (split s.got s.toks).2 →
    (absorb (typeKw (split s.got s.toks).1) s.flags = none → loop fuel s = .fail) ∧
    ∀ fl, absorb (typeKw (split s.got s.toks).1) s.flags = some fl →
      ∃ c g, loop fuel s = .ok ⟨(split s.got s.toks).2, fl, c, lastName s.data (split s.got s.toks).1, g⟩ := by
  intro n
  induction n using Nat.strongRecOn with
  | _ n ih =>
    intro fuel s hn hf hk
    obtain ⟨toks, fl, cn, data, got⟩ := s
    simp only at hn hk ⊢
    obtain ⟨fuel, rfl⟩ : ∃ f, fuel = f + 1 := ⟨fuel - 1, by omega⟩
    rw [loop, parseSpecifier]
    obtain ⟨pre, r, h1, h2, h3, h4⟩ := chain_spec chainTable ⟨(keywords toks).1, fl, cn⟩ (fun r hr => hr)
    simp only at h1 h3 h4 ⊢
    have htoks : toks = pre.map .kw ++ (r.map .kw ++ (keywords toks).2) := by
      conv => lhs; rw [keywords_eq toks, h1, List.map_append, List.append_assoc]
    have hsp := split_kws pre h2 got (r.map .kw ++ (keywords toks).2)
    rw [← htoks] at hsp
    generalize hl : r.map .kw ++ (keywords toks).2 = l at htoks hsp
    rw [hsp] at hk ⊢
    simp only at hk ⊢
    rw [typeKw_kws pre h2, absorb_append, lastName_kws]
    rcases h4 with ⟨h4, h5⟩ | ⟨fl', h5, h4⟩
    · rw [h4, h5]
      exact ⟨fun _ => rfl, fun fl h => by simp at h⟩
    rw [h4, h5]
    simp only [Bind.bind, Res.bind, Option.bind_some, hl]
    cases hp : pre with
    | cons t pre' =>
      rw [hp] at h5 hk
      simp only [absorb_grows h5, if_true, pure]
      have hlt : l.length < n := by rw [← hn, htoks, hp]; simp; omega
      have hg : (got || !(t :: pre').isEmpty) = true := by simp
      rw [hg] at hk ⊢
      exact ih l.length hlt fuel ⟨l, fl', cn, data, true⟩ rfl (by omega) hk
    | nil =>
      rw [hp] at h5 hk htoks
      simp only [absorb, Option.some.injEq] at h5
      subst h5
      simp only [sameFlags_refl, Bool.true_eq_false, if_false]
      simp only [List.isEmpty_nil, Bool.not_true, Bool.or_false] at hk ⊢
      have hlen : l.length = n := by rw [← hn, htoks]; simp
      cases hl2 : l with
      | nil =>
        exact ⟨fun h => by simp [split, typeKw, absorb] at h, fun fl2 h => by
          simp only [split, typeKw, List.filterMap_nil, absorb, Option.some.injEq] at h
          subst h
          exact ⟨cn, got, rfl⟩⟩
      | cons k rest =>
        rw [hl2] at hk hlen
        simp only [List.length_cons] at hlen
        cases k with
        | tag ty =>
          have e : split got (.tag ty :: rest) = (.tag ty :: (split true rest).1, (split true rest).2) := by
            simp [split, isSpecifier, isType]
          rw [e] at hk ⊢
          simp only at hk ⊢
          rw [lastName_cons_tag]
          simp only [if_true, pure]
          exact ih rest.length (by omega) fuel ⟨rest, fl, cn, some ty, true⟩ rfl (by omega) hk
        | ident ty =>
          cases got with
          | true =>
            have e : split true (.ident ty :: rest) = ([], .ident ty :: rest) := by simp [split, isSpecifier, isType]
            rw [e] at hk ⊢
            exact ⟨fun h => by simp [typeKw, absorb] at h, fun fl2 h => by
              simp only [typeKw, List.filterMap_nil, absorb, Option.some.injEq] at h
              subst h
              exact ⟨cn, true, rfl⟩⟩
          | false =>
            cases ty with
            | none =>
              have e : split false (.ident none :: rest) = ([], .ident none :: rest) := by simp [split, isSpecifier, isType]
              rw [e] at hk ⊢
              exact ⟨fun h => by simp [typeKw, absorb] at h, fun fl2 h => by
                simp only [typeKw, List.filterMap_nil, absorb, Option.some.injEq] at h
                subst h
                exact ⟨cn, true, rfl⟩⟩
            | some ty =>
              have e : split false (.ident (some ty) :: rest) = (.ident (some ty) :: (split true rest).1, (split true rest).2) := by
                simp [split, isSpecifier, isType]
              rw [e] at hk ⊢
              simp only at hk ⊢
              rw [lastName_cons_ident]
              simp only [if_true, pure, Bool.false_eq_true, if_false]
              exact ih rest.length (by omega) fuel ⟨rest, fl, cn, some ty, true⟩ rfl (by omega) hk
        | kw t =>
          have htn : t ∉ typeKeywords := by
            intro htk
            obtain ⟨fs, hfs⟩ := table_flagsOf t htk
            refine h3 t fs ?_ hfs hp
            rw [h1, hp, List.nil_append]
            rw [hl2] at hl
            cases r with
            | nil =>
              exfalso
              exact keywords_rest toks t rest (by simpa using hl)
            | cons a r =>
              simp only [List.map_cons, List.cons_append, List.cons.injEq, Tk.kw.injEq] at hl
              rw [hl.1]; rfl
          by_cases hto : t ∈ otherKeywords
          · have e : split got (.kw t :: rest) = (.kw t :: (split got rest).1, (split got rest).2) := by
              simp [split, isSpecifier, isType, hto, htn]
            rw [e] at hk ⊢
            simp only at hk ⊢
            rw [if_neg (disjoint_keywords t hto).2, if_pos (by rw [counted_eq]; exact hto)]
            simp only [if_true, pure]
            have e2 : typeKw (.kw t :: (split got rest).1) = typeKw (split got rest).1 := by
              simp [typeKw, htn]
            rw [e2, show lastName data (.kw t :: (split got rest).1) = lastName data (split got rest).1 from lastName_kws data [t] _]
            exact ih rest.length (by omega) fuel ⟨rest, fl, _, data, got⟩ rfl (by omega) hk
          · have e : split got (.kw t :: rest) = ([], .kw t :: rest) := by
              simp [split, isSpecifier, hto, htn]
            rw [e] at hk ⊢
            have hat : t ≠ .T_KATOMIC := fun h => hk (by rw [h]; rfl)
            simp only
            rw [if_neg hat, if_neg (by rw [counted_eq]; exact hto)]
            exact ⟨fun h => by simp [typeKw, absorb] at h, fun fl2 h => by
              simp only [typeKw, List.filterMap_nil, absorb, Option.some.injEq] at h
              subst h
              exact ⟨cn, got, rfl⟩⟩

theorem typeKw_mem (l : List Tk) : ∀ t ∈ typeKw l, t ∈ typeKeywords := by
  intro t ht
  obtain ⟨k, -, hk⟩ := List.mem_filterMap.1 ht
  cases k with
  | kw u => 
    by_cases h : u ∈ typeKeywords
    · simp only [if_pos h, Option.some.injEq] at hk; rwa [← hk]
    · simp [if_neg h] at hk
  | _ => simp at hk

/-- What the compiler makes of any specifiers. -/
theorem typeOf_spec (toks : List Tk) (h : NoAtomic (split false toks).2) :
    (¬ Valid (typeKw (split false toks).1) → typeOf toks = .fail) ∧
    (∀ r ∈ allowed, (typeKw (split false toks).1).Perm r.2 →
      typeOf toks = .ok (.simple (if r.1 = .ldouble then .double else r.1), (split false toks).2)) ∧
    (Valid (typeKw (split false toks).1) → (∀ r ∈ allowed, ¬ (typeKw (split false toks).1).Perm r.2) →
      typeOf toks = match (names (split false toks).1).getLast? with
        | some n => .ok (.data n, (split false toks).2)
        | none => .fail) := by
  have h0 : (fun _ => false : Flags) = flOf [] := by funext f; simp [flOf]
  obtain ⟨h1, h2⟩ := loop_spec toks.length (toks.length + 1) ⟨toks, fun _ => false, 0, none, false⟩ rfl (by omega) h
  simp only [h0] at h1 h2
  generalize hl : (split false toks).1 = l at *
  have hkw := typeKw_mem l
  have hv : ∀ r ∈ allowed, (typeKw l).Perm r.2 → Valid (typeKw l) := fun r hr hp t ht => by
    rw [hp.count_eq]; exact (allowed_valid r hr).1 t ht
  rcases absorb_spec (typeKw l) [] hkw (fun t _ => by simp) with ⟨h3, h4⟩ | ⟨h3, h4⟩ <;> rw [List.append_nil] at h4
  · have : typeOf toks = .fail := by rw [typeOf, parseSpecifiers, h0, h1 h3]; rfl
    exact ⟨fun _ => this, fun r hr hp => absurd (hv r hr hp) h4, fun hv' => absurd hv' h4⟩
  · rw [List.append_nil] at h3
    obtain ⟨c, g, e⟩ := h2 _ h3
    have e2 : typeOf toks = (SpecNames.specifiersToType (flOf (typeKw l)) (names l).getLast?).bind (fun t => .ok (t, (split false toks).2)) := by
      rw [typeOf, parseSpecifiers, h0, e]
      simp [Bind.bind, Res.bind, lastName, pure]
    rw [e2]
    refine ⟨fun h => absurd h4 h, fun r hr hp => ?_, fun _ hno => ?_⟩
    · have := allowed_types r hr
      rw [Specifiers.specifiersToType] at this
      unfold SpecNames.specifiersToType
      rw [flOf_perm hp]
      split at this
      · rename_i row e3
        rw [e3]
        simp only [Res.ok.injEq] at this
        rw [← this]; rfl
      · simp at this
    · unfold SpecNames.specifiersToType
      cases e3 : specTable.find? (fun r => sameFlags (flOf (typeKw l)) (mask r.2)) with
      | none => 
        simp only
        cases (names l).getLast? <;> rfl
      | some row =>
        exfalso
        have hm := List.mem_of_find?_eq_some e3
        have hs := List.find?_some e3
        rw [sameFlags_iff] at hs
        obtain ⟨r, hr, hs2⟩ := table_allowed row hm
        rw [sameFlags_iff] at hs2
        exact hno r hr (perm_of_flOf h4 (allowed_valid r hr).1 hkw (allowed_valid r hr).2 (hs.trans hs2))

theorem allowed_ne_nil : ∀ r ∈ allowed, r.2 ≠ [] := by decide

end Verif.SpecNames
