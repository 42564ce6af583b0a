import Verif.GenericLemmas
/-!
C28: `_Generic` selects the matching association (C17 6.5.1.1).
-/
namespace Verif.Generic
open Verif

variable {T X : Type} [DecidableEq T]

/-! ### Specification -/

/-- 6.5.1.1p2: at most one `default`, and no two associations with compatible types. -/
def Allowed (as : List (Option T × X)) : Prop :=
  as.Pairwise fun a b => a.1 ≠ b.1

/-- 6.5.1.1p2-3: the expression selected for the controlling type `m`. -/
inductive Selects (m : T) (as : List (Option T × X)) : X → Prop
  | typed (x) : (some m, x) ∈ as → Selects m as x
  | default (x) : (none, x) ∈ as → (∀ y, (some m, y) ∉ as) → Selects m as x

theorem filter_le_one {α : Type} (p : α → Bool) : ∀ (l : List α),
    l.Pairwise (fun a b => ¬ (p a = true ∧ p b = true)) → (l.filter p).length ≤ 1
  | [], _ => by simp
  | a :: l, h => by
    rw [List.pairwise_cons] at h
    by_cases ha : p a = true
    · have : l.filter p = [] := by
        rw [List.filter_eq_nil_iff]
        intro b hb hp
        exact h.1 b hb ⟨ha, hp⟩
      simp [ha, this]
    · simpa [List.filter_cons, ha] using filter_le_one p l h.2

/-- C28: for every allowed association list in any order, `x` is the result exactly when
the standard selects it, and the compiler stops exactly when nothing is selected. -/
theorem generic_selection (m : T) (as : List (Option T × X)) (h : Allowed as) :
    (∀ x, select m as = .ok x ↔ Selects m as x) ∧
    (select m as = .fail ↔ ∀ x, ¬ Selects m as x) := by
  have hm : (as.filter (isMatch m)).length ≤ 1 := filter_le_one _ _ (h.imp fun {a b} hab hc => by
    simp [isMatch] at hc; exact hab (by rw [hc.1, hc.2]))
  have hd : (as.filter isDef).length ≤ 1 := filter_le_one _ _ (h.imp fun {a b} hab hc => by
    simp [isDef] at hc; exact hab (by rw [hc.1, hc.2]))
  have hl := loop_once m as {} hm (by simp)
  have memM : ∀ x, (some m, x) ∈ as ↔ (some m, x) ∈ as.filter (isMatch m) := by simp [isMatch]
  have memD : ∀ x, (none, x) ∈ as ↔ (none, x) ∈ as.filter isDef := by simp [isDef]
  have fstM : ∀ a ∈ as.filter (isMatch m), a.1 = some m := by
    intro a ha; simpa [isMatch] using (List.mem_filter.1 ha).2
  have fstD : ∀ a ∈ as.filter isDef, a.1 = none := by
    intro a ha; simpa [isDef] using (List.mem_filter.1 ha).2
  simp only [select, hl, Res.bind_ok]
  generalize as.filter (isMatch m) = fm at *
  generalize as.filter isDef = fd at *
  match fm, fd with
  | a :: [], fd =>
    have ea : a = (some m, a.2) := Prod.ext (fstM a (by simp)) rfl
    have inM : (some m, a.2) ∈ as := (memM _).2 (by rw [← ea]; simp)
    have uniq : ∀ x, Selects m as x ↔ a.2 = x := by
      intro x
      constructor
      · intro hs
        cases hs with
        | typed h => have := (memM x).1 h; rw [ea] at this; simp at this; exact this.symm
        | default _ h => exact absurd inM (h a.2)
      · rintro rfl; exact .typed _ inM
    simp [uniq]
  | [], d :: [] =>
    have ed : d = (none, d.2) := Prod.ext (fstD d (by simp)) rfl
    have inD : (none, d.2) ∈ as := (memD _).2 (by rw [← ed]; simp)
    have noM : ∀ y, (some m, y) ∉ as := fun y hy => by simpa using (memM y).1 hy
    have uniq : ∀ x, Selects m as x ↔ d.2 = x := by
      intro x
      constructor
      · intro hs
        cases hs with
        | typed h => exact absurd h (noM x)
        | default h _ => have := (memD x).1 h; rw [ed] at this; simp at this; exact this.symm
      · rintro rfl; exact .default _ inD noM
    simp [uniq]
  | [], [] =>
    have none : ∀ x, ¬ Selects m as x := by
      intro x hs
      cases hs with
      | typed h => simpa using (memM x).1 h
      | default h _ => simpa using (memD x).1 h
    simp [none]
  | _ :: _ :: _, _ => simp at hm
  | [], _ :: _ :: _ => simp at hd

/-- C28: two matching associations stop the compiler, as long as the list has no `default`.
Full statement: `¬ Allowed as` stops it always. -/
theorem generic_duplicate_partial (m : T) (as : List (Option T × X))
    (hd : ∀ a ∈ as, a.1 ≠ none) (h : 2 ≤ (as.filter fun a => a.1 = some m).length) :
    select m as = .fail := by
  have := loop_twice m as {} rfl (fun a ha => by simp [isDef, hd a ha]) (.inl h)
  simp [select, this]

/-- C28 fails: after a `default` two associations with the controlling type are accepted
(`_Generic(0, default: 1, int: 2, int: 3)` is 3), and so are two defaults. -/
theorem generic_duplicate_violated :
    (∃ as : List (Option Nat × Nat), ¬ Allowed as ∧ select 7 as = .ok 3 ∧
      (some 7, 2) ∈ as ∧ (some 7, 3) ∈ as) ∧
    ∃ as : List (Option Nat × Nat), ¬ Allowed as ∧ select 7 as = .ok 1 ∧ (none, 1) ∈ as ∧ (none, 2) ∈ as :=
  ⟨⟨[(none, 1), (some 7, 2), (some 7, 3)], by simp [Allowed], by decide, by decide, by decide⟩,
   ⟨[(none, 1), (none, 2)], by simp [Allowed], by decide, by decide, by decide⟩⟩

/-- C28: where the `default` stands does not matter, nor does any other reordering. -/
theorem generic_order (m : T) (as bs : List (Option T × X)) (h : Allowed as) (p : as.Perm bs) :
    select m as = select m bs := by
  have hb : Allowed bs := p.pairwise h (fun hab => Ne.symm hab)
  have same : ∀ x, Selects m as x ↔ Selects m bs x := by
    intro x
    constructor
    · intro hs
      cases hs with
      | typed h => exact .typed _ (p.mem_iff.1 h)
      | default h h' => exact .default _ (p.mem_iff.1 h) fun y hy => h' y (p.mem_iff.2 hy)
    · intro hs
      cases hs with
      | typed h => exact .typed _ (p.mem_iff.2 h)
      | default h h' => exact .default _ (p.mem_iff.2 h) fun y hy => h' y (p.mem_iff.1 hy)
  obtain ⟨a1, a2⟩ := generic_selection m as h
  obtain ⟨b1, b2⟩ := generic_selection m bs hb
  cases e : select m as with
  | ok x => exact ((b1 x).2 ((same x).1 ((a1 x).1 e))).symm
  | fail => exact (b2.2 fun x hx => a2.1 e x ((same x).2 hx)).symm
  | ub =>
    by_cases hx : ∃ x, Selects m as x
    · obtain ⟨x, hx⟩ := hx
      rw [(a1 x).2 hx] at e; cases e
    · rw [a2.2 fun x h => hx ⟨x, h⟩] at e; cases e

/-! ### The hypotheses hold for concrete lists -/

example : Allowed [(some 1, 10), (none, 20), (some 2, 30)] ∧
    select 2 [(some 1, 10), (none, 20), (some 2, 30)] = .ok 30 ∧
    select 5 [(some 1, 10), (none, 20), (some 2, 30)] = .ok 20 ∧
    select 5 [(some 1, 10)] = .fail := by
  refine ⟨by simp [Allowed], by decide, by decide, by decide⟩

example : select 7 [(some 7, 1), (some 3, 0), (some 7, 2)] = (.fail : Res Nat) :=
  generic_duplicate_partial 7 _ (by simp) (by decide)

end Verif.Generic
