import Verif.Generic
/-!
Helper lemmas: what the loop of `_Generic` keeps.
-/
namespace Verif.Generic
open Verif

variable {T X : Type} [DecidableEq T]

/-- Does the association name the type `m`? -/
abbrev isMatch (m : T) (a : Option T × X) : Bool := a.1 = some m

/-- Is it the default? -/
abbrev isDef (a : Option T × X) : Bool := a.1 = none

/-- The loop from any state, when at most one association can match. -/
theorem loop_once (m : T) : ∀ (as : List (Option T × X)) (s : St X),
    ((as.filter (isMatch m)).length ≤ 1) →
    ((as.filter (isMatch m)) ≠ [] → s.res.isSome → s.isDefault = true) →
    loop m s as = .ok
      { res := match (as.filter (isMatch m)) with
          | a :: _ => some a.2
          | [] => match s.res with
            | some x => some x
            | none => (as.filter isDef).head?.map (·.2)
        isDefault := s.isDefault || (as.any isDef) }
  | [], s, _, _ => by cases h : s.res <;> simp [loop, ← h]
  | (none, x) :: as, s, h1, h2 => by
    have e : (((none, x) :: as).filter (isMatch m)) = as.filter (isMatch m) := by simp [isMatch]
    rw [e] at h1 h2 ⊢
    cases hs : s.res with
    | none =>
      have := loop_once m as { s with isDefault := true, res := some x } h1 (fun _ _ => rfl)
      simp only [loop, step, hs, Res.bind_ok, this]
      cases hm : as.filter (isMatch m) <;> simp [isDef]
    | some y =>
      have := loop_once m as { res := some y, isDefault := true } h1 (fun _ _ => rfl)
      simp only [loop, step, hs, Res.bind_ok, this]
      cases hm : as.filter (isMatch m) <;> simp [isDef]
  | (some t, x) :: as, s, h1, h2 => by
    by_cases ht : t = m
    · subst ht
      have e : (((some t, x) :: as).filter (isMatch t)) = (some t, x) :: as.filter (isMatch t) := by simp [isMatch]
      rw [e] at h1 h2 ⊢
      have hm : as.filter (isMatch t) = [] := by
        simp only [List.length_cons] at h1
        exact List.eq_nil_of_length_eq_zero (by omega)
      have hn : ¬ (s.res.isSome ∧ s.isDefault = false) := by
        rintro ⟨a, b⟩
        simp [h2 (by simp) a] at b
      have := loop_once t as { s with res := some x } (by simp [hm]) (by simp [hm])
      simp only [loop, step, if_true, hn, if_false, Res.bind_ok, this, hm]
      simp [isDef]
    · have e : (((some t, x) :: as).filter (isMatch m)) = as.filter (isMatch m) := by simp [isMatch, ht]
      rw [e] at h1 h2 ⊢
      have := loop_once m as s h1 h2
      simp only [loop, step, ht, if_false, Res.bind_ok, this]
      simp [isDef]

/-- A second match without a default before it stops the compiler. -/
theorem loop_twice (m : T) : ∀ (as : List (Option T × X)) (s : St X),
    s.isDefault = false → (∀ a ∈ as, isDef a = false) →
    (2 ≤ (as.filter (isMatch m)).length ∨ (s.res.isSome ∧ 1 ≤ (as.filter (isMatch m)).length)) →
    loop m s as = .fail
  | [], s, _, _, h => by simp at h
  | (none, x) :: as, s, _, hd, _ => by simpa [isDef] using hd (none, x) (by simp)
  | (some t, x) :: as, s, h0, hd, h => by
    have hd' : ∀ a ∈ as, isDef a = false := fun a ha => hd a (by simp [ha])
    by_cases ht : t = m
    · subst ht
      by_cases hs : s.res.isSome
      · simp [loop, step, hs, h0]
      · have e : (((some t, x) :: as).filter (isMatch t)) = (some t, x) :: as.filter (isMatch t) := by simp [isMatch]
        rw [e] at h
        have h : 1 ≤ (as.filter (isMatch t)).length := by simp [hs] at h; exact h
        have := loop_twice t as { s with res := some x } h0 hd' (.inr ⟨rfl, h⟩)
        simp [loop, step, hs, this]
    · have e : (((some t, x) :: as).filter (isMatch m)) = as.filter (isMatch m) := by simp [isMatch, ht]
      rw [e] at h
      simp [loop, step, ht, loop_twice m as s h0 hd' h]

end Verif.Generic
