import Verif.FrameSpec
/-!
Lemmas about frame layout.
-/
namespace Verif.Frame
open Verif Asm Codegen FrameSpec

/-- The ranges lie in depth between `c` and `c'` and do not overlap. -/
structure Stacked (c c' : Nat) (rs : List Range) : Prop where
  le : c ≤ c'
  within : ∀ r ∈ rs, c + r.size ≤ r.loc ∧ r.loc ≤ c'
  disjoint : rs.Pairwise Disjoint

theorem Stacked.nil (c : Nat) : Stacked c c [] := ⟨Nat.le_refl _, by simp, .nil⟩

theorem Stacked.append {a b c : Nat} {l m : List Range} (h : Stacked a b l) (h' : Stacked b c m) :
    Stacked a c (l ++ m) := by
  refine ⟨Nat.le_trans h.le h'.le, ?_, ?_⟩
  · intro r hr
    have := h.le; have := h'.le
    rcases List.mem_append.1 hr with hr | hr
    · have := h.within r hr; omega
    · have := h'.within r hr; omega
  · refine List.pairwise_append.2 ⟨h.disjoint, h'.disjoint, ?_⟩
    intro r hr r' hr'
    have := h.within r hr; have := h'.within r' hr'
    left; omega

theorem Stacked.single {a b : Nat} {r : Range} (h : a + r.size ≤ r.loc) (h' : r.loc ≤ b) : Stacked a b [r] :=
  ⟨by omega, by simp; omega, by simp⟩

theorem Stacked.mono {a b c : Nat} {l : List Range} (h : Stacked a b l) (hc : b ≤ c) : Stacked a c l :=
  ⟨Nat.le_trans h.le hc, fun r hr => by have := h.within r hr; omega, h.disjoint⟩

theorem Stacked.cons {a b c : Nat} {r : Range} {l : List Range} (h : a + r.size ≤ r.loc) (h' : r.loc ≤ b)
    (hl : Stacked b c l) : Stacked a c (r :: l) := (Stacked.single h h').append hl

theorem roundUp_ge (c a : Nat) : c ≤ roundUp c a := by
  unfold roundUp; split
  · exact Nat.le_refl _
  · split <;> omega

theorem roundUp_dvd (c a : Nat) (h : a ≠ 0) : a ∣ roundUp c a := by
  unfold roundUp
  rw [if_neg h]
  split
  · have h2 := Nat.mod_lt c (Nat.pos_of_ne_zero h)
    have h3 := Nat.div_add_mod c a
    exact ⟨c / a + 1, by rw [Nat.mul_add, Nat.mul_one]; omega⟩
  · exact Nat.dvd_of_mod_eq_zero (by omega)

theorem values_length (c : Nat) (ns : List Node) : (values c ns).2.length = ns.length := by
  induction ns generalizing c with
  | nil => rfl
  | cons n ns ih => rw [values]; split <;> simp [ih]

theorem values_stacked (c : Nat) (ns : List Node) :
    Stacked c (values c ns).1
      ((ns.zip (values c ns).2).filterMap fun p => if p.1.size = 0 then none else some ⟨p.2, p.1.size⟩) := by
  induction ns generalizing c with
  | nil => exact Stacked.nil c
  | cons n ns ih =>
    rw [values]
    split
    · rename_i h
      simp only [List.zip_cons_cons, List.filterMap_cons, h, if_true]
      exact ih c
    · rename_i h
      simp only [List.zip_cons_cons, List.filterMap_cons, h, if_false]
      exact Stacked.cons (Nat.le_refl _) (Nat.le_refl _) (ih _)

theorem vla_stacked (c n : Nat) :
    Stacked c (c + n * 8) ((List.range n).map fun i => (⟨c + n * 8 - 8 * i, 8⟩ : Range)) := by
  refine ⟨by omega, ?_, ?_⟩
  · intro r hr
    simp only [List.mem_map, List.mem_range] at hr
    obtain ⟨i, hi, rfl⟩ := hr
    simp only
    omega
  · rw [List.pairwise_map]
    refine List.Pairwise.imp_of_mem ?_ (List.pairwise_lt_range (n := n))
    intro i j hi hj hij
    simp only [List.mem_range] at hi hj
    right
    simp only
    omega

theorem allocs_length (c al : Nat) (ns : List Node) : (allocs c al ns).2.2.length = ns.length := by
  induction ns generalizing c al with
  | nil => rfl
  | cons n ns ih => rw [allocs]; split <;> simp [ih]

theorem allocs_stacked (c al : Nat) (ns : List Node) :
    Stacked c (allocs c al ns).1
      ((ns.zip (allocs c al ns).2.2).filterMap fun p =>
        match p.1.kind with
        | .alloc size _ => some ⟨p.2, size⟩
        | _ => none) := by
  induction ns generalizing c al with
  | nil => exact Stacked.nil c
  | cons n ns ih =>
    rw [allocs]
    cases hk : n.kind with
    | alloc size a =>
      simp only [List.zip_cons_cons, List.filterMap_cons, hk]
      exact Stacked.cons (roundUp_ge _ _) (Nat.le_refl _) (ih _ _)
    | plain => simp only [List.zip_cons_cons, List.filterMap_cons, hk]; exact ih _ _
    | vla => simp only [List.zip_cons_cons, List.filterMap_cons, hk]; exact ih _ _

theorem allocs_aligned (c al : Nat) (ns : List Node) :
    ∀ p ∈ ns.zip (allocs c al ns).2.2, ∀ size a, p.1.kind = .alloc size a → a ∣ p.2 ∨ a = 0 := by
  induction ns generalizing c al with
  | nil => simp
  | cons n ns ih =>
    rw [allocs]
    intro p hp size a hk
    split at hp
    · rename_i size' a' hk'
      simp only [List.zip_cons_cons] at hp
      rcases List.mem_cons.1 hp with rfl | hp
      · simp only at hk
        rw [hk'] at hk
        cases hk
        by_cases h : a = 0
        · exact .inr h
        · exact .inl (roundUp_dvd _ _ h)
      · exact ih _ _ p hp size a hk
    · rename_i hk'
      simp only [List.zip_cons_cons] at hp
      rcases List.mem_cons.1 hp with rfl | hp
      · exact absurd hk (hk' size a)
      · exact ih _ _ p hp size a hk

theorem allocs_align (c al : Nat) (ns : List Node) :
    al ≤ (allocs c al ns).2.1 ∧ (∀ n ∈ ns, ∀ size a, n.kind = .alloc size a → a ≤ (allocs c al ns).2.1) ∧
      ((allocs c al ns).2.1 = al ∨ ∃ n ∈ ns, ∃ size, n.kind = .alloc size (allocs c al ns).2.1) := by
  induction ns generalizing c al with
  | nil => simp [allocs]
  | cons n ns ih =>
    rw [allocs]
    split
    · rename_i size a hk
      obtain ⟨h1, h2, h3⟩ := ih (roundUp (c + size) a) (max al a)
      refine ⟨by simp only; omega, ?_, ?_⟩
      · intro m hm size' a' hk'
        rcases List.mem_cons.1 hm with rfl | hm
        · rw [hk] at hk'; cases hk'; simp only; omega
        · exact h2 m hm size' a' hk'
      · simp only
        rcases h3 with h3 | ⟨m, hm, size', h3⟩
        · rw [h3]
          by_cases hle : al ≤ a
          · right; exact ⟨n, by simp, size, by rw [hk, Nat.max_eq_right hle]⟩
          · left; omega
        · right; exact ⟨m, by simp [hm], size', h3⟩
    · rename_i hk
      obtain ⟨h1, h2, h3⟩ := ih c al
      refine ⟨h1, ?_, ?_⟩
      · intro m hm size' a' hk'
        rcases List.mem_cons.1 hm with rfl | hm
        · exact absurd hk' (hk size' a')
        · exact h2 m hm size' a' hk'
      · rcases h3 with h3 | ⟨m, hm, size', h3⟩
        · exact .inl h3
        · right; exact ⟨m, by simp [hm], size', h3⟩

end Verif.Frame
