import Verif.ClassifySpec
/-!
Lemmas about classification: the recursion merges the classes of the scalars it does not skip.
-/
namespace Verif.Classify
open Verif ClassifySpec

theorem size_nonneg (t : Ty) (h : Valid t) (hf : t ≠ .flex) : 0 ≤ size t := by
  match t with
  | .scalar c n => simp [size]
  | .struct n fs => simp [size]
  | .array e n =>
    unfold Valid at h
    have := size_nonneg e h.1 h.2
    simp only [size]
    exact Int.mul_nonneg (by omega) this
  | .flex => exact absurd rfl hf
  | .other => simp [size]

theorem size_bytes {t : Ty} (h : Valid t) (hf : t ≠ .flex) : size t = bytes t := by
  have := size_nonneg t h hf
  unfold bytes
  omega

mutual
theorem leaf_bounds (t : Ty) (h : Valid t) : ∀ l ∈ leaves t, l.off + l.size ≤ bytes t ∧ 0 < l.size := by
  match t with
  | .scalar c n =>
    unfold Valid at h
    unfold leaves
    intro l hl
    simp only [List.mem_singleton] at hl
    subst hl
    exact ⟨by simp [bytes, size], h.2⟩
  | .struct n fs =>
    unfold Valid at h
    unfold leaves
    intro l hl
    have := field_bounds n fs h l hl
    simpa [bytes, size] using this
  | .array e n =>
    unfold Valid at h
    unfold leaves
    intro l hl
    obtain ⟨i, hi, hl⟩ := List.mem_flatMap.1 hl
    obtain ⟨l', hl', rfl⟩ := List.mem_map.1 hl
    have hb := leaf_bounds e h.1 l' hl'
    refine ⟨?_, hb.2⟩
    have hs := size_bytes h.1 h.2
    have : bytes (.array e n) = n * bytes e := by
      have e1 : size (.array e n) = ((n * bytes e : Nat) : Int) := by simp [size, hs]
      rw [bytes, e1]; rfl
    rw [this]
    have hi' := List.mem_range.1 hi
    have h1 : bytes e * (i + 1) ≤ bytes e * n := Nat.mul_le_mul_left _ (by omega)
    rw [Nat.mul_add, Nat.mul_one] at h1
    rw [Nat.mul_comm n]
    simp only
    omega
  | .flex => intro l hl; simp [leaves] at hl
  | .other => intro l hl; simp [leaves] at hl
theorem field_bounds (n : Nat) (fs : Fields) (h : ValidFields n fs) :
    ∀ l ∈ fieldLeaves fs, l.off + l.size ≤ n ∧ 0 < l.size := by
  match fs with
  | .nil => intro l hl; simp [fieldLeaves] at hl
  | .cons off t rest =>
    unfold ValidFields at h
    unfold fieldLeaves
    intro l hl
    rcases List.mem_append.1 hl with hl | hl
    · obtain ⟨l', hl', rfl⟩ := List.mem_map.1 hl
      have := leaf_bounds t h.1 l' hl'
      simp only
      omega
    · exact field_bounds n rest h.2.2 l hl
end

theorem skip_iff (o n lo hi : Int) : skip o n lo hi = true ↔ o + n < lo ∨ o ≥ hi := by
  unfold skip; exact decide_eq_true_iff

/-- Classes of the scalars that are not skipped. -/
def sel (ls : List Leaf) (lower upper : Int) : List Class :=
  (ls.filter fun l => !skip l.off l.size lower upper).map (·.cls)

theorem sel_append (a b : List Leaf) (lo hi : Int) : sel (a ++ b) lo hi = sel a lo hi ++ sel b lo hi := by
  simp [sel]

theorem sel_shift (ls : List Leaf) (off : Nat) (lo hi : Int) :
    sel (ls.map fun l => { l with off := off + l.off }) lo hi = sel ls (lo - off) (hi - off) := by
  induction ls with
  | nil => rfl
  | cons l ls ih =>
    have e : skip ((off + l.off : Nat) : Int) l.size lo hi = skip l.off l.size (lo - off) (hi - off) := by
      simp only [skip, decide_eq_decide]; omega
    simp only [sel, List.map_cons, List.filter_cons] at ih ⊢
    rw [e]
    split <;> simp [ih]

theorem sel_skipped (ls : List Leaf) (n : Nat) (lo hi : Int) (h : ∀ l ∈ ls, l.off + l.size ≤ n)
    (hs : (n : Int) < lo ∨ 0 ≥ hi) : sel ls lo hi = [] := by
  rw [sel, List.map_eq_nil_iff, List.filter_eq_nil_iff]
  intro l hl
  have := h l hl
  simp only [skip, Bool.not_eq_true', Bool.not_eq_false, decide_eq_true_eq]
  omega

theorem foldlM_ok {α : Type} (l : List α) (f : Class → α → Res Class) (g : α → List Class)
    (h : ∀ cur, ∀ i ∈ l, f cur i = .ok ((g i).foldl combine cur)) (cur : Class) :
    l.foldlM f cur = .ok ((l.flatMap g).foldl combine cur) := by
  induction l generalizing cur with
  | nil => rfl
  | cons i l ih =>
    rw [List.foldlM_cons, h cur i (by simp)]
    show l.foldlM f _ = _
    rw [ih (fun cur j hj => h cur j (by simp [hj]))]
    simp [List.flatMap_cons, List.foldl_append]

theorem sel_flatMap {α : Type} (l : List α) (g : α → List Leaf) (lo hi : Int) :
    sel (l.flatMap g) lo hi = l.flatMap fun i => sel (g i) lo hi := by
  induction l with
  | nil => rfl
  | cons i l ih => simp only [List.flatMap_cons, sel_append, ih]

theorem sel_scalar (c : Class) (n : Nat) (lo hi : Int) (h : skip 0 n lo hi = false) :
    sel (leaves (.scalar c n)) lo hi = [c] := by
  simp [leaves, sel, h]

mutual
/-- What `classify_recursively` computes. -/
theorem rec_eq (t : Ty) (h : Valid t) (hs : ∀ c n, t ≠ .scalar c n) (cur : Class) (lo hi : Int) :
    rec cur t lo hi = .ok ((sel (leaves t) lo hi).foldl combine cur) := by
  match t with
  | .scalar c n => exact absurd rfl (hs c n)
  | .struct n fs =>
    unfold Valid at h
    unfold rec leaves
    exact recFields_eq n fs h cur lo hi
  | .array e n =>
    unfold Valid at h
    unfold rec leaves
    rw [sel_flatMap]
    refine foldlM_ok _ _ _ (fun cur i hi' => ?_) cur
    have hse := size_bytes h.1 h.2
    have e1 : size e * (i : Int) = ((bytes e * i : Nat) : Int) := by rw [hse]; simp
    simp only [e1]
    rw [sel_shift]
    by_cases hk : skip ((bytes e * i : Nat) : Int) (size e) lo hi = true
    · rw [if_pos hk, sel_skipped (leaves e) (bytes e)]
      · rfl
      · intro l hl; exact (leaf_bounds e h.1 l hl).1
      · rw [hse] at hk
        simp only [skip, decide_eq_true_eq] at hk
        omega
    · rw [if_neg hk]
      match e with
      | .scalar c m =>
        have : skip 0 m (lo - ((bytes (.scalar c m) * i : Nat) : Int)) (hi - ((bytes (.scalar c m) * i : Nat) : Int)) = false := by
          rw [skip_iff, show size (.scalar c m) = (m : Int) from rfl] at hk
          rw [← Bool.not_eq_true, skip_iff]
          omega
        rw [sel_scalar _ _ _ _ this]
        rfl
      | .struct m fs => exact rec_eq (.struct m fs) h.1 (by simp) _ _ _
      | .array e' m => exact rec_eq (.array e' m) h.1 (by simp) _ _ _
      | .flex => exact absurd rfl h.2
      | .other => simp [Valid] at h
  | .flex => simp [rec, leaves, sel]
  | .other => simp [Valid] at h
theorem recFields_eq (n : Nat) (fs : Fields) (h : ValidFields n fs) (cur : Class) (lo hi : Int) :
    recFields cur fs lo hi = .ok ((sel (fieldLeaves fs) lo hi).foldl combine cur) := by
  match fs with
  | .nil => simp [recFields, fieldLeaves, sel]
  | .cons off t rest =>
    unfold ValidFields at h
    unfold recFields fieldLeaves
    rw [sel_append, sel_shift, List.foldl_append]
    by_cases hk : skip off (size t) lo hi = true
    · rw [if_pos hk, recFields_eq n rest h.2.2]
      congr 2
      have : sel (leaves t) (lo - off) (hi - off) = [] := by
        by_cases hf : t = .flex
        · subst hf; simp [leaves, sel]
        · refine sel_skipped _ (bytes t) _ _ (fun l hl => (leaf_bounds t h.1 l hl).1) ?_
          rw [size_bytes h.1 hf] at hk
          simp only [skip, decide_eq_true_eq] at hk
          omega
      rw [this]
      rfl
    · rw [if_neg hk]
      match t with
      | .scalar c m =>
        have : skip 0 m (lo - (off : Int)) (hi - (off : Int)) = false := by
          rw [skip_iff, show size (.scalar c m) = (m : Int) from rfl] at hk
          rw [← Bool.not_eq_true, skip_iff]
          omega
        rw [sel_scalar _ _ _ _ this]
        simp only [List.foldl_cons, List.foldl_nil]
        exact recFields_eq n rest h.2.2 _ _ _
      | .struct m fs' =>
        simp only
        rw [rec_eq (.struct m fs') h.1 (by simp)]
        exact recFields_eq n rest h.2.2 _ _ _
      | .array e' m =>
        simp only
        rw [rec_eq (.array e' m) h.1 (by simp)]
        exact recFields_eq n rest h.2.2 _ _ _
      | .flex =>
        simp only
        rw [rec_eq .flex h.1 (by simp)]
        exact recFields_eq n rest h.2.2 _ _ _
      | .other => simp [Valid] at h
end

theorem combine_eq (a b : Class) : combine a b = merge a b := by cases a <;> cases b <;> rfl

end Verif.Classify
