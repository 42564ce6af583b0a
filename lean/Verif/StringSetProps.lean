import Verif.StringSet
/-!
# C13 – hide-set operations as set operations

The specification is plain set membership of names.
-/
namespace Verif.StringSet
open Verif

/-- Hide sets reachable by macro expansion: built from the empty set by the
operations of string_set.c (the only ones macro_expander.c uses: 158, 392, 395, 476). -/
inductive Reach : List Str → Prop
  | empty : Reach []
  | insert {l} (s) : Reach l → Reach (insert l s)
  | union {a b} : Reach a → Reach b → Reach (union a b)
  | inter {a b} : Reach a → Reach b → Reach (inter a b)

/-- Membership test is exact. -/
theorem contains_spec (l : List Str) (s : Str) : contains l s = true ↔ s ∈ l :=
  contains_iff l s

/-- Insertion adds exactly one name, for every array whatever its order. -/
theorem mem_insert (l : List Str) (s x : Str) : x ∈ insert l s ↔ x = s ∨ x ∈ l := by
  induction l with
  | nil => simp [insert]
  | cons y ys ih =>
    unfold insert
    split
    · next h => rw [strcmp_eq] at h; subst h; simp
    · simp
    · simp only [List.mem_cons, ih]; grind

example : insert [str "b", str "a"] (str "c") = [str "c", str "b", str "a"] := by decide +kernel

/-- Union is exact on names, for every pair of arrays whatever their order. -/
theorem mem_union (a b : List Str) (x : Str) : x ∈ union a b ↔ x ∈ a ∨ x ∈ b := by
  induction a, b using walk_induct with
  | h0 bs => simp [union_nil_left]
  | h1 a as => simp [union_nil_right]
  | heq a as bs ih => simp [union_eq, ih]; grind
  | hlt a as b bs h ih => simp [union_lt h, ih]; grind
  | hgt a as b bs h ih => simp [union_gt h, ih]; grind

example : union [str "b", str "a"] [str "a"] = [str "a", str "b", str "a"] := by decide +kernel

/-- Intersection never invents a name. -/
theorem inter_sound (a b : List Str) (x : Str) (h : x ∈ inter a b) : x ∈ a ∧ x ∈ b := by
  induction a, b using walk_induct with
  | h0 bs => simp [inter_nil_left] at h
  | h1 a as => simp [inter_nil_right] at h
  | heq a as bs ih => simp [inter_eq] at h; grind
  | hlt a as b bs h' ih => rw [inter_lt h'] at h; have := ih h; simp_all
  | hgt a as b bs h' ih => rw [inter_gt h'] at h; have := ih h; simp_all

/-- The property in full for intersection: exact on all reachable hide sets. -/
def InterExact : Prop :=
  ∀ a b : List Str, Reach a → Reach b → ∀ x, x ∈ inter a b ↔ x ∈ a ∧ x ∈ b

/-- C13 is violated: `{a,b} ∩ {a}` is computed as `∅`.  `string_set_insert` keeps the
array in descending order (src/preprocessor/string_set.c:84 breaks at the first element
`<= 0`), `string_set_intersection` walks it as if ascending. -/
theorem inter_exact_violated : ¬ InterExact := by
  intro h
  have h1 := h (insert (insert [] (str "a")) (str "b")) (insert [] (str "a"))
    (.insert _ (.insert _ .empty)) (.insert _ .empty) (str "a")
  revert h1
  decide +kernel

/-- Strictly ascending order, the order the merge loops need. -/
def Asc : List Str → Prop := List.Pairwise (fun a b => strcmp a b = .lt)
/-- Strictly descending order. -/
def Desc : List Str → Prop := List.Pairwise (fun a b => strcmp b a = .lt)

/-- Why: whatever is inserted, an array built by insertion alone is strictly
descending. -/
theorem insert_desc (l : List Str) (s : Str) (h : Desc l) : Desc (insert l s) := by
  induction l with
  | nil => simp [insert, Desc]
  | cons x xs ih =>
    simp only [Desc, List.pairwise_cons] at h
    unfold insert
    split
    · exact List.pairwise_cons.mpr h
    · next hlt =>
      refine List.pairwise_cons.mpr ⟨?_, List.pairwise_cons.mpr h⟩
      intro y hy
      rcases List.mem_cons.mp hy with rfl | hy
      · exact hlt
      · exact strcmp_trans (h.1 y hy) hlt
    · next hgt =>
      refine List.pairwise_cons.mpr ⟨?_, ih h.2⟩
      intro y hy
      rcases (mem_insert xs s y).mp hy with rfl | hy
      · rw [strcmp_swap, hgt]; rfl
      · exact h.1 y hy

/-- C13 for intersection, `_partial`: exact on strictly ascending arrays (in particular
on hide sets with at most one name).  Missing: hide sets with two or more names, which
insertion stores in descending order. -/
theorem inter_exact_partial (a b : List Str) (ha : Asc a) (hb : Asc b) (x : Str) :
    x ∈ inter a b ↔ x ∈ a ∧ x ∈ b := by
  refine ⟨inter_sound a b x, ?_⟩
  induction a, b using walk_induct with
  | heq a as bs ih =>
    rw [inter_eq]
    have h1 := List.pairwise_cons.mp ha
    have h2 := List.pairwise_cons.mp hb
    rintro ⟨m1, m2⟩
    rcases List.mem_cons.mp m1 with rfl | m1
    · simp
    · rcases List.mem_cons.mp m2 with rfl | m2
      · simp
      · exact List.mem_cons_of_mem _ (ih h1.2 h2.2 ⟨m1, m2⟩)
  | hlt a as b bs h ih =>
    rw [inter_lt h]
    have h1 := List.pairwise_cons.mp ha
    have h2 := List.pairwise_cons.mp hb
    rintro ⟨m1, m2⟩
    rcases List.mem_cons.mp m1 with rfl | m1
    · exfalso
      rcases List.mem_cons.mp m2 with rfl | m2
      · simp [strcmp_self] at h
      · have h3 := strcmp_trans h (h2.1 x m2)
        simp [strcmp_self] at h3
    · exact ih h1.2 hb ⟨m1, m2⟩
  | hgt a as b bs h ih =>
    rw [inter_gt h]
    have h1 := List.pairwise_cons.mp ha
    have h2 := List.pairwise_cons.mp hb
    have h' : strcmp b a = .lt := by rw [strcmp_swap, h]; rfl
    rintro ⟨m1, m2⟩
    rcases List.mem_cons.mp m2 with rfl | m2
    · exfalso
      rcases List.mem_cons.mp m1 with rfl | m1
      · simp [strcmp_self] at h
      · have h3 := strcmp_trans h' (h1.1 x m1)
        simp [strcmp_self] at h3
    · exact ih ha h2.2 ⟨m1, m2⟩
  | h0 bs => simp
  | h1 a as => simp

example : Asc [str "FOO", str "f"] ∧ Asc [str "FOO"] ∧
    inter [str "FOO", str "f"] [str "FOO"] = [str "FOO"] := by
  exact ⟨by unfold Asc; decide +kernel, by unfold Asc; decide +kernel, by decide +kernel⟩

/-- Intersecting a hide set with itself (a call whose macro name and closing
parenthesis come from the same replacement list) loses nothing, in any order. -/
theorem inter_self (a : List Str) : inter a a = a := by
  induction a with
  | nil => simp [inter]
  | cons x xs ih => simp [inter_eq, ih]

example : inter [str "b", str "a"] [str "b", str "a"] = [str "b", str "a"] := by decide +kernel

end Verif.StringSet
