import Verif.Token
/-!
Model of src/preprocessor/string_set.c: hide sets as arrays of strings.
`a->strings[0 .. size-1]` is a list; pointer walks are recursions over the suffix
not yet visited.
-/
namespace Verif.StringSet
open Verif

/-- libc `strcmp` (sign only): lexicographic on unsigned bytes.  Names contain no
NUL byte. -/
def strcmp : Str → Str → Ordering
  | [], [] => .eq
  | [], _ :: _ => .lt
  | _ :: _, [] => .gt
  | a :: s, b :: t => if a < b then .lt else if b < a then .gt else strcmp s t

/-- src/preprocessor/string_set.c:17-29, the loop while `a_ptr` stays at `a`;
`k` is the loop after `a_ptr++`. -/
def interAux (a : Str) (k : List Str → List Str) : List Str → List Str
  | [] => []
  | b :: bs =>
    match strcmp a b with
    | .eq => a :: k bs
    | .lt => k (b :: bs)
    | .gt => interAux a k bs

/-- src/preprocessor/string_set.c:12-32 `string_set_intersection`. -/
def inter : List Str → List Str → List Str
  | [] => fun _ => []
  | a :: as => interAux a (inter as)

/-- src/preprocessor/string_set.c:39-56, the loop while `a_ptr` stays at `a`;
`as` is the rest of `a` (copied by 55-56 when `b` is exhausted). -/
def unionAux (a : Str) (as : List Str) (k : List Str → List Str) : List Str → List Str
  | [] => a :: as
  | b :: bs =>
    match strcmp a b with
    | .eq => a :: k bs
    | .lt => a :: k (b :: bs)
    | .gt => b :: unionAux a as k bs

/-- src/preprocessor/string_set.c:34-61 `string_set_union`. -/
def union : List Str → List Str → List Str
  | [] => fun bs => bs
  | a :: as => unionAux a as (union as)

/-- src/preprocessor/string_set.c:76-98 `string_set_insert`: the loop of 83-86 stops
at the first element not greater than `s`; equal: nothing is done (88); otherwise the
rest is shifted up and `s` put at that place (91-97), i.e. at the end when the loop
ran off the array. -/
def insert : List Str → Str → List Str
  | [], s => [s]
  | x :: xs, s =>
    match strcmp x s with
    | .eq => x :: xs
    | .lt => s :: x :: xs
    | .gt => x :: insert xs s

/-- src/preprocessor/string_set.c:100-107 `string_set_contains`. -/
def contains : List Str → Str → Bool
  | [], _ => false
  | x :: xs, s => if s = x then true else contains xs s

/-! ### lemmas -/

theorem strcmp_self (a : Str) : strcmp a a = .eq := by
  induction a with
  | nil => rfl
  | cons x xs ih => simp [strcmp, BitVec.lt_irrefl, ih]

theorem strcmp_eq {a b : Str} : strcmp a b = .eq ↔ a = b := by
  constructor
  · intro h
    fun_induction strcmp a b with
    | case1 => rfl
    | case2 => cases h
    | case3 => cases h
    | case4 => cases h
    | case5 => cases h
    | case6 a s b t h1 h2 ih =>
      have : a = b := by
        apply BitVec.eq_of_toNat_eq
        rw [BitVec.lt_def] at h1 h2
        omega
      rw [this, ih h]
  · rintro rfl; exact strcmp_self a

theorem strcmp_swap (a b : Str) : strcmp b a = (strcmp a b).swap := by
  fun_induction strcmp a b with
  | case1 => rfl
  | case2 => rfl
  | case3 => rfl
  | case4 a s b t h =>
    have : ¬ b < a := by rw [BitVec.lt_def] at *; omega
    simp [strcmp, h, this]
  | case5 a s b t h1 h2 => simp [strcmp, h2]
  | case6 a s b t h1 h2 ih => simp [strcmp, h1, h2, ih]

theorem strcmp_trans {a b c : Str} (h1 : strcmp a b = .lt) (h2 : strcmp b c = .lt) :
    strcmp a c = .lt := by
  fun_induction strcmp a b generalizing c with
  | case1 => cases h1
  | case2 => cases c <;> simp [strcmp] at *
  | case3 => cases h1
  | case4 a s b t h =>
    cases c with
    | nil => simp [strcmp] at h2
    | cons d u =>
      simp only [strcmp] at *
      have : a < d := by
        split at h2
        · rw [BitVec.lt_def] at *; omega
        · split at h2
          · cases h2
          · rw [BitVec.lt_def] at *; omega
      simp [this]
  | case5 => cases h1
  | case6 a s b t h1' h2' ih =>
    have : a = b := by
      apply BitVec.eq_of_toNat_eq
      rw [BitVec.lt_def] at h1' h2'
      omega
    subst this
    cases c with
    | nil => simp [strcmp] at h2
    | cons d u =>
      simp only [strcmp] at *
      split
      · rfl
      · split at h2
        · contradiction
        · split
          · split at h2
            · cases h2
            · contradiction
          · split at h2
            · cases h2
            · exact ih h1 h2

/-- Induction over the two-pointer walk. -/
theorem walk_induct (P : List Str → List Str → Prop)
    (h0 : ∀ bs, P [] bs) (h1 : ∀ a as, P (a :: as) [])
    (heq : ∀ a as bs, P as bs → P (a :: as) (a :: bs))
    (hlt : ∀ a as b bs, strcmp a b = .lt → P as (b :: bs) → P (a :: as) (b :: bs))
    (hgt : ∀ a as b bs, strcmp a b = .gt → P (a :: as) bs → P (a :: as) (b :: bs)) :
    ∀ a b, P a b := by
  intro a
  induction a with
  | nil => exact h0
  | cons a as iha =>
    intro b
    induction b with
    | nil => exact h1 a as
    | cons b bs ihb =>
      cases h : strcmp a b with
      | eq => rw [strcmp_eq] at h; subst h; exact heq _ _ _ (iha bs)
      | lt => exact hlt _ _ _ _ h (iha _)
      | gt => exact hgt _ _ _ _ h ihb

theorem inter_nil_left (b) : inter [] b = [] := rfl
theorem inter_nil_right (a as) : inter (a :: as) [] = [] := rfl
theorem inter_eq (a as bs) : inter (a :: as) (a :: bs) = a :: inter as bs := by
  simp [inter, interAux, strcmp_self]
theorem inter_lt {a as b bs} (h : strcmp a b = .lt) :
    inter (a :: as) (b :: bs) = inter as (b :: bs) := by
  simp [inter, interAux, h]
theorem inter_gt {a as b bs} (h : strcmp a b = .gt) :
    inter (a :: as) (b :: bs) = inter (a :: as) bs := by
  simp [inter, interAux, h]
theorem union_nil_left (b) : union [] b = b := rfl
theorem union_nil_right (a as) : union (a :: as) [] = a :: as := rfl
theorem union_eq (a as bs) : union (a :: as) (a :: bs) = a :: union as bs := by
  simp [union, unionAux, strcmp_self]
theorem union_lt {a as b bs} (h : strcmp a b = .lt) :
    union (a :: as) (b :: bs) = a :: union as (b :: bs) := by
  simp [union, unionAux, h]
theorem union_gt {a as b bs} (h : strcmp a b = .gt) :
    union (a :: as) (b :: bs) = b :: union (a :: as) bs := by
  simp [union, unionAux, h]

theorem contains_iff (l : List Str) (s : Str) : contains l s = true ↔ s ∈ l := by
  induction l with
  | nil => simp [contains]
  | cons x xs ih => by_cases h : s = x <;> simp [contains, h, ih]

theorem contains_eq (l : List Str) (s : Str) : contains l s = decide (s ∈ l) := by
  rw [Bool.eq_iff_iff, contains_iff, decide_eq_true_iff]

end Verif.StringSet
