import Verif.ConstExprSim
/-!
# C100: Constant expressions have the type and value C says

Written with the relations of `ConstExprSpec.lean`.
-/
namespace Verif.ConstExpr
open Verif Simple SimpleSpec ConstExprSpec

/-- Full statement of **C100**: every expression that has a type and an integer value by C17 6.5 and
6.6 is folded to the constant of this type and value. -/
def ConstantExpressions (abi : Abi) : Prop :=
  ∀ (names : Str → Option Const) (N : Names), Agree names N → Declared abi N →
  ∀ (e : E) (t : ST) (v : Int), HasType abi N e t → HasValue abi N e (.int v) →
    ∃ c, build abi names e = .ok (.const c) ∧ c.ty = t ∧ val c = v

/-- **C100 (partial)**: for every expression built from integer constants, character constants,
`sizeof`, enumeration constants, casts to integer types, and all unary, binary, logical and
conditional operators, of any size, on LP64: if C gives it a type and a value, the compiler folds it
to the constant of exactly this type and value.  Missing (`Plain`): operands that are not evaluated
must have a value, casts to `_Bool` be of 0 or 1, and doubles used as conditions be zero exactly if
their lower halves are; all three are violated below.  On LLP64 C18 is violated. -/
theorem constant_expressions_partial (names : Str → Option Const) (N : Names) (ha : Agree names N)
    (hd : Declared .sysv N) (e : E) (t : ST) (v : Int) (ht : HasType .sysv N e t)
    (hv : HasValue .sysv N e (.int v)) (hp : Plain .sysv N e) :
    ∃ c, build .sysv names e = .ok (.const c) ∧ c.ty = t ∧ val c = v := by
  obtain ⟨c, h1, h2, h3⟩ := constant_main names N ha hd e t (.int v) ht hv hp
  exact ⟨c, h1, h2, h3.2⟩

/-- No names. -/
def noNames : Names := fun _ => none

theorem agree_none : Agree (fun _ => none) noNames := fun _ => rfl
theorem declared_none (abi : Abi) : Declared abi noNames := by intro x t v h; cases h

/-- `sizeof(int) > 3 ? 'a' : -1L`, which has type long and value 97. -/
def sample : E := .cond (.bin .greater (.lit .ulong 4) (.lit .int 3)) (.lit .int 97)
  (.un .neg (.lit .long 1))

theorem sample_type : HasType .sysv noNames sample .long := by
  refine .cond _ _ _ .int .int .long .int .long _ ?_ ?_ ?_ (by decide) (by decide) (by decide)
    (by decide) (by decide)
  · exact .bin _ _ _ .ulong .int .ulong .int .ulong (by decide) (.lit _ _ (by decide) (by decide))
      (.lit _ _ (by decide) (by decide)) (by decide) (by decide) (by decide) (by decide) (by decide)
  · exact .lit _ _ (by decide) (by decide)
  · exact .un _ _ .long _ (.lit _ _ (by decide) (by decide)) (by decide) (by decide)

theorem sample_neg : HasValue .sysv noNames (.un .neg (.lit .long 1)) (.int (-1)) :=
  .un _ _ .long 1 _ (.un _ _ .long _ (.lit _ _ (by decide) (by decide)) (by decide) (by decide))
    (.lit _ _) (by decide)

theorem sample_value : HasValue .sysv noNames sample (.int 97) := by
  refine .condTrue _ _ _ .long (.int 1) 97 _ sample_type ?_ (by decide) (.lit _ _) (by decide)
  exact .bin _ _ _ .ulong .int .ulong .int .ulong 4 3 4 3 1 (by decide)
    (.lit _ _ (by decide) (by decide)) (.lit _ _ (by decide) (by decide)) (by decide) (by decide)
    (by decide) (.lit _ _) (.lit _ _) (by decide) (by decide) (by decide)

example : Agree (fun _ => none) noNames ∧ Declared .sysv noNames ∧
    HasType .sysv noNames sample .long ∧ HasValue .sysv noNames sample (.int 97) ∧
    Plain .sysv noNames sample :=
  ⟨agree_none, declared_none _, sample_type, sample_value,
    ⟨trivial, trivial⟩, trivial, trivial, ⟨97, .lit _ _⟩, ⟨-1, sample_neg⟩⟩

/-- **C100**: an expression in which an object occurs is never taken for a constant, whether the
object would be evaluated or not (6.6p6). -/
theorem objects_not_constant (abi : Abi) (names : Str → Option Const) (e : E)
    (h : mentionsObject e = true) (c : Const) : build abi names e ≠ .ok (.const c) := by
  have un1 : ∀ op t, ∀ r, unary abi op (.other t) ≠ .ok (.const r) := by
    intro op t r hr
    unfold unary at hr
    obtain ⟨x, hx, hr⟩ := Res.bind_eq_ok.1 hr
    obtain ⟨q, rfl⟩ := promote_other hx
    cases hr
  have cast1 : ∀ t t' r, castTo abi (.other t) t' ≠ .ok (.const r) := by
    intro t t' r hr
    obtain ⟨q, hq⟩ := cast_other hr
    cases hq
  induction e generalizing c with
  | num s => cases h
  | lit t v => cases h
  | dbl b => cases h
  | name x => cases h
  | obj t => intro hb; cases hb
  | un op e ih =>
    intro hb
    unfold build at hb
    obtain ⟨x, hx, hb⟩ := Res.bind_eq_ok.1 hb
    cases x with
    | const c' => exact ih h c' hx
    | other t => exact un1 op t c hb
  | bin op a b iha ihb =>
    intro hb
    unfold build at hb
    obtain ⟨x, hx, hb⟩ := Res.bind_eq_ok.1 hb
    obtain ⟨y, hy, hb⟩ := Res.bind_eq_ok.1 hb
    simp only [mentionsObject, Bool.or_eq_true] at h
    obtain ⟨⟨x', hx'⟩, y', hy'⟩ := binary_both hb
    subst hx' hy'
    rcases h with h | h
    · exact iha h _ hx
    · exact ihb h _ hy
  | cast t e ih =>
    intro hb
    unfold build at hb
    obtain ⟨x, hx, hb⟩ := Res.bind_eq_ok.1 hb
    cases x with
    | const c' => exact ih h c' hx
    | other t' => exact cast1 t' t c hb
  | not e ih =>
    intro hb
    unfold build at hb
    obtain ⟨x, hx, hb⟩ := Res.bind_eq_ok.1 hb
    obtain ⟨⟨x', rfl⟩, _, _⟩ := cond_all hb
    exact ih h _ hx
  | and a b iha ihb =>
    intro hb
    unfold build at hb
    obtain ⟨x, hx, hb⟩ := Res.bind_eq_ok.1 hb
    obtain ⟨y, hy, hb⟩ := Res.bind_eq_ok.1 hb
    obtain ⟨z, hz, hb⟩ := Res.bind_eq_ok.1 hb
    obtain ⟨⟨x', rfl⟩, ⟨z', rfl⟩, _⟩ := cond_all hb
    obtain ⟨⟨y', rfl⟩, _, _⟩ := cond_all hz
    simp only [mentionsObject, Bool.or_eq_true] at h
    rcases h with h | h
    · exact iha h _ hx
    · exact ihb h _ hy
  | or a b iha ihb =>
    intro hb
    unfold build at hb
    obtain ⟨x, hx, hb⟩ := Res.bind_eq_ok.1 hb
    obtain ⟨y, hy, hb⟩ := Res.bind_eq_ok.1 hb
    obtain ⟨z, hz, hb⟩ := Res.bind_eq_ok.1 hb
    obtain ⟨⟨x', rfl⟩, _, ⟨z', rfl⟩⟩ := cond_all hb
    obtain ⟨⟨y', rfl⟩, _, _⟩ := cond_all hz
    simp only [mentionsObject, Bool.or_eq_true] at h
    rcases h with h | h
    · exact iha h _ hx
    · exact ihb h _ hy
  | cond d a b ihd iha ihb =>
    intro hb
    unfold build at hb
    obtain ⟨x, hx, hb⟩ := Res.bind_eq_ok.1 hb
    obtain ⟨y, hy, hb⟩ := Res.bind_eq_ok.1 hb
    obtain ⟨z, hz, hb⟩ := Res.bind_eq_ok.1 hb
    obtain ⟨⟨x', rfl⟩, ⟨y', rfl⟩, z', rfl⟩ := cond_all hb
    simp only [mentionsObject, Bool.or_eq_true] at h
    rcases h with (h | h) | h
    · exact ihd h _ hx
    · exact iha h _ hy
    · exact ihb h _ hz
  | comma a b iha ihb =>
    intro hb
    unfold build at hb
    obtain ⟨x, hx, hb⟩ := Res.bind_eq_ok.1 hb
    obtain ⟨y, hy, hb⟩ := Res.bind_eq_ok.1 hb
    simp only [mentionsObject, Bool.or_eq_true] at h
    cases x <;> cases y <;> first
      | (rcases h with h | h
         · exact iha h _ hx
         · exact ihb h _ hy)
      | (cases hb; done)

example : mentionsObject (.and (.lit .int 0) (.obj .int)) = true := rfl

/-- **C100 (partial)** for `_Static_assert`: under the same restrictions it is accepted if the value
is not zero and diagnosed if it is (6.7.10p3). -/
theorem static_assert_partial (names : Str → Option Const) (N : Names) (ha : Agree names N)
    (hd : Declared .sysv N) (e : E) (t : ST) (v : Int) (ht : HasType .sysv N e t) (hi : IsInt t)
    (hv : HasValue .sysv N e (.int v)) (hp : Plain .sysv N e) :
    staticAssert .sysv names e = if v = 0 then .fail else .ok () := by
  obtain ⟨c, h1, h2, h3, h4⟩ := constant_main names N ha hd e t (.int v) ht hv hp
  subst h2
  obtain ⟨v0, w0⟩ := lit_valid (t := .int) (v := 0) (by decide) (by decide)
  obtain ⟨tb, hpb, hpb2, hin, _⟩ := promo_table c.ty hi
  obtain ⟨tc, hc⟩ : ∃ tc, IsCommon .sysv .int tb tc := by
    have hA : Arithmetic tb ∧ (rank tb ≥ 3 ∨ ¬ IsInt tb) := by
      revert hpb2; clear hpb hin; cases tb <;> decide
    obtain ⟨tc, _, h⟩ := common_table .int tb (by decide) hA (-1) (-1) (.inl rfl) (.inl rfl)
    exact ⟨tc, h⟩
  obtain ⟨harith, hptc⟩ := arith_table (show Promoted .int by decide) hpb2 hc
  obtain ⟨hitc, hnb⟩ := promoted_int hptc
  -- conversions of `0` and of the value
  have z0 : IsConversion .sysv tc (val (simpleConst .int 0)) 0 := by
    rw [w0]
    refine conv_self hnb ?_
    revert hptc; clear hc harith hitc hnb; cases tc <;> decide
  have zv : IsConversion .sysv tc (val c) (val c) ∨
      ∃ w, IsConversion .sysv tc (val c) w ∧ (w = 0 ↔ val c = 0) := by
    have hr := hin _ h3.2
    obtain ⟨c2, _, _, _, k⟩ := cast_const (t := tc) h3 hitc hnb
    right
    refine ⟨val c2, k, ?_⟩
    exact zero_conv hpb2 hc hr k
  obtain ⟨w, hw, hw0⟩ : ∃ w, IsConversion .sysv tc (val c) w ∧ (w = 0 ↔ val c = 0) := by
    rcases zv with h | h
    · exact ⟨_, h, Iff.rfl⟩
    · exact h
  obtain ⟨r, r1, r2, r3, r4⟩ := binary_const (op := .equal) (a := simpleConst .int 0) (b := c)
    (ta := .int) (tb := tb) (t := tc) (v := 0) (w := w) (x := if 0 = w then 1 else 0)
    (by decide) v0 h3 (show IsPromotion .sysv .int (width .sysv .int) .int by decide) hpb hc z0 hw rfl
  have hty : r.ty = .int := by rw [r2]; rfl
  have hb : (r.bits ≠ 0) ↔ w = 0 := by
    have hz := zero_int r3
    unfold constIsZero at hz
    rw [hty] at hz
    simp only [r4] at hz
    by_cases h0 : w = 0
    · subst h0
      simp at hz
      simpa [isInteger] using hz
    · have h0' : ¬ (0 = w) := fun h => h0 h.symm
      simp [h0', isInteger] at hz
      simp [hz, h0]
  unfold staticAssert
  simp only [h1, Res.bind_ok]
  have r1' : binary .sysv .equal (exprInt 0) (.const c) = .ok (.const r) := r1
  simp only [r1', Res.bind_ok, Tree.constant?]
  rw [if_neg (by simp [hty])]
  by_cases h0 : v = 0
  · have : r.bits ≠ 0 := hb.2 (hw0.2 (h4.trans h0))
    rw [if_pos this, if_pos h0]
  · have : ¬ r.bits ≠ 0 := fun h => h0 (h4.symm.trans (hw0.1 (hb.1 h)))
    rw [if_neg this, if_neg h0]

example : staticAssert .sysv (fun _ => none) sample = .ok () ∧
    staticAssert .sysv (fun _ => none) (.not sample) = .fail := by decide +kernel

/-- **C100 is violated**: `1 ? 2 : 1 / 0` is a constant expression with the value 2 (6.6p3, p4: the
division is not evaluated), but is not folded, so that it is rejected as an array size in a
structure, an enumerator or a case label. -/
theorem unevaluated_violated : ¬ ConstantExpressions .sysv ∧
    build .sysv (fun _ => none) (.cond (.lit .int 1) (.lit .int 2) (.bin .div (.lit .int 1) (.lit .int 0)))
      = .ok (.other .int) := by
  have hb : build .sysv (fun _ => none)
      (.cond (.lit .int 1) (.lit .int 2) (.bin .div (.lit .int 1) (.lit .int 0))) = .ok (.other .int) := by
    decide +kernel
  refine ⟨fun h => ?_, hb⟩
  have ht : HasType .sysv noNames
      (.cond (.lit .int 1) (.lit .int 2) (.bin .div (.lit .int 1) (.lit .int 0))) .int := by
    refine .cond _ _ _ .int .int .int .int .int _ (.lit _ _ (by decide) (by decide))
      (.lit _ _ (by decide) (by decide)) ?_ (by decide) (by decide) (by decide) (by decide) (by decide)
    exact .bin _ _ _ .int .int .int .int .int (by decide) (.lit _ _ (by decide) (by decide))
      (.lit _ _ (by decide) (by decide)) (by decide) (by decide) (by decide) (by decide) (by decide)
  obtain ⟨c, h1, _⟩ := h (fun _ => none) noNames agree_none (declared_none _) _ .int 2 ht
    (.condTrue _ _ _ .int (.int 1) 2 _ ht (.lit _ _) (by decide) (.lit _ _) (by decide))
  rw [hb] at h1
  cases h1

/-- **C100 is violated**: `1 ? 2 : 1 % 0` divides by zero inside the compiler. -/
theorem unevaluated_crash_violated :
    build .sysv (fun _ => none) (.cond (.lit .int 1) (.lit .int 2) (.bin .mod (.lit .int 1) (.lit .int 0)))
      = .ub := by decide +kernel

/-- **C100 is violated**: `!1.0` is 1 and `1.0 && 1` is 0: `constant_is_zero` looks at the lower half
of a double. -/
theorem double_condition_violated : ¬ ConstantExpressions .sysv ∧
    build .sysv (fun _ => none) (.not (.dbl 0x3ff0000000000000)) = .ok (.const ⟨.int, 1⟩) ∧
    build .sysv (fun _ => none) (.and (.dbl 0x3ff0000000000000) (.lit .int 1)) = .ok (.const ⟨.int, 0⟩) ∧
    build .sysv (fun _ => none) (.cond (.dbl 0x3fe0000000000000) (.lit .int 3) (.lit .int 4))
      = .ok (.const ⟨.int, 4⟩) := by
  have hb : build .sysv (fun _ => none) (.not (.dbl 0x3ff0000000000000)) = .ok (.const ⟨.int, 1⟩) := by
    decide +kernel
  refine ⟨fun h => ?_, hb, by decide +kernel, by decide +kernel⟩
  obtain ⟨c, h1, _, h2⟩ := h (fun _ => none) noNames agree_none (declared_none _) _ .int 0
    (.not _ _ (.dbl 0x3ff0000000000000)) (.not _ _ (.dbl 0x3ff0000000000000))
  rw [hb] at h1
  cases h1
  revert h2
  decide

/-- **C100 is violated**: `(_Bool)256 ? 1 : 2` is 2 (C16). -/
theorem bool_cast_violated : ¬ ConstantExpressions .sysv ∧
    build .sysv (fun _ => none) (.not (.cast .bool (.lit .int 256))) = .ok (.const ⟨.int, 1⟩) := by
  have hb : build .sysv (fun _ => none) (.not (.cast .bool (.lit .int 256))) = .ok (.const ⟨.int, 1⟩) := by
    decide +kernel
  refine ⟨fun h => ?_, hb⟩
  obtain ⟨c, h1, _, h2⟩ := h (fun _ => none) noNames agree_none (declared_none _) _ .int 0
    (.not _ _ (.cast .bool _ .int (.lit .int 256 (by decide) (by decide)) (by decide) (by decide)))
    (.not _ (.int 1) (.cast .bool _ 256 _ (.lit .int 256) (by decide)))
  rw [hb] at h1
  cases h1
  revert h2
  decide

/-- The comma operator is accepted in constant expressions although 6.6p3 excludes it. -/
theorem comma_accepted : build .sysv (fun _ => none) (.comma (.lit .int 1) (.lit .int 2)) =
    .ok (.const ⟨.int, 2⟩) := rfl

end Verif.ConstExpr
