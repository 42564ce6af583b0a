import Verif.ConstExprSpec
import Verif.SimpleProps
/-! Lemmas for `ConstExprProps.lean`. -/
namespace Verif.ConstExpr
open Verif Simple SimpleSpec ConstExprSpec

instance (abi t v w) : Decidable (IsConversion abi t v w) := by unfold IsConversion; infer_instance

/-- The constant stands for the value. -/
def Rep (abi : Abi) : V → Const → Prop
  | .int v, c => Valid abi c ∧ val c = v
  | .dbl b, c => c = ⟨.double, b⟩

theorem promo_unique {abi : Abi} {t : ST} {w : Nat} {a b : ST} (ha : IsPromotion abi t w a)
    (hb : IsPromotion abi t w b) : a = b := by
  by_cases hi : IsInt t
  · have h1 := ha.1 hi
    have h2 := hb.1 hi
    by_cases hr : rank t ≤ rank .int
    · rw [if_pos hr] at h1 h2
      by_cases hR : Represents abi .int (signed t) w
      · rw [h1.1 hR, h2.1 hR]
      · rw [h1.2 hR, h2.2 hR]
    · rw [if_neg hr] at h1 h2
      rw [h1, h2]
  · rw [ha.2 hi, hb.2 hi]

theorem common_unique {abi : Abi} {a b t t' : ST} (h : IsCommon abi a b t) (h' : IsCommon abi a b t') :
    t = t' := by
  unfold IsCommon at h h'
  split at h
  · rename_i c; rw [if_pos c] at h'; rw [h, h']
  rename_i c; rw [if_neg c] at h'
  split at h
  · rename_i c; rw [if_pos c] at h'; rw [h, h']
  rename_i c; rw [if_neg c] at h'
  split at h
  · rename_i c; rw [if_pos c] at h'; rw [h, h']
  rename_i c; rw [if_neg c] at h'
  split at h
  · rename_i c; rw [if_pos c] at h'; rw [h, h']
  rename_i c; rw [if_neg c] at h'
  split at h
  · rename_i c; rw [if_pos c] at h'; rw [h, h']
  rename_i c; rw [if_neg c] at h'
  have key : ∀ u s : ST,
      (if rank u ≥ rank s then t = u
        else (Represents abi s false (width abi u) → t = s) ∧
             (¬ Represents abi s false (width abi u) → t = unsignedOf s)) →
      (if rank u ≥ rank s then t' = u
        else (Represents abi s false (width abi u) → t' = s) ∧
             (¬ Represents abi s false (width abi u) → t' = unsignedOf s)) → t = t' := by
    intro u s k k'
    split at k
    · rename_i c; rw [if_pos c] at k'; rw [k, k']
    · rename_i c; rw [if_neg c] at k'
      by_cases hR : Represents abi s false (width abi u)
      · rw [k.1 hR, k'.1 hR]
      · rw [k.2 hR, k'.2 hR]
  exact key _ _ h h'

/-- Promotion on LP64: `int` for what `int` can hold, nothing otherwise. -/
theorem promo_table (t : ST) (hi : IsInt t) :
    ∃ t', IsPromotion .sysv t (width .sysv t) t' ∧ Promoted t' ∧
      (∀ v, InRange .sysv t v → InRange .sysv t' v) ∧
      ((isContainedIn .sysv .int (-1) t (-1) = .ok true ∧ t' = .int) ∨
       (isContainedIn .sysv .int (-1) t (-1) = .ok false ∧ t' = t)) := by
  cases t <;> first
    | exact absurd hi (by decide)
    | exact ⟨_, by decide, by decide, fun _ h => h, .inl ⟨by decide, rfl⟩⟩
    | (refine ⟨.int, by decide, by decide, ?_, .inl ⟨by decide, rfl⟩⟩
       intro v; simp only [InRange, inBits, signed, width]; simp; omega)
    | exact ⟨_, by decide, by decide, fun _ h => h, .inr ⟨by decide, rfl⟩⟩

/-- A conversion that changes nothing. -/
theorem conv_self {abi : Abi} {t : ST} {v : Int} (hb : t ≠ .bool) (h : InRange abi t v) :
    IsConversion abi t v v := by
  unfold IsConversion
  rw [if_neg hb]
  exact ⟨h, by simp⟩

/-- `castTo` on a constant to an integer type other than `_Bool`. -/
theorem cast_const {abi : Abi} {c : Const} {t : ST} (hc : Valid abi c) (ht : IsInt t) (hb : t ≠ .bool) :
    ∃ c', castTo abi (.const c) t = .ok (.const c') ∧ c'.ty = t ∧ Valid abi c' ∧
      IsConversion abi t (val c) (val c') := by
  obtain ⟨c', h1, h2, h3⟩ := cast_is_conversion_partial abi c t hc ht hb
  by_cases he : c.ty = t
  · refine ⟨c, ?_, he, hc, conv_self hb (he ▸ hc.2)⟩
    unfold castTo
    rw [if_pos (show (Tree.const c).ty = t from he)]
  · refine ⟨c', ?_, h2, ?_, h3⟩
    · unfold castTo
      rw [if_neg (show ¬ (Tree.const c).ty = t from he)]
      simp [h1]
    · refine ⟨h2 ▸ ht, ?_⟩
      have h4 := h3
      unfold IsConversion at h4
      rw [if_neg hb] at h4
      rw [h2]
      exact h4.1

/-- The same for `_Bool`, of the values it has. -/
theorem cast_bool {c : Const} (hc : Valid .sysv c) (hv : val c = 0 ∨ val c = 1) :
    ∃ c', castTo .sysv (.const c) .bool = .ok (.const c') ∧ c'.ty = .bool ∧ Valid .sysv c' ∧
      val c' = val c := by
  by_cases he : c.ty = .bool
  · refine ⟨c, ?_, he, hc, rfl⟩
    unfold castTo
    rw [if_pos (show (Tree.const c).ty = .bool from he)]
  · obtain ⟨ty, bits⟩ := c
    have hb : bits = 0 ∨ bits = 1 := by
      unfold val at hv
      dsimp only at hv
      split at hv
      · rcases hv with h | h
        · exact .inl (BitVec.eq_of_toInt_eq h)
        · exact .inr (BitVec.eq_of_toInt_eq h)
      · rcases hv with h | h
        · exact .inl (BitVec.eq_of_toNat_eq (by simpa using h))
        · refine .inr (BitVec.eq_of_toNat_eq ?_)
          have : bits.toNat = 1 := by omega
          simpa using this
    refine ⟨⟨.bool, bits⟩, ?_, rfl, ?_, ?_⟩
    · revert hc he
      rcases hb with rfl | rfl <;> cases ty <;> first
        | (intro hc; exact absurd hc.1 (by decide))
        | (intro _ he; exact absurd rfl he)
        | (intro _ _; decide)
    · rcases hb with rfl | rfl <;> decide
    · rcases hb with rfl | rfl <;> cases ty <;> decide

/-- Promotion of a constant. -/
theorem promote_const {c : Const} {t' : ST} (hc : Valid .sysv c)
    (hp : IsPromotion .sysv c.ty (width .sysv c.ty) t') :
    ∃ c', promoteTree .sysv (.const c) = .ok (.const c') ∧ c'.ty = t' ∧ Valid .sysv c' ∧
      val c' = val c ∧ Promoted t' := by
  obtain ⟨t2, h1, h2, h3, h4⟩ := promo_table c.ty hc.1
  obtain rfl := promo_unique hp h1
  have hi : isInteger c.ty = true := (isInteger_iff _).2 hc.1
  unfold promoteTree
  rw [if_pos (show isInteger (Tree.const c).ty = true from hi)]
  rcases h4 with ⟨h5, rfl⟩ | ⟨h5, rfl⟩
  · obtain ⟨c', k1, k2, k3, k4⟩ := cast_const (t := .int) hc (by decide) (by decide)
    refine ⟨c', ?_, k2, k3, ?_, h2⟩
    · simp only [Tree.ty, h5, Res.bind_ok]
      exact k1
    · exact conversion_unique .sysv .int (by decide) _ _ _ k4
        (conv_self (by decide) (h3 _ hc.2))
  · refine ⟨c, ?_, rfl, hc, rfl, h2⟩
    simp only [Tree.ty, h5, Res.bind_ok]
    rfl

/-- The common type on LP64. -/
theorem arith_table {a b t : ST} (ha : Promoted a) (hb : Promoted b) (hc : IsCommon .sysv a b t) :
    arithType .sysv a (-1) b (-1) = .ok t ∧ Promoted t := by
  have hA : ∀ x, Promoted x → Arithmetic x ∧ (rank x ≥ 3 ∨ ¬ IsInt x) := by
    intro x; cases x <;> decide
  obtain ⟨t', h1, h2⟩ := common_table a b (hA a ha) (hA b hb) (-1) (-1) (.inl rfl) (.inl rfl)
  obtain rfl := common_unique hc h2
  refine ⟨h1, ?_⟩
  have key : ∀ a b, Promoted a → Promoted b →
      ∃ t, arithType .sysv a (-1) b (-1) = .ok t ∧ Promoted t := by
    intro a b ha hb
    cases a <;> first
      | exact absurd ha (by decide)
      | (clear ha
         cases b <;> first
           | exact absurd hb (by decide)
           | exact ⟨_, rfl, by decide⟩)
  obtain ⟨t2, k1, k2⟩ := key a b ha hb
  rw [h1] at k1
  cases k1
  exact k2

/-- `convertArith` on constants. -/
theorem convert_const {a b : Const} {t : ST} (ha : Valid .sysv a) (hb : Valid .sysv b)
    (pa : Promoted a.ty) (pb : Promoted b.ty) (hc : IsCommon .sysv a.ty b.ty t) :
    ∃ a' b', convertArith .sysv (.const a) (.const b) = .ok (.const a', .const b') ∧
      a'.ty = t ∧ b'.ty = t ∧ Valid .sysv a' ∧ Valid .sysv b' ∧ Promoted t ∧
      IsConversion .sysv t (val a) (val a') ∧ IsConversion .sysv t (val b) (val b') := by
  obtain ⟨h1, h2⟩ := arith_table pa pb hc
  obtain ⟨hi, hn⟩ := promoted_int h2
  obtain ⟨a', a1, a2, a3, a4⟩ := cast_const (t := t) ha hi hn
  obtain ⟨b', b1, b2, b3, b4⟩ := cast_const (t := t) hb hi hn
  refine ⟨a', b', ?_, a2, b2, a3, b3, h2, a4, b4⟩
  unfold convertArith
  simp only [Tree.ty, h1, a1, b1, Res.bind_ok]
  rfl

theorem unary_const {c : Const} {op : UOp} {t : ST} {w : Int} (hc : Valid .sysv c)
    (hp : IsPromotion .sysv c.ty (width .sysv c.ty) t) (hv : uopVal .sysv t op (val c) = some w) :
    ∃ r, unary .sysv op (.const c) = .ok (.const r) ∧ r.ty = t ∧ Valid .sysv r ∧ val r = w := by
  obtain ⟨c', h1, h2, h3, h4, h5⟩ := promote_const hc hp
  subst h2
  rw [← h4] at hv
  obtain ⟨r, k1, k2, k3, k4⟩ := fold_unary_correct .sysv op c' h3 h5 w hv
  refine ⟨r, ?_, k2, k4, k3⟩
  unfold unary
  simp only [h1, k1, Res.bind_ok]
  rfl

theorem binary_const {a b : Const} {op : Op} {ta tb t : ST} {v w x : Int} (hop : ¬ IsShift op)
    (ha : Valid .sysv a) (hb : Valid .sysv b)
    (hpa : IsPromotion .sysv a.ty (width .sysv a.ty) ta)
    (hpb : IsPromotion .sysv b.ty (width .sysv b.ty) tb) (hc : IsCommon .sysv ta tb t)
    (hca : IsConversion .sysv t (val a) v) (hcb : IsConversion .sysv t (val b) w)
    (hv : opVal .sysv t op v w = some x) :
    ∃ r, binary .sysv op (.const a) (.const b) = .ok (.const r) ∧ r.ty = opType t op ∧
      Valid .sysv r ∧ val r = x := by
  obtain ⟨a', a1, a2, a3, a4, a5⟩ := promote_const ha hpa
  obtain ⟨b', b1, b2, b3, b4, b5⟩ := promote_const hb hpb
  subst a2 b2
  obtain ⟨a2, b2, c1, c2, c3, c4, c5, c6, c7, c8⟩ := convert_const a3 b3 a5 b5 hc
  obtain ⟨hi, _⟩ := promoted_int c6
  rw [a4] at c7
  rw [b4] at c8
  obtain rfl := conversion_unique .sysv t hi _ _ _ hca c7
  obtain rfl := conversion_unique .sysv t hi _ _ _ hcb c8
  subst c2
  obtain ⟨r, k1, k2, k3, k4⟩ := fold_correct .sysv op a2 b2 c4 c5 c6 c3.symm x hv
  refine ⟨r, ?_, k2, k4, k3⟩
  unfold binary
  simp only [a1, b1, Res.bind_ok]
  rw [if_neg (show ¬ (op = .lshift ∨ op = .rshift) from hop)]
  simp only [c1, k1, Res.bind_ok]
  rfl

theorem shift_const {a b : Const} {op : Op} {ta : ST} {x : Int} (hop : IsShift op)
    (ha : Valid .sysv a) (hb : Valid .sysv b) (hib : IsInt b.ty)
    (hpa : IsPromotion .sysv a.ty (width .sysv a.ty) ta)
    (hv : opVal .sysv ta op (val a) (val b) = some x) :
    ∃ r, binary .sysv op (.const a) (.const b) = .ok (.const r) ∧ r.ty = ta ∧
      Valid .sysv r ∧ val r = x := by
  obtain ⟨tb, hpb, _⟩ := promo_table b.ty hib
  obtain ⟨a', a1, a2, a3, a4, a5⟩ := promote_const ha hpa
  obtain ⟨b', b1, b2, b3, b4, b5⟩ := promote_const hb hpb
  subst a2
  obtain ⟨hi, hn⟩ := promoted_int a5
  obtain ⟨b2, c1, c2, c3, c4⟩ := cast_const (t := a'.ty) b3 hi hn
  have hr : 0 ≤ val b ∧ val b < width .sysv a'.ty := by
    rcases hop with rfl | rfl <;> simp only [opVal] at hv
    · split at hv
      · rename_i h; exact ⟨h.1, h.2.1⟩
      · cases hv
    · split at hv
      · rename_i h; exact h
      · cases hv
  have hin : InRange .sysv a'.ty (val b) := by
    have : a'.ty ∈ [ST.int, .uint, .long, .ulong, .llong, .ullong] := a5
    revert hr this
    cases a'.ty <;> first
      | (intro _ h; exact absurd h (by decide))
      | (intro h _
         have h1 := h.1
         have h2 := h.2
         simp only [width] at h2
         simp only [InRange, inBits, signed, width]
         simp
         omega)
  have hvb : val b2 = val b := by
    rw [b4] at c4
    exact conversion_unique .sysv a'.ty hi _ _ _ c4 (conv_self hn hin)
  rw [← a4, ← hvb] at hv
  obtain ⟨r, k1, k2, k3, k4⟩ := fold_correct .sysv op a' b2 a3 c3 a5 c2.symm x hv
  refine ⟨r, ?_, ?_, k4, k3⟩
  · unfold binary
    simp only [a1, b1, Res.bind_ok]
    rw [if_pos (show op = .lshift ∨ op = .rshift from hop)]
    simp only [Tree.ty, c1, k1, Res.bind_ok]
    simp [k1]
  · rw [k2]
    rcases hop with rfl | rfl <;> simp [opType]

/-- The test of a condition. -/
theorem zero_int {abi : Abi} {c : Const} (hc : Valid abi c) :
    constIsZero c = decide (val c = 0) := by
  have hi : isInteger c.ty = true := (isInteger_iff _).2 hc.1
  have hv : (val c = 0) ↔ c.bits = 0 := by
    unfold val
    split
    · exact ⟨fun h => BitVec.eq_of_toInt_eq h, fun h => by rw [h]; rfl⟩
    · refine ⟨fun h => BitVec.eq_of_toNat_eq (by simpa using h), fun h => by rw [h]; rfl⟩
  have h1 : constIsZero c = decide (c.bits = 0) := by
    unfold constIsZero
    split
    · rename_i h; rw [h] at hi; exact absurd hi (by decide)
    · rename_i h; rw [h] at hi; exact absurd hi (by decide)
    · rw [if_pos hi]
  rw [h1]
  simp [hv]

/-- `promoteTree` of a condition keeps its truth. -/
theorem promote_cond {x : V} {c : Const} (h : Rep .sysv x c)
    (hd : ∀ b, x = .dbl b → (b.toNat % 2 ^ 31 = 0 ↔ b.toNat % 2 ^ 63 = 0)) :
    ∃ c', promoteTree .sysv (.const c) = .ok (.const c') ∧ constIsZero c' = !truth x := by
  cases x with
  | int v =>
    obtain ⟨h1, h2⟩ := h
    obtain ⟨t', hp, _⟩ := promo_table c.ty h1.1
    obtain ⟨c', k1, k2, k3, k4, k5⟩ := promote_const h1 hp
    refine ⟨c', k1, ?_⟩
    rw [zero_int k3, k4, h2]
    simp [truth]
  | dbl b =>
    subst h
    refine ⟨⟨.double, b⟩, rfl, ?_⟩
    have h1 := hd b rfl
    have e : (b &&& 0x7fffffff).toNat = b.toNat % 2 ^ 31 := by
      rw [BitVec.toNat_and]
      exact Nat.and_two_pow_sub_one_eq_mod b.toNat 31
    have e2 : (b &&& 0x7fffffff = 0) ↔ b.toNat % 2 ^ 31 = 0 := by
      constructor
      · intro h; rw [← e, h]; rfl
      · intro h; exact BitVec.eq_of_toNat_eq (by rw [e, h]; rfl)
    simp only [constIsZero, truth]
    have e3 : (b &&& 2147483647#64 = 0#64) ↔ b.toNat % 2 ^ 31 = 0 := e2
    by_cases h3 : b.toNat % 2 ^ 63 = 0
    · have := e3.2 (h1.2 h3)
      simp [this, h3]
    · have : ¬ (b &&& 2147483647#64 = 0#64) := fun h => h3 (h1.1 (e3.1 h))
      simp [this, h3]

/-- A condition with two constant branches of promoted types. -/
theorem cond_const {x : V} {c a b : Const} {ta tb t : ST} (hx : Rep .sysv x c)
    (hd : ∀ b, x = .dbl b → (b.toNat % 2 ^ 31 = 0 ↔ b.toNat % 2 ^ 63 = 0))
    (ha : Valid .sysv a) (hb : Valid .sysv b)
    (hpa : IsPromotion .sysv a.ty (width .sysv a.ty) ta)
    (hpb : IsPromotion .sysv b.ty (width .sysv b.ty) tb) (hc : IsCommon .sysv ta tb t) :
    ∃ r, conditional .sysv (.const c) (.const a) (.const b) = .ok (.const r) ∧ r.ty = t ∧
      Valid .sysv r ∧
      IsConversion .sysv t (if truth x then val a else val b) (val r) := by
  obtain ⟨c', c1, c2⟩ := promote_cond hx hd
  obtain ⟨a', a1, a2, a3, a4, a5⟩ := promote_const ha hpa
  obtain ⟨b', b1, b2, b3, b4, b5⟩ := promote_const hb hpb
  subst a2 b2
  obtain ⟨a2, b2, d1, d2, d3, d4, d5, d6, d7, d8⟩ := convert_const a3 b3 a5 b5 hc
  obtain ⟨hi, hn⟩ := promoted_int d6
  by_cases he : a'.ty = b'.ty
  · have ht : t = a'.ty := by
      have := (arith_table a5 b5 hc).1
      unfold arithType at this
      revert this
      rw [← he]
      have h5 := a5
      generalize a'.ty = q at h5 ⊢
      cases q <;> first
        | exact absurd h5 (by decide)
        | (intro h; simp at h; exact h.symm)
    refine ⟨if constIsZero c' then b' else a', ?_, ?_, ?_, ?_⟩
    · unfold conditional
      simp only [c1, a1, b1, Res.bind_ok]
      rw [if_pos (show (Tree.const a').ty = (Tree.const b').ty from he)]
      rfl
    · split
      · rw [← he, ht]
      · rw [ht]
    · split
      · exact b3
      · exact a3
    · rw [c2]
      cases truth x
      · simp only [Bool.not_false, if_true, Bool.false_eq_true, if_false]
        rw [← b4]
        exact conv_self hn (by rw [ht, he]; exact b3.2)
      · simp only [Bool.not_true, if_true, Bool.false_eq_true, if_false]
        rw [← a4]
        exact conv_self hn (by rw [ht]; exact a3.2)
  · refine ⟨if constIsZero c' then b2 else a2, ?_, ?_, ?_, ?_⟩
    · unfold conditional
      simp only [c1, a1, b1, Res.bind_ok]
      rw [if_neg (show ¬ (Tree.const a').ty = (Tree.const b').ty from he)]
      have hA : ∀ q, Promoted q → isArithmetic q = true := by intro q; cases q <;> decide
      rw [if_pos (show (isArithmetic (Tree.const a').ty && isArithmetic (Tree.const b').ty) = true by
        simp [Tree.ty, hA _ a5, hA _ b5])]
      simp only [d1, Res.bind_ok]
      rfl
    · split <;> assumption
    · split <;> assumption
    · rw [c2]
      rw [a4] at d7
      rw [b4] at d8
      cases truth x
      · simpa using d8
      · simpa using d7

/-! ### What is not constant stays so -/

theorem cast_other {abi : Abi} {t t' : ST} {x : Tree} (h : castTo abi (.other t) t' = .ok x) :
    ∃ q, x = .other q := by
  unfold castTo at h
  split at h
  · cases h; exact ⟨_, rfl⟩
  · cases h; exact ⟨_, rfl⟩

theorem promote_other {abi : Abi} {t : ST} {x : Tree} (h : promoteTree abi (.other t) = .ok x) :
    ∃ q, x = .other q := by
  unfold promoteTree at h
  split at h
  · obtain ⟨b, _, h⟩ := Res.bind_eq_ok.1 h
    cases b
    · cases h; exact ⟨_, rfl⟩
    · exact cast_other (abi := abi) h
  · cases h; exact ⟨_, rfl⟩

theorem cast_source {abi : Abi} {e : Tree} {t : ST} {c : Const} (h : castTo abi e t = .ok (.const c)) :
    ∃ x, e = .const x := by
  cases e with
  | const x => exact ⟨x, rfl⟩
  | other t => obtain ⟨q, hq⟩ := cast_other h; cases hq

theorem promote_source {abi : Abi} {e : Tree} {c : Const} (h : promoteTree abi e = .ok (.const c)) :
    ∃ x, e = .const x := by
  cases e with
  | const x => exact ⟨x, rfl⟩
  | other t => obtain ⟨q, hq⟩ := promote_other h; cases hq

theorem convert_source {abi : Abi} {a b : Tree} {x y : Const}
    (h : convertArith abi a b = .ok (.const x, .const y)) :
    (∃ x, a = .const x) ∧ ∃ y, b = .const y := by
  unfold convertArith at h
  obtain ⟨t, _, h⟩ := Res.bind_eq_ok.1 h
  obtain ⟨a', ha, h⟩ := Res.bind_eq_ok.1 h
  obtain ⟨b', hb, h⟩ := Res.bind_eq_ok.1 h
  cases h
  exact ⟨cast_source ha, cast_source hb⟩

theorem binary_both {abi : Abi} {op : Op} {a b : Tree} {c : Const}
    (h : binary abi op a b = .ok (.const c)) : (∃ x, a = .const x) ∧ ∃ y, b = .const y := by
  unfold binary at h
  obtain ⟨a', ha, h⟩ := Res.bind_eq_ok.1 h
  obtain ⟨b', hb, h⟩ := Res.bind_eq_ok.1 h
  obtain ⟨⟨p, q⟩, hpq, h⟩ := Res.bind_eq_ok.1 h
  dsimp only at h
  cases p with
  | other t => cases h
  | const x =>
    cases q with
    | other t => cases h
    | const y =>
      split at hpq
      · obtain ⟨b2, hb2, hpq⟩ := Res.bind_eq_ok.1 hpq
        cases hpq
        obtain ⟨z, rfl⟩ := cast_source hb2
        exact ⟨promote_source ha, promote_source hb⟩
      · obtain ⟨⟨z, rfl⟩, w, rfl⟩ := convert_source hpq
        exact ⟨promote_source ha, promote_source hb⟩

theorem cond_all {abi : Abi} {c a b : Tree} {r : Const}
    (h : conditional abi c a b = .ok (.const r)) :
    (∃ x, c = .const x) ∧ (∃ x, a = .const x) ∧ ∃ y, b = .const y := by
  unfold conditional at h
  obtain ⟨c', hc, h⟩ := Res.bind_eq_ok.1 h
  obtain ⟨a', ha, h⟩ := Res.bind_eq_ok.1 h
  obtain ⟨b', hb, h⟩ := Res.bind_eq_ok.1 h
  obtain ⟨⟨p, q⟩, hpq, h⟩ := Res.bind_eq_ok.1 h
  dsimp only at h
  cases c' with
  | other t => cases h
  | const z =>
    cases p with
    | other t => cases h
    | const x =>
      cases q with
      | other t => cases h
      | const y =>
        refine ⟨promote_source hc, ?_⟩
        split at hpq
        · cases hpq
          exact ⟨promote_source ha, promote_source hb⟩
        · split at hpq
          · obtain ⟨⟨z, rfl⟩, w, rfl⟩ := convert_source hpq
            exact ⟨promote_source ha, promote_source hb⟩
          · cases hpq

/-- Comparing with `0`: the conversion to the common type with int does not lose the value. -/
theorem zero_conv {tb tc : ST} {v w : Int} (hb : Promoted tb) (hc : IsCommon .sysv .int tb tc)
    (hv : InRange .sysv tb v) (hw : IsConversion .sysv tc v w) : w = 0 ↔ v = 0 := by
  have hs : tc = tb := by
    have h1 := (arith_table (show Promoted .int by decide) hb hc).1
    revert h1
    clear hc hv hw
    cases tb <;> first
      | exact absurd hb (by decide)
      | (intro h; cases h; rfl)
  subst hs
  have hn := (promoted_int hb).2
  have := conversion_unique .sysv tc (promoted_int hb).1 _ _ _ hw (conv_self hn hv)
  rw [this]

end Verif.ConstExpr
