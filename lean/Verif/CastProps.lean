import Verif.CastSpec
import Verif.CastLemmas
/-!
Properties of conversions between scalar types in generated code (C34, C74).
-/
namespace Verif.Cast
open Verif Asm X86 Simple SimpleSpec Codegen CodegenSpec CastSpec

/-! ### C34 -/

/-- C34: integer-to-integer conversion, every pair of types and every value. -/
theorem int_to_int : IntToInt := by
  intro abi F src dst a loc s hi hd ha hr
  obtain ⟨hss, hsz⟩ := bytes_size (abi := abi) hi
  obtain ⟨hds, hdz⟩ := bytes_size (abi := abi) hd
  have hsa : ScalarSize a.size := by rw [ha]; exact hsz
  have hw : width abi dst ≤ 8 * bytes abi dst := by revert hd; cases abi <;> cases dst <;> decide
  have hint : ∀ t, IsInt t → isInteger t = true := by intro t; cases t <;> decide
  have hsg : ∀ t, IsInt t → isSigned t = .ok (signed t) := by intro t; cases t <;> decide
  have hbw : dst ≠ .bool → 8 * bytes abi dst = width abi dst := by
    revert hd; cases abi <;> cases dst <;> decide
  by_cases he : src = dst
  · subst he
    refine .inl ⟨by simp [castExpr], ha, ?_⟩
    unfold IsConversion
    split
    · rename_i hb
      subst hb
      simp only [InRange, inBits, signed, width] at hr
      generalize slotVal abi ST.bool s a = v at *
      have : v = 0 ∨ v = 1 := by simp at hr; omega
      rcases this with h | h <;> simp [h]
    · exact ⟨hr, by simp⟩
  by_cases hb : dst = .bool
  · subst hb
    obtain ⟨c, hc, s', h1, h2, h3⟩ := bool_cast F a ⟨1, loc⟩ s hsa rfl
    refine .inr ⟨1, c, s', ?_, h1, h2, rfl, ?_⟩
    · simp only [castExpr, Option.some.injEq, he, if_false, if_true]
      rw [show sizeOf abi .bool = 1 by cases abi <;> rfl, hc]
      rfl
    · have hz : rd s.mem (slotAddr s a) a.size = 0 ↔ slotVal abi src s a = 0 := by
        have hlt := rd_lt s.mem (slotAddr s a) (bytes abi src)
        rw [show (256 : Nat) = 2 ^ 8 by rfl, ← Nat.pow_mul] at hlt
        have hc : ((2 ^ (8 * bytes abi src) : Nat) : Int) = 2 ^ (8 * bytes abi src) := by simp
        rw [ha]
        rcases slotVal_int (abi := abi) hi s a with h | ⟨hs, h⟩
        all_goals
          generalize rd s.mem (slotAddr s a) (bytes abi src) = x at *
          generalize slotVal abi src s a = v at *
        · omega
        · rw [← hc] at h
          have hw2 : 8 * bytes abi src = (width abi src - 1) + 1 := by
            revert hi hs; cases abi <;> cases src <;> decide
          simp only [InRange, inBits, hs, if_true] at hr
          rw [hw2, Nat.pow_succ] at h hlt
          have hc2 : ((2 ^ (width abi src - 1) : Nat) : Int) = 2 ^ (width abi src - 1) := by simp
          have hp2 : 0 < 2 ^ (width abi src - 1) := Nat.pow_pos (by decide)
          rw [← hc2] at hr
          generalize 2 ^ (width abi src - 1) = P at *
          omega
      unfold IsConversion
      rw [if_pos rfl, slotVal]
      rw [show bytes abi .bool = 1 by cases abi <;> rfl, h3, bitsVal_unsigned rfl]
      by_cases h0 : slotVal abi src s a = 0
      · simp [hz.2 h0, h0]
      · simp [mt hz.1 h0, h0]
  have hdv : ∀ k, width abi dst ≤ k → (2 ^ width abi dst : Int) ∣ 2 ^ k := fun k hk =>
    ⟨2 ^ (k - width abi dst), by rw [← Int.pow_add]; congr 1; omega⟩
  by_cases hsz' : bytes abi dst = bytes abi src
  · refine .inl ⟨?_, by rw [ha, hsz'], ?_⟩
    · simp [castExpr, he, hb, intOrPtr, hint _ hi, hint _ hd, sizeT, hss, hds, hsz']
    · have := conversion_of (abi := abi) hd hb (slotVal abi src s a) (rd s.mem (slotAddr s a) (bytes abi src)) (by
        rcases slotVal_int (abi := abi) hi s a with h | ⟨hs, h⟩ <;> rw [h]
        · exact Int.dvd_zero _
        · exact hdv _ (by rw [← hsz']; exact hw))
      rw [slotVal.eq_1 abi dst, hsz']
      rw [hsz', Nat.mod_eq_of_lt (rd_lt _ _ _)] at this
      exact this
  · cases hs : signed src with
    | true =>
      obtain ⟨c, hc, s', h1, h2, X, h3, h4⟩ := sign_cast F hi hs a ⟨bytes abi dst, loc⟩ s ha hdz
      refine .inr ⟨bytes abi dst, c, s', ?_, h1, h2, rfl, ?_⟩
      · simp only [castExpr, Option.some.injEq, he, hb, if_false, intOrPtr, hint _ hi, hint _ hd, sizeT, hss, hds,
          Bool.and_self, if_true, hsz', ne_eq, not_false_eq_true, hsg _ hi, hs, Res.bind_ok, hc]
        rfl
      · simp only at h3 h4
        rw [slotVal.eq_1 abi dst, h3]
        exact conversion_of hd hb _ _ (by rw [← hbw hb]; exact h4)
    | false =>
      obtain ⟨c, hc, s', h1, h2, h3⟩ := zero_cast F a ⟨bytes abi dst, loc⟩ s hsa hdz
      refine .inr ⟨bytes abi dst, c, s', ?_, h1, h2, rfl, ?_⟩
      · simp only [castExpr, Option.some.injEq, he, hb, if_false, intOrPtr, hint _ hi, hint _ hd, sizeT, hss, hds,
          Bool.and_self, if_true, hsz', ne_eq, not_false_eq_true, hsg _ hi, hs, Res.bind_ok, hc, Bool.false_eq_true]
        rfl
      · simp only at h3
        rw [slotVal.eq_1 abi dst, h3]
        refine conversion_of hd hb _ _ ?_
        rcases slotVal_int (abi := abi) hi s a with h | ⟨h, -⟩
        · rw [ha, h]; exact Int.dvd_zero _
        · rw [hs] at h; cases h

/-- `(unsigned char)-1`, `(long)(signed char)-1`, `(_Bool)256` meet the hypotheses. -/
example : IsInt .int ∧ InRange .sysv .int (slotVal .sysv .int (twoSlots 0xffffffff 0) ⟨4, 8⟩) ∧
    slotVal .sysv .int (twoSlots 0xffffffff 0) ⟨4, 8⟩ = -1 ∧
    slotVal .sysv .schar (twoSlots 0xff 0) ⟨1, 8⟩ = -1 ∧
    IsConversion .sysv .uchar (-1) 255 ∧ IsConversion .sysv .bool 256 1 := by
  simp only [InRange, inBits, IsConversion]
  decide +kernel

/-- C34, pointers: converted to `_Bool` they compare against the null pointer; to and from
integers of 8 bytes they are unchanged. -/
theorem pointer_to_bool (abi : Abi) (F : FP) (a : Slot) (loc : Nat) (s : State) (ha : a.size = 8) :
    Yields abi F none (some .bool) a loc s fun s' o =>
      o.size = 1 ∧ slotVal abi .bool s' o = if rd s.mem (slotAddr s a) 8 = 0 then 0 else 1 := by
  obtain ⟨c, hc, s', h1, h2, h3⟩ := bool_cast F a ⟨1, loc⟩ s (by rw [ha]; decide) rfl
  refine .inr ⟨1, c, s', ?_, h1, h2, rfl, ?_⟩
  · simp only [castExpr, reduceCtorEq, if_false, if_true]
    rw [show sizeOf abi .bool = 1 by cases abi <;> rfl, hc]
    rfl
  · rw [slotVal, show bytes abi .bool = 1 by cases abi <;> rfl, h3, bitsVal_unsigned rfl, ha]
    by_cases h0 : rd s.mem (slotAddr s a) 8 = 0 <;> simp [h0]

example : rd (twoSlots 0x100000000 0).mem (slotAddr (twoSlots 0x100000000 0) ⟨8, 8⟩) 8 ≠ 0 := by decide +kernel

/-- C34: integer to floating, except for negative values narrower than `int` and unsigned
values of 2^63 and more. -/
theorem int_to_float_partial (abi : Abi) (F : FP) (src dst : ST) (f : Float.Fmt) (n : Nat) (a : Slot) (loc : Nat)
    (s : State) (hi : IsInt src) (hf : fmtOf dst = some (f, n)) (ha : a.size = bytes abi src)
    (hneg : 4 ≤ a.size ∨ 0 ≤ slotVal abi src s a) (hbig : slotVal abi src s a < 2 ^ 63) :
    Yields abi F (some src) (some dst) a loc s fun s' o =>
      o.size = n ∧ slotFlt n s' o = Float.ofInt f (slotVal abi src s a) := by
  have hint : isInteger src = true := by revert hi; cases src <;> decide
  have hnf : isFloating src = false := by revert hi; cases src <;> decide
  have hsg : isSigned src = .ok (signed src) := by revert hi; cases src <;> decide
  have hd : isFloating dst = true ∧ isInteger dst = false ∧ sizeOf abi dst = n ∧ src ≠ dst ∧ dst ≠ .bool := by
    cases dst <;> simp only [fmtOf, reduceCtorEq, Option.some.injEq, Prod.mk.injEq] at hf <;>
      obtain ⟨-, rfl⟩ := hf <;>
      exact ⟨rfl, rfl, by cases abi <;> rfl, by rintro rfl; exact absurd hi (by decide), by decide⟩
  obtain ⟨d1, d2, d3, d4, d5⟩ := hd
  cases hs : signed src with
  | true =>
    obtain ⟨c, hc, s', h1, h2, h3⟩ := int_float_cast F hf hi hs a loc s ha hneg
    refine .inr ⟨n, c, s', ?_, h1, h2, rfl, h3⟩
    simp only [castExpr, Option.some.injEq, d4, d5, if_false, intOrPtr, d2, Bool.false_and, Bool.false_eq_true,
      floating, d1, hnf, Bool.and_false, hint, if_true, hsg, hs, Res.bind_ok, sizeT, d3, hc]
    rfl
  | false =>
    obtain ⟨c, hc, s', h1, h2, h3⟩ := uint_float_cast F hf hi hs a loc s ha hbig
    refine .inr ⟨n, c, s', ?_, h1, h2, rfl, h3⟩
    simp only [castExpr, Option.some.injEq, d4, d5, if_false, intOrPtr, d2, Bool.false_and, Bool.false_eq_true,
      floating, d1, hnf, Bool.and_false, hint, if_true, hsg, hs, Res.bind_ok, sizeT, d3, hc]
    rfl

example : slotVal .sysv .int (twoSlots 0xffffffff 0) ⟨4, 8⟩ = -1 ∧ fmtOf .double = some (Float.f64, 8) ∧
    Float.ofInt Float.f64 (-1) = 0xbff0000000000000 := by decide +kernel

/-- The bytes a conversion leaves behind (a test harness for concrete cases). -/
def convert (src dst : ST) (a : Slot) (s : State) : Option Nat :=
  match castExpr .sysv (some src) (some dst) a 16 with
  | .ok (some (o, c)) =>
    match run anyFP c s with
    | .ok s' => some (rd s'.mem (slotAddr s' o) o.size)
    | _ => none
  | _ => none

theorem convert_of {src dst : ST} {n : Nat} {a : Slot} {s : State} {Q : State → Slot → Prop} {k : Nat}
    (h : Yields .sysv anyFP (some src) (some dst) a 16 s Q) (hk : convert src dst a s = some k)
    (hq : ∀ s' o, Q s' o → o.size = n) :
    ∃ s' o, Q s' o ∧ rd s'.mem (slotAddr s' o) n = k := by
  unfold convert at hk
  rcases h with ⟨h, -⟩ | ⟨m, c, s', h1, h2, -, h3⟩
  · rw [h] at hk; cases hk
  · rw [h1] at hk
    simp only [h2, Option.some.injEq] at hk
    exact ⟨s', _, h3, by rw [← hq _ _ h3]; exact hk⟩

/-- C34 fails: `(double)(signed char)-1` is 4294967295.0. -/
theorem int_to_float_violated : ¬ IntToFloat := by
  intro h
  have h1 := h .sysv anyFP .schar .double Float.f64 8 ⟨1, 8⟩ 16 (twoSlots 0xff 0) (by decide) rfl rfl
  obtain ⟨s', o, ⟨h2, h3⟩, h4⟩ := convert_of (k := 0x41efffffffe00000) h1 (by decide +kernel) (fun _ _ h => h.1)
  rw [slotFlt, h4] at h3
  revert h3
  decide +kernel

/-- C34 fails: `(double)(unsigned long)-1` is -1.0. -/
theorem ulong_to_double_violated :
    ¬ Yields .sysv anyFP (some .ulong) (some .double) ⟨8, 8⟩ 16 (twoSlots (2 ^ 64 - 1) 0) fun s' o =>
      o.size = 8 ∧ slotFlt 8 s' o = Float.ofInt Float.f64 (2 ^ 64 - 1) := by
  intro h1
  obtain ⟨s', o, ⟨h2, h3⟩, h4⟩ := convert_of (k := 0xbff0000000000000) h1 (by decide +kernel) (fun _ _ h => h.1)
  rw [slotFlt, h4] at h3
  revert h3
  decide +kernel

/-! ### C74 -/

/-- What the C types need from the format. -/
theorem flt_facts {abi : Abi} {src : ST} {f : Float.Fmt} {n : Nat} (hf : fmtOf src = some (f, n)) :
    isFloating src = true ∧ isInteger src = false ∧ sizeOf abi src = n ∧ ¬ IsInt src ∧ src ≠ .bool ∧
    8 * n = f.mb + f.eb + 1 ∧ ScalarSize n := by
  cases src <;> simp only [fmtOf, reduceCtorEq, Option.some.injEq, Prod.mk.injEq] at hf <;>
    obtain ⟨rfl, rfl⟩ := hf <;>
    exact ⟨rfl, rfl, by cases abi <;> rfl, by decide, by decide, rfl, by decide⟩

/-- C74: floating to integer, for results below 2^63. -/
theorem float_to_int_partial (abi : Abi) (F : FP) (src dst : ST) (f : Float.Fmt) (n : Nat) (a : Slot) (loc : Nat)
    (s : State) (v : Int) (hf : fmtOf src = some (f, n)) (hd : IsInt dst) (hb : dst ≠ .bool) (ha : a.size = n)
    (ht : Float.trunc f (slotFlt n s a) = some v) (hr : InRange abi dst v) (hbig : v < 2 ^ 63) :
    Yields abi F (some src) (some dst) a loc s fun s' o =>
      o.size = bytes abi dst ∧ slotVal abi dst s' o = v := by
  obtain ⟨h1, h2, h3, h4, h5, -, h7⟩ := flt_facts (abi := abi) hf
  obtain ⟨hds, hdz⟩ := bytes_size (abi := abi) hd
  have hint : isInteger dst = true := by revert hd; cases dst <;> decide
  have hnf : isFloating dst = false := by revert hd; cases dst <;> decide
  have hne : src ≠ dst := by rintro rfl; exact h4 hd
  have hlow : -(2 ^ 63) ≤ v := by
    revert hr hd
    unfold InRange inBits
    cases dst <;> cases abi <;> simp [signed, width, IsInt] <;> omega
  have hbw : 8 * bytes abi dst = width abi dst ∧ width abi dst ≤ 64 := by
    revert hd hb; cases abi <;> cases dst <;> decide
  obtain ⟨c, hc, s', r1, r2, r3⟩ := float_int_cast F hf a ⟨bytes abi dst, loc⟩ s ha hdz
  refine .inr ⟨bytes abi dst, c, s', ?_, r1, r2, rfl, ?_⟩
  · simp only [castExpr, Option.some.injEq, hne, hb, if_false, intOrPtr, h2, Bool.and_false, Bool.false_eq_true,
      floating, h1, hnf, Bool.false_and, hint, if_true, Bool.and_self, sizeT, hds, hc]
    rfl
  · simp only at r3
    rw [slotVal, r3]
    have hcv : IsConversion abi dst v (bitsVal dst (BitVec.ofNat (8 * bytes abi dst)
        ((cvtt (Float.trunc f (rd s.mem (slotAddr s a) n))).toNat % 256 ^ bytes abi dst))) := by
      refine conversion_of hd hb _ _ ?_
      have ht' : Float.trunc f (rd s.mem (slotAddr s a) n) = some v := ht
      rw [ht', cvtt, if_pos ⟨hlow, hbig⟩]
      refine Int.dvd_trans ⟨2 ^ (64 - width abi dst), by rw [← Int.pow_add]; congr 1; omega⟩
        (show (2 ^ 64 : Int) ∣ _ from ?_)
      rw [BitVec.toNat_ofInt]
      have h0 : (0 : Int) ≤ v % 2 ^ 64 := Int.emod_nonneg _ (by decide)
      rw [show (((2 ^ 64 : Nat) : Int)) = 2 ^ 64 by simp, Int.toNat_of_nonneg h0]
      have := Int.emod_add_mul_ediv v (2 ^ 64)
      exact ⟨-(v / 2 ^ 64), by rw [Int.mul_neg]; omega⟩
    unfold IsConversion at hcv
    rw [if_neg hb] at hcv
    obtain ⟨hr2, k, hk⟩ := hcv
    generalize bitsVal dst _ = w at *
    have hp : (0 : Int) < 2 ^ width abi dst := Int.pow_pos (by decide)
    -- two values of the range congruent modulo its length are equal
    have hlen : -(2 ^ width abi dst) < w - v ∧ w - v < 2 ^ width abi dst := by
      unfold InRange inBits at hr hr2
      cases hs : signed dst <;> simp only [hs, Bool.false_eq_true, if_false, if_true] at hr hr2
      · omega
      · have : (2 : Int) ^ width abi dst = 2 * 2 ^ (width abi dst - 1) := by
          rw [← Int.pow_succ']
          congr 1
          revert hd hb; cases abi <;> cases dst <;> decide
        omega
    have hk0 : k = 0 := by
      rw [hk] at hlen
      generalize (2 : Int) ^ width abi dst = P at *
      by_cases h1 : k ≥ 1
      · have := Int.mul_le_mul_of_nonneg_left h1 (Int.le_of_lt hp); omega
      · by_cases h2 : k ≤ -1
        · have := Int.mul_le_mul_of_nonneg_left h2 (Int.le_of_lt hp); omega
        · omega
    rw [hk0, Int.mul_zero] at hk
    omega

/-- `(int)-3.0` meets the hypotheses. -/
example : Float.trunc Float.f64 (slotFlt 8 (twoSlots 0xc008000000000000 0) ⟨8, 8⟩) = some (-3) ∧
    InRange .sysv .int (-3) := by
  simp only [InRange, inBits]
  decide +kernel

/-- C74 fails: `(unsigned long)0x1.8p63` is 2^63. -/
theorem float_to_int_violated : ¬ FloatToInt := by
  intro h
  have h1 := h .sysv anyFP .double .ulong Float.f64 8 ⟨8, 8⟩ 16 (twoSlots 0x43E8000000000000 0) (3 * 2 ^ 62)
    rfl (by decide) (by decide) rfl (by decide +kernel) (by simp only [InRange, inBits]; decide)
  obtain ⟨s', o, ⟨h2, h3⟩, h4⟩ := convert_of (k := 2 ^ 63) h1 (by decide +kernel) (fun _ _ h => h.1)
  rw [slotVal, h4] at h3
  revert h3
  decide +kernel

/-- C74: floating to `_Bool` for everything but negative zero. -/
theorem float_to_bool_partial (abi : Abi) (F : FP) (src : ST) (f : Float.Fmt) (n : Nat) (a : Slot) (loc : Nat)
    (s : State) (hf : fmtOf src = some (f, n)) (ha : a.size = n) (hz : slotFlt n s a ≠ 2 ^ (8 * n - 1)) :
    Yields abi F (some src) (some .bool) a loc s fun s' o =>
      o.size = 1 ∧ slotVal abi .bool s' o = if Float.cmp f (slotFlt n s a) 0 = .eq then 0 else 1 := by
  obtain ⟨h1, h2, h3, h4, h5, h6, h7⟩ := flt_facts (abi := abi) hf
  obtain ⟨c, hc, s', r1, r2, r3⟩ := bool_cast F a ⟨1, loc⟩ s (by rw [ha]; exact h7) rfl
  refine .inr ⟨1, c, s', ?_, r1, r2, rfl, ?_⟩
  · simp only [castExpr, Option.some.injEq, h5, if_false, if_true]
    rw [show sizeOf abi .bool = 1 by cases abi <;> rfl, hc]
    rfl
  · rw [slotVal, show bytes abi .bool = 1 by cases abi <;> rfl, r3, bitsVal_unsigned rfl, ha]
    have hlt := rd_lt s.mem (slotAddr s a) n
    rw [show (256 : Nat) = 2 ^ 8 by rfl, ← Nat.pow_mul, h6] at hlt
    rw [show 8 * n - 1 = f.mb + f.eb by omega] at hz
    unfold slotFlt at hz ⊢
    generalize rd s.mem (slotAddr s a) n = x at *
    have hcmp : Float.cmp f x 0 = .eq ↔ x = 0 := by
      have hp : 0 < 2 ^ (f.mb + f.eb) := Nat.pow_pos (by decide)
      rw [Nat.pow_succ] at hlt
      have hk0 : Float.key f 0 = 0 := by simp [Float.key]
      have hn0 : Float.isNaN f 0 = false := by simp [Float.isNaN, Float.man]
      constructor
      · intro h
        unfold Float.cmp at h
        split at h
        · cases h
        split at h
        · cases h
        split at h
        · rename_i hk
          rw [hk0] at hk
          have hm : x % 2 ^ (f.mb + f.eb) = 0 := by
            unfold Float.key at hk
            split at hk <;> omega
          have hd := Nat.div_add_mod x (2 ^ (f.mb + f.eb))
          have hq : x / 2 ^ (f.mb + f.eb) < 2 := Nat.div_lt_of_lt_mul (by omega)
          generalize 2 ^ (f.mb + f.eb) = P at *
          generalize x / P = q at *
          have : q = 0 ∨ q = 1 := by omega
          rcases this with rfl | rfl
          · omega
          · exfalso; apply hz; omega
        · cases h
      · rintro rfl
        simp [Float.cmp, hn0]
    by_cases h0 : x = 0
    · rw [if_pos h0, if_pos (hcmp.2 h0)]; rfl
    · rw [if_neg h0, if_neg (mt hcmp.1 h0)]; rfl

example : slotFlt 8 (twoSlots 0x3fe0000000000000 0) ⟨8, 8⟩ ≠ 2 ^ 63 ∧
    Float.cmp Float.f64 (slotFlt 8 (twoSlots 0x3fe0000000000000 0) ⟨8, 8⟩) 0 = .gt := by decide +kernel

/-- C74 fails: `(_Bool)-0.0` is 1. -/
theorem float_to_bool_violated : ¬ FloatToBool := by
  intro h
  have h1 := h .sysv anyFP .double Float.f64 8 ⟨8, 8⟩ 16 (twoSlots 0x8000000000000000 0) rfl rfl
  obtain ⟨s', o, ⟨h2, h3⟩, h4⟩ := convert_of (k := 1) h1 (by decide +kernel) (fun _ _ h => h.1)
  rw [slotVal, show bytes .sysv .bool = 1 by rfl, h4] at h3
  revert h3
  decide +kernel

/-- C74: between `float` and `double` the code is the machine's conversion. -/
theorem float_to_float (abi : Abi) (F : FP) (src dst : ST) (f g : Float.Fmt) (n m : Nat) (a : Slot) (loc : Nat)
    (s : State) (hf : fmtOf src = some (f, n)) (hg : fmtOf dst = some (g, m)) (hne : src ≠ dst) (ha : a.size = n) :
    Yields abi F (some src) (some dst) a loc s fun s' o =>
      o.size = m ∧ (src = .float → slotFlt m s' o = (F.widen (BitVec.ofNat 32 (slotFlt n s a))).toNat) ∧
      (src = .double → slotFlt m s' o = (F.narrow (BitVec.ofNat 64 (slotFlt n s a))).toNat) := by
  obtain ⟨h1, h2, h3, h4, h5, -, -⟩ := flt_facts (abi := abi) hf
  obtain ⟨g1, g2, g3, g4, g5, -, -⟩ := flt_facts (abi := abi) hg
  obtain ⟨c, hc, s', r1, r2, r3⟩ := float_cast F hf hg hne a ⟨m, loc⟩ s ha rfl
  refine .inr ⟨m, c, s', ?_, r1, r2, rfl, ?_, ?_⟩
  · simp only [castExpr, Option.some.injEq, hne, g5, if_false, intOrPtr, h2, g2, Bool.and_false, Bool.false_eq_true,
      floating, h1, g1, Bool.and_self, if_true, sizeT, g3, hc]
    rfl
  · rintro rfl
    rw [slotFlt, r3]
    cases dst <;> simp [fmtOf] at hg hne
    rfl
  · rintro rfl
    rw [slotFlt, r3]
    cases dst <;> simp [fmtOf] at hg hne
    rfl

example : fmtOf .float = some (Float.f32, 4) ∧ fmtOf .double = some (Float.f64, 8) := by decide

end Verif.Cast
