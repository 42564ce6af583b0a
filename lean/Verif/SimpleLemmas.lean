import Verif.SimpleSpec
/-! Helper lemmas about the model of simple types and constants. -/
namespace Verif.Simple
open Verif SimpleSpec

theorem and_mask (x : BitVec 64) (w : Nat) (m : BitVec 64) (hm : m.toNat = 2 ^ w - 1) :
    (x &&& m).toNat = x.toNat % 2 ^ w := by
  rw [BitVec.toNat_and, hm, Nat.and_two_pow_sub_one_eq_mod]

/-- The four target widths: masks as the code computes them. -/
inductive Masks : Nat → BitVec 64 → BitVec 64 → Prop
  | b8 : Masks 8 0x80#64 0x7f#64
  | b16 : Masks 16 0x8000#64 0x7fff#64
  | b32 : Masks 32 0x80000000#64 0x7fffffff#64
  | b64 : Masks 64 0x8000000000000000#64 0x7fffffffffffffff#64

theorem conv_ring (y a b : BitVec 64) : -((a + 1) - (y - b)) = y - (a + b + 1) := by grind

theorem toInt_small (y : BitVec 64) (h : y.toNat < 2 ^ 63) : y.toInt = y.toNat := by
  rw [BitVec.toInt_eq_toNat_cond]; split <;> omega

theorem toInt_sub_pow (y m : BitVec 64) (M : Nat) (hM : m.toNat = M) (h1 : M ≤ 2 ^ 63) (h : y.toNat < M)
    : (y - m).toInt = (y.toNat : Int) - M := by
  have hn : (y - m).toNat = 2 ^ 64 - M + y.toNat := by
    rw [BitVec.toNat_sub, hM]; omega
  rw [BitVec.toInt_eq_toNat_cond, hn]
  split <;> omega

theorem convUI_eq {w rmin rmax} (h : Masks w rmin rmax) (x : BitVec 64) :
    (convUI x rmin rmax).toInt = if x.toNat % 2 ^ w < 2 ^ (w - 1) then ((x.toNat % 2 ^ w : Nat) : Int)
      else ((x.toNat % 2 ^ w : Nat) : Int) - 2 ^ w := by
  unfold convUI
  simp only [conv_ring]
  cases h
  · have := and_mask x 8 (0x80#64 + 0x7f#64) (by decide)
    generalize x &&& (0x80#64 + 0x7f#64) = y at *
    rw [← this]
    by_cases hy : y.toNat < 2 ^ 7
    · rw [if_neg (by simp; omega), toInt_small _ (by omega), if_pos (by omega)]
    · rw [if_pos (by simp; omega), toInt_sub_pow _ _ (2 ^ 8) (by decide) (by decide) (by omega),
        if_neg (by omega)]; rfl
  · have := and_mask x 16 (0x8000#64 + 0x7fff#64) (by decide)
    generalize x &&& (0x8000#64 + 0x7fff#64) = y at *
    rw [← this]
    by_cases hy : y.toNat < 2 ^ 15
    · rw [if_neg (by simp; omega), toInt_small _ (by omega), if_pos (by omega)]
    · rw [if_pos (by simp; omega), toInt_sub_pow _ _ (2 ^ 16) (by decide) (by decide) (by omega),
        if_neg (by omega)]; rfl
  · have := and_mask x 32 (0x80000000#64 + 0x7fffffff#64) (by decide)
    generalize x &&& (0x80000000#64 + 0x7fffffff#64) = y at *
    rw [← this]
    by_cases hy : y.toNat < 2 ^ 31
    · rw [if_neg (by simp; omega), toInt_small _ (by omega), if_pos (by omega)]
    · rw [if_pos (by simp; omega), toInt_sub_pow _ _ (2 ^ 32) (by decide) (by decide) (by omega),
        if_neg (by omega)]; rfl
  · have := and_mask x 64 (0x8000000000000000#64 + 0x7fffffffffffffff#64) (by decide)
    generalize x &&& (0x8000000000000000#64 + 0x7fffffffffffffff#64) = y at *
    rw [← this]
    by_cases hy : y.toNat < 2 ^ 63
    · rw [if_neg (by simp; omega), toInt_small _ (by omega), if_pos (by omega)]
    · rw [if_pos (by simp; omega), if_neg (by omega),
        show (0x8000000000000000#64 + 0x7fffffffffffffff#64 + 1) = 0#64 by decide, BitVec.sub_zero,
        BitVec.toInt_eq_toNat_cond, if_neg (by omega)]; rfl

theorem convUI_spec {w rmin rmax} (h : Masks w rmin rmax) (x : BitVec 64) :
    (-2 ^ (w - 1) ≤ (convUI x rmin rmax).toInt ∧ (convUI x rmin rmax).toInt < 2 ^ (w - 1)) ∧
      (2 ^ w : Int) ∣ ((convUI x rmin rmax).toInt - x.toNat) := by
  rw [convUI_eq h]
  cases h <;> split <;> omega

theorem toNat_toInt_dvd (x : BitVec 64) (w : Nat) (hw : w ≤ 64) :
    (2 ^ w : Int) ∣ ((x.toNat : Int) - x.toInt) := by
  have h : (2 ^ w : Int) ∣ 2 ^ 64 := by
    exact_mod_cast Nat.pow_dvd_pow 2 hw
  rw [BitVec.toInt_eq_toNat_cond]
  split
  · simp
  · have : ((x.toNat : Int) - ((x.toNat : Int) - ((2 ^ 64 : Nat) : Int))) = 2 ^ 64 := by omega
    rw [this]; exact h

/-- What the mask computations yield for the integer types other than `_Bool`. -/
theorem target_masks (abi : Abi) (t : ST) (ht : IsInt t) (hb : t ≠ .bool) :
    ∃ r rmin rmax, getRange abi t (-1) = .ok r ∧ minMask r = .ok rmin ∧ maxMask r = .ok rmax ∧
      isSigned t = .ok (signed t) ∧ width abi t ≤ 64 ∧
      (signed t = true → Masks (width abi t) rmin rmax) ∧
      (signed t = false → rmin = 0 ∧ rmax.toNat = 2 ^ width abi t - 1) := by
  revert ht hb
  cases abi <;> cases t <;> intro ht hb <;>
    first
    | exact absurd ht (by decide)
    | exact absurd rfl hb
    | exact ⟨_, _, _, rfl, rfl, rfl, rfl, by decide, (fun h => absurd h (by decide)), fun _ => by decide⟩
    | exact ⟨_, _, _, rfl, rfl, rfl, rfl, by decide, (fun _ => .b8), fun h => absurd h (by decide)⟩
    | exact ⟨_, _, _, rfl, rfl, rfl, rfl, by decide, (fun _ => .b16), fun h => absurd h (by decide)⟩
    | exact ⟨_, _, _, rfl, rfl, rfl, rfl, by decide, (fun _ => .b32), fun h => absurd h (by decide)⟩
    | exact ⟨_, _, _, rfl, rfl, rfl, rfl, by decide, (fun _ => .b64), fun h => absurd h (by decide)⟩

theorem masks_sum {w rmin rmax} (h : Masks w rmin rmax) : (rmax + rmin).toNat = 2 ^ w - 1 := by
  cases h <;> decide

theorem convII_eq {w rmin rmax} (h : Masks w rmin rmax) (x : BitVec 64) :
    (convII x rmin rmax).toInt = (convUI x rmin rmax).toInt := by
  unfold convII convIU
  rw [convUI_eq h, convUI_eq h, and_mask x w _ (masks_sum h), Nat.mod_mod]

theorem isSigned_int (t : ST) (ht : IsInt t) : isSigned t = .ok (signed t) := by
  cases t <;> first | rfl | exact absurd ht (by decide)

theorem isInteger_iff (t : ST) : isInteger t = true ↔ IsInt t := by
  cases t <;> decide

theorem val_dvd (c : Const) (w : Nat) (hw : w ≤ 64) : (2 ^ w : Int) ∣ ((c.bits.toNat : Int) - val c) := by
  unfold val
  split
  · exact toNat_toInt_dvd _ _ hw
  · simp

theorem dvd_trans_sub {m a b c : Int} (h1 : m ∣ a - b) (h2 : m ∣ b - c) : m ∣ a - c := by
  have := Int.dvd_add h1 h2
  rwa [show a - b + (b - c) = a - c by omega] at this

/-- Signed target: range and congruence. -/
theorem conv_signed {abi t rmin rmax} (hs : signed t = true) (h : Masks (width abi t) rmin rmax)
    (hw : width abi t ≤ 64) (c : Const) :
    InRange abi t (convUI c.bits rmin rmax).toInt ∧
      (2 ^ width abi t : Int) ∣ ((convUI c.bits rmin rmax).toInt - val c) := by
  obtain ⟨h1, h2⟩ := convUI_spec h c.bits
  refine ⟨by simp only [InRange, inBits, hs, if_true]; exact h1, dvd_trans_sub h2 (val_dvd c _ hw)⟩

/-- Unsigned target: range and congruence. -/
theorem conv_unsigned {abi t} {rmax : BitVec 64} (hs : signed t = false)
    (h : rmax.toNat = 2 ^ width abi t - 1) (hw : width abi t ≤ 64) (c : Const) :
    InRange abi t (c.bits &&& rmax).toNat ∧
      (2 ^ width abi t : Int) ∣ (((c.bits &&& rmax).toNat : Int) - val c) := by
  have hm := and_mask c.bits _ rmax h
  have hp : 0 < 2 ^ width abi t := Nat.pow_pos (by decide)
  refine ⟨?_, dvd_trans_sub (b := c.bits.toNat) ?_ (val_dvd c _ hw)⟩
  · simp only [InRange, inBits, hs, hm]
    have := Nat.mod_lt c.bits.toNat hp
    refine ⟨by omega, ?_⟩
    exact_mod_cast this
  · rw [hm]
    have hd : (2 ^ width abi t) ∣ c.bits.toNat - c.bits.toNat % 2 ^ width abi t := Nat.dvd_sub_mod _
    have hle : c.bits.toNat % 2 ^ width abi t ≤ c.bits.toNat := Nat.mod_le _ _
    have hd' : ((2 ^ width abi t : Nat) : Int) ∣ ((c.bits.toNat - c.bits.toNat % 2 ^ width abi t : Nat) : Int) :=
      Int.ofNat_dvd.2 hd
    rw [Int.ofNat_sub hle] at hd'
    have := (Int.dvd_neg).2 hd'
    rw [Int.neg_sub] at this
    simpa using this

/-! ### Integer constants -/

theorem digit_table : ∀ c : Byte,
    (∀ b : Base, accepts b c = match dval c with | some v => decide (v < radix b) | none => false) ∧
    digitVal c = BitVec.ofNat 64 ((dval c).getD 0) := by
  have h : ∀ c : Byte,
    (∀ b ∈ [Base.dec, .hex, .oct, .bin],
      accepts b c = match dval c with | some v => decide (v < radix b) | none => false) ∧
    digitVal c = BitVec.ofNat 64 ((dval c).getD 0) := by decide +kernel
  intro c
  exact ⟨fun b => (h c).1 b (by cases b <;> simp), (h c).2⟩

theorem accepts_digit {b : Base} {c : Byte} (h : IsDigit b c) : accepts b c = true := by
  obtain ⟨v, h1, h2⟩ := h
  rw [(digit_table c).1 b, h1]; simpa using h2

theorem baseMul_radix (b : Base) : baseMul b = BitVec.ofNat 64 (radix b) := by cases b <;> rfl

theorem digits_spec (b : Base) (ds rest : Str) (h : ∀ c ∈ ds, IsDigit b c)
    (hr : ∀ c ∈ rest.head?, accepts b c = false) (acc : Nat) :
    digits b (BitVec.ofNat 64 acc) (ds ++ rest) =
      (BitVec.ofNat 64 (ds.foldl (fun a c => a * radix b + (dval c).getD 0) acc), rest) := by
  induction ds generalizing acc with
  | nil =>
    cases rest with
    | nil => rfl
    | cons c cs => simp [digits, hr c (by simp)]
  | cons c cs ih =>
    have hc := accepts_digit (h c (by simp))
    have hv := (digit_table c).2
    simp only [List.cons_append, digits, hc, if_true, List.foldl_cons]
    rw [← ih (fun c hc => h c (by simp [hc])), hv, baseMul_radix, BitVec.ofNat_add, BitVec.ofNat_mul]

/-- What the suffix loop makes of a spelling, and that its first character ends the digits. -/
theorem suffix_table (s : Suffix) (sp : Str) (h : sp ∈ spellings s) (u : Bool) :
    suffix { uns := u } sp = .ok
      { uns := u || decide (s ∈ [Suffix.u, .ul, .ull]),
        sig := decide (s ∉ [Suffix.u, .ul, .ull]),
        int := decide (s ∈ [Suffix.none, .u]),
        long := decide (s ∈ [Suffix.none, .u, .l, .ul]) } ∧
    (∀ b : Base, ∀ c ∈ sp.head?, accepts b c = false) ∧
    sp.any (fun c => !(c = ch 'u' || c = ch 'U' || c = ch 'l' || c = ch 'L')) = false ∧
    ∀ c ∈ sp.head?, (between '0' '9' c || between 'a' 'f' c || between 'A' 'F' c) = false := by
  have key : ∀ s ∈ [Suffix.none, .u, .l, .ul, .ll, .ull], ∀ sp ∈ spellings s, ∀ u ∈ [true, false],
    suffix { uns := u } sp = .ok
      { uns := u || decide (s ∈ [Suffix.u, .ul, .ull]),
        sig := decide (s ∉ [Suffix.u, .ul, .ull]),
        int := decide (s ∈ [Suffix.none, .u]),
        long := decide (s ∈ [Suffix.none, .u, .l, .ul]) } ∧
    (∀ b ∈ [Base.dec, .hex, .oct, .bin], ∀ c ∈ sp.head?, accepts b c = false) ∧
    sp.any (fun c => !(c = ch 'u' || c = ch 'U' || c = ch 'l' || c = ch 'L')) = false ∧
    ∀ c ∈ sp.head?, (between '0' '9' c || between 'a' 'f' c || between 'A' 'F' c) = false := by
    decide +kernel
  obtain ⟨k1, k2, k3, k4⟩ := key s (by cases s <;> simp) sp h u (by cases u <;> simp)
  exact ⟨k1, fun b => k2 b (by cases b <;> simp), k3, k4⟩

theorem pickType_spec (abi : Abi) (dec : Bool) (s : Suffix) (n : Nat) (hn : n < 2 ^ 64) :
    pickType abi (BitVec.ofNat 64 n)
      { uns := !dec || decide (s ∈ [Suffix.u, .ul, .ull]),
        sig := decide (s ∉ [Suffix.u, .ul, .ull]),
        int := decide (s ∈ [Suffix.none, .u]),
        long := decide (s ∈ [Suffix.none, .u, .l, .ul]) } =
    match constantType abi dec s n with
    | some t => .ok ⟨t, BitVec.ofNat 64 n⟩
    | none => .fail := by
  have hv : (BitVec.ofNat 64 n).toNat = n := by simp; omega
  have e1 : getTypeMax abi .int = .ok 0x7fffffff#64 := by cases abi <;> decide
  have e2 : getTypeMax abi .uint = .ok 0xffffffff#64 := by cases abi <;> decide
  have e3 : getTypeMax abi .llong = .ok 0x7fffffffffffffff#64 := by cases abi <;> decide
  have e4 : getTypeMax abi .ullong = .ok 0xffffffffffffffff#64 := by cases abi <;> decide
  have i1 : decide (InRange abi .int n) = decide (n < 2 ^ 31) := by
    cases abi <;> simp [InRange, inBits, signed, width] <;> omega
  have i2 : decide (InRange abi .uint n) = decide (n < 2 ^ 32) := by
    cases abi <;> simp [InRange, inBits, signed, width] <;> omega
  have i3 : decide (InRange abi .llong n) = decide (n < 2 ^ 63) := by
    cases abi <;> simp [InRange, inBits, signed, width] <;> omega
  have i4 : decide (InRange abi .ullong n) = true := by
    cases abi <;> simp [InRange, inBits, signed, width] <;> omega
  have m1 : (n ≤ (0x7fffffff#64).toNat) = (decide (n < 2 ^ 31) = true) := by
    rw [decide_eq_true_eq]; apply propext; simp; omega
  have m2 : (n ≤ (0xffffffff#64).toNat) = (decide (n < 2 ^ 32) = true) := by
    rw [decide_eq_true_eq]; apply propext; simp; omega
  have m3 : (n ≤ (0x7fffffffffffffff#64).toNat) = (decide (n < 2 ^ 63) = true) := by
    rw [decide_eq_true_eq]; apply propext; simp; omega
  have m4 : (n ≤ (0xffffffffffffffff#64).toNat) = True := by
    apply propext; simp; omega
  cases abi
  · have e5 : getTypeMax .sysv .long = .ok 0x7fffffffffffffff#64 := by decide
    have e6 : getTypeMax .sysv .ulong = .ok 0xffffffffffffffff#64 := by decide
    have i5 : decide (InRange .sysv .long n) = decide (n < 2 ^ 63) := by
      simp [InRange, inBits, signed, width]; omega
    have i6 : decide (InRange .sysv .ulong n) = true := by
      simp [InRange, inBits, signed, width]; omega
    simp only [pickType, e1, e2, e3, e4, e5, e6, Res.bind_ok, hv, m1, m2, m3, m4, constantType]
    obtain ⟨f, hf⟩ : ∃ f : ST → Bool, f = fun t => decide (InRange .sysv t n) := ⟨_, rfl⟩
    have hf' : ∀ t, decide (InRange .sysv t n) = f t := fun t => by rw [hf]
    rw [hf'] at i1 i2 i3 i4 i5 i6
    rw [← hf]
    clear hf hf' e1 e2 e3 e4 e5 e6 m1 m2 m3 m4 hv hn
    generalize decide (n < 2 ^ 31) = x1 at *
    generalize decide (n < 2 ^ 32) = x2 at *
    generalize decide (n < 2 ^ 63) = x3 at *
    generalize BitVec.ofNat 64 n = v
    cases x1 <;> cases x2 <;> cases x3 <;>
      cases dec <;> cases s <;> simp [candidates, List.find?, i1, i2, i3, i4, i5, i6]
  · have e5 : getTypeMax .ms .long = .ok 0x7fffffff#64 := by decide
    have e6 : getTypeMax .ms .ulong = .ok 0xffffffff#64 := by decide
    have i5 : decide (InRange .ms .long n) = decide (n < 2 ^ 31) := by
      simp [InRange, inBits, signed, width]; omega
    have i6 : decide (InRange .ms .ulong n) = decide (n < 2 ^ 32) := by
      simp [InRange, inBits, signed, width]; omega
    simp only [pickType, e1, e2, e3, e4, e5, e6, Res.bind_ok, hv, m1, m2, m3, m4, constantType]
    obtain ⟨f, hf⟩ : ∃ f : ST → Bool, f = fun t => decide (InRange .ms t n) := ⟨_, rfl⟩
    have hf' : ∀ t, decide (InRange .ms t n) = f t := fun t => by rw [hf]
    rw [hf'] at i1 i2 i3 i4 i5 i6
    rw [← hf]
    clear hf hf' e1 e2 e3 e4 e5 e6 m1 m2 m3 m4 hv hn
    generalize decide (n < 2 ^ 31) = x1 at *
    generalize decide (n < 2 ^ 32) = x2 at *
    generalize decide (n < 2 ^ 63) = x3 at *
    generalize BitVec.ofNat 64 n = v
    cases x1 <;> cases x2 <;> cases x3 <;>
      cases dec <;> cases s <;> simp [candidates, List.find?, i1, i2, i3, i4, i5, i6]

/-! ### Folding -/

/-- Types an operand can have after the integer promotions. -/
def Promoted (t : ST) : Prop := t ∈ [ST.int, .uint, .long, .ulong, .llong, .ullong]

instance (t : ST) : Decidable (Promoted t) := by unfold Promoted; infer_instance

theorem promoted_int {t : ST} (h : Promoted t) : IsInt t ∧ t ≠ .bool := by
  revert h; cases t <;> decide

theorem promoted_width {abi t} (h : Promoted t) : width abi t = 32 ∨ width abi t = 64 := by
  revert h; cases abi <;> cases t <;> decide

theorem toInt_ofInt64 (v : Int) (h : -2 ^ 63 ≤ v ∧ v < 2 ^ 63) : (BitVec.ofInt 64 v).toInt = v := by
  rw [BitVec.toInt_ofInt, Int.bmod_def]; omega

theorem toInt_ofInt_range {w : Nat} (hw : w = 32 ∨ w = 64) (v : Int) (h : inBits true w v) :
    (BitVec.ofInt w v).toInt = v := by
  simp only [inBits, if_true] at h
  rcases hw with rfl | rfl <;> (rw [BitVec.toInt_ofInt, Int.bmod_def]; omega)

theorem toNat_ofInt_range {w : Nat} (hw : w = 32 ∨ w = 64) (v : Int) (h : inBits false w v) :
    ((BitVec.ofInt w v).toNat : Int) = v := by
  simp only [inBits] at h
  rcases hw with rfl | rfl <;> (rw [BitVec.toNat_ofInt]; simp at h ⊢; omega)

theorem int64_ok {abi t} (hp : Promoted t) (hs : signed t = true) {v : Int} (h : InRange abi t v) :
    int64 v = .ok (BitVec.ofInt 64 v) ∧ (BitVec.ofInt 64 v).toInt = v := by
  have hr : -2 ^ 63 ≤ v ∧ v < 2 ^ 63 := by
    simp only [InRange, inBits, hs, if_true] at h
    rcases promoted_width (abi := abi) hp with hw | hw <;> rw [hw] at h <;> omega
  exact ⟨by simp only [int64]; exact if_pos hr, toInt_ofInt64 v hr⟩

/-- Bits of a valid signed constant are the sign extension of its `w`-bit pattern. -/
theorem bits_signExtend {abi} {c : Const} (hp : Promoted c.ty) (hs : signed c.ty = true)
    (h : Valid abi c) : c.bits = (BitVec.ofInt (width abi c.ty) (val c)).signExtend 64 := by
  apply BitVec.eq_of_toInt_eq
  have hw := promoted_width (abi := abi) hp
  have h2 := h.2
  simp only [InRange, hs] at h2
  rw [BitVec.toInt_signExtend_of_le (by omega), toInt_ofInt_range hw _ h2]
  simp [val, hs]

/-- Bits of a valid unsigned constant are the zero extension of its `w`-bit pattern. -/
theorem bits_setWidth {abi} {c : Const} (hp : Promoted c.ty) (hs : signed c.ty = false)
    (h : Valid abi c) : c.bits = (BitVec.ofInt (width abi c.ty) (val c)).setWidth 64 := by
  apply BitVec.eq_of_toNat_eq
  have hw := promoted_width (abi := abi) hp
  have h2 := h.2
  simp only [InRange, hs] at h2
  have h3 := toNat_ofInt_range hw _ h2
  have h4 : val c = c.bits.toNat := by simp [val, hs]
  rw [BitVec.toNat_setWidth]
  have := c.bits.isLt
  omega

theorem normalize_unsigned {abi} {c : Const} (hp : Promoted c.ty) (hs : signed c.ty = false) :
    ∃ b, normalize abi c = .ok { c with bits := b } ∧ b.toNat = c.bits.toNat % 2 ^ width abi c.ty := by
  obtain ⟨hi, hb⟩ := promoted_int hp
  obtain ⟨r, rmin, rmax, h1, h2, h3, h4, h5, h6, h7⟩ := target_masks abi c.ty hi hb
  refine ⟨convUU c.bits rmax, ?_, and_mask _ _ _ (h7 hs).2⟩
  simp [normalize, (isInteger_iff c.ty).2 hi, h1, h2, h3, h4, hs]

/-- The outcome of an unsigned non-comparison, once the 64-bit result is known. -/
theorem unsigned_result {abi} {op : Op} {l r : Const} {x : BitVec 64} (hp : Promoted l.ty)
    (hs : signed l.ty = false) (hty : l.ty = r.ty) (hf : foldUnsigned op l.bits r.bits = .ok x)
    (hc : isCompare op = false) (v : Int) (hv : v = ((x.toNat % 2 ^ width abi l.ty : Nat) : Int)) :
    ∃ c, foldBinary abi op l r = .ok (some c) ∧ c.ty = l.ty ∧ val c = v ∧ Valid abi c := by
  obtain ⟨hi, hb⟩ := promoted_int hp
  obtain ⟨b, h1, h2⟩ := normalize_unsigned (abi := abi) (c := ⟨l.ty, x⟩) hp hs
  have hrt : resultType op l.ty = l.ty := by cases op <;> first | rfl | (simp [isCompare] at hc)
  have hval : val ⟨l.ty, b⟩ = v := by simp only [val, hs, h2, hv]; simp
  refine ⟨⟨l.ty, b⟩, ?_, rfl, hval, hi, ?_⟩
  · simp [foldBinary, ← hty, (isInteger_iff l.ty).2 hi, isSigned_int l.ty hi, hs, hf, hc, hrt, h1]
  · rw [hval, hv]
    simp only [InRange, inBits, hs]
    have := Nat.mod_lt x.toNat (Nat.pow_pos (n := width abi l.ty) (show 0 < 2 by decide))
    exact ⟨by omega, by exact_mod_cast this⟩

/-- The outcome of a signed operator, once the 64-bit result is known. -/
theorem signed_result {abi} {op : Op} {l r : Const} {x : BitVec 64} (hp : Promoted l.ty)
    (hs : signed l.ty = true) (hty : l.ty = r.ty) (hf : foldSigned op l.bits r.bits = .ok x)
    (hc : isCompare op = false) (hz : ¬ (op = .div ∧ r.bits = 0)) (v : Int) (hv : v = x.toInt)
    (hr : InRange abi l.ty v) :
    ∃ c, foldBinary abi op l r = .ok (some c) ∧ c.ty = l.ty ∧ val c = v ∧ Valid abi c := by
  obtain ⟨hi, hb⟩ := promoted_int hp
  have hrt : resultType op l.ty = l.ty := by cases op <;> first | rfl | (simp [isCompare] at hc)
  have hval : val ⟨l.ty, x⟩ = v := by simp only [val, hs, hv]; simp
  refine ⟨⟨l.ty, x⟩, ?_, rfl, hval, hi, by rw [hval]; exact hr⟩
  simp only [foldBinary, ← hty, (isInteger_iff l.ty).2 hi, isSigned_int l.ty hi, hs, or_self]
  simp [hf, hrt]
  exact fun h1 h2 => hz ⟨h1, h2⟩

/-- The outcome of a comparison. -/
theorem compare_result {abi} {op : Op} {l r : Const} {b : Bool} (hp : Promoted l.ty)
    (hty : l.ty = r.ty) (hc : isCompare op = true)
    (hf : (if signed l.ty then foldSigned op l.bits r.bits else foldUnsigned op l.bits r.bits) =
      .ok (ofBool b)) :
    ∃ c, foldBinary abi op l r = .ok (some c) ∧ c.ty = .int ∧ val c = (if b then 1 else 0) ∧
      Valid abi c := by
  obtain ⟨hi, hb⟩ := promoted_int hp
  have hrt : resultType op l.ty = .int := by cases op <;> first | rfl | (simp [isCompare] at hc)
  refine ⟨⟨.int, ofBool b⟩, ?_, rfl, by cases b <;> rfl, by cases abi <;> cases b <;> decide⟩
  have hd : op ≠ .div := by rintro rfl; simp [isCompare] at hc
  cases hs : signed l.ty with
  | true =>
    rw [hs] at hf
    simp only [if_true] at hf
    simp [foldBinary, ← hty, (isInteger_iff l.ty).2 hi, isSigned_int l.ty hi, hs, hf, hrt, hd]
  | false =>
    rw [hs] at hf
    simp only [Bool.false_eq_true, if_false] at hf
    simp [foldBinary, ← hty, (isInteger_iff l.ty).2 hi, isSigned_int l.ty hi, hs, hf, hrt, hc]

theorem pow_dvd64 {w : Nat} (hw : w = 32 ∨ w = 64) : 2 ^ w ∣ 2 ^ 64 := by
  rcases hw with rfl | rfl <;> decide

/-- A natural number reduced to 64 and then to `w` bits, as an integer. -/
theorem mod64_mod {w : Nat} (hw : w = 32 ∨ w = 64) (n : Nat) :
    ((n % 2 ^ 64 % 2 ^ w : Nat) : Int) = (n : Int) % 2 ^ w := by
  rw [Nat.mod_mod_of_dvd _ (pow_dvd64 hw)]; simp

/-! ### Common types -/

theorem pow_le_pow_int {a b : Nat} : (2 : Int) ^ a ≤ 2 ^ b ↔ a ≤ b := by
  constructor
  · intro h
    have : 2 ^ a ≤ 2 ^ b := by exact_mod_cast h
    exact (Nat.pow_le_pow_iff_right (by decide)).1 this
  · intro h
    have : 2 ^ a ≤ 2 ^ b := (Nat.pow_le_pow_iff_right (by decide)).2 h
    exact_mod_cast this

/-- Which widths a type can represent. -/
theorem represents_iff (abi : Abi) (t : ST) (s : Bool) (w : Nat) :
    Represents abi t s w ↔
      (match s, signed t with
       | true, true => w - 1 ≤ width abi t - 1
       | true, false => False
       | false, true => w ≤ width abi t - 1
       | false, false => w ≤ width abi t) := by
  have p : ∀ n : Nat, (0 : Int) < 2 ^ n := fun n => Int.pow_pos (by decide)
  simp only [Represents, InRange, inBits]
  cases s <;> cases h : signed t <;> simp only [if_true, Bool.false_eq_true, if_false]
  · constructor
    · intro H
      have := H (2 ^ w - 1) ⟨by have := p w; omega, by omega⟩
      exact pow_le_pow_int.1 (by omega)
    · intro hw v hv
      have := pow_le_pow_int.2 hw
      omega
  · constructor
    · intro H
      have := H (2 ^ w - 1) ⟨by have := p w; omega, by omega⟩
      exact pow_le_pow_int.1 (by omega)
    · intro hw v hv
      have := pow_le_pow_int.2 hw
      have := p (width abi t - 1)
      omega
  · constructor
    · intro H
      have := H (-1) ⟨by have := p (w - 1); omega, by have := p (w - 1); omega⟩
      omega
    · exact fun h => h.elim
  · constructor
    · intro H
      have := H (-2 ^ (w - 1)) ⟨by omega, by have := p (w - 1); omega⟩
      exact pow_le_pow_int.1 (by omega)
    · intro hw v hv
      have := pow_le_pow_int.2 hw
      omega

instance (abi t s w) : Decidable (Represents abi t s w) :=
  @decidable_of_iff _ _ (represents_iff abi t s w).symm (by cases s <;> cases signed t <;> infer_instance)

instance (abi t w t') : Decidable (IsPromotion abi t w t') := by unfold IsPromotion; infer_instance
instance (abi a b t) : Decidable (IsCommon abi a b t) := by unfold IsCommon; infer_instance

instance : DecidableEq (ST × Int) := inferInstance

/-- Promotion of an operand that is not a bit-field, on LP64. -/
theorem promote_plain (t : ST) (h : Arithmetic t) :
    ∃ t', promote .sysv t (-1) = .ok (t', -1) ∧ IsPromotion .sysv t (width .sysv t) t' := by
  revert h
  cases t <;> first
    | (intro h; exact absurd h (by decide))
    | (intro _; exact ⟨_, rfl, by decide⟩)

/-- Promotion of a bit-field: to `int`, except for a 32-bit `unsigned`. -/
theorem promote_bitfield (abi : Abi) (t : ST) (ht : t = .bool ∨ t = .int ∨ t = .uint) (w : Nat)
    (hw : 1 ≤ w ∧ w ≤ width abi t) :
    (promote abi t w = .ok (.int, -1) ∧ IsPromotion abi t w .int) ∨
    (w = 32 ∧ t = .uint ∧ promote abi t w = .ok (.uint, 32) ∧ IsPromotion abi t w .uint) := by
  have hn : ((w : Int) = -1) = False := eq_false (by omega)
  rcases ht with rfl | rfl | rfl
  · left
    refine ⟨?_, ?_⟩
    · have : w = 1 := by simp [width] at hw; omega
      subst this; cases abi <;> decide
    · have : w = 1 := by simp [width] at hw; omega
      subst this; cases abi <;> decide
  · left
    have hw2 : w ≤ 32 := hw.2
    refine ⟨?_, ?_⟩
    · simp [promote, isInteger, isContainedIn, getRange, isSigned, hn, sizeOf]; omega
    · refine ⟨fun _ => ?_, fun h => absurd (show IsInt .int by decide) h⟩
      simp only [Nat.le_refl, if_true]
      exact ⟨fun _ => by trivial, fun h => absurd ((represents_iff _ _ _ _).2 (by simp [signed, width]; omega)) h⟩
  · have hw2 : w ≤ 32 := hw.2
    by_cases h32 : w = 32
    · right
      subst h32
      exact ⟨rfl, rfl, by cases abi <;> decide, by cases abi <;> decide⟩
    · left
      refine ⟨?_, ?_⟩
      · simp [promote, isInteger, isContainedIn, getRange, isSigned, hn, sizeOf]; omega
      · refine ⟨fun _ => ?_, fun h => absurd (show IsInt .uint by decide) h⟩
        simp only [rank, Nat.le_refl, if_true]
        exact ⟨fun _ => by trivial, fun h => absurd ((represents_iff _ _ _ _).2 (by simp [signed, width]; omega)) h⟩

/-- The table of common types of promoted operands, LP64. -/
theorem common_table (a b : ST) (ha : Arithmetic a ∧ (rank a ≥ 3 ∨ ¬ IsInt a))
    (hb : Arithmetic b ∧ (rank b ≥ 3 ∨ ¬ IsInt b))
    (bfa bfb : Int) (hba : bfa = -1 ∨ (a = .uint ∧ bfa = 32)) (hbb : bfb = -1 ∨ (b = .uint ∧ bfb = 32)) :
    ∃ t, arithType .sysv a bfa b bfb = .ok t ∧ IsCommon .sysv a b t := by
  have key : ∀ a b, Arithmetic a ∧ (rank a ≥ 3 ∨ ¬ IsInt a) → Arithmetic b ∧ (rank b ≥ 3 ∨ ¬ IsInt b) →
      (∃ t, arithType .sysv a (-1) b (-1) = .ok t ∧ IsCommon .sysv a b t) ∧
      (a = .uint → arithType .sysv a 32 b (-1) = arithType .sysv a (-1) b (-1)) ∧
      (b = .uint → arithType .sysv a (-1) b 32 = arithType .sysv a (-1) b (-1)) ∧
      (a = .uint → b = .uint → arithType .sysv a 32 b 32 = arithType .sysv a (-1) b (-1)) := by
    clear ha hb hba hbb a b
    intro a b ha hb
    cases a <;> first
      | exact absurd ha (by decide)
      | (clear ha
         cases b <;> first
           | exact absurd hb (by decide)
           | exact ⟨⟨_, rfl, by decide⟩, by decide, by decide, by decide⟩)
  obtain ⟨k1, k2, k3, k4⟩ := key a b ha hb
  rcases hba with rfl | ⟨ha', rfl⟩ <;> rcases hbb with rfl | ⟨hb', rfl⟩
  · exact k1
  · rw [k3 hb']; exact k1
  · rw [k2 ha']; exact k1
  · rw [k4 ha' hb']; exact k1

end Verif.Simple
