import Verif.EncodeSearchLemmas
/-!
Lemmas for the correctness of the encoder: what the decoder reads in each part of the output.
-/
namespace Verif.Encode
open Verif Verif.EncodeSpec
open Verif.Asm (Reg)

/-! ### Fields -/

theorem le_eq (n : Nat) (x : BitVec 64) : le n x = fieldBytes n x := by
  unfold le fieldBytes
  apply List.map_congr_left
  intro i _
  apply BitVec.eq_of_toNat_eq
  simp only [BitVec.toNat_setWidth, BitVec.toNat_ushiftRight, BitVec.toNat_ofNat,
    Nat.shiftRight_eq_div_pow, Nat.pow_mul]

theorem fieldBytes_succ (n : Nat) (x : BitVec 64) :
    fieldBytes (n + 1) x = BitVec.ofNat 8 x.toNat :: fieldBytes n (x >>> 8) := by
  unfold fieldBytes
  rw [List.range_succ_eq_map, List.map_cons, List.map_map]
  congr 1
  · simp
  · apply List.map_congr_left
    intro i _
    simp only [Function.comp_apply, BitVec.toNat_ushiftRight, Nat.shiftRight_eq_div_pow]
    rw [Nat.pow_succ, Nat.mul_comm, ← Nat.div_div_eq_div_mul]

theorem fieldBytes_length (n : Nat) (x : BitVec 64) : (fieldBytes n x).length = n := by
  simp [fieldBytes]

theorem field_fieldBytes (n : Nat) : ∀ (x : BitVec 64) (t : List Byte),
    field n (fieldBytes n x ++ t) = some (x.toNat % 256 ^ n, t) := by
  induction n with
  | zero => intro x t; simp [fieldBytes, field, Nat.mod_one]
  | succ n ih =>
    intro x t
    rw [fieldBytes_succ, List.cons_append, field, ih]
    simp only [Option.map_some, Option.some.injEq, Prod.mk.injEq, and_true, BitVec.toNat_ofNat,
      BitVec.toNat_ushiftRight, Nat.shiftRight_eq_div_pow]
    rw [show 256 ^ (n + 1) = 256 * 256 ^ n by rw [Nat.pow_succ, Nat.mul_comm], Nat.mod_mul]

theorem signed_mod (n v : Nat) : (signed n v) % (256 ^ n : Nat) = (v : Int) % (256 ^ n : Nat) := by
  unfold signed
  split
  · rfl
  · have : ((256 : Int) ^ n) = ((256 ^ n : Nat) : Int) := by simp
    rw [this, Int.sub_emod_right]

theorem signed_same (f : Nat) (x : BitVec 64) :
    ((signed f (x.toNat % 256 ^ f)) % 256 ^ f).toNat = x.toNat % 256 ^ f := by
  have h := signed_mod f (x.toNat % 256 ^ f)
  have e : ((256 : Int) ^ f) = ((256 ^ f : Nat) : Int) := by simp
  rw [e, h]
  have hp : (x.toNat % 256 ^ f) % 256 ^ f = x.toNat % 256 ^ f := Nat.mod_mod _ _
  rw [← Int.natCast_emod, hp, Int.toNat_natCast]

theorem signed_fits {f : Nat} (hf : f = 1 ∨ f = 2 ∨ f = 4 ∨ f = 8) {x : BitVec 64} (h : FitsField f x) :
    signed f (x.toNat % 256 ^ f) = x.toInt := by
  unfold FitsField at h
  have hx := x.isLt
  rw [BitVec.toInt_eq_toNat_cond] at h ⊢
  unfold signed
  rcases hf with rfl | rfl | rfl | rfl <;> simp at h ⊢ <;> omega

theorem toInt_mod {s : Nat} (hs : s = 1 ∨ s = 2 ∨ s = 4 ∨ s = 8) (x : BitVec 64) :
    (x.toInt % 256 ^ s).toNat = x.toNat % 256 ^ s := by
  have hx := x.isLt
  rw [BitVec.toInt_eq_toNat_cond]
  rcases hs with rfl | rfl | rfl | rfl <;> simp <;> omega

theorem displacement_fits {f : Nat} (hf : f = 1 ∨ f = 2 ∨ f = 4 ∨ f = 8) {x : BitVec 64}
    (h : FitsField f x) (t : List Byte) : displacement f (le f x ++ t) = some (x.toInt, t) := by
  rw [displacement, le_eq, field_fieldBytes]
  simp only [Option.map_some, signed_fits hf h]

theorem displacement_zero (t : List Byte) : displacement 0 t = some (0, t) := rfl

/-! ### Prefixes, REX and opcode -/

/-- The prefixes of a row. -/
def pfxOf (e : Encoding) : Prefixes := ⟨e.opSizePrefix, e.repnePrefix, e.repePrefix⟩

/-- The REX prefix that is written. -/
def rexOf (e : Encoding) (p : Parts) : Rex :=
  if p.hasRex then { present := true, w := e.rexw, r := p.rexR != 0, x := false, b := p.rexB != 0 }
  else {}

/-- The opcode byte that follows the escape, if any. -/
def opOf (e : Encoding) (p : Parts) : Byte :=
  if e.opcode = 0x0f then e.op2 else e.opcode ||| BitVec.ofNat 8 p.opExt

/-- What the decoder does after the opcode. -/
def decodeRest (p : Prefixes) (rex : Rex) (two : Bool) (op : Byte) (bs : List Byte) :
    Option (Insn × List Byte) := do
  let (reg, rm, bs) ← (if ← hasModRM two op then modRM rex bs else some (0, .reg 0, bs))
  let (o, kinds) ← lookup p rex two op reg
  let (as, bs) ← args ⟨rex, op, reg, rm⟩ kinds bs
  some (⟨o, as⟩, bs)

/-- The opcode byte is neither a prefix nor an escape to a three-byte map. -/
def plainOpcode (e : Encoding) (x : Nat) : Bool :=
  let b := e.opcode ||| BitVec.ofNat 8 x
  b != 0x66 && b != 0xf2 && b != 0xf3 && b.extractLsb' 4 4 != 4#4 &&
  (if e.opcode = 0x0f then x == 0 && e.op2 != 0x38 && e.op2 != 0x3a else b != 0x0f)

theorem prefixes_done (q : Prefixes) (b : Byte) (bs : List Byte)
    (h : b ≠ 0x66 ∧ b ≠ 0xf2 ∧ b ≠ 0xf3) : prefixes q (b :: bs) = (q, b :: bs) := by
  rw [prefixes, if_neg h.1, if_neg h.2.1, if_neg h.2.2]

theorem prefixes_bytes (e : Encoding) (b : Byte) (bs : List Byte)
    (h : b ≠ 0x66 ∧ b ≠ 0xf2 ∧ b ≠ 0xf3) :
    prefixes {} (prefixBytes e ++ (b :: bs)) = (pfxOf e, b :: bs) := by
  unfold prefixBytes pfxOf
  have a : ∀ q b' bs', prefixes q ((0x66 : Byte) :: b' :: bs') = prefixes { q with p66 := true } (b' :: bs') :=
    fun _ _ _ => rfl
  have c : ∀ q b' bs', prefixes q ((0xf2 : Byte) :: b' :: bs') = prefixes { q with pF2 := true } (b' :: bs') :=
    fun _ _ _ => rfl
  have d : ∀ q b' bs', prefixes q ((0xf3 : Byte) :: b' :: bs') = prefixes { q with pF3 := true } (b' :: bs') :=
    fun _ _ _ => rfl
  cases e.opSizePrefix <;> cases e.repnePrefix <;> cases e.repePrefix <;>
    simp only [Bool.false_eq_true, if_true, if_false, List.nil_append, List.cons_append, a, c, d] <;>
    rw [prefixes_done _ _ _ h]

/-- The REX byte. -/
def rexByte (e : Encoding) (p : Parts) : Byte :=
  (if e.rexw then 0x48 else 0x40) ||| BitVec.ofNat 8 p.rexB ||| BitVec.ofNat 8 (p.rexR <<< 2)

theorem rexByte_props (e : Encoding) (p : Parts) (hb : p.rexB ≤ 1) (hr : p.rexR ≤ 1) :
    (rexByte e p ≠ 0x66 ∧ rexByte e p ≠ 0xf2 ∧ rexByte e p ≠ 0xf3) ∧
    (rexByte e p).extractLsb' 4 4 = 4#4 ∧ (rexByte e p).getLsbD 3 = e.rexw ∧
    (rexByte e p).getLsbD 2 = (p.rexR != 0) ∧ (rexByte e p).getLsbD 1 = false ∧
    (rexByte e p).getLsbD 0 = (p.rexB != 0) := by
  have key : ∀ (w : Bool) (b r : Fin 2),
      let x : Byte := (if w then 0x48 else 0x40) ||| BitVec.ofNat 8 b.1 ||| BitVec.ofNat 8 (r.1 <<< 2)
      (x ≠ 0x66 ∧ x ≠ 0xf2 ∧ x ≠ 0xf3) ∧ x.extractLsb' 4 4 = 4#4 ∧ x.getLsbD 3 = w ∧
      x.getLsbD 2 = (r.1 != 0) ∧ x.getLsbD 1 = false ∧ x.getLsbD 0 = (b.1 != 0) := by decide
  exact key e.rexw ⟨p.rexB, by omega⟩ ⟨p.rexR, by omega⟩

theorem decode_head (e : Encoding) (p : Parts) (t : List Byte) (hb : p.rexB ≤ 1) (hr : p.rexR ≤ 1)
    (ho : plainOpcode e p.opExt = true) :
    decode (prefixBytes e ++ (rexBytes e p ++ (opcodeBytes e p ++ t))) =
      decodeRest (pfxOf e) (rexOf e p) (decide (e.opcode = 0x0f)) (opOf e p) t := by
  simp only [plainOpcode, Bool.and_eq_true, bne_iff_ne, ne_eq] at ho
  obtain ⟨⟨⟨⟨h1, h2⟩, h3⟩, h4⟩, h5⟩ := ho
  have hop : opcode (opcodeBytes e p ++ t) = some (decide (e.opcode = 0x0f), opOf e p, t) := by
    unfold opcodeBytes opOf
    by_cases h0 : e.opcode = 0x0f
    · rw [if_pos h0] at h5
      simp only [Bool.and_eq_true, bne_iff_ne, ne_eq, beq_iff_eq] at h5
      obtain ⟨⟨h5, h6⟩, h7⟩ := h5
      rw [if_pos h0, if_pos h0, if_neg (by simp only [h6, h7, or_self, not_false_eq_true]), h0, h5]
      simp only [List.cons_append, List.nil_append, opcode]
      rw [if_pos (by decide), if_neg (by simp only [h6, h7, or_self, not_false_eq_true])]
      simp
    · rw [if_neg h0] at h5
      simp only [bne_iff_ne, ne_eq] at h5
      rw [if_neg h0, if_neg h0]
      simp only [List.cons_append, List.nil_append, opcode]
      rw [if_neg h5, decide_eq_false h0]
  have hobs : ∃ u, opcodeBytes e p ++ t = (e.opcode ||| BitVec.ofNat 8 p.opExt) :: u := ⟨_, rfl⟩
  obtain ⟨u, hu⟩ := hobs
  have hrest : ∀ rex, (do
      let (two, op, bs) ← opcode (opcodeBytes e p ++ t)
      let (reg, rm, bs) ← (if ← hasModRM two op then modRM rex bs else some (0, .reg 0, bs))
      let (o, kinds) ← lookup (pfxOf e) rex two op reg
      let (as, bs) ← args ⟨rex, op, reg, rm⟩ kinds bs
      some (⟨o, as⟩, bs)) =
        decodeRest (pfxOf e) rex (decide (e.opcode = 0x0f)) (opOf e p) t := by
    intro rex
    rw [hop]
    rfl
  unfold rexBytes rexOf
  by_cases hx : p.hasRex = true
  · rw [if_pos hx, if_pos hx]
    obtain ⟨hp, hn, hw, hr', hx', hb'⟩ := rexByte_props e p hb hr
    rw [← hrest]
    show decode (prefixBytes e ++ (rexByte e p :: (opcodeBytes e p ++ t))) = _
    rw [decode, prefixes_bytes e _ _ hp]
    simp only []
    rw [rexPrefix, if_pos hn, hw, hr', hx', hb']
  · rw [if_neg hx, if_neg hx, ← hrest, List.nil_append]
    rw [decode, hu, prefixes_bytes e _ _ ⟨h1, h2, h3⟩]
    simp only []
    rw [rexPrefix, if_neg h4]

/-! ### ModRM -/

/-- The ModRM byte. -/
def modrmByte (ext reg mod rm : Nat) : Byte :=
  BitVec.ofNat 8 ((ext &&& 7) <<< 3) ||| BitVec.ofNat 8 ((reg &&& 7) <<< 3) |||
    BitVec.ofNat 8 ((mod &&& 3) <<< 6) ||| BitVec.ofNat 8 (rm &&& 7)

theorem and7_lt (n : Nat) : n &&& 7 < 8 := by
  have := Nat.and_two_pow_sub_one_eq_mod n 3
  simp only [show 2 ^ 3 - 1 = 7 by rfl, show 2 ^ 3 = 8 by rfl] at this
  omega

theorem and7_eq (n : Nat) : n &&& 7 = n % 8 := Nat.and_two_pow_sub_one_eq_mod n 3

theorem and3_lt (n : Nat) : n &&& 3 < 4 := by
  have := Nat.and_two_pow_sub_one_eq_mod n 2
  simp only [show 2 ^ 2 - 1 = 3 by rfl, show 2 ^ 2 = 4 by rfl] at this
  omega

theorem modrmByte_fields (ext reg mod rm : Nat) :
    ((modrmByte ext reg mod rm).extractLsb' 6 2).toNat = mod &&& 3 ∧
    ((modrmByte ext reg mod rm).extractLsb' 3 3).toNat = (ext &&& 7) ||| (reg &&& 7) ∧
    ((modrmByte ext reg mod rm).extractLsb' 0 3).toNat = rm &&& 7 := by
  have key : ∀ (a b : Fin 8) (c : Fin 4) (d : Fin 8),
      let x : Byte := BitVec.ofNat 8 (a.1 <<< 3) ||| BitVec.ofNat 8 (b.1 <<< 3) |||
        BitVec.ofNat 8 (c.1 <<< 6) ||| BitVec.ofNat 8 d.1
      (x.extractLsb' 6 2).toNat = c.1 ∧ (x.extractLsb' 3 3).toNat = a.1 ||| b.1 ∧
      (x.extractLsb' 0 3).toNat = d.1 := by decide +kernel
  exact key ⟨_, and7_lt ext⟩ ⟨_, and7_lt reg⟩ ⟨_, and3_lt mod⟩ ⟨_, and7_lt rm⟩

theorem registerIndex_eq (r : Reg) : registerIndex r = regNumber r := by cases r <;> rfl

theorem regNumber_lt (r : Reg) : regNumber r < 16 := by cases r <;> decide

theorem high_le {i : Nat} (h : i < 16) : high i ≤ 1 ∧ ext (high i != 0) (i &&& 7) = i := by
  have key : ∀ j : Fin 16, high j.1 ≤ 1 ∧ ext (high j.1 != 0) (j.1 &&& 7) = j.1 := by decide
  exact key ⟨i, h⟩

/-- The variables that describe the r/m operand. -/
structure RmF where
  mod : Nat
  rm : Nat
  rexB : Nat
  hasSib : Bool
  sibIndex : Nat
  sibBase : Nat
  hasDisp8 : Bool
  hasDisp32 : Bool
  disp : BitVec 64

/-- The r/m operand is described by `f`. -/
def setRm (p : Parts) (f : RmF) : Parts :=
  { p with hasModrm := true, modrmMod := f.mod, modrmRm := f.rm, rexB := f.rexB, hasSib := f.hasSib,
           sibIndex := f.sibIndex, sibBase := f.sibBase, hasDisp8 := f.hasDisp8,
           hasDisp32 := f.hasDisp32, disp := f.disp }

/-- The SIB byte of `f`. -/
def sibOf (f : RmF) : List Byte :=
  if f.hasSib then
    [BitVec.ofNat 8 ((0 &&& 3) <<< 6) ||| BitVec.ofNat 8 ((f.sibIndex &&& 7) <<< 3) |||
     BitVec.ofNat 8 (f.sibBase &&& 7)]
  else []

/-- The displacement of `f`. -/
def dispOf (f : RmF) : List Byte :=
  if f.hasDisp8 then le 1 f.disp else if f.hasDisp32 then le 4 f.disp else []

/-- The decoder reads `rm` from the bytes that `f` describes. -/
def RmGood (f : RmF) (rm : Rm) : Prop :=
  f.rexB ≤ 1 ∧ ∀ (ex reg : Nat) (rex : Rex) (t : List Byte), rex.x = false → rex.b = (f.rexB != 0) →
    modRM rex (modrmByte ex reg f.mod f.rm :: (sibOf f ++ (dispOf f ++ t))) =
      some ((ex &&& 7) ||| (reg &&& 7), rm, t)

/-- The machine operand of an r/m operand. -/
def rmOf : Operand → Rm
  | .reg r _ _ => .reg (regNumber r)
  | .star r _ => .reg (regNumber r)
  | .sse i => .reg i
  | .mem _ b _ off => .mem (b.map regNumber) none off.toInt
  | _ => .reg 0

theorem good_reg {i b : Nat} (hi : i < 16) (hb : b ≤ 1) (he : ext (b != 0) (i &&& 7) = i)
    (s1 s2 : Nat) (d : BitVec 64) :
    RmGood ⟨3, i, b, false, s1, s2, false, false, d⟩ (.reg i) := by
  refine ⟨hb, ?_⟩
  intro ex reg rex t hx hrb
  obtain ⟨h1, h2, h3⟩ := modrmByte_fields ex reg 3 i
  simp only [sibOf, dispOf, Bool.false_eq_true, if_false, List.nil_append]
  rw [modRM, h1, h2, h3]
  simp only [show (3 &&& 3) = 3 by rfl, if_true, hrb, he]

/-- A memory operand without SIB byte. -/
theorem good_mem {i b : Nat} (hi : i < 16) (hb : b ≤ 1) (he : ext (b != 0) (i &&& 7) = i)
    (h4 : i &&& 7 ≠ 4) (m n : Nat) (h8 h32 : Bool) (d : BitVec 64) (v : Int)
    (hm : m < 3) (h5 : ¬ (i &&& 7 = 5 ∧ m = 0))
    (hn : n = if m = 0 then 0 else if m = 1 then 1 else 4)
    (hd : ∀ t, displacement n ((if h8 then le 1 d else if h32 then le 4 d else []) ++ t) = some (v, t))
    (s1 s2 : Nat) :
    RmGood ⟨m, i &&& 7, b, false, s1, s2, h8, h32, d⟩ (.mem (some i) none v) := by
  refine ⟨hb, ?_⟩
  intro ex reg rex t hx hrb
  obtain ⟨h1, h2, h3⟩ := modrmByte_fields ex reg m (i &&& 7)
  have e3 : m &&& 3 = m := by
    have := Nat.and_two_pow_sub_one_eq_mod m 2
    simp only [show 2 ^ 2 - 1 = 3 by rfl, show 2 ^ 2 = 4 by rfl] at this
    omega
  have e7 : (i &&& 7) &&& 7 = i &&& 7 := by rw [and7_eq, and7_eq]; omega
  rw [e3] at h1
  rw [e7] at h3
  simp only [sibOf, dispOf, Bool.false_eq_true, if_false, List.nil_append]
  rw [modRM, h1, h2, h3]
  simp only []
  rw [if_neg (show m ≠ 3 by omega), if_neg h4, if_neg h5, ← hn, hd t, hrb, he]
  rfl

/-- A memory operand based on `%rsp` or `%r12`. -/
theorem good_sib {b : Nat} (hb : b ≤ 1)
    (m n : Nat) (h8 h32 : Bool) (d : BitVec 64) (v : Int) (hm : m < 3)
    (hn : n = if m = 0 then 0 else if m = 1 then 1 else 4)
    (hd : ∀ t, displacement n ((if h8 then le 1 d else if h32 then le 4 d else []) ++ t) = some (v, t)) :
    RmGood ⟨m, 4, b, true, 4, 4, h8, h32, d⟩ (.mem (some (ext (b != 0) 4)) none v) := by
  refine ⟨hb, ?_⟩
  intro ex reg rex t hx hrb
  obtain ⟨h1, h2, h3⟩ := modrmByte_fields ex reg m 4
  have e3 : m &&& 3 = m := by
    have := Nat.and_two_pow_sub_one_eq_mod m 2
    simp only [show 2 ^ 2 - 1 = 3 by rfl, show 2 ^ 2 = 4 by rfl] at this
    omega
  rw [e3] at h1
  have hs : sibOf ⟨m, 4, b, true, 4, 4, h8, h32, d⟩ = [(0x24 : Byte)] := by
    simp only [sibOf, if_true]; decide
  rw [hs]
  simp only [dispOf, List.cons_append, List.nil_append]
  rw [modRM, h1, h2, h3]
  simp only []
  rw [if_neg (show m ≠ 3 by omega), if_pos (show (4 &&& 7) = 4 from rfl), ← hn]
  rw [if_neg (show ¬ (((0x24 : Byte).extractLsb' 0 3).toNat = 5 ∧ m = 0) by
    intro h; exact absurd h.1 (by decide))]
  rw [hd t, hrb, hx]
  rfl

theorem getDispSize_ok {off : BitVec 64} {n : Nat} (h : getDispSize off = .ok n) :
    (n = 0 ∧ off = 0) ∨ (n = 1 ∧ off ≠ 0 ∧ FitsField 1 off) ∨ (n = 4 ∧ off ≠ 0 ∧ FitsField 4 off) := by
  unfold getDispSize at h
  have h0 : off.toInt = 0 ↔ off = 0 := by
    constructor
    · intro h; apply BitVec.eq_of_toInt_eq; rw [h]; rfl
    · intro h; rw [h]; rfl
  split at h
  · next hz => injection h with h; exact .inl ⟨h.symm, h0.1 hz⟩
  · next hz =>
    have hz' : off ≠ 0 := fun hh => hz (h0.2 hh)
    split at h
    · next hr => injection h with h; exact .inr (.inl ⟨h.symm, hz', by unfold FitsField; simp; omega⟩)
    · split at h
      · next hr => injection h with h; exact .inr (.inr ⟨h.symm, hz', by unfold FitsField; simp; omega⟩)
      · cases h

/-- The variables of the r/m operand are still unset. -/
def Fresh (p : Parts) : Prop :=
  p.rexB = 0 ∧ p.modrmMod = 0 ∧ p.modrmRm = 0 ∧ p.hasSib = false ∧ p.hasDisp8 = false ∧
  p.hasDisp32 = false ∧ p.disp = 0

theorem sib_step {i b : Option Reg} {off : BitVec 64} {p p1 : Parts} {sc : Nat}
    (hp : PlainMem (.mem i b sc off)) (hf : Fresh p)
    (h : encodeSib i b off { p with hasModrm := true } = .ok p1) :
    ∃ f, p1 = setRm p f ∧ RmGood f (rmOf (.mem i b sc off)) := by
  obtain ⟨hi, hz⟩ := hp
  obtain ⟨f1, f2, f3, f4, f5, f6, f7⟩ := hf
  subst hi
  unfold encodeSib at h
  obtain ⟨n, hn, h⟩ := Res.bind_eq_ok.1 h
  cases b with
  | none => cases h
  | some b =>
    simp only [] at h
    have hidx := high_le (regNumber_lt b)
    have hd0 : ∀ t, displacement 0 ((if false = true then le 1 off else if false = true then le 4 off else []) ++ t)
        = some (0, t) := fun t => rfl
    rcases getDispSize_ok hn with ⟨rfl, rfl⟩ | ⟨rfl, hne, hfit⟩ | ⟨rfl, hne, hfit⟩
    · rw [if_pos rfl] at h
      split at h
      · next hb =>
        injection h with h
        subst h
        refine ⟨⟨0, 4, if b = .r12 then 1 else p.rexB, true, 4, 4, p.hasDisp8, p.hasDisp32, p.disp⟩, rfl, ?_⟩
        rw [f1, f5, f6]
        have := good_sib (b := if b = .r12 then 1 else 0) (by split <;> omega) 0 0 false false p.disp 0
          (by omega) rfl (fun t => rfl)
        rcases hb with rfl | rfl <;> exact this
      · split at h
        · next hb => exact absurd ⟨by rcases hb with rfl | rfl <;> simp, rfl⟩ hz
        · next hb1 hb2 =>
          injection h with h
          subst h
          refine ⟨⟨0, registerIndex b &&& 7, high (registerIndex b), p.hasSib, p.sibIndex, p.sibBase,
            p.hasDisp8, p.hasDisp32, p.disp⟩, rfl, ?_⟩
          rw [f4, f5, f6, registerIndex_eq]
          exact good_mem (regNumber_lt b) hidx.1 hidx.2
            (by cases b <;> simp [regNumber] at hb1 ⊢) 0 0 false false _ 0 (by omega)
            (by cases b <;> simp [regNumber] at hb2 ⊢) rfl (fun t => rfl) _ _
    · rw [if_neg (by decide), if_pos (by decide)] at h
      have hd := displacement_fits (f := 1) (.inl rfl) hfit
      split at h
      · next hb =>
        injection h with h
        subst h
        refine ⟨⟨1, 4, if b = .r12 then 1 else p.rexB, true, 4, 4, true, p.hasDisp32, off⟩, rfl, ?_⟩
        rw [f1, f6]
        have := good_sib (b := if b = .r12 then 1 else 0) (by split <;> omega) 1 1 true false off off.toInt
          (by omega) rfl (fun t => hd t)
        rcases hb with rfl | rfl <;> exact this
      · next hb1 =>
        injection h with h
        subst h
        refine ⟨⟨1, registerIndex b &&& 7, high (registerIndex b), p.hasSib, p.sibIndex, p.sibBase,
          true, p.hasDisp32, off⟩, rfl, ?_⟩
        rw [f4, f6, registerIndex_eq]
        exact good_mem (regNumber_lt b) hidx.1 hidx.2
          (by cases b <;> simp [regNumber] at hb1 ⊢) 1 1 true false _ _ (by omega)
          (by omega) rfl (fun t => hd t) _ _
    · rw [if_neg (by decide), if_neg (by decide), if_pos (by decide)] at h
      have hd := displacement_fits (f := 4) (.inr (.inr (.inl rfl))) hfit
      split at h
      · next hb =>
        injection h with h
        subst h
        refine ⟨⟨2, 4, if b = .r12 then 1 else p.rexB, true, 4, 4, p.hasDisp8, true, off⟩, rfl, ?_⟩
        rw [f1, f5]
        have := good_sib (b := if b = .r12 then 1 else 0) (by split <;> omega) 2 4 false true off off.toInt
          (by omega) rfl (fun t => hd t)
        rcases hb with rfl | rfl <;> exact this
      · next hb1 =>
        injection h with h
        subst h
        refine ⟨⟨2, registerIndex b &&& 7, high (registerIndex b), p.hasSib, p.sibIndex, p.sibBase,
          p.hasDisp8, true, off⟩, rfl, ?_⟩
        rw [f4, f5, registerIndex_eq]
        exact good_mem (regNumber_lt b) hidx.1 hidx.2
          (by cases b <;> simp [regNumber] at hb1 ⊢) 2 4 false true _ _ (by omega)
          (by omega) rfl (fun t => hd t) _ _

/-- The number of a register operand is below 16, and below 8 unless a REX prefix is already
being written. -/
def RmReg (hasRex : Bool) : Operand → Prop
  | .reg r _ _ => hasRex = true ∨ regNumber r < 8
  | .star r _ => hasRex = true ∨ regNumber r < 8
  | .sse i => i < 16 ∧ (hasRex = true ∨ i < 8)
  | _ => True

theorem rm_step {e : Encoding} {o : Operand} {p p1 : Parts}
    (hp : PlainMem o) (hf : Fresh p) (hr : RmReg p.hasRex o)
    (h : encodeOperand e .modrmRm o p = .ok p1) :
    ∃ f, p1 = setRm p f ∧ RmGood f (rmOf o) := by
  have hreg : ∀ i, i < 16 → (p.hasRex = true ∨ i < 8) →
      ∃ f, ({ p with hasModrm := true, modrmMod := 3, modrmRm := i,
                     rexB := if p.hasRex then high i else p.rexB } : Parts) = setRm p f ∧
        RmGood f (.reg i) := by
    intro i hi hr
    obtain ⟨f1, f2, f3, f4, f5, f6, f7⟩ := hf
    refine ⟨⟨3, i, if p.hasRex then high i else p.rexB, p.hasSib, p.sibIndex, p.sibBase, p.hasDisp8,
      p.hasDisp32, p.disp⟩, rfl, ?_⟩
    rw [f4, f5, f6]
    have := high_le hi
    apply good_reg hi
    · split <;> omega
    · split
      · exact this.2
      · next hh =>
        have hlt : i < 8 := by rcases hr with h | h; exact absurd h hh; exact h
        rw [f1, and7_eq]
        show i % 8 = i
        omega
  unfold encodeOperand at h
  cases o with
  | reg r u s =>
    injection h with h
    subst h
    rw [registerIndex_eq]
    exact hreg _ (regNumber_lt r) hr
  | star r s =>
    injection h with h
    subst h
    rw [registerIndex_eq]
    exact hreg _ (regNumber_lt r) hr
  | sse i =>
    injection h with h
    subst h
    exact hreg _ hr.1 hr.2
  | mem i b sc off => exact sib_step hp hf h
  | empty => cases h
  | imm _ _ => cases h
  | abs _ _ => cases h

end Verif.Encode
