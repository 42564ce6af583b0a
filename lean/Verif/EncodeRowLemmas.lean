import Verif.EncodeLemmas
import Verif.EncodeTable
/-!
Lemmas for the correctness of the encoder: rows of the table against the opcode map.
-/
namespace Verif.Encode
open Verif Verif.EncodeSpec
open Verif.Asm (Reg)

/-! ### What a row has to satisfy -/

/-- No operand fits both the row and the mnemonic's position. -/
def disjoint (a : Acc) (s : Slot) : Bool :=
  match a, s with
  | .reg n, .int m => n != m
  | .reg n, .greg m => n != m
  | .reg _, _ => true
  | .modrm n, .greg m => n != m
  | .modrm _, .xmm => true
  | .xmm, .int _ => true
  | .xmm, .greg _ => true
  | .imm32s, .xmm => true
  | _, _ => false

theorem disjoint_spec {a : Acc} {s : Slot} {o : Operand} {r : Arg} {x : BitVec 64}
    (hd : disjoint a s = true) (h : doesMatch o a = .ok true) (hs : slotArg s (resolve x o) = some r) :
    False := by
  unfold disjoint at hd
  split at hd <;> cases o <;>
    simp only [doesMatch, Res.ok.injEq, beq_iff_eq, bne_iff_ne, ne_eq, Bool.false_eq_true, resolve,
      slotArg, reduceCtorEq] at h hd hs
  all_goals first
    | (rw [if_neg (by rw [h]; exact hd)] at hs; cases hs)
    | (subst h; simp_all; done)
    | (next l v => cases l <;> cases hs)

/-- An operand encoding, what it accepts, the mnemonic's position and the decoder's operand kind
belong together. -/
def agrees (oe : OE) (acc : Acc) (slot : Slot) (k : Kind) : Bool :=
  match oe, k with
  | .modrmRm, .E s =>
    ((slot == .int s || slot == .greg s) && (acc == .reg s || acc == .modrm s)) ||
    (slot == .star && s == 8 && acc == .regStar 8)
  | .modrmRm, .M => slot == .addr
  | .modrmRm, .W s => slot == .sse s || slot == .xmm
  | .modrmReg, .G s => (slot == .int s || slot == .greg s) && acc == .reg s
  | .modrmReg, .V => (match slot with | .sse _ => true | .xmm => true | _ => false) && acc == .xmm
  | .opext, .Z s => slot == .int s && acc == .reg s && s != 1
  | .none, .fixed n s => slot == .int s && ((acc == .rax s && n == 0) || (acc == .rcx s && n == 1))
  | .imm8, .I f s => f == 1 && slot == .int s &&
      ((acc == .imm8s && (s == 1 || s == 2 || s == 4 || s == 8)) || (acc == .imm8u && s == 1))
  | .imm16, .I f s => f == 2 && slot == .int s && s == 2 && (acc == .imm16s || acc == .imm16u)
  | .imm32, .I f s => f == 4 && slot == .int s &&
      ((s == 4 && (acc == .imm32s || acc == .imm32u)) || (s == 8 && acc == .imm32s))
  | .imm64, .I f s => f == 8 && slot == .int s && s == 8 && acc == .imm64
  | .rel32, .J => slot == .target && acc == .rel32
  | _, _ => false

/-- All operands. -/
def agreeAll : List OE → List Acc → List Slot → List Kind → Bool
  | [], [], [], [] => true
  | oe :: oes, a :: as, s :: ss, k :: ks => agrees oe a s k && agreeAll oes as ss ks
  | _, _, _, _ => false

/-- `imul` of a register by an immediate: the register is encoded twice. -/
def dupOk (e : Encoding) (m : String × Op × List Slot) (ks : List Kind) : Bool :=
  match e.operandEncoding.map OpEnc.type, e.operandAccepts, m.2.2, ks with
  | [.modrmRm, .modrmReg, oe], [a0, a], [s0, s], [k0, k1, k] =>
    a0 == .reg 8 && s0 == .int 8 && k0 == .G 8 && k1 == .E 8 && m.2.1 == .imul && agrees oe a s k
  | _, _, _, _ => false

/-- The operands of a row. -/
def kindsOk (e : Encoding) (m : String × Op × List Slot) (ks : List Kind) : Bool :=
  if e.operandEncoding.any OpEnc.duplicate then dupOk e m ks
  else agreeAll (e.operandEncoding.map OpEnc.type) e.operandAccepts m.2.2 ks &&
      !(m.2.1 == .imul && (e.operandEncoding.map OpEnc.type).any
        fun oe => oe == .imm8 || oe == .imm16 || oe == .imm32 || oe == .imm64)

/-- The row has an operand encoding of a type. -/
def hasEnc (e : Encoding) (t : OE) : Bool := (e.operandEncoding.map OpEnc.type).contains t

/-- The opcode with a register in it. -/
def opWith (e : Encoding) (x : Nat) : Byte :=
  if e.opcode = 0x0f then e.op2 else e.opcode ||| BitVec.ofNat 8 x

/-- A row against a meaning of its mnemonic. -/
def rowOk (e : Encoding) (m : String × Op × List Slot) : Bool :=
  ((e.operandAccepts.zip m.2.2).any fun p => disjoint p.1 p.2) ||
  (e.operandAccepts.length == m.2.2.length &&
   (!wideMnemonics.contains m.1 || (e.rexw && !hasEnc e .opext)) &&
   (!hasEnc e .modrmReg || e.modrmExtension == 0) &&
   ((if hasEnc e .modrmReg then List.range 8
     else if hasEnc e .modrmRm then [e.modrmExtension &&& 7] else [0]).all fun rf =>
    (if hasEnc e .opext then List.range 8 else [0]).all fun x =>
      plainOpcode e x && (!hasEnc e .opext || (opWith e x).extractLsb' 0 3 == BitVec.ofNat 3 x) &&
      hasModRM (decide (e.opcode = 0x0f)) (opWith e x) == some (hasEnc e .modrmRm) &&
      match lookup (pfxOf e) { w := e.rexw } (decide (e.opcode = 0x0f)) (opWith e x) rf with
      | some (op, ks) => op == m.2.1 && kindsOk e m ks
      | none => false))

/-- The operand encodings that occur. -/
def shapes : List (List OpEnc) :=
  [[], [⟨.modrmRm, false⟩], [⟨.opext, false⟩], [⟨.rel32, false⟩],
   [⟨.modrmRm, false⟩, ⟨.modrmReg, false⟩], [⟨.modrmReg, false⟩, ⟨.modrmRm, false⟩],
   [⟨.modrmRm, false⟩, ⟨.none, false⟩],
   [⟨.modrmRm, false⟩, ⟨.imm8, false⟩], [⟨.modrmRm, false⟩, ⟨.imm16, false⟩],
   [⟨.modrmRm, false⟩, ⟨.imm32, false⟩],
   [⟨.opext, false⟩, ⟨.imm32, false⟩], [⟨.opext, false⟩, ⟨.imm64, false⟩],
   [⟨.none, false⟩, ⟨.imm8, false⟩], [⟨.none, false⟩, ⟨.imm32, false⟩],
   [⟨.modrmRm, true⟩, ⟨.modrmReg, false⟩, ⟨.imm8, false⟩],
   [⟨.modrmRm, true⟩, ⟨.modrmReg, false⟩, ⟨.imm32, false⟩]]

theorem table_ok : (encodings.all fun e => mnemonics.all fun m => m.1 != e.mnemonic || rowOk e m) = true := by
  decide +kernel

theorem table_shapes : (encodings.all fun e => shapes.contains e.operandEncoding) = true := by
  decide +kernel

/-! ### Operands of a finished encoding -/

/-- The general conditions on the variables after the operand loop. -/
structure Done (e : Encoding) (P : Parts) : Prop where
  w : e.rexw = true → P.hasRex = true
  b : P.rexB ≤ 1
  r : P.rexR ≤ 1
  scale : P.sibScale = 0

/-- The REX prefix at the end. -/
theorem rexOf_finish {e : Encoding} {P : Parts} (h : Done e P) :
    (rexOf e (finishRex P)).w = e.rexw ∧ (rexOf e (finishRex P)).r = (P.rexR != 0) ∧
    (rexOf e (finishRex P)).x = false ∧ (rexOf e (finishRex P)).b = (P.rexB != 0) ∧
    (P.hasRex = true ∨ P.rexB ≠ 0 ∨ P.rexR ≠ 0 → (rexOf e (finishRex P)).present = true) := by
  unfold finishRex rexOf
  have hw := h.w
  by_cases h1 : P.rexB ≠ 0 ∨ P.rexR ≠ 0
  · rw [if_pos h1]
    simp
  · rw [if_neg h1]
    have hB : P.rexB = 0 := by omega
    have hR : P.rexR = 0 := by omega
    cases hx : P.hasRex
    · rw [hx] at hw
      have : e.rexw = false := by cases hh : e.rexw; rfl; exact absurd (hw hh) (by decide)
      simp [hB, hR, this]
    · simp [hB, hR]

/-- A general register. -/
theorem gpr_ok {e : Encoding} {P : Parts} {r : Reg} {s : Nat} (hD : Done e P)
    (hx : needsRex r false s = true → P.hasRex = true) :
    gprArg (rexOf e (finishRex P)) (regNumber r) s = .gpr (regNumber r) s := by
  unfold gprArg
  rw [if_neg]
  rintro ⟨h1, h2, h3, h4⟩
  have : P.hasRex = true := by
    apply hx
    subst h1
    cases r <;> simp [regNumber] at h3 h4 <;> decide
  have := (rexOf_finish hD).2.2.2.2 (.inl this)
  rw [this] at h2
  cases h2

/-- The register that asks for a REX prefix. -/
def rexOp : Operand → Bool
  | .reg r u s => needsRex r u s
  | _ => false

theorem askRex_eq (o : Operand) (p : Parts) : askRex o p = { p with hasRex := p.hasRex || rexOp o } := by
  unfold askRex rexOp
  cases o with
  | reg r u s =>
    simp only []
    split
    · next h => rw [h, Bool.or_true]
    · next h =>
      have h : needsRex r u s = false := by simpa using h
      rw [h, Bool.or_false]
  | _ => simp

/-- Operands other than immediates and jump targets. -/
def Still : Kind → Prop
  | .I _ _ => False
  | .J => False
  | _ => True

/-- The operand in ModRM.r/m. -/
theorem arg_rm {e : Encoding} {P : Parts} {o : Operand} {acc : Acc} {slot : Slot} {k : Kind} {a : Arg}
    {x : BitVec 64} (hD : Done e P) (hag : agrees .modrmRm acc slot k = true)
    (hm : doesMatch o acc = .ok true) (hs : slotArg slot (resolve x o) = some a)
    (hp : PlainMem o) (hu : NotUpper o) (hx : rexOp o = true → P.hasRex = true)
    (op : Byte) (rf : Nat) (bs : List Byte) :
    arg ⟨rexOf e (finishRex P), op, rf, rmOf o⟩ k bs = some (a, bs) := by
  unfold agrees at hag
  cases k <;> simp only [Bool.false_eq_true] at hag
  · next s =>
    simp only [Bool.or_eq_true, Bool.and_eq_true, beq_iff_eq] at hag
    cases o with
    | reg r u z =>
      have hu : u = false := hu
      subst hu
      have : z = s ∧ a = .gpr (regNumber r) z := by
        rcases hag with ⟨h1, h2⟩ | ⟨⟨h1, h2⟩, h3⟩
        · have hz : z = s := by
            rcases h2 with rfl | rfl <;> simpa [doesMatch] using hm
          refine ⟨hz, ?_⟩
          rcases h1 with rfl | rfl <;>
            simp only [resolve, slotArg, regArg, Bool.false_eq_true, if_false] at hs <;>
            (rw [if_pos hz] at hs; injection hs with hs; exact hs.symm)
        · subst h3; simp [doesMatch] at hm
      obtain ⟨rfl, rfl⟩ := this
      simp only [arg, rmOf]
      rw [gpr_ok hD hx]
    | star r z =>
      rcases hag with ⟨h1, h2⟩ | ⟨⟨rfl, rfl⟩, rfl⟩
      · rcases h2 with rfl | rfl <;> simp [doesMatch] at hm
      · have hz : z = 8 := by simpa [doesMatch] using hm
        subst hz
        simp only [resolve, slotArg, Option.some.injEq] at hs
        subst hs
        simp only [arg, rmOf, gprArg]
        rw [if_neg (by simp)]
    | mem i b sc off =>
      obtain ⟨hi, _⟩ := hp
      subst hi
      rcases hag with ⟨h1, h2⟩ | ⟨⟨h1, h2⟩, h3⟩
      · rcases h1 with rfl | rfl
        · cases b with
          | none => simp [resolve, slotArg, memArg] at hs
          | some b =>
            simp only [resolve, slotArg, memArg, Option.some.injEq] at hs
            subst hs
            rfl
        · simp [resolve, slotArg] at hs
      · subst h3; simp [doesMatch] at hm
    | _ =>
      rcases hag with ⟨h1, h2⟩ | ⟨⟨h1, h2⟩, h3⟩
      · rcases h2 with rfl | rfl <;> simp [doesMatch] at hm
      · subst h3; simp [doesMatch] at hm
  · simp only [beq_iff_eq] at hag
    subst hag
    cases o with
    | mem i b sc off =>
      obtain ⟨hi, _⟩ := hp
      subst hi
      cases b with
      | none => simp [resolve, slotArg, memArg] at hs
      | some b =>
        simp only [resolve, slotArg, memArg, Option.some.injEq] at hs
        subst hs
        rfl
    | imm l v => cases l <;> simp [resolve, slotArg] at hs
    | abs l v => cases l <;> simp [resolve, slotArg] at hs
    | _ => simp [resolve, slotArg] at hs
  · next s =>
    simp only [Bool.or_eq_true, beq_iff_eq] at hag
    cases o with
    | mem i b sc off =>
      obtain ⟨hi, _⟩ := hp
      subst hi
      rcases hag with rfl | rfl
      · cases b with
        | none => simp [resolve, slotArg, memArg] at hs
        | some b =>
          simp only [resolve, slotArg, memArg, Option.some.injEq] at hs
          subst hs
          rfl
      · simp [resolve, slotArg] at hs
    | sse i =>
      rcases hag with rfl | rfl <;> simp only [resolve, slotArg] at hs <;>
        (split at hs
         · injection hs with hs; subst hs; rfl
         · cases hs)
    | imm l v => rcases hag with rfl | rfl <;> cases l <;> simp [resolve, slotArg] at hs
    | abs l v => rcases hag with rfl | rfl <;> cases l <;> simp [resolve, slotArg] at hs
    | _ => rcases hag with rfl | rfl <;> simp [resolve, slotArg] at hs

/-- The number of a register operand. -/
def idxOf : Operand → Nat
  | .reg r _ _ => regNumber r
  | .star r _ => regNumber r
  | .sse i => i
  | _ => 0

/-- The operand in ModRM.reg. -/
theorem arg_reg {e : Encoding} {P : Parts} {o : Operand} {acc : Acc} {slot : Slot} {k : Kind} {a : Arg}
    {x : BitVec 64} (hD : Done e P) (hag : agrees .modrmReg acc slot k = true)
    (hm : doesMatch o acc = .ok true) (hs : slotArg slot (resolve x o) = some a)
    (hu : NotUpper o) (hx : rexOp o = true → P.hasRex = true) (hR : P.rexR = high (idxOf o))
    (op : Byte) (rf : Nat) (hrf : rf = idxOf o &&& 7) (rm : Rm) (bs : List Byte) :
    arg ⟨rexOf e (finishRex P), op, rf, rm⟩ k bs = some (a, bs) := by
  have hr := (rexOf_finish hD).2.1
  rw [hR] at hr
  subst hrf
  unfold agrees at hag
  cases k <;> simp only [Bool.false_eq_true] at hag
  · next s =>
    simp only [Bool.or_eq_true, Bool.and_eq_true, beq_iff_eq] at hag
    obtain ⟨h1, h2⟩ := hag
    subst h2
    cases o with
    | reg r u z =>
      have hu : u = false := hu
      subst hu
      have hz : z = s := by simpa [doesMatch] using hm
      have : a = .gpr (regNumber r) z := by
        rcases h1 with rfl | rfl <;>
          simp only [resolve, slotArg, regArg, Bool.false_eq_true, if_false] at hs <;>
          (rw [if_pos hz] at hs; injection hs with hs; exact hs.symm)
      subst this hz
      simp only [arg]
      rw [hr]
      simp only [idxOf]
      rw [(high_le (regNumber_lt r)).2, gpr_ok hD hx]
    | _ => simp [doesMatch] at hm
  · simp only [Bool.and_eq_true, beq_iff_eq] at hag
    obtain ⟨h1, h2⟩ := hag
    subst h2
    cases o with
    | sse i =>
      have : i < 16 ∧ a = .xmm i := by
        cases slot <;> simp only [Bool.false_eq_true] at h1 <;> simp only [resolve, slotArg] at hs <;>
          (split at hs
           · injection hs with hs; exact ⟨by assumption, hs.symm⟩
           · cases hs)
      obtain ⟨hi, rfl⟩ := this
      simp only [arg]
      rw [hr]
      simp only [idxOf]
      rw [(high_le hi).2]
    | _ => simp [doesMatch] at hm

/-- The register in the opcode. -/
theorem arg_opext {e : Encoding} {P : Parts} {o : Operand} {acc : Acc} {slot : Slot} {k : Kind} {a : Arg}
    {x : BitVec 64} (hD : Done e P) (hag : agrees .opext acc slot k = true)
    (hm : doesMatch o acc = .ok true) (hs : slotArg slot (resolve x o) = some a)
    (hu : NotUpper o) (hl : LowReg o) (hB : P.rexB = 0)
    (op : Byte) (hop : op.extractLsb' 0 3 = BitVec.ofNat 3 (idxOf o)) (rf : Nat) (rm : Rm)
    (bs : List Byte) :
    arg ⟨rexOf e (finishRex P), op, rf, rm⟩ k bs = some (a, bs) := by
  have hb := (rexOf_finish hD).2.2.2.1
  rw [hB] at hb
  unfold agrees at hag
  cases k <;> simp only [Bool.false_eq_true] at hag
  next s =>
    simp only [Bool.and_eq_true, beq_iff_eq, bne_iff_ne, ne_eq] at hag
    obtain ⟨⟨h1, h2⟩, h3⟩ := hag
    subst h1 h2
    cases o with
    | reg r u z =>
      have hu : u = false := hu
      subst hu
      have hz : z = s := by simpa [doesMatch] using hm
      have : a = .gpr (regNumber r) z := by
        simp only [resolve, slotArg, regArg, Bool.false_eq_true, if_false] at hs
        rw [if_pos hz] at hs; injection hs with hs; exact hs.symm
      subst this hz
      have hl : regNumber r < 8 := hl
      simp only [arg]
      rw [hb, hop]
      simp only [idxOf, gprArg]
      simp only [h3, false_and, if_false]
      have : (BitVec.ofNat 3 (regNumber r)).toNat = regNumber r := by
        rw [BitVec.toNat_ofNat]; exact Nat.mod_eq_of_lt hl
      rw [this]
      rfl
    | _ => simp [doesMatch] at hm

/-- An implied register. -/
theorem arg_none {e : Encoding} {P : Parts} {o : Operand} {acc : Acc} {slot : Slot} {k : Kind} {a : Arg}
    {x : BitVec 64} (hag : agrees .none acc slot k = true)
    (hm : doesMatch o acc = .ok true) (hs : slotArg slot (resolve x o) = some a)
    (hu : NotUpper o) (op : Byte) (rf : Nat) (rm : Rm) (bs : List Byte) :
    arg ⟨rexOf e (finishRex P), op, rf, rm⟩ k bs = some (a, bs) := by
  unfold agrees at hag
  cases k <;> simp only [Bool.false_eq_true] at hag
  next n s =>
    simp only [Bool.and_eq_true, Bool.or_eq_true, beq_iff_eq] at hag
    obtain ⟨h1, h2⟩ := hag
    subst h1
    rcases h2 with ⟨rfl, rfl⟩ | ⟨rfl, rfl⟩
    · cases o with
      | reg r u z =>
        have hu : u = false := hu
        subst hu
        simp only [doesMatch, Res.ok.injEq, Bool.and_eq_true, beq_iff_eq] at hm
        obtain ⟨hz, rfl⟩ := hm
        simp only [resolve, slotArg, regArg, Bool.false_eq_true, if_false] at hs
        rw [if_pos hz] at hs
        injection hs with hs
        subst hs hz
        rfl
      | _ => simp [doesMatch] at hm
    · cases o with
      | reg r u z =>
        have hu : u = false := hu
        subst hu
        simp only [doesMatch, Res.ok.injEq, Bool.and_eq_true, beq_iff_eq] at hm
        obtain ⟨hz, rfl⟩ := hm
        simp only [resolve, slotArg, regArg, Bool.false_eq_true, if_false] at hs
        rw [if_pos hz] at hs
        injection hs with hs
        subst hs hz
        rfl
      | _ => simp [doesMatch] at hm

/-- The value of an immediate once its label is known. -/
def immVal (x : BitVec 64) : Operand → BitVec 64
  | .imm none v => v
  | .imm (some _) _ => x
  | _ => 0

/-- Size of an immediate field. -/
def immField : OE → Nat
  | .imm8 => 1 | .imm16 => 2 | .imm32 => 4 | .imm64 => 8 | _ => 0

/-- The operand has a label. -/
def labelled : Operand → Bool
  | .imm (some _) _ => true
  | _ => false

/-- An immediate. -/
theorem arg_imm {f : Fields} {oe : OE} {o : Operand} {acc : Acc} {slot : Slot} {k : Kind} {a : Arg}
    {x : BitVec 64} (ho : immField oe ≠ 0) (hag : agrees oe acc slot k = true)
    (hm : doesMatch o acc = .ok true) (hs : slotArg slot (resolve x o) = some a)
    (hfit : labelled o = true → FitsField (immField oe) x) (bs : List Byte) :
    arg f k (le (immField oe) (immVal x o) ++ bs) = some (a, bs) := by
  -- the value is representable in the field, or the field is as wide as the operation
  have key : ∀ (n s : Nat) (l : Option Nat) (v : BitVec 64), o = .imm l v →
      immField oe = n → slot = .int s → (n = 1 ∨ n = 2 ∨ n = 4 ∨ n = 8) → (s = 1 ∨ s = 2 ∨ s = 4 ∨ s = 8) →
      (n = s ∨ FitsField n (immVal x o)) → arg f (.I n s) (le n (immVal x o) ++ bs) = some (a, bs) := by
    intro n s l v hov hn hsl hn' hs' hfit'
    subst hov hsl
    have ha : a = .imm s ((immVal x (.imm l v)).toNat % 256 ^ s) := by
      cases l <;> simp only [resolve, slotArg] at hs <;>
        (split at hs
         · injection hs with hs; exact hs.symm
         · cases hs)
    subst ha
    simp only [arg]
    rw [le_eq, field_fieldBytes]
    simp only [Option.map_some, Option.some.injEq, Prod.mk.injEq, Arg.imm.injEq, true_and, and_true]
    rcases hfit' with rfl | hfit'
    · exact signed_same n _
    · rw [signed_fits hn' hfit', toInt_mod hs']
  cases o with
  | imm l v =>
    have hfits : ∀ n, (n = 1 ∧ acc = .imm8s ∨ n = 4 ∧ acc = .imm32s) → immField oe = n →
        FitsField n (immVal x (.imm l v)) := by
      intro n hn hf
      cases l with
      | some l => rw [← hf]; exact hfit rfl
      | none =>
        rcases hn with ⟨rfl, rfl⟩ | ⟨rfl, rfl⟩ <;>
          simp only [doesMatch, Res.ok.injEq, Bool.and_eq_true, decide_eq_true_eq] at hm <;>
          simp only [FitsField, immVal] <;> simp <;> omega
    cases oe <;> simp only [immField, ne_eq, not_true_eq_false] at ho hfits ⊢ <;>
      unfold agrees at hag <;> cases k <;> simp only [Bool.false_eq_true] at hag <;>
      simp only [Bool.and_eq_true, Bool.or_eq_true, beq_iff_eq] at hag
    · obtain ⟨⟨rfl, rfl⟩, h⟩ := hag
      rcases h with ⟨ha, hsz⟩ | ⟨ha, rfl⟩
      · exact key 1 _ l v rfl rfl rfl (.inl rfl) (by omega) (.inr (hfits 1 (.inl ⟨rfl, ha⟩) rfl))
      · exact key 1 1 l v rfl rfl rfl (.inl rfl) (.inl rfl) (.inl rfl)
    · obtain ⟨⟨⟨rfl, rfl⟩, rfl⟩, h⟩ := hag
      exact key 2 2 l v rfl rfl rfl (by omega) (by omega) (.inl rfl)
    · obtain ⟨⟨rfl, rfl⟩, h⟩ := hag
      rcases h with ⟨rfl, ha⟩ | ⟨rfl, ha⟩
      · exact key 4 4 l v rfl rfl rfl (by omega) (by omega) (.inl rfl)
      · exact key 4 8 l v rfl rfl rfl (by omega) (by omega) (.inr (hfits 4 (.inr ⟨rfl, ha⟩) rfl))
    · obtain ⟨⟨⟨rfl, rfl⟩, rfl⟩, h⟩ := hag
      exact key 8 8 l v rfl rfl rfl (by omega) (by omega) (.inl rfl)
  | _ =>
    exfalso
    cases oe <;> simp only [immField, ne_eq, not_true_eq_false] at ho <;>
      unfold agrees at hag <;> cases k <;> simp only [Bool.false_eq_true] at hag <;>
      simp only [Bool.and_eq_true, Bool.or_eq_true, beq_iff_eq] at hag
    all_goals
      obtain ⟨_, h⟩ := hag
      first
        | (rcases h with ⟨ha, _⟩ | ⟨ha, _⟩ <;> subst ha <;> simp [doesMatch] at hm; done)
        | (rcases h with ⟨_, ha | ha⟩ | ⟨_, ha⟩ <;> subst ha <;> simp [doesMatch] at hm; done)
        | (rcases h with ha | ha <;> subst ha <;> simp [doesMatch] at hm; done)
        | (subst h; simp [doesMatch] at hm; done)

end Verif.Encode
