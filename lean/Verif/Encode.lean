import Verif.Asm
/-!
Model of src/assembler/encode.c: the instruction encoder that turns a mnemonic and its
operands into machine code with relocations.

The 130 rows of the encoding table are in `EncodeTable.lean`.  Operands are in the order in
which the encoder receives them (destination first; src/assembler/assembler.c:177-182 reverses
the AT&T order of the code generator).
-/
namespace Verif.Encode
open Verif
open Verif.Asm (Reg)

/-- src/assembler/assembler.h:31-60 `struct operand`.  A label is `none` for `label_id` −1 and
a register is `none` for `REG_NONE`; `int` sizes, scales and SSE register numbers are natural
numbers; offsets are the 64-bit words of the structure. -/
inductive Operand where
  /-- `OPERAND_EMPTY` -/
  | empty
  /-- `OPERAND_REG` -/
  | reg (r : Reg) (upper : Bool) (size : Nat)
  /-- `OPERAND_SSE_REG` -/
  | sse (i : Nat)
  /-- `OPERAND_STAR_REG` -/
  | star (r : Reg) (size : Nat)
  /-- `OPERAND_IMM_LABEL` -/
  | imm (label : Option Nat) (off : BitVec 64)
  /-- `OPERAND_IMM_LABEL_ABSOLUTE` -/
  | abs (label : Option Nat) (off : BitVec 64)
  /-- `OPERAND_MEM` -/
  | mem (index base : Option Reg) (scale : Nat) (off : BitVec 64)
  deriving DecidableEq, Repr, Inhabited

/-- src/assembler/instructions.h:6-23 the `type` of `struct operand_encoding`.  (`OE_REL8` and
`OE_REL16` occur in no row and only reach the `ICE` of the default case; they are one
constructor here.) -/
inductive OE where
  | empty | none | modrmReg | modrmRm | imm8 | imm16 | imm32 | imm64 | relOther | rel32 | opext
  deriving DecidableEq, Repr, Inhabited

/-- src/assembler/instructions.h:6-23 `struct operand_encoding`. -/
structure OpEnc where
  type : OE
  duplicate : Bool
  deriving DecidableEq, Repr, Inhabited

/-- src/assembler/instructions.h:25-54 `struct operand_accepts` (`relOther`: `ACC_REL8`,
`ACC_REL16`). -/
inductive Acc where
  | empty
  | rax (size : Nat) | rcx (size : Nat) | reg (size : Nat) | regStar (size : Nat)
  | imm8s | imm16s | imm32s | imm8u | imm16u | imm32u | imm64
  | relOther | rel32
  | modrm (size : Nat)
  | xmm | xmmM32 | xmmM64 | xmmM128
  deriving DecidableEq, Repr, Inhabited

/-- src/assembler/instructions.h:76-86 `struct encoding`.  The arrays of four operand
descriptions are lists, padded with the zero (`EMPTY`) description by `pad4`. -/
structure Encoding where
  mnemonic : String
  opcode : Byte
  op2 : Byte := 0
  op3 : Byte := 0
  rex : Bool := false
  rexw : Bool := false
  modrmExtension : Nat := 0
  slashR : Bool := false
  opSizePrefix : Bool := false
  repnePrefix : Bool := false
  repePrefix : Bool := false
  operandEncoding : List OpEnc := []
  operandAccepts : List Acc := []
  deriving Repr, Inhabited

/-- An array of four elements whose tail is zero-initialised. -/
def pad4 {α : Type} (z : α) (l : List α) : List α := (l ++ [z, z, z, z]).take 4

/-- src/assembler/encode.h:7-20 `struct relocation` (the constant `type` is left out). -/
structure Rel where
  offset : Nat
  size : Nat
  relative : Bool
  label : Nat
  imm : BitVec 64
  deriving DecidableEq, Repr, Inhabited

/-- src/assembler/encode.c:9-18 `get_disp_size`. -/
def getDispSize (disp : BitVec 64) : Res Nat :=
  if disp.toInt = 0 then .ok 0
  else if -128 ≤ disp.toInt ∧ disp.toInt ≤ 127 then .ok 1
  else if -2147483648 ≤ disp.toInt ∧ disp.toInt ≤ 2147483647 then .ok 4
  else .fail

/-- src/assembler/encode.c:20-26 `needs_rex`. -/
def needsRex (r : Reg) (upper : Bool) (size : Nat) : Bool :=
  (size == 1 && !upper) && (r == .rsp || r == .rdi || r == .rbp || r == .rsi)

/-- src/assembler/encode.c:28-48 `register_index`. -/
def registerIndex : Reg → Nat
  | .rax => 0 | .rbx => 3 | .rcx => 1 | .rdx => 2 | .rsi => 6 | .rdi => 7 | .rbp => 5 | .rsp => 4
  | .r8 => 8 | .r9 => 9 | .r10 => 10 | .r11 => 11 | .r12 => 12 | .r13 => 13 | .r14 => 14 | .r15 => 15

/-- src/assembler/encode.c:161-188 the local variables of `assemble_encoding`.  `rex_x` is
assigned (by `encode_sib`) and never read; `sib_scale` is never assigned. -/
structure Parts where
  hasImm8 : Bool := false
  hasImm16 : Bool := false
  hasImm32 : Bool := false
  hasImm64 : Bool := false
  imm : BitVec 64 := 0
  immLabel : Option Nat := none
  hasRex : Bool := false
  rexB : Nat := 0
  rexR : Nat := 0
  rexX : Nat := 0
  hasModrm : Bool := false
  modrmReg : Nat := 0
  modrmMod : Nat := 0
  modrmRm : Nat := 0
  hasDisp8 : Bool := false
  hasDisp32 : Bool := false
  disp : BitVec 64 := 0
  hasSib : Bool := false
  sibIndex : Nat := 0
  sibScale : Nat := 0
  sibBase : Nat := 0
  opExt : Nat := 0
  hasRel32 : Bool := false
  rel : BitVec 32 := 0
  relLabel : Option Nat := none
  deriving DecidableEq, Repr, Inhabited

/-- The bit that goes to a REX prefix: `(index & 0x8) >> 3`. -/
def high (i : Nat) : Nat := (i &&& 8) >>> 3

/-- src/assembler/encode.c:50-157 `encode_sib`, for a memory operand. -/
def encodeSib (index base : Option Reg) (off : BitVec 64) (p : Parts) : Res Parts := do
  let dispSize ← getDispSize off
  match index, base with
  | none, some b =>
    if dispSize = 0 then
      -- (%reg)
      if b = .rsp ∨ b = .r12 then
        .ok { p with modrmRm := 4, modrmMod := 0, hasSib := true, sibIndex := 4, sibBase := 4,
                     rexB := if b = .r12 then 1 else p.rexB }
      else if b = .rbp ∨ b = .r13 then
        .ok { p with sibIndex := 4, modrmMod := 1, hasDisp8 := true, disp := 0, sibBase := 5,
                     rexB := if b = .r13 then 1 else p.rexB }
      else
        .ok { p with modrmMod := 0, modrmRm := registerIndex b &&& 7, rexB := high (registerIndex b) }
    else if dispSize ≤ 1 then
      -- disp8(%reg)
      if b = .rsp ∨ b = .r12 then
        .ok { p with modrmRm := 4, modrmMod := 1, hasSib := true, sibIndex := 4, sibBase := 4,
                     rexB := if b = .r12 then 1 else p.rexB, hasDisp8 := true, disp := off }
      else
        .ok { p with modrmMod := 1, modrmRm := registerIndex b &&& 7, rexB := high (registerIndex b),
                     hasDisp8 := true, disp := off }
    else if dispSize ≤ 4 then
      -- disp32(%reg)
      if b = .rsp ∨ b = .r12 then
        .ok { p with modrmRm := 4, modrmMod := 2, hasSib := true, sibIndex := 4, sibBase := 4,
                     rexB := if b = .r12 then 1 else p.rexB, hasDisp32 := true, disp := off }
      else
        .ok { p with modrmMod := 2, modrmRm := registerIndex b &&& 7, rexB := high (registerIndex b),
                     hasDisp32 := true, disp := off }
    else .fail
  | some i, some b =>
    -- (%base, %scale, index)
    if dispSize = 0 then
      if i = .rsp then .fail
      else if b = .rbp ∨ b = .r13 then .fail
      else
        .ok { p with hasSib := true, modrmRm := 4,
                     sibBase := registerIndex b &&& 7, rexB := high (registerIndex b),
                     sibIndex := registerIndex i &&& 7, rexX := high (registerIndex i) }
    else .fail
  | _, none => .fail

/-- The immediate of an operand: only an `OPERAND_IMM_LABEL` sets `imm` and `imm_label`. -/
def setImm (o : Operand) (p : Parts) : Parts :=
  match o with
  | .imm label off => { p with immLabel := label, imm := off }
  | _ => p

/-- src/assembler/encode.c:196-199 a register operand that needs a REX prefix asks for one. -/
def askRex (o : Operand) (p : Parts) : Parts :=
  match o with
  | .reg r upper size => if needsRex r upper size then { p with hasRex := true } else p
  | _ => p

/-- src/assembler/encode.c:201-305 the `switch` over the operand encoding.  `OE_OPEXT` reads
`reg.reg` without looking at the operand type; no row accepts another type there, and the model
counts it as undefined behaviour. -/
def encodeOperand (e : Encoding) (oe : OE) (o : Operand) (p : Parts) : Res Parts :=
  match oe with
  | .imm8 => .ok (setImm o { p with hasImm8 := true })
  | .imm16 => .ok (setImm o { p with hasImm16 := true })
  | .imm32 => .ok (setImm o { p with hasImm32 := true })
  | .imm64 => .ok (setImm o { p with hasImm64 := true })
  | .modrmRm =>
    match o with
    | .reg r _ _ => .ok { p with hasModrm := true, modrmMod := 3, modrmRm := registerIndex r,
                                 rexB := if p.hasRex then high (registerIndex r) else p.rexB }
    | .star r _ => .ok { p with hasModrm := true, modrmMod := 3, modrmRm := registerIndex r,
                                rexB := if p.hasRex then high (registerIndex r) else p.rexB }
    | .sse i => .ok { p with hasModrm := true, modrmMod := 3, modrmRm := i,
                             rexB := if p.hasRex then high i else p.rexB }
    | .mem index base _ off => encodeSib index base off { p with hasModrm := true }
    | _ => .fail
  | .modrmReg =>
    match o with
    | .reg r _ _ => if e.slashR then .ok { p with modrmReg := registerIndex r, rexR := high (registerIndex r) }
                    else .fail
    | .sse i => if e.slashR then .ok { p with modrmReg := i, rexR := high i } else .fail
    | _ => .fail
  | .opext =>
    match o with
    | .reg r _ _ => .ok { p with opExt := registerIndex r }
    | .star r _ => .ok { p with opExt := registerIndex r }
    | _ => .ub
  | .none => .ok p
  | .empty => .ok p
  | .rel32 =>
    match o with
    | .abs label off => .ok { p with hasRel32 := true, relLabel := label, rel := off.setWidth 32 }
    | _ => .ok { p with hasRel32 := true }
  | .relOther => .fail

/-- src/assembler/encode.c:190-309 the loop over operands and operand encodings; a `duplicate`
encoding does not advance the operand. -/
def loop (e : Encoding) : List OpEnc → List Operand → Parts → Res Parts
  | [], _, p => .ok p
  | _ :: _, [], p => .ok p
  | oe :: oes, o :: os, p =>
    if (o = .empty) ≠ (oe.type = .empty) then .fail
    else do
      let p ← encodeOperand e oe.type o (askRex o p)
      loop e oes (if oe.duplicate then o :: os else os) p

/-- src/assembler/encode.c:317-322 `WRITE_8` … `WRITE_64`: the low bytes, least significant
first. -/
def le (n : Nat) (x : BitVec 64) : List Byte :=
  (List.range n).map fun i => (x >>> (8 * i)).setWidth 8

/-- src/assembler/encode.c:324-331 the mandatory and operand-size prefixes. -/
def prefixBytes (e : Encoding) : List Byte :=
  (if e.opSizePrefix then [0x66] else []) ++ (if e.repnePrefix then [0xf2] else []) ++
  (if e.repePrefix then [0xf3] else [])

/-- src/assembler/encode.c:333-343 the REX prefix; `rex_x` is not written. -/
def rexBytes (e : Encoding) (p : Parts) : List Byte :=
  if p.hasRex then
    [(if e.rexw then 0x48 else 0x40) ||| BitVec.ofNat 8 p.rexB ||| BitVec.ofNat 8 (p.rexR <<< 2)]
  else []

/-- src/assembler/encode.c:345-350 the opcode bytes. -/
def opcodeBytes (e : Encoding) (p : Parts) : List Byte :=
  [e.opcode ||| BitVec.ofNat 8 p.opExt] ++
  (if e.opcode = 0x0f then
     [e.op2] ++ (if e.op2 = 0x38 ∨ e.op2 = 0x3a then [e.op3] else [])
   else [])

/-- src/assembler/encode.c:352-360 the ModRM byte. -/
def modrmBytes (e : Encoding) (p : Parts) : List Byte :=
  if p.hasModrm then
    [BitVec.ofNat 8 ((e.modrmExtension &&& 7) <<< 3) ||| BitVec.ofNat 8 ((p.modrmReg &&& 7) <<< 3) |||
     BitVec.ofNat 8 ((p.modrmMod &&& 3) <<< 6) ||| BitVec.ofNat 8 (p.modrmRm &&& 7)]
  else []

/-- src/assembler/encode.c:362-370 the SIB byte. -/
def sibBytes (p : Parts) : List Byte :=
  if p.hasSib then
    [BitVec.ofNat 8 ((p.sibScale &&& 3) <<< 6) ||| BitVec.ofNat 8 ((p.sibIndex &&& 7) <<< 3) |||
     BitVec.ofNat 8 (p.sibBase &&& 7)]
  else []

/-- src/assembler/encode.c:372-375 the displacement. -/
def dispBytes (p : Parts) : List Byte :=
  if p.hasDisp8 then le 1 p.disp else if p.hasDisp32 then le 4 p.disp else []

/-- src/assembler/encode.c:377-425 the size of the immediate field. -/
def immSize (p : Parts) : Nat :=
  if p.hasImm8 then 1 else if p.hasImm16 then 2 else if p.hasImm32 then 4
  else if p.hasImm64 then 8 else 0

/-- src/assembler/encode.c:377-425 the immediate field: zero when a label is to be filled in. -/
def immBytes (p : Parts) : List Byte :=
  le (immSize p) (if p.immLabel.isSome then 0 else p.imm)

/-- src/assembler/encode.c:377-425 the relocation of the immediate field at index `idx`. -/
def immRels (p : Parts) (idx : Nat) : List Rel :=
  if immSize p = 0 then []
  else match p.immLabel with
    | some l => [{ offset := idx, size := immSize p, relative := false, label := l, imm := p.imm }]
    | none => []

/-- src/assembler/encode.c:427-439 the jump displacement. -/
def relBytes (p : Parts) : List Byte :=
  if p.hasRel32 then le 4 (p.rel.setWidth 64) else []

/-- src/assembler/encode.c:427-439 the relocation of the jump displacement at index `idx`. -/
def relRels (p : Parts) (idx : Nat) : List Rel :=
  if p.hasRel32 then
    match p.relLabel with
    | some l => [{ offset := idx, size := 4, relative := true, label := l, imm := p.rel.setWidth 64 }]
    | none => []
  else []

/-- The bytes before the immediate field. -/
def headBytes (e : Encoding) (p : Parts) : List Byte :=
  prefixBytes e ++ rexBytes e p ++ opcodeBytes e p ++ modrmBytes e p ++ sibBytes p ++ dispBytes p

/-- src/assembler/encode.c:311-441 everything `assemble_encoding` writes, in order. -/
def emit (e : Encoding) (p : Parts) : List Byte × List Rel :=
  let head := headBytes e p
  (head ++ immBytes p ++ relBytes p,
   immRels p head.length ++ relRels p (head ++ immBytes p).length)

/-- src/assembler/encode.c:311-313 `if (rex_b || rex_r) has_rex = 1;`. -/
def finishRex (p : Parts) : Parts :=
  if p.rexB ≠ 0 ∨ p.rexR ≠ 0 then { p with hasRex := true } else p

/-- src/assembler/encode.c:159-442 `assemble_encoding`.  More than 15 bytes overflow the
caller's `current_output[15]`: undefined behaviour. -/
def assembleEncoding (e : Encoding) (ops : List Operand) : Res (List Byte × List Rel) := do
  let p ← loop e (pad4 ⟨.empty, false⟩ e.operandEncoding) ops { hasRex := e.rexw || e.rex }
  let out := emit e (finishRex p)
  if out.1.length ≤ 15 then .ok out else .ub

/-- src/assembler/encode.c:444-570 `does_match`.  The early reads of `imm_label.offset` on
operands of another type are unused and not modelled.  `ACC_EMPTY` accepts every operand. -/
def doesMatch (o : Operand) (oa : Acc) : Res Bool :=
  match oa with
  | .rax size => .ok (match o with | .reg r _ s => s == size && r == .rax | _ => false)
  | .rcx size => .ok (match o with | .reg r _ s => s == size && r == .rcx | _ => false)
  | .reg size => .ok (match o with | .reg _ _ s => s == size | _ => false)
  | .regStar size => .ok (match o with | .star _ s => s == size | _ => false)
  | .xmm => .ok (match o with | .sse _ => true | _ => false)
  | .empty => .ok true
  | .imm8s => .ok (match o with
      | .imm _ v => decide (-128 ≤ v.toInt) && decide (v.toInt ≤ 127) | _ => false)
  | .imm8u => .ok (match o with | .imm _ v => decide (v.toInt ≤ 255) | _ => false)
  | .imm16s => .ok (match o with
      | .imm _ v => decide (-32768 ≤ v.toInt) && decide (v.toInt ≤ 32767) | _ => false)
  | .imm16u => .ok (match o with | .imm _ v => decide (v.toInt ≤ 65535) | _ => false)
  | .imm32s => .ok (match o with
      | .imm _ v => decide (-2147483648 ≤ v.toInt) && decide (v.toInt ≤ 2147483647) | _ => false)
  | .imm32u => .ok (match o with | .imm _ v => decide (v.toNat ≤ 4294967295) | _ => false)
  | .modrm size => .ok (match o with | .reg _ _ s => s == size | .mem .. => true | _ => false)
  | .xmmM128 => .ok (match o with | .sse _ => true | .mem .. => true | _ => false)
  | .xmmM64 => .ok (match o with | .sse _ => true | .mem .. => true | _ => false)
  | .xmmM32 => .ok (match o with | .sse _ => true | .mem .. => true | _ => false)
  | .imm64 => .ok (match o with | .imm .. => true | _ => false)
  | .rel32 => .ok (match o with | .abs .. => true | _ => false)
  | .relOther => .fail

/-- src/assembler/encode.c:582-592 the loop that matches the four operands. -/
def matchAll : List Operand → List Acc → Res Bool
  | o :: os, a :: as => do
    if ← doesMatch o a then matchAll os as else .ok false
  | _, _ => .ok true

/-- src/assembler/encode.c:574 `best_len`. -/
def bestLen : Option (List Byte × List Rel) → Nat
  | some b => b.1.length
  | none => 16

/-- src/assembler/encode.c:577-614 the loop over the table: `best` is the shortest output so
far (`best_len == 16`: none). -/
def search (mn : String) (ops : List Operand) :
    List Encoding → Option (List Byte × List Rel) → Res (Option (List Byte × List Rel))
  | [], best => .ok best
  | e :: es, best =>
    if e.mnemonic ≠ mn then search mn ops es best
    else do
      if ← matchAll ops (pad4 .empty e.operandAccepts) then
        let cur ← assembleEncoding e ops
        search mn ops es (if cur.1.length < bestLen best then some cur else best)
      else search mn ops es best

/-- src/assembler/encode.c:572-624 `assemble_instruction` on a table; `none` is `*len = -1`.
`ops` is the array of four operands. -/
def assembleInstruction (table : List Encoding) (mn : String) (ops : List Operand) :
    Res (Option (List Byte × List Rel)) :=
  search mn ops table none

end Verif.Encode
