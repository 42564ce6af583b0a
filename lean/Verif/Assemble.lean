import Verif.Object
import Verif.EncodeTable
import Verif.FuncCode
/-!
Model of the assembler between the code generator and the object when it writes an object
(src/assembler/assembler.c, `assemble_to_text == 0`): `asm_ins_impl` and `asm_label`.

The code generator's labels are natural numbers (FuncCode.lean); `ids` gives the `label_id` of each,
`global` the first argument of `asm_label`.
-/
namespace Verif.Assemble
open Verif Asm
open Verif.Encode (Operand Rel encodings assembleInstruction pad4)
open Verif.FuncCode (Item)

/-- The string of a mnemonic. -/
def mnName : Mn → String
  | .addl => "addl" | .addq => "addq" | .subl => "subl" | .subq => "subq" | .imull => "imull"
  | .imulq => "imulq" | .xorl => "xorl" | .xorq => "xorq" | .orl => "orl" | .orq => "orq"
  | .andl => "andl" | .andq => "andq" | .cltd => "cltd" | .cqto => "cqto" | .idivl => "idivl"
  | .idivq => "idivq" | .divl => "divl" | .divq => "divq" | .sall => "sall" | .salq => "salq"
  | .sarl => "sarl" | .sarq => "sarq" | .shrl => "shrl" | .shrq => "shrq" | .cmpl => "cmpl"
  | .cmpq => "cmpq" | .testb => "testb" | .testq => "testq" | .seta => "seta" | .setb => "setb"
  | .setbe => "setbe" | .sete => "sete" | .setg => "setg" | .setge => "setge" | .setl => "setl"
  | .setle => "setle" | .setnb => "setnb" | .setne => "setne" | .movb => "movb" | .movw => "movw"
  | .movl => "movl" | .movq => "movq" | .movabsq => "movabsq" | .movzbl => "movzbl" | .movzwl => "movzwl"
  | .movsbl => "movsbl" | .movswl => "movswl" | .movsbq => "movsbq" | .movswq => "movswq" | .movslq => "movslq"
  | .leal => "leal" | .leaq => "leaq" | .notq => "notq" | .negq => "negq" | .btcq => "btcq"
  | .movd => "movd" | .movss => "movss" | .movsd => "movsd" | .addss => "addss" | .addsd => "addsd"
  | .subss => "subss" | .subsd => "subsd" | .mulss => "mulss" | .mulsd => "mulsd" | .divss => "divss"
  | .divsd => "divsd" | .ucomiss => "ucomiss" | .ucomisd => "ucomisd" | .cvtss2sd => "cvtss2sd" | .cvtsd2ss => "cvtsd2ss"
  | .cvtsi2ss => "cvtsi2ss" | .cvtsi2sd => "cvtsi2sd" | .cvttss2si => "cvttss2si" | .cvttsd2si => "cvttsd2si" | .pushq => "pushq"
  | .callq => "callq" | .leave => "leave" | .ret => "ret" | .ud2 => "ud2" | .jmp => "jmp"
  | .je => "je" | .jne => "jne" | .jnb => "jnb" | .ja => "ja" | .jna => "jna"

/-- src/assembler/assembler.h:65-88: the operands that the macros make.  Offsets are `uint64_t`. -/
def operand : Opd → Operand
  | .reg r size => .reg r false size
  | .xmm i => .sse i
  | .star r => .star r 8
  | .imm l v => .imm l (BitVec.ofInt 64 v)
  | .abs l v => .abs l (BitVec.ofInt 64 v)
  | .mem off base => .mem none (some base) 1 (BitVec.ofInt 64 off)

/-- src/assembler/assembler.c:199-221: one relocation of an instruction of `len` bytes.  The offset
of a relative relocation (`rel->imm`) is not looked at. -/
def asmRel (ids : Nat → Int) (len : Nat) (r : Rel) : Res Object.Op :=
  match r.size with
  | 8 => if r.relative then .fail else .ok (.reloc (ids r.label) r.offset r.imm .r64)
  | 4 =>
    if r.relative then
      .ok (.reloc (ids r.label) r.offset (BitVec.ofInt 64 (-((len : Int) - r.offset))) .r32rel)
    else .ok (.reloc (ids r.label) r.offset r.imm .r32)
  | _ => .fail

/-- src/assembler/assembler.c:199-221: the loop over the relocations. -/
def asmRels (ids : Nat → Int) (len : Nat) : List Rel → Res (List Object.Op)
  | [] => .ok []
  | r :: rs => do
    let o ← asmRel ids len r
    let os ← asmRels ids len rs
    pure (o :: os)

/-- src/assembler/assembler.c:174-222 `asm_ins_impl`: the operands in the opposite order, without
the empty ones.  An instruction without an encoding is an internal error. -/
def asmIns (ids : Nat → Int) (i : Ins) : Res (List Object.Op) := do
  match ← assembleInstruction encodings (mnName i.mn) (pad4 .empty (i.ops.map operand).reverse) with
  | none => .fail
  | some (bytes, rels) =>
    let os ← asmRels ids bytes.length rels
    pure (os ++ [.write bytes])

/-- A line of assembly: src/assembler/assembler.c:93-95 `asm_label`, or an instruction. -/
def asmItem (ids : Nat → Int) (global : Nat → Bool) : Item → Res (List Object.Op)
  | .label l => .ok [.label (global l) (ids l)]
  | .ins i => asmIns ids i

/-- The lines in order. -/
def asmItems (ids : Nat → Int) (global : Nat → Bool) : List Item → Res (List Object.Op)
  | [] => .ok []
  | x :: xs => do
    let a ← asmItem ids global x
    let b ← asmItems ids global xs
    pure (a ++ b)

end Verif.Assemble
