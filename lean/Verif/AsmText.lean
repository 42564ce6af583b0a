import Verif.Assemble
import Verif.Escape
/-!
Model of the assembler when it writes text (src/assembler/assembler.c, `assemble_to_text == 1`, the
option `-S`), and of the same calls when it writes an object.

The text is a list of bytes.  The labels of operands are natural numbers (Asm.lean); `ids` gives the
`label_id` of each; `es` are the registered names.  `fprintf` to a buffer and to the file are not
told apart; write errors are not modelled.
-/
namespace Verif.AsmText
open Verif Asm
open Verif.Object (Name str dec Entry getLabel)
open Verif.Assemble (mnName)

/-- src/codegen/registers.c:9-25 `registers`. -/
def registers : Reg → List String
  | .rax => ["%rax", "%eax", "%ax", "%al"]
  | .rbx => ["%rbx", "%ebx", "%bx", "%bl"]
  | .rcx => ["%rcx", "%ecx", "%cx", "%cl"]
  | .rdx => ["%rdx", "%edx", "%dx", "%dl"]
  | .rsi => ["%rsi", "%esi", "%si", "%sil"]
  | .rdi => ["%rdi", "%edi", "%di", "%dil"]
  | .rbp => ["%rbp", "%ebp", "%bp", "%bpl"]
  | .rsp => ["%rsp", "%esp", "%sp", "%spl"]
  | .r8 => ["%r8", "%r8d", "%r8w", "%r8b"]
  | .r9 => ["%r9", "%r9d", "%r9w", "%r9b"]
  | .r10 => ["%r10", "%r10d", "%r10w", "%r10b"]
  | .r11 => ["%r11", "%r11d", "%r11w", "%r11b"]
  | .r12 => ["%r12", "%r12d", "%r12w", "%r12b"]
  | .r13 => ["%r13", "%r13d", "%r13w", "%r13b"]
  | .r14 => ["%r14", "%r14d", "%r14w", "%r14b"]
  | .r15 => ["%r15", "%r15d", "%r15w", "%r15b"]

/-- src/codegen/registers.c:27-35 `size_to_idx`. -/
def sizeToIdx : Nat → Res Nat
  | 8 => .ok 0
  | 4 => .ok 1
  | 2 => .ok 2
  | 1 => .ok 3
  | _ => .fail

/-- src/codegen/registers.c:37-39 `get_reg_name`. -/
def regName (r : Reg) (size : Nat) : Res Name := do
  let i ← sizeToIdx size
  match (registers r)[i]? with
  | some s => .ok (str s)
  | none => .ub

/-- `"%" PRIi64` of a `uint64_t`, taken as an `int64_t`. -/
def pri (v : BitVec 64) : Name :=
  if v.toInt < 0 then ch '-' :: dec (-v.toInt).toNat else dec v.toInt.toNat

/-- src/assembler/assembler.c:64-68 `emit_label`. -/
def emitLabel (es : List Entry) (ids : Nat → Int) (l : Nat) : Res Name := getLabel es (ids l)

/-- src/assembler/assembler.c:139-160: a label and an offset, after the `$` if there is one.  `label_ == -1`
is `none`. -/
def emitImm (es : List Entry) (ids : Nat → Int) (label : Option Nat) (v : BitVec 64) : Res Name :=
  match label with
  | none => .ok (pri v)
  | some l => do
    let n ← emitLabel es ids l
    if v ≠ 0 then pure (n ++ ch '+' :: pri v) else pure n

/-- src/assembler/assembler.c:122-172 `asm_emit_operand`.  The macros make no upper-byte registers, no
indexes and only the scale 1 (Asm.lean). -/
def emitOperand (es : List Entry) (ids : Nat → Int) : Opd → Res Name
  | .reg r size => regName r size
  | .xmm i => .ok (str "%xmm" ++ dec i)
  | .star r => do
    let n ← regName r 8
    pure (ch '*' :: n)
  | .imm l v => do
    let n ← emitImm es ids l (BitVec.ofInt 64 v)
    pure (ch '$' :: n)
  | .abs l v => emitImm es ids l (BitVec.ofInt 64 v)
  | .mem off base => do
    let n ← regName base 8
    let o := if BitVec.ofInt 64 off ≠ 0 then pri (BitVec.ofInt 64 off) else []
    pure (o ++ ch '(' :: n ++ [ch ')'])

/-- src/assembler/assembler.c:225-230: the operands from the second on, each after a comma. -/
def emitTail (es : List Entry) (ids : Nat → Int) : List Opd → Res Name
  | [] => .ok []
  | o :: os => do
    let a ← emitOperand es ids o
    let b ← emitTail es ids os
    pure (str ", " ++ a ++ b)

/-- src/assembler/assembler.c:225-230: the loop over the operands. -/
def emitOperands (es : List Entry) (ids : Nat → Int) : List Opd → Res Name
  | [] => .ok []
  | o :: os => do
    let a ← emitOperand es ids o
    let b ← emitTail es ids os
    pure (a ++ b)

/-- src/assembler/assembler.c:112-117: the characters of a string. -/
def emitChars : List Byte → Res Name
  | [] => .ok []
  | c :: cs => do
    let a ← Escape.printChar c false
    let b ← emitChars cs
    pure (a ++ b)

/-- A call of the assembler. -/
inductive Line where
  /-- `asm_section` -/
  | sect (name : Name)
  /-- `asm_comment`, with its text -/
  | comment (txt : Name)
  /-- `asm_label` -/
  | label (global : Bool) (l : Nat)
  /-- `asm_string` -/
  | string (bs : List Byte)
  /-- `asm_ins`, `asm_ins0`, `asm_ins1`, `asm_ins2` -/
  | ins (i : Ins)
  /-- `asm_quad` with `IMML_ABS` or `IMM_ABS` -/
  | quad (l : Option Nat) (v : Int)
  /-- `asm_byte` with `IMM_ABS` -/
  | byte (v : Int)
  /-- `asm_zero` -/
  | zero (n : Nat)
  /-- `asm_align` -/
  | align (n : Nat)
  deriving DecidableEq, Repr

/-- One call that writes text; `cur` is `current_section`.  src/assembler/assembler.c:70-78 `asm_section`,
80-91 `asm_comment`, 93-105 `asm_label`, 107-120 `asm_string`, 224-232 `asm_ins_impl`, 268-272 `asm_quad`,
289-293 `asm_byte`, 296-302 `asm_zero`, 304-310 `asm_align`. -/
def emitLine (es : List Entry) (ids : Nat → Int) (cur : Name) : Line → Res (Name × Name)
  | .sect s => .ok (if s ≠ cur then str ".section " ++ s ++ str "\n" else [], s)
  | .comment t => .ok (str "\t#" ++ t ++ str "\n", cur)
  | .label global l => do
    let g ← (if global then do
        let n ← emitLabel es ids l
        pure (str ".global " ++ n ++ str "\n")
      else pure [])
    let n ← emitLabel es ids l
    pure (g ++ n ++ str ":\n", cur)
  | .string bs => do
    let t ← emitChars bs
    pure (str "\t.string \"" ++ t ++ str "\"\n", cur)
  | .ins i => do
    let t ← emitOperands es ids i.ops
    pure (str "\t" ++ str (mnName i.mn) ++ str " " ++ t ++ str "\n", cur)
  | .quad l v => do
    let t ← emitOperand es ids (.abs l v)
    pure (str ".quad " ++ t ++ str "\n", cur)
  | .byte v => do
    let t ← emitOperand es ids (.abs none v)
    pure (str ".byte " ++ t ++ str "\n", cur)
  | .zero n => .ok (str ".zero " ++ dec n ++ str "\n", cur)
  | .align n => .ok (str ".align " ++ dec n ++ str "\n", cur)

/-- The calls in order. -/
def emitLines (es : List Entry) (ids : Nat → Int) : Name → List Line → Res Name
  | _, [] => .ok []
  | cur, l :: ls => do
    let (t, cur') ← emitLine es ids cur l
    let ts ← emitLines es ids cur' ls
    pure (t ++ ts)

/-- src/assembler/assembler.c:31-39 `asm_init_text_out` and the calls after it. -/
def asmText (es : List Entry) (ids : Nat → Int) (ls : List Line) : Res Name := emitLines es ids (str ".text") ls

/-- The same call when an object is written: src/assembler/assembler.c:76, 81-82, 94-95, 108-110, 175-222,
249-266, 276-287, 297-298, 305-306. -/
def objLine (ids : Nat → Int) : Line → Res (List Object.Op)
  | .sect s => .ok [.sect s]
  | .comment _ => .ok []
  | .label global l => .ok [.label global (ids l)]
  | .string bs => .ok [.write bs, .write [0]]
  | .ins i => Assemble.asmIns ids i
  | .quad none v => .ok [.quad (BitVec.ofInt 64 v)]
  | .quad (some l) v => .ok [.reloc (ids l) 0 (BitVec.ofInt 64 v) .r64, .quad 0]
  | .byte v => .ok [.write [(BitVec.ofInt 64 v).setWidth 8]]
  | .zero n => .ok [.zero n]
  | .align n => .ok [.align n]

/-- The calls in order. -/
def objLines (ids : Nat → Int) : List Line → Res (List Object.Op)
  | [] => .ok []
  | l :: ls => do
    let a ← objLine ids l
    let b ← objLines ids ls
    pure (a ++ b)

end Verif.AsmText
