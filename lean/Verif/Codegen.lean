import Verif.Asm
import Verif.Simple
/-!
Model of the code generator for scalar values: src/codegen/registers.c,
src/codegen/binary_operators.h, parts of src/codegen/codegen.c, the choice of IR operators
in src/parser/expression_to_ir.c and the constructors of src/ir/ir.c that pick node types
and sizes.

Emitting an instruction (`asm_ins*`) is modelled as appending it to a list; comments are
not modelled.
-/
namespace Verif.Codegen
open Verif Asm Simple

/-- A node's place: `size` and `cg_info.stack_location` (src/ir/ir.h:176, 192). -/
structure Slot where
  size : Nat
  loc : Nat
  deriving DecidableEq, Repr, Inhabited

/-- The operand `MEM(-x->cg_info.stack_location + i, REG_RBP)`. -/
def Slot.mem (v : Slot) (i : Nat) : Opd := MEM (-(v.loc : Int) + i) .rbp

/-- src/codegen/registers.c:41-64 `scalar_to_reg`. -/
def scalarToReg (v : Slot) (r : Reg) : Res (List Ins) :=
  match v.size with
  | 1 => .ok [⟨.movzbl, [v.mem 0, R4 r]⟩]
  | 2 => .ok [⟨.movzwl, [v.mem 0, R4 r]⟩]
  | 3 | 4 => .ok [⟨.movl, [v.mem 0, R4 r]⟩]
  | 5 | 6 | 7 | 8 => .ok [⟨.movq, [v.mem 0, R8 r]⟩]
  | _ => .fail

/-- The `if` ladder of src/codegen/registers.c:74-86, 99-111 (and of `codegen_memcpy`,
`codegen_memzero`): the size of the next access, for `i < len`. -/
def chunk (i len : Nat) : Nat :=
  if i + 8 ≤ len then 8 else if i + 4 ≤ len then 4 else if i + 2 ≤ len then 2 else 1

theorem chunk_pos (i len : Nat) : 0 < chunk i len := by
  unfold chunk; split <;> (try split) <;> (try split) <;> omega

/-- The move for an access of that size. -/
def movN : Nat → Mn
  | 8 => .movq
  | 4 => .movl
  | 2 => .movw
  | _ => .movb

/-- Loop of src/codegen/registers.c:69-89, 94-114; `m` is `msize`, `dst i` the destination
of the store at offset `i`. -/
def storeLoop (r : Reg) (size : Nat) (dst : Nat → Opd) (i m : Nat) : List Ins :=
  if i < size then
    (if m ≠ 0 then [⟨.shrq, [IMM (m * 8), R8 r]⟩] else []) ++
    ⟨movN (chunk i size), [.reg r (chunk i size), dst i]⟩ ::
      storeLoop r size dst (i + chunk i size) (chunk i size)
  else []
termination_by size - i
decreasing_by have := chunk_pos i size; omega

/-- src/codegen/registers.c:66-90 `reg_to_scalar`. -/
def regToScalar (r : Reg) (v : Slot) : List Ins := storeLoop r v.size v.mem 0 0

/-- src/codegen/registers.c:92-115 `reg_to_memory`. -/
def regToMemory (r : Reg) (size : Nat) : List Ins :=
  storeLoop r size (fun i => MEM i .rsi) 0 0

/-- src/ir/ir.h:14-47: the node types with an entry in `codegen_asm_table`. -/
inductive IrOp where
  | add | sub | mul | imul | div | idiv | mod | imod | lshift | rshift | irshift
  | bxor | bor | band
  | less | iless | greater | igreater | lessEq | ilessEq | greaterEq | igreaterEq
  | equal | notEqual
  | fltAdd | fltSub | fltMul | fltDiv
  | fltLess | fltGreater | fltLessEq | fltGreaterEq | fltEqual | fltNotEqual
  deriving DecidableEq, Repr, Inhabited

/-- src/codegen/binary_operators.h:7-9, 32-34 `BINARY_INS_32`, `BINARY_INS_64`. -/
def binaryIns (w : Bool) (m32 m64 : Mn) : List Ins :=
  if w then [⟨m64, [R8 .rcx, R8 .rax]⟩] else [⟨m32, [R4 .rcx, R4 .rax]⟩]

/-- src/codegen/binary_operators.h:11-15, 36-40 `BINARY_COMP_32`, `BINARY_COMP_64`. -/
def binaryComp (w : Bool) (m : Mn) : List Ins :=
  [if w then ⟨.cmpq, [R8 .rcx, R8 .rax]⟩ else ⟨.cmpl, [R4 .rcx, R4 .rax]⟩,
   ⟨m, [R1 .rax]⟩, ⟨.movzbl, [R1 .rax, R4 .rax]⟩]

/-- src/codegen/binary_operators.h:17-22, 42-47 `BINARY_INS_FLT_32`, `BINARY_INS_FLT_64`. -/
def binaryInsFlt (w : Bool) (m32 m64 : Mn) : List Ins :=
  if w then
    [⟨.movq, [R8 .rax, XMM 0]⟩, ⟨.movq, [R8 .rcx, XMM 1]⟩, ⟨m64, [XMM 1, XMM 0]⟩,
     ⟨.movq, [XMM 0, R8 .rax]⟩]
  else
    [⟨.movd, [R4 .rax, XMM 0]⟩, ⟨.movd, [R4 .rcx, XMM 1]⟩, ⟨m32, [XMM 1, XMM 0]⟩,
     ⟨.movd, [XMM 0, R4 .rax]⟩]

/-- src/codegen/binary_operators.h:24-30, 49-55 `BINARY_COMP_FLT_32`, `BINARY_COMP_FLT_64`. -/
def binaryCompFlt (w : Bool) (m : Mn) : List Ins :=
  if w then
    [⟨.movq, [R8 .rax, XMM 0]⟩, ⟨.movq, [R8 .rcx, XMM 1]⟩, ⟨.ucomisd, [XMM 1, XMM 0]⟩,
     ⟨m, [R1 .rax]⟩, ⟨.movzbl, [R1 .rax, R4 .rax]⟩]
  else
    [⟨.movd, [R4 .rax, XMM 0]⟩, ⟨.movd, [R4 .rcx, XMM 1]⟩, ⟨.xorq, [R8 .rax, R8 .rax]⟩,
     ⟨.ucomiss, [XMM 1, XMM 0]⟩, ⟨m, [R1 .rax]⟩]

/-- src/codegen/binary_operators.h:62-121 `codegen_asm_table`; `w` selects the 64-bit row. -/
def asmTable (w : Bool) : IrOp → List Ins
  | .add => binaryIns w .addl .addq
  | .sub => binaryIns w .subl .subq
  | .imul => binaryIns w .imull .imulq
  | .mul => binaryIns w .imull .imulq
  | .bxor => binaryIns w .xorl .xorq
  | .bor => binaryIns w .orl .orq
  | .band => binaryIns w .andl .andq
  | .idiv => if w then [⟨.cqto, []⟩, ⟨.idivq, [R8 .rcx]⟩] else [⟨.cltd, []⟩, ⟨.idivl, [R4 .rcx]⟩]
  | .imod =>
    if w then [⟨.cqto, []⟩, ⟨.idivq, [R8 .rcx]⟩, ⟨.movq, [R8 .rdx, R8 .rax]⟩]
    else [⟨.cltd, []⟩, ⟨.idivl, [R4 .rcx]⟩, ⟨.movl, [R4 .rdx, R4 .rax]⟩]
  | .lshift => if w then [⟨.salq, [R1 .rcx, R8 .rax]⟩] else [⟨.sall, [R1 .rcx, R4 .rax]⟩]
  | .irshift => if w then [⟨.sarq, [R1 .rcx, R8 .rax]⟩] else [⟨.sarl, [R1 .rcx, R4 .rax]⟩]
  | .rshift => if w then [⟨.shrq, [R1 .rcx, R8 .rax]⟩] else [⟨.shrl, [R1 .rcx, R4 .rax]⟩]
  | .igreater => binaryComp w .setg
  | .ilessEq => binaryComp w .setle
  | .iless => binaryComp w .setl
  | .igreaterEq => binaryComp w .setge
  | .equal => binaryComp w .sete
  | .notEqual => binaryComp w .setne
  | .less => binaryComp w .setb
  | .greater => binaryComp w .seta
  | .lessEq => binaryComp w .setbe
  | .greaterEq => binaryComp w .setnb
  | .div =>
    if w then [⟨.xorq, [R8 .rdx, R8 .rdx]⟩, ⟨.divq, [R8 .rcx]⟩]
    else [⟨.xorq, [R8 .rdx, R8 .rdx]⟩, ⟨.divl, [R4 .rcx]⟩]
  | .mod =>
    if w then [⟨.xorq, [R8 .rdx, R8 .rdx]⟩, ⟨.divq, [R8 .rcx]⟩, ⟨.movq, [R8 .rdx, R8 .rax]⟩]
    else [⟨.xorq, [R8 .rdx, R8 .rdx]⟩, ⟨.divl, [R4 .rcx]⟩, ⟨.movl, [R4 .rdx, R4 .rax]⟩]
  | .fltAdd => binaryInsFlt w .addss .addsd
  | .fltSub => binaryInsFlt w .subss .subsd
  | .fltMul => binaryInsFlt w .mulss .mulsd
  | .fltDiv => binaryInsFlt w .divss .divsd
  | .fltLess => binaryCompFlt w .setb
  | .fltGreater => binaryCompFlt w .seta
  | .fltLessEq => binaryCompFlt w .setbe
  | .fltGreaterEq => binaryCompFlt w .setnb
  | .fltEqual => binaryCompFlt w .sete
  | .fltNotEqual => binaryCompFlt w .setne

/-- src/codegen/codegen.c:205-227: code of a node with a table entry.  `out` is the slot of
the node, or of its projection 0 for the divisions (208-212).  The `assert` of 218 is a
failure. -/
def codegenBinary (op : IrOp) (a b out : Slot) : Res (List Ins) := do
  let c1 ← scalarToReg a .rax
  let c2 ← scalarToReg b .rcx
  if a.size = 4 ∨ a.size = 8 then
    pure (c1 ++ c2 ++ asmTable (a.size == 8) op ++ regToScalar .rax out)
  else .fail

/-- src/parser/expression_to_ir.c:15-58 `ir_from_type_and_op` for a type that is floating
(17-30), simple (31-32) or a pointer (33-34); every other type is `NOTIMP`.  Operators
outside `Op` (`&&`, `||`) never reach this point. -/
def irFromTypeAndOp (t : Option ST) (op : Op) : Res IrOp :=
  match t with
  | some st =>
    if isFloating st then
      match op with
      | .add => .ok .fltAdd
      | .sub => .ok .fltSub
      | .mul => .ok .fltMul
      | .div => .ok .fltDiv
      | .less => .ok .fltLess
      | .greater => .ok .fltGreater
      | .lessEq => .ok .fltLessEq
      | .greaterEq => .ok .fltGreaterEq
      | .equal => .ok .fltEqual
      | .notEqual => .ok .fltNotEqual
      | _ => .fail
    else do
      let sign ← isSigned st
      intOp sign op
  | none => intOp false op
where
  /-- lines 39-57 -/
  intOp (sign : Bool) : Op → Res IrOp
    | .add => .ok .add
    | .sub => .ok .sub
    | .mul => .ok (if sign then .imul else .mul)
    | .div => .ok (if sign then .idiv else .div)
    | .mod => .ok (if sign then .imod else .mod)
    | .bxor => .ok .bxor
    | .bor => .ok .bor
    | .band => .ok .band
    | .lshift => .ok .lshift
    | .rshift => .ok (if sign then .irshift else .rshift)
    | .less => .ok (if sign then .iless else .less)
    | .greater => .ok (if sign then .igreater else .greater)
    | .lessEq => .ok (if sign then .ilessEq else .lessEq)
    | .greaterEq => .ok (if sign then .igreaterEq else .greaterEq)
    | .equal => .ok .equal
    | .notEqual => .ok .notEqual

/-- src/ir/ir.c:555-565 `ir_binary_op`: the type of the node that is built (531-549 for the
divisions).  `IR_DIV` is built by `ir_idiv` (559). -/
def irBinaryOp : IrOp → IrOp
  | .idiv => .idiv
  | .div => .idiv
  | .mod => .mod
  | .imod => .imod
  | op => op

/-- The size of the node that carries the result: `lhs->size` in every case
(src/ir/ir.c:527-565). -/
def irBinarySize (lhsSize : Nat) : Nat := lhsSize

/-- src/parser/expression_to_ir.c:432-445 `evaluate_binary_operator`, followed by
src/codegen/codegen.c:205-227: the code for `a op b` where both operands have type `t`
(`none` for pointers), operands in slots `a` and `b`, result at `loc`. -/
def binaryExpr (t : Option ST) (op : Op) (a b : Slot) (loc : Nat) : Res (List Ins) := do
  let o ← irFromTypeAndOp t op
  codegenBinary (irBinaryOp o) a b ⟨irBinarySize a.size, loc⟩

/-- src/codegen/codegen.c:235-245: `IR_BINARY_NOT`, `IR_NEGATE_INT`. -/
def codegenUnaryInt (m : Mn) (a out : Slot) : Res (List Ins) := do
  let c ← scalarToReg a .rax
  pure (c ++ [⟨m, [R8 .rax]⟩] ++ regToScalar .rax out)

/-- src/codegen/codegen.c:247-257: `IR_NEGATE_FLOAT`. -/
def codegenNegFloat (a out : Slot) : Res (List Ins) := do
  let c ← scalarToReg a .rax
  if out.size = 4 then pure (c ++ [⟨.leal, [MEM (-2147483648) .rax, R4 .rax]⟩] ++ regToScalar .rax out)
  else if out.size = 8 then pure (c ++ [⟨.btcq, [IMM 63, R8 .rax]⟩] ++ regToScalar .rax out)
  else .fail

/-- src/parser/expression_to_ir.c:447-480 `evaluate_unary_operator` for an operand of simple
type, with ir.c:469-479 (node of the operand's size) and the code of each node.  `+` yields
the operand itself and has no code (`none`). -/
def unaryExpr (t : ST) (op : UOp) (a : Slot) (loc : Nat) : Res (Option (List Ins)) :=
  match op with
  | .plus => .ok none
  | .bnot =>
    if isInteger t then do pure (some (← codegenUnaryInt .notq a ⟨a.size, loc⟩)) else .fail
  | .neg =>
    if isInteger t then do pure (some (← codegenUnaryInt .negq a ⟨a.size, loc⟩))
    else if isFloating t then do pure (some (← codegenNegFloat a ⟨a.size, loc⟩))
    else .fail

end Verif.Codegen
