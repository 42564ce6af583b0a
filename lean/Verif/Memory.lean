import Verif.Codegen
/-!
Model of the memory operations of the code generator (src/codegen/codegen.c): block copy
and clear, and the nodes that load, store, copy and clear objects.
-/
namespace Verif.Memory
open Verif Asm Simple Codegen

/-- src/codegen/codegen.c:38-55 `codegen_memzero`, from offset `i` (the final `else break` is
never reached: `i < len` gives `i + 1 <= len`). -/
def memzeroFrom (i len : Nat) : List Ins :=
  if i < len then
    ⟨movN (chunk i len), [IMM 0, MEM i .rdi]⟩ :: memzeroFrom (i + chunk i len) len
  else []
termination_by len - i
decreasing_by have := chunk_pos i len; omega

/-- src/codegen/codegen.c:38-55 `codegen_memzero`. -/
def memzero (len : Nat) : List Ins := memzeroFrom 0 len

/-- src/codegen/codegen.c:57-78 `codegen_memcpy`, from offset `i`. -/
def memcpyFrom (i len : Nat) : List Ins :=
  if i < len then
    ⟨movN (chunk i len), [MEM i .rdi, .reg .rax (chunk i len)]⟩ ::
    ⟨movN (chunk i len), [.reg .rax (chunk i len), MEM i .rsi]⟩ ::
      memcpyFrom (i + chunk i len) len
  else []
termination_by len - i
decreasing_by have := chunk_pos i len; omega

/-- src/codegen/codegen.c:57-78 `codegen_memcpy`. -/
def memcpy (len : Nat) : List Ins := memcpyFrom 0 len

/-- `leaq -x->cg_info.stack_location(%rbp), r`. -/
def leaSlot (v : Slot) (r : Reg) : Ins := ⟨.leaq, [v.mem 0, R8 r]⟩

/-- src/codegen/codegen.c:270-276, 278-284: `IR_LOAD`, `IR_LOAD_VOLATILE`: `p` holds the
address, `v` is the loaded value. -/
def load (p v : Slot) : Res (List Ins) := do
  let c ← scalarToReg p .rdi
  pure (c ++ [leaSlot v .rsi] ++ memcpy v.size)

/-- src/codegen/codegen.c:286-293: `IR_LOAD_PART_ADDRESS`. -/
def loadPart (p v : Slot) (off : Nat) : Res (List Ins) := do
  let c ← scalarToReg p .rdi
  pure (c ++ [⟨.leaq, [MEM off .rdi, R8 .rdi]⟩, leaSlot v .rsi] ++ memcpy v.size)

/-- src/codegen/codegen.c:295-300: `IR_STORE`. -/
def store (p v : Slot) : Res (List Ins) := do
  let c ← scalarToReg p .rsi
  pure (c ++ [leaSlot v .rdi] ++ memcpy v.size)

/-- src/codegen/codegen.c:302-308: `IR_STORE_PART_ADDRESS`. -/
def storePart (p v : Slot) (off : Nat) : Res (List Ins) := do
  let c ← scalarToReg p .rsi
  pure (c ++ [⟨.leaq, [MEM off .rsi, R8 .rsi]⟩, leaSlot v .rdi] ++ memcpy v.size)

/-- src/codegen/codegen.c:428-431: `IR_SET_ZERO_PTR`. -/
def setZeroPtr (p : Slot) (size : Nat) : Res (List Ins) := do
  let c ← scalarToReg p .rdi
  pure (c ++ memzero size)

/-- src/codegen/codegen.c:468-473: `IR_COPY_MEMORY`: destination, source. -/
def copyMemory (d p : Slot) (size : Nat) : Res (List Ins) := do
  let c1 ← scalarToReg d .rsi
  let c2 ← scalarToReg p .rdi
  pure (c1 ++ c2 ++ memcpy size)

/-- src/parser/expression_to_ir.c:482-493 `evaluate_assignment`, 173-189 `assign_to_ee`,
191-206 `assign_ee_to_ee` for `x = a op b` where `x` has the type of `a op b` (so that
`evaluated_expression_cast` returns its operand, :154-156): the operands of type `t` are in
the slots `a` and `b`, the node of the operator is placed at `loc`, the address of `x` is in
the slot `p`.  The node has the size ir.c:555-565 gives it. -/
def assignBinary (t : ST) (op : Op) (a b : Slot) (loc : Nat) (p : Slot) : Res (List Ins) := do
  let c ← binaryExpr (some t) op a b loc
  let c2 ← store p ⟨irBinarySize a.size, loc⟩
  pure (c ++ c2)

/-- src/codegen/codegen.c:230-233 `IR_CONSTANT` with :80-103 `codegen_constant_to_rdi` for a
constant of simple or pointer type; `v` is `constant_to_u64` of it (src/arch/x64.c:562-573),
the size that of the node (src/ir/ir.c:485-493).  A size outside the list is `NOTIMP`. -/
def constantCode (v : BitVec 64) (out : Slot) : Res (List Ins) :=
  let lea := leaSlot out .rdi
  match out.size with
  | 1 => .ok [lea, ⟨.movb, [IMM v.toNat, MEM 0 .rdi]⟩]
  | 2 => .ok [lea, ⟨.movw, [IMM v.toNat, MEM 0 .rdi]⟩]
  | 4 => .ok [lea, ⟨.movl, [IMM v.toNat, MEM 0 .rdi]⟩]
  | 8 => .ok [lea, ⟨.movabsq, [IMM v.toNat, R8 .rax]⟩, ⟨.movq, [R8 .rax, MEM 0 .rdi]⟩]
  | 0 => .ok [lea]
  | _ => .fail

end Verif.Memory
