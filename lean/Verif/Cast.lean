import Verif.Codegen
/-!
Model of the conversions between scalar types: `variable_cast` in
src/parser/expression_to_ir.c, the node constructors of src/ir/ir.c:449-467 and the code of
the conversion nodes in src/codegen/codegen.c.

A scalar type is a simple type or (`none`) a pointer.
-/
namespace Verif.Cast
open Verif Asm Simple Codegen

/-- src/types.c `calculate_size` on a scalar type. -/
def sizeT (abi : Abi) : Option ST → Nat
  | none => 8
  | some t => sizeOf abi t

/-- src/codegen/codegen.c:304-307: `IR_INT_CAST_ZERO`. -/
def zeroCast (a out : Slot) : Res (List Ins) := do
  let c ← scalarToReg a .rax
  pure (c ++ regToScalar .rax out)

/-- src/codegen/codegen.c:309-323: `IR_INT_CAST_SIGN`. -/
def signCast (a out : Slot) : Res (List Ins) := do
  let c ← scalarToReg a .rax
  let ext :=
    if out.size > a.size then
      if a.size = 1 then [⟨Mn.movsbq, [R1 .rax, R8 .rax]⟩]
      else if a.size = 2 then [⟨Mn.movswq, [.reg .rax 2, R8 .rax]⟩]
      else if a.size = 4 then [⟨Mn.movslq, [R4 .rax, R8 .rax]⟩]
      else []
    else []
  pure (c ++ ext ++ regToScalar .rax out)

/-- src/codegen/codegen.c:325-332: `IR_BOOL_CAST`. -/
def boolCast (a out : Slot) : Res (List Ins) := do
  let c ← scalarToReg a .rax
  pure (c ++ [⟨.testq, [R8 .rax, R8 .rax]⟩, ⟨.setne, [R1 .rax]⟩] ++ regToScalar .rax out)

/-- src/codegen/codegen.c:334-354: `IR_FLOAT_CAST` (353: assertion). -/
def floatCast (a out : Slot) : Res (List Ins) := do
  let c ← scalarToReg a .rax
  if a.size = 4 ∧ out.size = 8 then
    pure (c ++ [⟨.movd, [R4 .rax, XMM 0]⟩, ⟨.cvtss2sd, [XMM 0, XMM 0]⟩, ⟨.movq, [XMM 0, R8 .rax]⟩]
      ++ regToScalar .rax out)
  else if a.size = 8 ∧ out.size = 4 then
    pure (c ++ [⟨.movq, [R8 .rax, XMM 0]⟩, ⟨.cvtsd2ss, [XMM 0, XMM 0]⟩, ⟨.movd, [XMM 0, R4 .rax]⟩]
      ++ regToScalar .rax out)
  else if a.size = out.size then pure (c ++ regToScalar .rax out)
  else .fail

/-- The second half of src/codegen/codegen.c:370-379, 391-400: from `%rax` to a floating
value in `%rax`. -/
def toFloat (n : Nat) : Res (List Ins) :=
  if n = 4 then .ok [⟨.cvtsi2ss, [R8 .rax, XMM 0]⟩, ⟨.movd, [XMM 0, R4 .rax]⟩]
  else if n = 8 then .ok [⟨.cvtsi2sd, [R8 .rax, XMM 0]⟩, ⟨.movq, [XMM 0, R8 .rax]⟩]
  else .fail

/-- src/codegen/codegen.c:358-381: `IR_INT_FLOAT_CAST`. -/
def intFloatCast (a out : Slot) : Res (List Ins) := do
  let c ← scalarToReg a .rax
  let ext :=
    if a.size = 1 then [⟨Mn.movsbl, [R1 .rax, R4 .rax]⟩]
    else if a.size = 2 then [⟨Mn.movswl, [.reg .rax 2, R4 .rax]⟩]
    else if a.size = 4 then [⟨Mn.movslq, [R4 .rax, R8 .rax]⟩]
    else []
  let f ← toFloat out.size
  pure (c ++ ext ++ f ++ regToScalar .rax out)

/-- src/codegen/codegen.c:383-402: `IR_UINT_FLOAT_CAST`. -/
def uintFloatCast (a out : Slot) : Res (List Ins) := do
  let c ← scalarToReg a .rax
  let ext :=
    if a.size = 1 then [⟨Mn.movzbl, [R1 .rax, R4 .rax]⟩]
    else if a.size = 2 then [⟨Mn.movzwl, [.reg .rax 2, R4 .rax]⟩]
    else []
  let f ← toFloat out.size
  pure (c ++ ext ++ f ++ regToScalar .rax out)

/-- src/codegen/codegen.c:404-417: `IR_FLOAT_INT_CAST`. -/
def floatIntCast (a out : Slot) : Res (List Ins) := do
  let c ← scalarToReg a .rax
  let cvt :=
    if a.size = 4 then [⟨Mn.movd, [R4 .rax, XMM 0]⟩, ⟨Mn.cvttss2si, [XMM 0, R8 .rax]⟩]
    else if a.size = 8 then [⟨Mn.movd, [R8 .rax, XMM 0]⟩, ⟨Mn.cvttsd2si, [XMM 0, R8 .rax]⟩]
    else []
  pure (c ++ cvt ++ regToScalar .rax out)

/-- Integer or pointer. -/
def intOrPtr : Option ST → Bool
  | none => true
  | some t => isInteger t

/-- Floating. -/
def floating : Option ST → Bool
  | none => false
  | some t => isFloating t

/-- src/parser/expression_to_ir.c:129-152 `variable_cast`, with the node sizes of
src/ir/ir.c:449-467 and the code of the node.  `none`: the operand itself is the result.
`loc`: place of the new node. -/
def castExpr (abi : Abi) (src dst : Option ST) (a : Slot) (loc : Nat) : Res (Option (Slot × List Ins)) :=
  let out (n : Nat) (f : Slot → Slot → Res (List Ins)) : Res (Option (Slot × List Ins)) := do
    let c ← f a ⟨n, loc⟩
    pure (some (⟨n, loc⟩, c))
  if src = dst then .ok none
  else if dst = some .bool then out (sizeOf abi .bool) boolCast
  else if intOrPtr dst && intOrPtr src then
    if sizeT abi dst ≠ sizeT abi src then
      match src with
      | some t => if isInteger t then do
          let sg ← isSigned t
          out (sizeT abi dst) (if sg then signCast else zeroCast)
        else out (sizeT abi dst) zeroCast
      | none => out (sizeT abi dst) zeroCast
    else .ok none
  else if floating dst && floating src then out (sizeT abi dst) floatCast
  else if floating dst then
    match src with
    | some t =>
      if isInteger t then do
        let sg ← isSigned t
        out (sizeT abi dst) (if sg then intFloatCast else uintFloatCast)
      else .ok none
    | none => .ok none
  else if (match dst with | some t => isInteger t | none => false) && floating src then
    out (sizeT abi dst) floatIntCast
  else .ok none

end Verif.Cast
