import Verif.Memory
/-!
Model of the code for a call: `IR_CALL` in src/codegen/codegen.c:259-268 and the chains
:137-199.
-/
namespace Verif.Call
open Verif Asm Codegen Memory

/-- A node of the chain that ends in `IR_ALLOCATE_CALL_STACK`: `IR_STORE_STACK_RELATIVE` of a
value or `IR_STORE_STACK_RELATIVE_ADDRESS` of an object whose address is in a slot. -/
inductive StackArg where
  | value (v : Slot) (off : Nat)
  | object (p : Slot) (off size : Nat)
  deriving DecidableEq, Repr

/-- A register of the calling convention. -/
inductive Dest where
  | gpr (r : Reg)
  | sse (i : Nat)
  deriving DecidableEq, Repr

/-- src/codegen/codegen.c:161-175: the stores, in the order of the chain. -/
def stackStores : List StackArg → Res (List Ins)
  | [] => .ok []
  | .value v off :: as => do
    let r ← stackStores as
    pure ([⟨.leaq, [MEM off .rsp, R8 .rsi]⟩, leaSlot v .rdi] ++ memcpy v.size ++ r)
  | .object p off size :: as => do
    let c ← scalarToReg p .rdi
    let r ← stackStores as
    pure ([⟨.leaq, [MEM off .rsp, R8 .rsi]⟩] ++ c ++ memcpy size ++ r)

/-- src/codegen/codegen.c:137-148 `codegen_set_reg_chain`. -/
def setRegs : List (Dest × Slot) → Res (List Ins)
  | [] => .ok []
  | (.sse i, v) :: as => do
    let r ← setRegs as
    pure (⟨.movsd, [v.mem 0, XMM i]⟩ :: r)
  | (.gpr g, v) :: as => do
    let c ← scalarToReg v g
    let r ← setRegs as
    pure (c ++ r)

/-- src/codegen/codegen.c:180-199 `codegen_get_reg_uses` (uses that are not scheduled left
out). -/
def getRegs : List (Dest × Slot) → List Ins
  | [] => []
  | (.sse i, v) :: as =>
    ⟨if v.size = 4 then .movss else .movsd, [XMM i, v.mem 0]⟩ :: getRegs as
  | (.gpr g, v) :: as => regToScalar g v ++ getRegs as

/-- A call: `IR_ALLOCATE_CALL_STACK`'s change, the two chains, the callee's slot, the
register for its address and the results. -/
structure Call where
  change : Int
  stack : List StackArg
  regs : List (Dest × Slot)
  callee : Slot
  reg : Reg
  results : List (Dest × Slot)
  deriving Repr

/-- src/codegen/codegen.c:260-262, 33-34: everything before the call instruction. -/
def before (c : Call) : Res (List Ins) := do
  let st ← stackStores c.stack
  let rs ← setRegs c.regs
  let f ← scalarToReg c.callee c.reg
  pure (⟨.addq, [IMM c.change, R8 .rsp]⟩ :: (st ++ rs ++ f))

/-- src/codegen/codegen.c:263-266: after the call. -/
def after (c : Call) : List Ins := ⟨.addq, [IMM c.change, R8 .rsp]⟩ :: getRegs c.results

/-- src/abi/sysv.c:254, src/abi/microsoft.c:94: the register both conventions pass to
`ir_call`. -/
def calleeReg : Reg := .rbx

/-- src/abi/sysv.c:308, src/abi/microsoft.c:146 (with src/codegen/codegen.c:689-691): a function
begins with storing that register to the slot `v`. -/
def saveCode (v : Slot) : List Ins := getRegs [(.gpr calleeReg, v)]

/-- src/abi/sysv.c:398, src/abi/microsoft.c:205 (with src/codegen/codegen.c:549-550): the chain
of a return begins with loading it; `rest` are the returned values. -/
def returnRegs (v : Slot) (rest : List (Dest × Slot)) : Res (List Ins) :=
  setRegs ((.gpr calleeReg, v) :: rest)

/-- src/codegen/codegen.c:259-268: the whole node. -/
def call (c : Call) : Res (List Ins) := do
  let b ← before c
  pure (b ++ ⟨.callq, [.star c.reg]⟩ :: after c)

end Verif.Call
