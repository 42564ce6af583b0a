import Verif.Memory
import Verif.Cast
import Verif.Call
import Verif.Phi
import Verif.Frame
/-!
Model of the code of whole functions: `codegen_instruction`, `codegen_phi_node`, `codegen_block`
and `codegen_function` in src/codegen/codegen.c:201-694.

A function is what the scheduler leaves (src/ir/ir.c:669-810): a list of blocks, each with a list of
instructions.  Nodes are numbers; a block is named by its label (:586-588 gives every block a new
one).  Left out are variadic functions (`IR_VA_START`, `IR_VA_ARG`, the save area of
`abi_emit_function_preamble`) and `IR_VLA_ALLOC`; constants are scalars or addresses of symbols.
Comments are not modelled.
-/
namespace Verif.FuncCode
open Verif Asm Codegen Memory
open Verif.Call (Dest)

/-- An argument passed on the stack: a node of the chain of `IR_STORE_STACK_RELATIVE` and
`IR_STORE_STACK_RELATIVE_ADDRESS`. -/
inductive StackNode where
  | value (v off : Nat)
  | object (p off size : Nat)
  deriving DecidableEq, Repr

/-- What a node does, with the numbers of its operands (src/ir/ir.h:13-87).  `out` is the node
that has the result where it is a projection. -/
inductive Kind where
  | bin (op : IrOp) (a b out : Nat)
  | const (v : BitVec 64)
  | label (l : Nat) (off : Int)
  | bnot (a : Nat)
  | neg (a : Nat)
  | negFloat (a : Nat)
  /-- IR_CALL: the callee, the change of the stack pointer, the two chains, the uses of the
  registers after the call -/
  | call (f : Nat) (change : Int) (stack : List StackNode) (regs outs : List (Dest × Nat))
  | load (p : Nat)
  | loadVolatile (p out : Nat)
  | loadPart (p off out : Nat)
  | store (p v : Nat)
  | storePart (p v off : Nat)
  | castZero (a : Nat)
  | castSign (a : Nat)
  | castBool (a : Nat)
  | castFloat (a : Nat)
  | intFloat (a : Nat)
  | uintFloat (a : Nat)
  | floatInt (a : Nat)
  | setZero (p size : Nat)
  | undef
  | alloc (size align : Nat)
  | copy (d p size : Nat)
  | loadBase (off : Int)
  | loadBaseAddress (p : Nat) (off : Int) (size : Nat)
  /-- IR_ALLOCATE_CALL_STACK, IR_STORE_STACK_RELATIVE(_ADDRESS), IR_GET_REG, IR_SET_REG, IR_PHI,
  IR_PROJECT (:490-499) -/
  | nothing
  deriving DecidableEq, Repr

/-- An instruction in a block. -/
structure Node where
  num : Nat
  size : Nat
  kind : Kind
  deriving DecidableEq, Repr

/-- A phi node among the uses of a region: its number and its sources (`NULL`: none). -/
structure PhiNode where
  out : Nat
  src : Option Nat × Option Nat
  deriving DecidableEq, Repr

/-- `block_info.end`. -/
inductive End where
  | dead
  | ret (regs : List (Dest × Nat))
  | jump (label : Nat)
  | branch (c lt lf : Nat)
  deriving DecidableEq, Repr

/-- A block.  `preds` are the arguments of a region (src/ir/ir.c:104-113), `none` for another
block; `phis` the phi nodes among its uses, in their order. -/
structure Block where
  label : Nat
  ins : List Node
  last : End
  preds : Option (Nat × Nat)
  phis : List PhiNode
  deriving DecidableEq, Repr

/-- A function: its label, the uses of the registers at its entry (:689-691), its blocks. -/
structure Func where
  label : Nat
  gets : List (Dest × Nat)
  blocks : List Block
  deriving DecidableEq, Repr

/-- All instructions, in the order of the passes of src/codegen/codegen.c:590-638. -/
def Func.nodes (f : Func) : List Node := f.blocks.flatMap (·.ins)

/-- What the passes of `codegen_function` look at. -/
def Node.frame (n : Node) : Frame.Node :=
  ⟨n.size, match n.kind with | .alloc size align => .alloc size align | _ => .plain⟩

/-- src/codegen/codegen.c:580-683: the frame. -/
def Func.layout (f : Func) : Frame.Layout := Frame.layout (f.nodes.map (·.frame)) 0

/-- The node with its place and the place of its object. -/
def Func.places (f : Func) : List (Node × Nat × Nat) := f.nodes.zip (f.layout.values.zip f.layout.allocs)

/-- `size` and `cg_info.stack_location` of a node. -/
def Func.slot (f : Func) (n : Nat) : Slot :=
  match f.places.find? (·.1.num == n) with
  | some (x, v, _) => ⟨x.size, v⟩
  | none => ⟨0, 0⟩

/-- `alloc.stack_location` of a node. -/
def Func.object (f : Func) (n : Nat) : Nat :=
  match f.places.find? (·.1.num == n) with
  | some (_, _, a) => a
  | none => 0

/-- A line of assembly: a label or an instruction. -/
inductive Item where
  | label (l : Nat)
  | ins (i : Ins)
  deriving DecidableEq, Repr

/-- src/codegen/codegen.c:121-130: `CONSTANT_LABEL_POINTER`; the small code model. -/
def labelCode (l : Nat) (off : Int) (out : Slot) : List Ins :=
  [leaSlot out .rdi, ⟨.movq, [.imm (some l) off, MEM 0 .rdi]⟩]

/-- src/codegen/codegen.c:462-466: `IR_ALLOC`; `o` is the place of the object. -/
def allocCode (o : Nat) (out : Slot) : List Ins :=
  ⟨.leaq, [MEM (-(o : Int)) .rbp, R8 .rsi]⟩ :: regToScalar .rsi out

/-- src/codegen/codegen.c:433-436: `IR_UNDEFINED`. -/
def undefCode (out : Slot) : List Ins := ⟨.xorl, [R4 .rax, R4 .rax]⟩ :: regToScalar .rax out

/-- src/codegen/codegen.c:475-480: `IR_LOAD_BASE_RELATIVE`. -/
def loadBaseCode (off : Int) (out : Slot) : List Ins :=
  [⟨.leaq, [MEM off .rbp, R8 .rdi]⟩, leaSlot out .rsi] ++ memcpy out.size

/-- src/codegen/codegen.c:482-487: `IR_LOAD_BASE_RELATIVE_ADDRESS`. -/
def loadBaseAddressCode (p : Slot) (off : Int) (size : Nat) : Res (List Ins) := do
  let c ← scalarToReg p .rsi
  pure (⟨.leaq, [MEM off .rbp, R8 .rdi]⟩ :: c ++ memcpy size)

/-- The chain of stack arguments with the places of the nodes. -/
def stackArg (slot : Nat → Slot) : StackNode → Call.StackArg
  | .value v off => .value (slot v) off
  | .object p off size => .object (slot p) off size

/-- Registers with the places of the nodes. -/
def regArgs (slot : Nat → Slot) (l : List (Dest × Nat)) : List (Dest × Slot) := l.map fun r => (r.1, slot r.2)

/-- src/codegen/codegen.c:201-504 `codegen_instruction`. -/
def instruction (slot : Nat → Slot) (object : Nat → Nat) (n : Node) : Res (List Ins) :=
  match n.kind with
  | .bin op a b out => codegenBinary op (slot a) (slot b) (slot out)
  | .const v => constantCode v (slot n.num)
  | .label l off => .ok (labelCode l off (slot n.num))
  | .bnot a => codegenUnaryInt .notq (slot a) (slot n.num)
  | .neg a => codegenUnaryInt .negq (slot a) (slot n.num)
  | .negFloat a => codegenNegFloat (slot a) (slot n.num)
  | .call f change stack regs outs =>
    Call.call ⟨change, stack.map (stackArg slot), regArgs slot regs, slot f, Call.calleeReg, regArgs slot outs⟩
  | .load p => load (slot p) (slot n.num)
  | .loadVolatile p out => load (slot p) (slot out)
  | .loadPart p off out => loadPart (slot p) (slot out) off
  | .store p v => store (slot p) (slot v)
  | .storePart p v off => storePart (slot p) (slot v) off
  | .castZero a => Cast.zeroCast (slot a) (slot n.num)
  | .castSign a => Cast.signCast (slot a) (slot n.num)
  | .castBool a => Cast.boolCast (slot a) (slot n.num)
  | .castFloat a => Cast.floatCast (slot a) (slot n.num)
  | .intFloat a => Cast.intFloatCast (slot a) (slot n.num)
  | .uintFloat a => Cast.uintFloatCast (slot a) (slot n.num)
  | .floatInt a => Cast.floatIntCast (slot a) (slot n.num)
  | .setZero p size => setZeroPtr (slot p) size
  | .undef => .ok (undefCode (slot n.num))
  | .alloc _ _ => .ok (allocCode (object n.num) (slot n.num))
  | .copy d p size => copyMemory (slot d) (slot p) size
  | .loadBase off => .ok (loadBaseCode off (slot n.num))
  | .loadBaseAddress p off size => loadBaseAddressCode (slot p) off size
  | .nothing => .ok []

/-- src/codegen/codegen.c:545-546: the instructions of a block. -/
def instructions (slot : Nat → Slot) (object : Nat → Nat) : List Node → Res (List Ins)
  | [] => .ok []
  | n :: ns => do
    let c ← instruction slot object n
    let r ← instructions slot object ns
    pure (c ++ r)

/-- src/codegen/codegen.c:506-540 `codegen_phi_node`: nothing unless the next block is a region. -/
def phiCode (slot : Nat → Slot) (cur : Nat) (next : Block) : Res (List Ins) :=
  match next.preds with
  | none => .ok []
  | some (a, b) => Phi.copies cur a b (next.phis.map fun p => ⟨slot p.out, p.src.1.map slot, p.src.2.map slot⟩)

/-- src/codegen/codegen.c:548-577: the end of a block; `next` is the label of the block that follows
in the list.  A jump to a block that is not in the list of the function (which has no label) is
undefined. -/
def endCode (f : Func) (b : Block) (next : Option Nat) : Res (List Ins) :=
  match b.last with
  | .dead => .ok [⟨.ud2, []⟩]
  | .ret regs => do
    let c ← Call.setRegs (regArgs f.slot regs)
    pure (c ++ Frame.epilogue f.layout)
  | .jump l =>
    match f.blocks.find? (·.label == l) with
    | none => .ub
    | some t => do
      let c ← phiCode f.slot b.label t
      pure (c ++ if next = some l then [] else [⟨.jmp, [.abs (some l) 0]⟩])
  | .branch c lt lf => do
    let l ← scalarToReg (f.slot c) .rdi
    pure (l ++ [⟨.testq, [R8 .rdi, R8 .rdi]⟩, ⟨.je, [.abs (some lf) 0]⟩, ⟨.jmp, [.abs (some lt) 0]⟩])

/-- src/codegen/codegen.c:542-578 `codegen_block`. -/
def block (f : Func) (b : Block) (next : Option Nat) : Res (List Item) := do
  let c ← instructions f.slot f.object b.ins
  let e ← endCode f b next
  pure (.label b.label :: (c ++ e).map .ins)

/-- src/codegen/codegen.c:693-694: the blocks in order. -/
def blocks (f : Func) : List Block → Res (List Item)
  | [] => .ok []
  | b :: bs => do
    let c ← block f b (bs.head?.map (·.label))
    let r ← blocks f bs
    pure (c ++ r)

/-- src/codegen/codegen.c:580-699 `codegen_function`. -/
def function (f : Func) : Res (List Item) := do
  let c ← blocks f f.blocks
  pure (.label f.label :: (Frame.prologue f.layout ++ Call.getRegs (regArgs f.slot f.gets)).map .ins ++ c)

end Verif.FuncCode
