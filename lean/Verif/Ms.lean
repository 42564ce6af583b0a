import Verif.Convention
import Verif.Memory
/-!
Model of src/abi/microsoft.c: which registers and stack bytes carry the arguments and the result of
a call in the Microsoft x64 convention, what the caller (`ms_expr_call`), the callee
(`ms_expr_function`) and `return` (`ms_expr_return`) put there and take from there, and the code of
variadic functions.

A type is reduced to its size and whether it is floating.  The arguments have been evaluated
to nodes; what is passed is described by an `Item` and the frame slot that has it.
-/
namespace Verif.Ms
open Verif Asm Codegen Memory
open Verif.Call (Dest Call StackArg)
open Verif.Convention (round)

/-- A type: `calculate_size` and `type_is_floating`. -/
structure Ty where
  size : Nat
  floating : Bool
  deriving DecidableEq, Repr

/-- src/abi/microsoft.c:28-31 `fits_into_reg`. -/
def fits (t : Ty) : Bool := t.size == 1 || t.size == 2 || t.size == 4 || t.size == 8

/-- What is passed: the value of argument `i`, the address of argument `i`, or the address of the
object for the result. -/
inductive Item where
  | value (i : Nat)
  | address (i : Nat)
  | result
  deriving DecidableEq, Repr

/-- src/abi/microsoft.c:14 `calling_convention`; reading past its end is undefined. -/
def gpReg : Nat → Res Reg
  | 0 => .ok .rcx
  | 1 => .ok .rdx
  | 2 => .ok .r8
  | 3 => .ok .r9
  | _ => .ub

/-- src/abi/microsoft.c:15 `shadow_space`. -/
def shadow : Nat := 32

/-- src/abi/microsoft.c:52-62, 129-133: the address of the result is passed (`ret` is `none` for
`void`). -/
def inAddress : Option Ty → Bool
  | none => false
  | some t => !fits t

/-- src/abi/microsoft.c:69-84: the loop over the arguments from `i` on; `idx` is `register_idx`, `mem`
`current_mem`, `named` the number of parameters of the function's type.  The results are `registers`
with `is_floating`, and the stores to the stack. -/
def argLoop (named : Nat) (i idx mem : Nat) : List Ty → List (Item × Bool) × List (Item × Nat)
  | [] => ([], [])
  | t :: ts =>
    let it := if fits t then Item.value i else .address i
    if idx < 4 then
      let r := argLoop named (i + 1) (idx + 1) mem ts
      ((it, if i < named then t.floating else false) :: r.1, r.2)
    else
      let r := argLoop named (i + 1) idx (mem + 8) ts
      (r.1, (it, mem + shadow) :: r.2)

/-- src/abi/microsoft.c:86-92: the registers from number `i` on. -/
def setRegs (i : Nat) : List (Item × Bool) → Res (List (Dest × Item))
  | [] => .ok []
  | (it, f) :: rs => do
    let d ← (if f then .ok (Dest.sse i) else do let g ← gpReg i; pure (Dest.gpr g))
    let r ← setRegs (i + 1) rs
    pure ((d, it) :: r)

/-- What the caller does: registers, stack offsets from `%rsp`, the change of `%rsp`. -/
structure Plan where
  regs : List (Dest × Item)
  stack : List (Item × Nat)
  change : Int
  deriving DecidableEq, Repr

/-- src/abi/microsoft.c:33-92 `ms_expr_call`, before the call.  The arrays have 128 elements. -/
def plan (ret : Option Ty) (named : Nat) (args : List Ty) : Res Plan :=
  if args.length > 128 then .ub
  else do
    let h := inAddress ret
    let r := argLoop named 0 (if h then 1 else 0) 0 args
    let regs ← setRegs 0 ((if h then [(.result, false)] else []) ++ r.1)
    let sub := max 32 (round (args.length * 8) 16)
    pure ⟨regs, r.2, -(sub : Int) - shadow⟩

/-- src/abi/microsoft.c:96-98, 198: the register of a result that fits. -/
def retReg (t : Ty) : Dest := if t.floating then .sse 0 else .gpr .rax

/-- src/abi/microsoft.c:96-119: the results taken from registers. -/
def results (ret : Option Ty) (out : Slot) : List (Dest × Slot) :=
  match ret with
  | none => []
  | some t => if fits t then [(retReg t, out)] else []

/-- src/abi/microsoft.c:33-121: the node of the call (Call.lean): the chains begin with what was added
last.  `slot` gives the frame slots of what is passed, `out` that of the result. -/
def callOf (ret : Option Ty) (named : Nat) (args : List Ty) (slot : Item → Slot) (callee out : Slot) : Res Call := do
  let p ← plan ret named args
  pure { change := p.change, stack := (p.stack.map fun x => StackArg.value (slot x.1) x.2).reverse,
         regs := (p.regs.map fun x => (x.1, slot x.2)).reverse, callee := callee, reg := .rbx,
         results := results ret out }

/-- Where the callee takes a parameter from: a register or an offset from `%rbp`; how many bytes; and
whether it is the value or its address, from which the parameter is copied. -/
structure Input where
  src : Dest ⊕ Nat
  size : Nat
  byAddress : Bool
  deriving DecidableEq, Repr

/-- src/abi/microsoft.c:149-167 (with 181-185): the loop over the parameters. -/
def paramLoop (idx mem : Nat) : List Ty → Res (List Input)
  | [] => .ok []
  | t :: ts => do
    let size := if fits t then t.size else 8
    if idx < 4 then do
      let d ← (if t.floating then .ok (Dest.sse idx) else do let g ← gpReg idx; pure (Dest.gpr g))
      let r ← paramLoop (idx + 1) mem ts
      pure (⟨.inl d, size, !fits t⟩ :: r)
    else do
      let r ← paramLoop idx (mem + 8) ts
      pure (⟨.inr (mem + 16 + shadow), size, !fits t⟩ :: r)

/-- src/abi/microsoft.c:123-191 `ms_expr_function`: where the address of the result comes from, and the
parameters.  For a `long double`, `type_is_floating` makes the number of `%rcx` (`REG_RCX`, 2) that of an
SSE register (:135). -/
def params (ret : Option Ty) (args : List Ty) : Res (Option Dest × List Input) :=
  if args.length > 128 then .ub
  else do
    let h := inAddress ret
    let hid ← (if h then do
        let g ← gpReg 0
        pure (some (if (ret.map (·.floating)).getD false then Dest.sse 2 else Dest.gpr g))
      else .ok none)
    let r ← paramLoop (if h then 1 else 0) 0 args
    pure (hid, r)

/-- What `return` sets: the value's register (the value is at `value`, `none` if the function returns
through an address) and the registers saved at entry (:195-211).  The chain begins with what was added
last. -/
def returnRegs (ret : Option Ty) (value rbx rdi rsi : Slot) : List (Dest × Slot) :=
  [(.gpr .rsi, rsi), (.gpr .rdi, rdi), (.gpr .rbx, rbx)] ++
    (match ret with
    | none => []
    | some t => if fits t then [(retReg t, value)] else [])

/-- src/abi/microsoft.c:145-147: the registers saved at entry. -/
def saved (rbx rdi rsi : Slot) : List (Dest × Slot) := [(.gpr .rbx, rbx), (.gpr .rdi, rdi), (.gpr .rsi, rsi)]

/-- src/abi/microsoft.c:213-223 `ms_emit_function_preamble` of a variadic function. -/
def preamble : List Ins :=
  [⟨.movq, [R8 .rcx, MEM 16 .rbp]⟩, ⟨.movq, [R8 .rdx, MEM 24 .rbp]⟩,
   ⟨.movq, [R8 .r8, MEM 32 .rbp]⟩, ⟨.movq, [R8 .r9, MEM 40 .rbp]⟩]

/-- src/abi/microsoft.c:225-231 `ms_emit_va_start`: `va` is the slot with the address of the
`va_list`, `n` is `n_args`. -/
def vaStart (va : Slot) (n : Nat) : Res (List Ins) := do
  let c ← scalarToReg va .rdx
  pure (⟨.leaq, [MEM (n * 8 + 16 : Nat) .rbp, R8 .rax]⟩ :: c ++ [⟨.movq, [R8 .rax, MEM 0 .rdx]⟩])

/-- src/abi/microsoft.c:233-247 `ms_emit_va_arg`: `dst` is the slot with the address of the result. -/
def vaArg (t : Ty) (dst va : Slot) : Res (List Ins) := do
  let c1 ← scalarToReg va .rbx
  let c2 ← scalarToReg dst .rsi
  pure (c1 ++ [⟨.movq, [MEM 0 .rbx, R8 .rax]⟩, ⟨.leaq, [MEM 8 .rax, R8 .rdx]⟩, ⟨.movq, [R8 .rdx, MEM 0 .rbx]⟩,
    ⟨.movq, [MEM 0 .rax, R8 .rax]⟩] ++
    if fits t then c2 ++ regToMemory .rax t.size
    else ⟨.movq, [R8 .rax, R8 .rdi]⟩ :: c2 ++ memcpy t.size)

end Verif.Ms
