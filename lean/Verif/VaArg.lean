import Verif.Convention
import Verif.Memory
import Verif.X86Control
/-!
Model of variadic functions, src/abi/sysv.c:356-362, 401-506: the register save area, `va_start`
and `va_arg`.

The `va_list` is the structure of four fields that `abi_init_sysv` declares (:549-566); its
layout (offsets 0, 4, 8, 16) is that of the psABI, figure 3.34.
-/
namespace Verif.VaArg
open Verif Asm Codegen Memory
open Verif.Classify (Class)
open Verif.Convention (Ty round)

/-- src/abi/sysv.c:401-413 `sysv_emit_function_preamble`; `pos` is `codegen_get_alloc_preamble`. -/
def preamble (pos : Nat) : List Ins :=
  [⟨.movq, [R8 .rdi, MEM (0 - (pos : Int)) .rbp]⟩, ⟨.movq, [R8 .rsi, MEM (8 - (pos : Int)) .rbp]⟩,
   ⟨.movq, [R8 .rdx, MEM (16 - (pos : Int)) .rbp]⟩, ⟨.movq, [R8 .rcx, MEM (24 - (pos : Int)) .rbp]⟩,
   ⟨.movq, [R8 .r8, MEM (32 - (pos : Int)) .rbp]⟩, ⟨.movq, [R8 .r9, MEM (40 - (pos : Int)) .rbp]⟩]

/-- src/abi/sysv.c:330-343, 360-361: `overflow_position`, the place behind the named arguments
on the stack. -/
def overflowPos (named : List Ty) (stack : List Nat) : Nat :=
  (stack.map fun i => round ((named[i]?.map (·.size)).getD 0) 8).sum + 16

/-- src/abi/sysv.c:415-431 `sysv_emit_va_start`: `va` is the slot with the address of the
`va_list`. -/
def vaStart (va : Slot) (gpOffset overflow pos : Nat) : Res (List Ins) := do
  let c ← scalarToReg va .rax
  pure (c ++ [⟨.movl, [IMM gpOffset, MEM 0 .rax]⟩, ⟨.movl, [IMM 0, MEM 4 .rax]⟩,
    ⟨.leaq, [MEM overflow .rbp, R8 .rdi]⟩, ⟨.movq, [R8 .rdi, MEM 8 .rax]⟩,
    ⟨.leaq, [MEM (-(pos : Int)) .rbp, R8 .rdi]⟩, ⟨.movq, [R8 .rdi, MEM 16 .rax]⟩])

/-- src/abi/sysv.c:448-457: number of registers, if the type can be passed in registers; a
part that is not INTEGER is `NOTIMP`.  A type without parts reads `classes[0]` unset. -/
def numGp (cs : List Class) : Res (Option Nat) :=
  match cs with
  | [] => .ub
  | .memory :: _ => .ok none
  | _ => if cs.all (· = .integer) then .ok (some cs.length) else .fail

/-- src/abi/sysv.c:466-486: the part that takes the argument from the save area. -/
def fromRegs (n stack fetch : Nat) : List Ins :=
  [⟨.movl, [MEM 0 .rdi, R4 .rax]⟩, ⟨.cmpl, [IMM (48 - 8 * (n : Int)), R4 .rax]⟩, ⟨.ja, [.abs (some stack) 0]⟩,
   ⟨.leal, [MEM (n * 8 : Nat) .rax, R4 .rdx]⟩, ⟨.addq, [MEM 16 .rdi, R8 .rax]⟩,
   ⟨.movl, [R4 .rdx, MEM 0 .rdi]⟩, ⟨.jmp, [.abs (some fetch) 0]⟩]

/-- src/abi/sysv.c:489-497: the part that takes it from the overflow area. -/
def fromStack (size : Nat) : List Ins :=
  [⟨.movq, [MEM 8 .rdi, R8 .rax]⟩, ⟨.leaq, [MEM (round size 8 : Nat) .rax, R8 .rdx]⟩,
   ⟨.movq, [R8 .rdx, MEM 8 .rdi]⟩]

/-- src/abi/sysv.c:433-506 `sysv_emit_va_arg`.  `dst` is the slot with the address of the
result, `va` the one with the address of the `va_list`.  A label stands for the code from it
to the end. -/
def vaArg (t : Ty) (dst va : Slot) (stack fetch : Nat) : Res (List Ins × (Nat → Option (List Ins))) := do
  let c1 ← scalarToReg va .rdi
  let n ← numGp t.classes
  let c2 ← scalarToReg dst .rsi
  let f := [⟨.movq, [R8 .rax, R8 .rdi]⟩] ++ c2 ++ memcpy t.size
  let st := fromStack t.size ++ f
  let first := match n with
    | some n => fromRegs n stack fetch
    | none => []
  pure (c1 ++ first ++ st, fun l => if l = stack then some st else if l = fetch then some f else none)

end Verif.VaArg
