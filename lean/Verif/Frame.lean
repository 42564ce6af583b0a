import Verif.Codegen
/-!
Model of the frame of a function: `codegen_function` in src/codegen/codegen.c:580-700.

Simplifications: sizes and counters are natural numbers (no `int` overflow: the frame is
smaller than 2^31 bytes); the instructions of all blocks are one list, in the order in which
the three passes visit them; `max_temp_stack` is 0 (its loop begins with `continue`, :646).
-/
namespace Verif.Frame
open Verif Asm Codegen

/-- What a node reserves besides its value. -/
inductive Kind where
  | plain
  | vla
  | alloc (size align : Nat)
  deriving DecidableEq, Repr

/-- An instruction: `size` of its value and its kind. -/
structure Node where
  size : Nat
  kind : Kind
  deriving DecidableEq, Repr

/-- src/codegen/codegen.c:590-603: one stack location per value (0 for a node without). -/
def values (c : Nat) : List Node → Nat × List Nat
  | [] => (c, [])
  | n :: ns =>
    if n.size = 0 then
      let r := values c ns
      (r.1, 0 :: r.2)
    else
      let r := values (c + n.size) ns
      (r.1, (c + n.size) :: r.2)

/-- src/codegen/codegen.c:605-613: number of VLA allocations. -/
def vlas (ns : List Node) : Nat := (ns.filter (·.kind = .vla)).length

/-- src/codegen/codegen.c:626-631: round up to the alignment if there is one. -/
def roundUp (c a : Nat) : Nat :=
  if a = 0 then c else if c % a ≠ 0 then c + (a - c % a) else c

/-- src/codegen/codegen.c:618-636: locations of the locals (0 for other nodes) and the largest
alignment. -/
def allocs (c al : Nat) : List Node → Nat × Nat × List Nat
  | [] => (c, al, [])
  | n :: ns =>
    match n.kind with
    | .alloc size a =>
      let c' := roundUp (c + size) a
      let r := allocs c' (max al a) ns
      (r.1, r.2.1, c' :: r.2.2)
    | _ =>
      let r := allocs c al ns
      (r.1, r.2.1, 0 :: r.2.2)

/-- The frame: locations below `%rbp`. -/
structure Layout where
  values : List Nat
  vlaCount : Nat
  vlaOffset : Nat
  allocs : List Nat
  preamble : Nat
  saved : Option Nat
  align : Nat
  frame : Nat
  deriving DecidableEq, Repr

/-- src/codegen/codegen.c:580-683: the layout of a function with the instructions `ns` and a
register save area of `pre` bytes. -/
def layout (ns : List Node) (pre : Nat) : Layout :=
  let v := values 0 ns
  let c1 := v.1 + vlas ns * 8
  let a := allocs c1 0 ns
  let c2 := a.1 + pre
  let c3 := if a.2.1 > 16 then c2 + 8 else c2
  { values := v.2, vlaCount := vlas ns, vlaOffset := c1, allocs := a.2.2,
    preamble := c2, saved := if a.2.1 > 16 then some c3 else none,
    align := a.2.1, frame := roundUp c3 16 }

/-- src/codegen/codegen.c:669-683: entry of a function. -/
def prologue (l : Layout) : List Ins :=
  [⟨.pushq, [R8 .rbp]⟩] ++
  (match l.saved with
   | some off => [⟨.movq, [R8 .rsp, R8 .rbp]⟩, ⟨.andq, [.imm none (-(l.align : Int)), R8 .rsp]⟩,
       ⟨.movq, [R8 .rbp, .mem (-(off : Int)) .rsp]⟩]
   | none => []) ++
  [⟨.movq, [R8 .rsp, R8 .rbp]⟩] ++
  (if l.frame ≠ 0 then [⟨.subq, [.imm none l.frame, R8 .rsp]⟩] else [])

/-- src/codegen/codegen.c:554-561: return from a function. -/
def epilogue (l : Layout) : List Ins :=
  (match l.saved with
   | some off => [⟨.movq, [.mem (-(off : Int)) .rbp, R8 .rbp]⟩]
   | none => []) ++
  [⟨.leave, []⟩, ⟨.ret, []⟩]

/-- src/codegen/codegen.c:439-453, 687-688: the slot of VLA number `i`. -/
def vlaAddr (l : Layout) (i : Nat) : Opd := .mem (-(l.vlaOffset : Int) + (i * 8 : Nat)) .rbp

end Verif.Frame
