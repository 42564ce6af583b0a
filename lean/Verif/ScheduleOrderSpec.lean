import Verif.ScheduleSpec
/-!
What a right order of the instructions of a block is.
-/
namespace Verif.IrSpec
open Verif Verif.Ir

/-- A node that is computed somewhere: neither a block nor a function. -/
def IsInstruction (g : Graph) (n : Nat) : Prop := n < g.size ∧ (g.node n).kind ≠ .function ∧ ¬IsBlock g n

/-- Which operand of an instruction is the state of memory that the instruction replaces by a new one: those of src/ir/ir.c:424-660 that are made with
`get_state` and followed by `set_state`. -/
def replacedBy : Kind → Option Nat
  | .call | .vaStart | .loadVolatile | .loadBaseRelativeAddress | .setZeroPtr | .loadPartAddress => some 1
  | .store | .vaArg | .storePartAddress | .copyMemory | .div | .idiv | .mod | .imod => some 2
  | _ => none

/-- The instruction `n` replaces the state `s`. -/
def Replaces (g : Graph) (n s : Nat) : Prop := ∃ i, replacedBy (g.node n).kind = some i ∧ (g.node n).args i = some s

/-- `a` is in the list before `n`. -/
def Before (l : List Nat) (a n : Nat) : Prop := ∃ x y, l = x ++ n :: y ∧ a ∈ x

/-- `l` is a right order of the instructions of the block `b`: each is there once, after its operands, unless it is a phi, whose values come from
the blocks before; and an instruction that replaces a state comes after the others that use this state. -/
structure InOrder (g : Graph) (block : Nat → Option Nat) (b : Nat) (l : List Nat) : Prop where
  once : l.Nodup
  all : ∀ n, n ∈ l ↔ IsInstruction g n ∧ block n = some b
  operands : ∀ n a, n ∈ l → a ∈ l → (g.node n).kind ≠ .phi → Operand g n a → Before l a n
  states : ∀ n s u, n ∈ l → u ∈ l → Replaces g n s → Operand g u s → u ≠ n → Before l u n

/-- `n` is among what `c` waits for in its block. -/
inductive Waits (g : Graph) (block : Nat → Option Nat) (c : Nat) : Nat → Prop
  | refl : Waits g block c c
  | operand {n a} : Waits g block c n → Operand g n a → block a = block n → Waits g block c a
  | state {n s u} : Waits g block c n → Replaces g n s → block s = block n → Operand g u s → block u = block n → Waits g block c u

/-- Graphs without the loops and moves that go wrong. -/
structure Tame (g : Graph) (block : Nat → Option Nat) : Prop where
  /-- no instruction waits for itself, not even through a phi -/
  acyclic : ∃ rank : Nat → Nat, (∀ n, rank n ≤ g.size) ∧ (∀ n a, Operand g n a → block n ≠ none → block a = block n → rank a < rank n) ∧
    ∀ n s u, Replaces g n s → block n ≠ none → block s = block n → Operand g u s → u ≠ n → block u ≠ none → rank u < rank n
  /-- what uses a state that is replaced in its block is in this block -/
  settled : ∀ n s u, Replaces g n s → block n ≠ none → block s = block n → Operand g u s → block u = none ∨ block u = block n
  /-- of those that use a state of another block, the one that replaces it is the youngest, and nothing older waits for it -/
  outside : ∀ n s u, Replaces g n s → block n ≠ none → block s ≠ block n → Operand g u s → u ≠ n → block u = block n →
    u < n ∧ ∀ c ≤ u, block c = block n → ¬Waits g block c n

end Verif.IrSpec
