import Verif.ScheduleOrderSpec
/-!
What a graph computes, as far as one variable is concerned that is only accessed by its name.

The nodes that do not access the variable `a` have any meaning: what they compute, be it a value or a state of memory, is a function of what their operands
compute. Memory is split in two: the contents of `a`, and the rest; so it is a part of the meaning that an instruction without the operand `a` neither
reads nor changes the contents of `a`.
-/
namespace Verif.IrSpec
open Verif Verif.Ir

/-- The meaning of the nodes: what the nodes that do not access the variable compute, the contents of a variable set to zero, and which conditions are true. -/
structure Meaning (X : Type) where
  op : Nat → (Nat → Option X) → X
  zero : X
  truth : X → Bool

/-- What the nodes have computed: `out` is the value of a node, or memory apart from the variable if it is a state; `var` is then the contents of the
variable. -/
structure Env (X : Type) where
  out : Nat → X
  var : Nat → X

/-- `n` loads, stores or clears the variable `a`. -/
def Access (g : Graph) (a n : Nat) : Prop :=
  ((g.node n).kind = .load ∨ (g.node n).kind = .store ∨ (g.node n).kind = .setZeroPtr) ∧ (g.node n).args 0 = some a

/-- All nodes but the phis have computed what they mean. A load yields the contents in the state it names; a store replaces the contents and leaves the rest
of memory; the contents stay the same in all other instructions. `init` is the contents when a function starts. -/
structure Holds {X : Type} (g : Graph) (a : Nat) (m : Meaning X) (init : Nat → X) (e : Env X) : Prop where
  load : ∀ n s, n < g.size → (g.node n).kind = .load → (g.node n).args 0 = some a → (g.node n).args 1 = some s → e.out n = e.var s
  store : ∀ n v s, n < g.size → (g.node n).kind = .store → (g.node n).args 0 = some a → (g.node n).args 1 = some v → (g.node n).args 2 = some s →
    e.out n = e.out s ∧ e.var n = e.out v
  clear : ∀ n s, n < g.size → (g.node n).kind = .setZeroPtr → (g.node n).args 0 = some a → (g.node n).args 1 = some s →
    e.out n = e.out s ∧ e.var n = m.zero
  other : ∀ n, n < g.size → ¬Access g a n → (g.node n).kind ≠ .phi → (g.node n).kind ≠ .region →
    e.out n = m.op n fun i => ((g.node n).args i).map e.out
  through : ∀ n s, n < g.size → Replaces g n s ∨ IsProjection g n s → ¬Access g a n → e.var n = e.var s
  start : ∀ n, n < g.size → (g.node n).kind = .function → e.var n = init n

/-- Control goes into the join `b` on way `k`: all its phis take their values of this way at once. -/
def Joins {X : Type} (g : Graph) (b k : Nat) (e e' : Env X) : Prop := ∀ p, p < g.size → (g.node p).kind = .phi →
  ((g.node p).args 0 = some b → ∀ v, (g.node p).args (k + 1) = some v → e'.out p = e.out v ∧ e'.var p = e.var v) ∧
  ((g.node p).args 0 ≠ some b → e'.out p = e.out p ∧ e'.var p = e.var p)

/-- Control goes into a side of a branch: the phis keep their values. -/
def Keeps {X : Type} (g : Graph) (e e' : Env X) : Prop := ∀ p, p < g.size → (g.node p).kind = .phi → e'.out p = e.out p ∧ e'.var p = e.var p

/-- Control can be in the block `b` with the values `e`, when it has started in the block `entry`. -/
inductive Executes {X : Type} (g : Graph) (a : Nat) (m : Meaning X) (init : Nat → X) (entry : Nat) : Nat → Env X → Prop
  | start {e} : Holds g a m init e → Executes g a m init entry entry e
  | join {b b' k e e'} : Executes g a m init entry b e → (g.node b').kind = .region → k < 2 → (g.node b').args k = some b →
      Joins g b' k e e' → Holds g a m init e' → Executes g a m init entry b' e'
  | branch {b i c b' e e'} : Executes g a m init entry b e → IsProjection g b' i → (g.node i).kind = .ifk → (g.node i).args 0 = some b →
      (g.node i).args 1 = some c → m.truth (e.out c) = decide ((g.node b').projIdx = 0) → Keeps g e e' → Holds g a m init e' →
      Executes g a m init entry b' e'

/-- What holds of the graphs that the pass over the variables gets, and of the variable `a`. -/
structure Variable (g : Graph) (a : Nat) : Prop where
  alloc : (g.node a).kind = .alloc
  /-- it is an operand of loads and clears only as address -/
  address : ∀ n, (g.node n).kind = .load ∨ (g.node n).kind = .setZeroPtr → Operand g n a → (g.node n).args 0 = some a
  /-- some nodes are states of memory: what precedes a state is one -/
  states : ∃ st : Nat → Prop, (∀ n s, Access g a n → (g.node n).kind = .load → (g.node n).args 1 = some s → st s) ∧
    (∀ n s, Access g a n → Replaces g n s → st s) ∧ ∀ s, st s → (g.node s).kind ≠ .alloc ∧ (g.node s).kind ≠ .load ∧
      ((g.node s).kind = .phi → (∃ b, (g.node s).args 0 = some b ∧ (g.node b).kind = .region) ∧ ∀ i v, (g.node s).args (i + 1) = some v → st v) ∧
      ∀ p, Replaces g s p ∨ IsProjection g s p → st p
  /-- stores and clears replace a state -/
  stated : ∀ n, Access g a n → (g.node n).kind ≠ .load → ∃ s, Replaces g n s
  /-- blocks are no accesses -/
  blocks : ∀ u i x, (g.node u).args i = some x → Access g a x → (g.node u).kind ≠ .region ∧ (g.node u).kind ≠ .project ∧
    (i = 0 → (g.node u).kind ≠ .phi ∧ (g.node u).kind ≠ .ifk)
  /-- no node takes part in computing itself, except through a phi -/
  acyclic : ∃ rank : Nat → Nat, ∀ u n, Operand g u n → (g.node u).kind ≠ .phi → (g.node u).kind ≠ .region → rank n < rank u

/-- All that is done with `a` is to load it, to store to it and to clear it, each time as a whole; its address is not stored. -/
def OnlyWhole (extent : Nat → Nat) (g : Graph) (a : Nat) : Prop := ∀ u, Operand g u a →
  ((g.node u).kind = .load ∧ (g.node u).bytes = extent a) ∨ ((g.node u).kind = .setZeroPtr ∧ extent u = extent a) ∨
  ((g.node u).kind = .store ∧ (g.node u).args 0 = some a ∧ ∀ v, (g.node u).args 1 = some v → v ≠ a ∧ (g.node v).bytes = extent a)

/-- No store to `a` has just the contents of `a` as value. -/
def NoSelfStore (g : Graph) (a : Nat) : Prop :=
  ∀ n v, (g.node n).kind = .store → (g.node n).args 0 = some a → (g.node n).args 1 = some v → ¬Access g a v

end Verif.IrSpec
