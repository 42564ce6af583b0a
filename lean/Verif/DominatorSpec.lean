import Verif.RemoveDeadSpec
/-!
Dominators in the control flow of a graph.
-/
namespace Verif.IrSpec
open Verif Verif.Ir

/-- Control can go from `c` to `b`: `b` is a join of `c`, or a side of the branch at the end of `c`. -/
def Edge (g : Graph) (c b : Nat) : Prop :=
  ((g.node b).kind = .region ∧ Operand g b c) ∨ ∃ i, IsProjection g b i ∧ (g.node i).kind = .ifk ∧ (g.node i).args 0 = some c

/-- Control can go from `e` to `b`. -/
inductive Walk (g : Graph) (e : Nat) : Nat → Prop
  | start : Walk g e e
  | step {c b} : Walk g e c → Edge g c b → Walk g e b

/-- Control can go from `e` to `b` without entering `d`. -/
inductive Avoids (g : Graph) (e d : Nat) : Nat → Prop
  | start : e ≠ d → Avoids g e d e
  | step {c b} : Avoids g e d c → Edge g c b → b ≠ d → Avoids g e d b

/-- On every way from `e` to `b` control enters `d`. -/
def Dominates (g : Graph) (e d b : Nat) : Prop := Walk g e b ∧ ¬Avoids g e d b

/-- The nearest dominator of `b` apart from `b`: every other one dominates it. -/
def ImmediateDominator (g : Graph) (e i b : Nat) : Prop :=
  i ≠ b ∧ Dominates g e i b ∧ ∀ d, Dominates g e d b → d ≠ b → Dominates g e d i

/-- `e` is the first block of the function `f`. -/
def IsEntry (g : Graph) (f e : Nat) : Prop := f < g.size ∧ (g.node f).kind = .function ∧ IsProjection g e f ∧ (g.node e).projIdx = 0

/-- `b` is a block: a join, a side of a branch, or the start of a function. -/
def IsBlock (g : Graph) (b : Nat) : Prop :=
  (g.node b).kind = .region ∨ ∃ n, IsProjection g b n ∧ ((g.node n).kind = .ifk ∨ ((g.node b).projIdx = 0 ∧ (g.node n).kind = .function))

/-- A branch has its block as first operand and no block among the others. -/
def Branches (g : Graph) : Prop :=
  ∀ i, (g.node i).kind = .ifk → (g.node i).args 0 ≠ none ∧ ∀ j v, j ≠ 0 → (g.node i).args j = some v → ¬IsBlock g v

/-- Two lists that are related element by element. -/
inductive All2 {α β : Type} (r : α → β → Prop) : List α → List β → Prop
  | nil : All2 r [] []
  | cons {a b as bs} : r a b → All2 r as bs → All2 r (a :: as) (b :: bs)

/-- No block belongs to two functions. -/
def Apart (g : Graph) (es : List Nat) : Prop := es.Pairwise fun a b => ∀ x, Walk g a x → ¬Walk g b x

end Verif.IrSpec
