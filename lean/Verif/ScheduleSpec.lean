import Verif.DominatorSpec
/-!
Where instructions belong.
-/
namespace Verif.IrSpec
open Verif Verif.Ir

/-- `b` is a block of the function `f` that control can reach. -/
def BlockOf (g : Graph) (f b : Nat) : Prop := ∃ e, IsEntry g f e ∧ Walk g e b

/-- The block `b` needs the value `v` when instructions are in the blocks `block`: a user of `v` is in `b`, or a phi whose value on the
way from `b` is `v`. Projections are no users: they are computed with their operand. -/
inductive Needs (g : Graph) (block : Nat → Option Nat) (f v : Nat) : Nat → Prop
  | user {y b} : Operand g y v → (g.node y).kind ≠ .phi → (g.node y).kind ≠ .project → block y = some b → BlockOf g f b → Needs g block f v b
  | phi {y r k b} : (g.node y).kind = .phi → (g.node y).args 0 = some r → BlockOf g f r → (g.node y).args (k + 1) = some v →
      (g.node r).args k = some b → Needs g block f v b

/-- The block `b` needs `n` or one of its projections. -/
def Demand (g : Graph) (block : Nat → Option Nat) (f n b : Nat) : Prop :=
  Needs g block f n b ∨ ∃ p, IsProjection g p n ∧ Needs g block f p b

/-- `d` dominates `b` in the function `f`. -/
def DominatesIn (g : Graph) (f d b : Nat) : Prop := ∃ e, IsEntry g f e ∧ Dominates g e d b

/-- `d` is the last block through which control goes on every way to every block that needs `n`. -/
structure Latest (g : Graph) (block : Nat → Option Nat) (f n d : Nat) : Prop where
  dominates : ∀ b, Demand g block f n b → DominatesIn g f d b
  latest : ∀ d', (∀ b, Demand g block f n b → DominatesIn g f d' b) → DominatesIn g f d' d

/-- Nodes that must stay in their block. -/
def Pinned (g : Graph) (n : Nat) : Prop := (g.node n).kind = .phi ∨ (g.node n).kind = .ifk ∨ (g.node n).kind = .ret

/-- `n` is an instruction that can be moved: not pinned, not a block or a function, and not a projection that belongs to an instruction. -/
structure Movable (g : Graph) (n : Nat) : Prop where
  pinned : ¬Pinned g n
  block : ¬IsBlock g n
  function : (g.node n).kind ≠ .function
  projection : ∀ m, IsProjection g n m → (g.node m).kind = .function

/-- What holds of the graphs that the placement gets. -/
structure Ordinary (g : Graph) : Prop where
  /-- a phi belongs to a join, a return and a branch to a block -/
  phi : ∀ n, (g.node n).kind = .phi → ∃ r, (g.node n).args 0 = some r ∧ (g.node r).kind = .region
  pinned : ∀ n, Pinned g n → (g.node n).args 0 ≠ none
  /-- joins have two operands, phis two values -/
  region : ∀ n, (g.node n).kind = .region ∨ (g.node n).kind = .phi → (g.node n).args 3 = none
  join : ∀ n, (g.node n).kind = .region → (g.node n).args 2 = none
  /-- projections are younger than what they are projections of, which is no projection, phi, return or join -/
  project : ∀ p n, IsProjection g p n → n < p ∧ (g.node n).kind ≠ .project ∧ (g.node n).kind ≠ .phi ∧ (g.node n).kind ≠ .ret ∧ (g.node n).kind ≠ .region
  /-- instructions are not operands of blocks, except for branches -/
  blocks : ∀ u n, Operand g u n → IsBlock g u → IsBlock g n ∨ (g.node n).kind = .function ∨ (g.node n).kind = .ifk
  /-- no instruction takes part in computing itself, except through a phi -/
  acyclic : ∃ rank : Nat → Nat, (∀ n, rank n ≤ g.size) ∧ ∀ u n, Operand g u n → ¬Pinned g u → ¬IsBlock g u → rank u < rank n
  /-- the nodes of a function stay among themselves -/
  function : ∀ u n, Operand g u n → (g.node n).kind ≠ .function → (g.node u).parent = (g.node n).parent
  entry : ∀ f p, IsProjection g p f → (g.node f).kind = .function → (g.node p).parent = some f

/-- A graph where joins that control can reach have no operand that it cannot reach. -/
structure Placeable (g : Graph) : Prop extends Ordinary g where
  reached : ∀ f r c, BlockOf g f r → (g.node r).kind = .region → Operand g r c → BlockOf g f c

end Verif.IrSpec
