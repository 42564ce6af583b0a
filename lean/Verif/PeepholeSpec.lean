import Verif.DominatorSpec
/-!
What a graph computes, and which graphs are in SSA form.

`home n` is the block to which a node belongs; nothing is said about nodes whose block cannot be reached from `entry`.
-/
namespace Verif.PeepholeSpec
open Verif Verif.Ir Verif.IrSpec

/-- The meaning of nodes: what they compute from their operands (a value or a state of memory), and which conditions are true. -/
structure Sense (X : Type) where
  op : Nat → (Nat → Option X) → X
  truth : X → Bool

/-- All nodes except phis have computed what they mean. -/
structure Computes {X : Type} (g : Graph) (entry : Nat) (home : Nat → Nat) (m : Sense X) (e : Nat → X) : Prop where
  node : ∀ n, n < g.size → Walk g entry (home n) → (g.node n).kind ≠ .phi → (g.node n).kind ≠ .region →
    e n = m.op n fun i => ((g.node n).args i).map e
  region : ∀ n, (g.node n).kind = .region → e n = m.op n fun _ => none

/-- Control goes into the join `b` on way `k`: all its phis take their values of this way at once, the other ones keep theirs. -/
def Takes {X : Type} (g : Graph) (b k : Nat) (e e' : Nat → X) : Prop := ∀ p, p < g.size → (g.node p).kind = .phi →
  ((g.node p).args 0 = some b → ∀ v, (g.node p).args (k + 1) = some v → e' p = e v) ∧ ((g.node p).args 0 ≠ some b → e' p = e p)

/-- Control can be in the block `b` with the values `e`, when it has started in the block `entry`. -/
inductive Runs {X : Type} (g : Graph) (entry : Nat) (home : Nat → Nat) (m : Sense X) : Nat → (Nat → X) → Prop
  | start {e} : Computes g entry home m e → Runs g entry home m entry e
  | join {b b' k e e'} : Runs g entry home m b e → (g.node b').kind = .region → k < 2 → (g.node b').args k = some b →
      Takes g b' k e e' → Computes g entry home m e' → Runs g entry home m b' e'
  | branch {b i c b' e e'} : Runs g entry home m b e → IsProjection g b' i → (g.node i).kind = .ifk → (g.node i).args 0 = some b →
      (g.node i).args 1 = some c → m.truth (e c) = decide ((g.node b').projIdx = 0) →
      (∀ p, p < g.size → (g.node p).kind = .phi → e' p = e p) → Computes g entry home m e' → Runs g entry home m b' e'

/-- The graph is in SSA form: the block of an operand dominates the place where it is used, which for a phi is the end of the block that control comes from;
no node takes part in computing itself except through a phi; and a phi has no value for a side only if control cannot come from there. -/
structure Ssa (g : Graph) (entry : Nat) (home rank : Nat → Nat) : Prop where
  start : (g.node entry).kind ≠ .region
  phi : ∀ n, (g.node n).kind = .phi → (g.node n).args 0 = some (home n) ∧ (g.node (home n)).kind = .region
  operand : ∀ n i a, Walk g entry (home n) → (g.node n).kind ≠ .phi → (g.node n).kind ≠ .region → (g.node n).args i = some a →
    Dominates g entry (home a) (home n) ∧ rank a < rank n
  side : ∀ p k v c, (g.node p).kind = .phi → k < 2 → (g.node p).args (k + 1) = some v → (g.node (home p)).args k = some c → Walk g entry c →
    Dominates g entry (home v) c
  missing : ∀ p k c, (g.node p).kind = .phi → k < 2 → (g.node p).args (k + 1) = none → (g.node (home p)).args k = some c → ¬Walk g entry c
  region : ∀ b i c, (g.node b).kind = .region → (g.node b).args i = some c → i < 2
  branch : ∀ i c, (g.node i).kind = .ifk → (g.node i).args 0 = some c → home i = c
  /-- a phi is no block, and blocks are not chosen by values -/
  value : ∀ u i a, (g.node u).args i = some a → (g.node a).kind = .phi →
    (g.node u).kind ≠ .region ∧ (g.node u).kind ≠ .project ∧ (i = 0 → (g.node u).kind ≠ .phi ∧ (g.node u).kind ≠ .ifk)

/-- The phi has a value for one side only. -/
def OneSided (g : Graph) (p v : Nat) : Prop := (g.node p).kind = .phi ∧
  (((g.node p).args 1 = some v ∧ (g.node p).args 2 = none) ∨ ((g.node p).args 1 = none ∧ (g.node p).args 2 = some v))

end Verif.PeepholeSpec
