import Verif.Ir
/-!
Which nodes are needed.
-/
namespace Verif.IrSpec
open Verif Verif.Ir

/-- `n` is an operand of `u`. -/
def Operand (g : Graph) (u n : Nat) : Prop := ∃ i, (g.node u).args i = some n

/-- `p` is a projection of `n`. -/
def IsProjection (g : Graph) (p n : Nat) : Prop := (g.node p).kind = .project ∧ (g.node p).args 0 = some n

/-- The blocks that control can reach: the start of a function, joins of reachable blocks, and both sides of a branch at the end of
a reachable block. -/
inductive Reachable (g : Graph) : Nat → Prop
  | entry {f p} : f < g.size → (g.node f).kind = .function → IsProjection g p f → (g.node p).projIdx = 0 → Reachable g p
  | join {c u} : Reachable g c → (g.node u).kind = .region → Operand g u c → Reachable g u
  | branch {c i p} : Reachable g c → (g.node i).kind = .ifk → Operand g i c → IsProjection g p i → Reachable g p

/-- What the returns that can be reached and the joins that can be reached depend on. -/
inductive Useful (g : Graph) : Nat → Prop
  | ret {c r} : Reachable g c → (g.node r).kind = .ret → Operand g r c → Useful g r
  | region {c} : Reachable g c → (g.node c).kind = .region → Useful g c
  | operand {u n} : Useful g u → Operand g u n → Useful g n

/-- Projections of branches and functions are known to them. -/
structure Projections (g : Graph) : Prop where
  branch : ∀ i < g.size, (g.node i).kind = .ifk → ∃ p q, (g.node i).projects 0 = some p ∧ (g.node i).projects 1 = some q ∧
    ∀ u, IsProjection g u i ↔ u = p ∨ u = q
  entry : ∀ f < g.size, (g.node f).kind = .function → ∃ p, (g.node f).projects 0 = some p ∧
    ∀ u, (IsProjection g u f ∧ (g.node u).projIdx = 0) ↔ u = p
  single : ∀ u, (g.node u).kind = .project → ∀ i, i ≠ 0 → (g.node u).args i = none

/-- What happens when control reaches a block: everything that the state of memory at its end depends on. -/
inductive Effect (g : Graph) : Nat → Prop
  | state {b s} : Reachable g b → (g.node b).state = some s → Effect g s
  | operand {u n} : Effect g u → Operand g u n → Effect g n

end Verif.IrSpec
