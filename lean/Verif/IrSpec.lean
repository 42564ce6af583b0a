import Verif.Ir
/-!
Operands and users of the nodes of a graph.
-/
namespace Verif.IrSpec
open Verif Verif.Ir

/-- How often a node is an operand of another. -/
def operandCount (g : Graph) (user node : Nat) : Nat := (List.range 4).countP fun i => decide ((g.node user).args i = some node)

/-- The users of every node mirror the operands. -/
def Mirror (g : Graph) : Prop := ∀ node user, (g.node node).live.count user = operandCount g user node

/-- Operands are nodes of the graph. -/
def Closed (g : Graph) : Prop := ∀ n i a, (g.node n).args i = some a → i < 4 ∧ n < g.size ∧ a < g.size

/-- The two graphs have the same nodes with the same operands and users. -/
def SameLists (g h : Graph) : Prop := h.size = g.size ∧ ∀ n, (h.node n).args = (g.node n).args ∧ (h.node n).uses = (g.node n).uses ∧
  (h.node n).useSize = (g.node n).useSize

/-- A graph that is built by creating nodes, setting operands, replacing nodes, reading the state of blocks and sealing them, in
any order, and changing the other members of nodes in any way in between. -/
inductive Built : Graph → Prop
  | empty : Built {}
  | new {g k b} : Built g → Built (new g k b).1
  | set {g fuel n i a h} : Built g → setArg fuel g n i a = .ok h → Built h
  | replace {g fuel o r h} : Built g → replaceNode fuel g o r = .ok h → Built h
  | sealB {g fuel b h} : Built g → sealBlock fuel g b = .ok h → Built h
  | read {g fuel b h v} : Built g → readState fuel g b = .ok (h, v) → Built h
  | other {g h} : Built g → SameLists g h → Built h

end Verif.IrSpec
