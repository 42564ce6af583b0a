import Verif.RemoveDead
/-!
Model of src/optimize/peephole.c. The list of nodes is that of the graph; the worklist is a list whose last element is taken first.
`add_neighbors_to_worklist` does nothing and is not called.
-/
namespace Verif.Ir
open Verif

/-- src/optimize/peephole.c:14-22 `peephole_phi`. -/
def peepholePhi (fuel : Nat) (g : Graph) (phi : Nat) : Run Graph :=
  match (g.node phi).args 1, (g.node phi).args 2 with
  | none, none => .ok g
  | none, some v => replaceNode fuel g phi v
  | some v, none => replaceNode fuel g phi v
  | some _, some _ => .ok g

/-- src/optimize/peephole.c:39-46: one node of the worklist. -/
def peepholeNode (fuel : Nat) (g : Graph) (n : Nat) : Run Graph := match (g.node n).kind with
  | .phi => peepholePhi fuel g n
  | _ => .ok g

/-- src/optimize/peephole.c:24-47 `optimize_peephole`. -/
def peephole (fuel : Nat) (g : Graph) : Run Graph :=
  forEach (peepholeNode fuel) g ((List.range g.size).filter fun n => (g.node n).kind ≠ .dead).reverse

end Verif.Ir
