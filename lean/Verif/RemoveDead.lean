import Verif.Ir
/-!
Model of the removal of dead nodes (src/optimize/remove_dead.c).
-/
namespace Verif.Ir
open Verif

/-- A loop over nodes. -/
def forEach {σ : Type} (f : σ → Nat → Run σ) : σ → List Nat → Run σ
  | g, [] => .ok g
  | g, x :: xs => do
    let g ← f g x
    forEach f g xs

/-- src/optimize/remove_dead.c:11,31 a node is marked. -/
def mark (g : Graph) (n : Nat) (v : Int) : Graph := g.upd n fun q => { q with visited := v }

/-- src/optimize/remove_dead.c:14-23 one user of a control node; a projection that does not exist is a null pointer. -/
def markUse (recurse : Graph → Nat → Run Graph) (g : Graph) (use : Nat) : Run Graph :=
  if (g.node use).kind = .ret then recurse g use
  else do
    let c ← Run.ofRes (isControl g use)
    if c then recurse g use
    else if (g.node use).kind = .ifk then
      match (g.node use).projects 0 with
      | none => .ub
      | some p => do
        let g ← recurse g p
        match (g.node use).projects 1 with
        | none => .ub
        | some q => recurse g q
    else .ok g

/-- src/optimize/remove_dead.c:7-25 `recurse_mark_reachable`. -/
def markReachable : Nat → Graph → Nat → Run Graph
  | 0, _, _ => .more
  | fuel + 1, g, c =>
    if (g.node c).visited = -1 then .ok g
    else
      let g := mark g c (-1)
      forEach (markUse (markReachable fuel)) g (g.node c).live

/-- The operands of a node that are not null, in order. -/
def operands (g : Graph) (n : Nat) : List Nat := (List.range 4).filterMap (g.node n).args

/-- src/optimize/remove_dead.c:27-37 `recurse_mark_useful`. -/
def markUseful : Nat → Graph → Nat → Run Graph
  | 0, _, _ => .more
  | fuel + 1, g, n =>
    if (g.node n).visited = -2 then .ok g
    else
      let g := mark g n (-2)
      forEach (markUseful fuel) g (operands g n)

/-- src/optimize/remove_dead.c:51-56 one node of the first loop. -/
def markFunction (fuel : Nat) (g : Graph) (n : Nat) : Run Graph :=
  if (g.node n).kind = .function then
    match (g.node n).projects 0 with
    | none => .ub
    | some p => markReachable fuel g p
  else .ok g

/-- src/optimize/remove_dead.c:58-68 one node of the second loop. -/
def markRoot (fuel : Nat) (g : Graph) (n : Nat) : Run Graph :=
  if (g.node n).visited ≠ -1 then .ok g
  else if (g.node n).kind = .ret then markUseful fuel g n
  else if (g.node n).kind = .region then markUseful fuel g n
  else .ok g

/-- src/optimize/remove_dead.c:74-77 the operands of a dead node, from operand `j` on, with `k` operands to go. -/
def clearArgs (fuel : Nat) (g : Graph) (n j : Nat) : Nat → Run Graph
  | 0 => .ok g
  | k + 1 =>
    if (g.node n).args j ≠ none then do
      let g ← setArg fuel g n j none
      clearArgs fuel g n (j + 1) k
    else clearArgs fuel g n (j + 1) k

/-- src/optimize/remove_dead.c:70-80 one node of the third loop. -/
def killNode (fuel : Nat) (g : Graph) (n : Nat) : Run Graph :=
  if (g.node n).visited ≠ -2 ∧ (g.node n).kind ≠ .project then do
    let g ← clearArgs fuel g n 0 4
    .ok (g.upd n fun q => { q with kind := .dead })
  else .ok g

/-- src/optimize/remove_dead.c:45-81 `optimize_remove_dead`. -/
def removeDead (fuel : Nat) (g : Graph) : Run Graph := do
  let nodes := List.range g.size
  let g ← forEach (markFunction fuel) g nodes
  let g ← forEach (markRoot fuel) g nodes
  forEach (killNode fuel) g nodes

end Verif.Ir
