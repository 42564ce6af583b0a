import Verif.Dominator
/-!
Model of the placement of instructions in blocks (src/ir/global_code_motion.c) and of their order within a block (src/ir/ir.c:702-801).

The field `block` of all nodes is a function. The fields `visited` used here (11 and 5) are functions to `Bool`: the marks of earlier passes
are other numbers. `schedule_early` is never called (src/ir/global_code_motion.c:91) and left out.
-/
namespace Verif.Ir
open Verif

/-- src/ir/ir.c:702-707 `node_is_instruction`. -/
def isInstruction (g : Graph) (n : Nat) : Res Bool :=
  if (g.node n).kind = .function then .ok false
  else do
    let c ← isControl g n
    .ok (!c)

/-- The state of the placement: `block` of all nodes, and whether `visited` is 11. -/
structure Place where
  block : Nat → Option Nat
  seen : Nat → Bool := fun _ => false

/-- src/ir/global_code_motion.c:97-115 the nodes that are pinned to a block. -/
def pinned (g : Graph) (n : Nat) : Option Nat :=
  match (g.node n).kind with
  | .phi => (g.node n).args 0
  | .ifk => (g.node n).args 0
  | .ret => (g.node n).args 0
  | _ => none

/-- src/ir/global_code_motion.c:51-55 where a phi needs one of its values: in the predecessor. -/
def phiSide (g : Graph) (i : Info) (fuel : Nat) (y r v k : Nat) (lca : Option Nat) : Run (Option Nat) :=
  if (g.node y).args (k + 1) = some v then intersect fuel i.post i.idom lca ((g.node r).args k) else .ok lca

/-- src/ir/global_code_motion.c:42-58 what a user `y` of `v` in the block `use` adds. -/
def userBlock (g : Graph) (i : Info) (fuel : Nat) (v y use : Nat) (lca : Option Nat) : Run (Option Nat) :=
  if (g.node y).kind = .phi then
    match (g.node y).args 0 with
    | none => .ub
    | some r =>
      if (g.node r).kind ≠ .region then .fail
      else do
        let lca ← phiSide g i fuel y r v 0 lca
        phiSide g i fuel y r v 1 lca
  else intersect fuel i.post i.idom lca (some use)

/-- src/ir/global_code_motion.c:39-41 a user counts if it has a block that is reachable. -/
def userOf (g : Graph) (i : Info) (fuel : Nat) (v y : Nat) (block lca : Option Nat) : Run (Option Nat) :=
  match block with
  | none => .ok lca
  | some use => if (i.idom use).isSome then userBlock g i fuel v y use lca else .ok lca

/-- src/ir/global_code_motion.c:35-59 `schedule_user_late`. -/
def userLate (g : Graph) (i : Info) (fuel : Nat) (recurse : Place → Nat → Run Place) (v : Nat) (s : Place × Option Nat) (y : Nat) :
    Run (Place × Option Nat) := do
  let p ← recurse s.1 y
  let lca ← userOf g i fuel v y (p.block y) s.2
  .ok (p, lca)

/-- src/ir/global_code_motion.c:70-78 a user of `n`, or the users of a projection. -/
def lateUse (g : Graph) (i : Info) (fuel : Nat) (recurse : Place → Nat → Run Place) (n : Nat) (s : Place × Option Nat) (u : Nat) :
    Run (Place × Option Nat) :=
  if (g.node u).kind = .project then forEach (userLate g i fuel recurse u) s (g.node u).live
  else userLate g i fuel recurse n s u

/-- src/ir/global_code_motion.c:81-88 the node and its projections get the block. -/
def Place.put (p : Place) (g : Graph) (n : Nat) (b : Option Nat) : Place :=
  { p with block := fun m => if m = n ∨ (m ∈ (g.node n).live ∧ (g.node m).kind = .project) then b else p.block m }

/-- src/ir/global_code_motion.c:61-89 `schedule_late`. -/
def scheduleLate (g : Graph) (i : Info) (k : Nat) : Nat → Place → Nat → Run Place
  | 0, _, _ => .more
  | fuel + 1, p, n =>
    if p.seen n = true ∨ p.block n ≠ none then .ok p
    else do
      let c ← Run.ofRes (isInstruction g n)
      if c = false then .ok p
      else do
        let p := { p with seen := fun m => if m = n then true else p.seen m }
        let s ← forEach (lateUse g i k (scheduleLate g i k fuel) n) (p, none) (g.node n).live
        .ok (s.1.put g n s.2)

/-- src/ir/global_code_motion.c:117-124 one node of the last loop. -/
def placeNode (g : Graph) (i : Info) (fuel : Nat) (p : Place) (n : Nat) : Run Place := do
  let c ← Run.ofRes (isInstruction g n)
  if c then scheduleLate g i fuel fuel p n else .ok p

/-- src/ir/global_code_motion.c:91-126 `ir_schedule_instructions_to_blocks`. -/
def placeAll (fuel : Nat) (g : Graph) (i : Info) : Run Place :=
  forEach (placeNode g i fuel) { block := pinned g } (List.range g.size)

/-! ### The order within a block -/

/-- src/ir/ir.c:709-736 `node_get_prev_state`. -/
def prevState (g : Graph) (n : Nat) : Option Nat :=
  match (g.node n).kind with
  | .call => (g.node n).args 1
  | .store => (g.node n).args 2
  | .vaStart => (g.node n).args 1
  | .vaArg => (g.node n).args 2
  | .loadVolatile => (g.node n).args 1
  | .loadBaseRelativeAddress => (g.node n).args 1
  | .setZeroPtr => (g.node n).args 1
  | .storePartAddress => (g.node n).args 2
  | .loadPartAddress => (g.node n).args 1
  | .copyMemory => (g.node n).args 2
  | .div => (g.node n).args 2
  | .idiv => (g.node n).args 2
  | .mod => (g.node n).args 2
  | .imod => (g.node n).args 2
  | _ => none

/-- The state of the ordering: whether `visited` is 5, and the list of the block at hand, last instruction first. -/
structure Local where
  seen : Nat → Bool := fun _ => false
  rev : List Nat := []

/-- src/ir/ir.c:746-751 one operand. -/
def localArg (block : Nat → Option Nat) (recurse : Local → Nat → Run Local) (n : Nat) (l : Local) (a : Nat) : Run Local :=
  if block a = block n then recurse l a else .ok l

/-- src/ir/ir.c:756-763 the other users of the state that the node replaces. -/
def localState (g : Graph) (block : Nat → Option Nat) (recurse : Local → Nat → Run Local) (n : Nat) (l : Local) : Run Local :=
  match prevState g n with
  | none => .ok l
  | some s => if block s ≠ none ∧ block s = block n then forEach recurse l (g.node s).live else .ok l

/-- src/ir/ir.c:738-771 `ir_local_schedule_recursive`. -/
def localRec (g : Graph) (block : Nat → Option Nat) : Nat → Local → Nat → Run Local
  | 0, _, _ => .more
  | fuel + 1, l, n =>
    if l.seen n = true then .ok l
    else do
      let c ← Run.ofRes (isInstruction g n)
      if c = false ∨ block n = none then .ok l
      else do
        let l := { l with seen := fun m => if m = n then true else l.seen m }
        let l ← forEach (localArg block (localRec g block fuel) n) l (operands g n)
        let l ← localState g block (localRec g block fuel) n l
        .ok { l with rev := n :: l.rev }

/-- src/ir/ir.c:773-782 `children` of a block: the instructions of the block in the order of creation. -/
def children (g : Graph) (block : Nat → Option Nat) (b : Nat) : List Nat :=
  (List.range g.size).filter fun n => isInstruction g n = .ok true ∧ block n = some b

/-- src/ir/ir.c:788-799 the orders of the blocks `bs`. -/
def localBlocks (fuel : Nat) (g : Graph) (block : Nat → Option Nat) : (Nat → Bool) → List Nat → Run ((Nat → Bool) × List (List Nat))
  | seen, [] => .ok (seen, [])
  | seen, b :: bs => do
    let l ← forEach (localRec g block fuel) { seen := seen } (children g block b)
    let r ← localBlocks fuel g block l.seen bs
    .ok (r.1, l.rev.reverse :: r.2)

/-- src/ir/ir.c:784-801 `ir_local_schedule` after the blocks `bs` are ordered: the instructions of every block. -/
def localSchedule (fuel : Nat) (g : Graph) (i : Info) (bs : List Nat) : Run (Place × List (List Nat)) := do
  let p ← placeAll fuel g i
  let r ← localBlocks fuel g p.block (fun _ => false) bs
  .ok (p, r.2)

end Verif.Ir
