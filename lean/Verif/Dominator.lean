import Verif.RemoveDead
/-!
Model of the order of blocks and of the dominator tree (src/ir/dominator_tree.c).

The fields `next` and `child` are lists, and `post_idx`, `idom` and `dom_depth` of all blocks are functions. Indices are natural numbers
(the code counts in `int`).
-/
namespace Verif.Ir
open Verif

/-- The state of the search: the marks, the list of blocks, `post_idx` and the counter. -/
structure Order where
  seen : Graph
  list : List Nat := []
  post : Nat → Nat := fun _ => 0
  idx : Nat := 0

/-- src/ir/dominator_tree.c:13-21 one user of a block. -/
def postUse (recurse : Order → Option Nat → Run Order) (o : Order) (use : Nat) : Run Order := do
  let c ← Run.ofRes (isControl o.seen use)
  if c then recurse o (some use)
  else if (o.seen.node use).kind = .ifk then do
    let o ← recurse o ((o.seen.node use).projects 0)
    recurse o ((o.seen.node use).projects 1)
  else .ok o

/-- src/ir/dominator_tree.c:24-26 a block is left. -/
def Order.leave (o : Order) (b : Nat) : Order :=
  { o with list := b :: o.list, post := fun x => if x = b then o.idx else o.post x, idx := o.idx + 1 }

/-- src/ir/dominator_tree.c:6-27 `post_order_recurse`. -/
def postOrder : Nat → Order → Option Nat → Run Order
  | _, o, none => .ok o
  | 0, _, some _ => .more
  | fuel + 1, o, some b =>
    if (o.seen.node b).visited = 7 then .ok o
    else do
      let o := { o with seen := mark o.seen b 7 }
      let o ← forEach (postUse (postOrder fuel)) o (o.seen.node b).live
      .ok (o.leave b)

/-- The information about blocks: `post_idx`, `idom` and `dom_depth`. -/
structure Info where
  post : Nat → Nat
  idom : Nat → Option Nat
  depth : Nat → Nat

/-- src/ir/dominator_tree.c:45-46 the inner loop: climb while the index is smaller. -/
def climb (post : Nat → Nat) (idom : Nat → Option Nat) : Nat → Nat → Nat → Run Nat
  | 0, _, _ => .more
  | fuel + 1, b, target =>
    if post b < post target then
      match idom b with
      | none => .ub
      | some i => climb post idom fuel i target
    else .ok b

/-- src/ir/dominator_tree.c:44-49 the outer loop of `intersect`. -/
def meet (post : Nat → Nat) (idom : Nat → Option Nat) : Nat → Nat → Nat → Run Nat
  | 0, _, _ => .more
  | fuel + 1, b1, b2 =>
    if b1 = b2 then .ok b1
    else do
      let b1 ← climb post idom (fuel + 1) b1 b2
      let b2 ← climb post idom (fuel + 1) b2 b1
      meet post idom fuel b1 b2

/-- src/ir/dominator_tree.c:41-52 `intersect`. -/
def intersect (fuel : Nat) (post : Nat → Nat) (idom : Nat → Option Nat) : Option Nat → Option Nat → Run (Option Nat)
  | none, b2 => .ok b2
  | b1, none => .ok b1
  | some b1, some b2 => do
    let b ← meet post idom fuel b1 b2
    .ok (some b)

/-- src/ir/dominator_tree.c:73-76 the loop over the operands of a region. -/
def meetAll (fuel : Nat) (i : Info) : Option Nat → List Nat → Run (Option Nat)
  | ni, [] => .ok ni
  | ni, p :: ps =>
    if (i.idom p).isSome then do
      let ni ← intersect fuel i.post i.idom ni (some p)
      meetAll fuel i ni ps
    else meetAll fuel i ni ps

/-- src/ir/dominator_tree.c:65-78 the new immediate dominator of a block. -/
def newIdom (fuel : Nat) (g : Graph) (i : Info) (b : Nat) : Run (Option Nat) :=
  let region : Run (Option Nat) := if (g.node b).kind = .region then meetAll fuel i none (operands g b) else .ok none
  if (g.node b).kind = .project then
    match (g.node b).args 0 with
    | none => .ub
    | some n =>
      if (g.node n).kind = .ifk then
        match (g.node n).args 0 with
        | none => .ub
        | some c => .ok (if (i.idom c).isSome then some c else none)
      else region
  else region

/-- src/ir/dominator_tree.c:80-83 the immediate dominator is stored. -/
def Info.setIdom (i : Info) (b : Nat) (d : Option Nat) : Info := { i with idom := fun x => if x = b then d else i.idom x }

/-- src/ir/dominator_tree.c:64-84 one pass over the blocks; the flag is `changed`. -/
def domPass (fuel : Nat) (g : Graph) : Info × Bool → List Nat → Run (Info × Bool)
  | s, [] => .ok s
  | s, b :: bs => do
    let ni ← newIdom fuel g s.1 b
    if s.1.idom b ≠ ni then domPass fuel g (s.1.setIdom b ni, true) bs
    else domPass fuel g s bs

/-- src/ir/dominator_tree.c:60-85 the passes until nothing changes. -/
def domLoop (fuel : Nat) (g : Graph) (bs : List Nat) : Nat → Info → Run Info
  | 0, _ => .more
  | k + 1, i => do
    let s ← domPass fuel g (i, false) bs
    if s.2 then domLoop fuel g bs k s.1 else .ok s.1

/-- src/ir/dominator_tree.c:89-91 the depths of the blocks after the entry. -/
def depths : Info → List Nat → Run Info
  | i, [] => .ok i
  | i, b :: bs =>
    match i.idom b with
    | none => .ub
    | some d => depths { i with depth := fun x => if x = b then i.depth d + 1 else i.depth x } bs

/-- src/ir/dominator_tree.c:54-92 `ir_calculate_dominator_tree_function`. -/
def domTree (fuel : Nat) (g : Graph) (i : Info) : List Nat → Run Info
  | [] => .ok i
  | e :: bs => do
    let i ← domLoop fuel g bs fuel (i.setIdom e (some e))
    depths { i with depth := fun x => if x = e then 1 else i.depth x } bs

/-- src/ir/dominator_tree.c:29-38 `ir_post_order_blocks`: the lists of blocks of the functions. -/
def postOrders (fuel : Nat) : Order → List Nat → Run (Order × List (List Nat))
  | o, [] => .ok (o, [])
  | o, f :: fs => do
    let o ← postOrder fuel { o with list := [], idx := 0 } ((o.seen.node f).projects 0)
    let r ← postOrders fuel o fs
    .ok (r.1, o.list :: r.2)

/-- src/ir/dominator_tree.c:94-98 `ir_calculate_dominator_tree`. -/
def domTrees (fuel : Nat) (g : Graph) : Info → List (List Nat) → Run Info
  | i, [] => .ok i
  | i, l :: ls => do
    let i ← domTree fuel g i l
    domTrees fuel g i ls

/-- src/ir/ir.c:669-671 the beginning of `ir_schedule_blocks`: the blocks of the functions `fs` and the information about them. -/
def blockTrees (fuel : Nat) (g : Graph) (fs : List Nat) : Run (List (List Nat) × Info) := do
  let r ← postOrders fuel { seen := g } fs
  let i ← domTrees fuel r.1.seen { post := r.1.post, idom := fun _ => none, depth := fun _ => 0 } r.2
  .ok (r.2, i)

end Verif.Ir
