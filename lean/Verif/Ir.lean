import Verif.Run
/-!
Model of the graph of nodes of the intermediate representation (src/ir/ir.c, src/ir/ir.h).

Nodes are numbered in the order of creation, a pointer to a node is its number, `NULL` is `none`.
Simplifications: the operators without effect on memory or control are one constructor `op` with a number; of the `union`s of a node
only the members that the functions here use are modelled (a node has one of them in C, chosen by its type); memory
allocation does not fail.
-/
namespace Verif.Ir
open Verif

/-- src/ir/ir.h:12-88 the types of nodes. -/
inductive Kind where
  | op (n : Nat)
  | div | idiv | mod | imod
  | alloc | loadVolatile | load | store | call | setZeroPtr | vaStart | vaArg | copyMemory | loadPartAddress | storePartAddress
  | loadBaseRelativeAddress
  | phi | region | project | ifk | ret | function | dead
  deriving DecidableEq, Repr

/-- src/ir/ir.h:12-203 `struct node`. `uses` is the memory that holds the list of users, of which the first `useSize` count. -/
structure Node where
  kind : Kind := .dead
  args : Nat → Option Nat := fun _ => none
  projects : Nat → Option Nat := fun _ => none
  /-- `project.index` -/
  projIdx : Nat := 0
  /-- `size` -/
  bytes : Nat := 0
  uses : List Nat := []
  useSize : Nat := 0
  visited : Int := 0
  parent : Option Nat := none
  /-- `block_info.state`, `block_info.incomplete_phi`, `block_info.is_sealed` -/
  state : Option Nat := none
  phi : Option Nat := none
  isSealed : Bool := false

/-- src/ir/ir.c:10-21 the nodes and the variables of the file. -/
structure Graph where
  size : Nat := 0
  node : Nat → Node := fun _ => {}
  /-- `current_function`, `current_block`, `has_written_state`, `seals` -/
  fn : Option Nat := none
  block : Option Nat := none
  written : Bool := false
  seals : List Nat := []
  first : Option Nat := none

/-- The users of a node. -/
def Node.live (n : Node) : List Nat := n.uses.take n.useSize

/-- Change one node. -/
def Graph.upd (g : Graph) (n : Nat) (f : Node → Node) : Graph :=
  { g with node := fun m => if m = n then f (g.node n) else g.node m }

/-- src/ir/ir.c:101-108,114 the memory of the users after the user at `i` is removed. -/
def removeAt (u : List Nat) (size i : Nat) : List Nat := u.take i ++ (u.take size).drop (i + 1) ++ u.drop (size - 1)

/-- src/common.h `ADD_ELEMENT`: the memory after a user is added. -/
def addAt (u : List Nat) (size x : Nat) : List Nat := u.take size ++ [x] ++ u.drop (size + 1)

/-- src/ir/ir.c:97-115 the former operand loses a user. -/
def dropUse (g : Graph) (n : Nat) : Option Nat → Res Graph
  | none => .ok g
  | some p =>
    let i := (g.node p).live.idxOf n
    if i < (g.node p).useSize then
      if (g.node n).kind = .project ∧ 4 ≤ (g.node n).projIdx then .ub
      else .ok (g.upd p fun q => { q with
        uses := removeAt q.uses q.useSize i
        useSize := q.useSize - 1
        projects := if (g.node n).kind = .project then fun k => if k = (g.node n).projIdx then none else q.projects k else q.projects })
    else .fail

/-- src/ir/ir.c:117-118 the new operand gains a user. -/
def addUse (g : Graph) (n : Nat) : Option Nat → Graph
  | none => g
  | some x => g.upd x fun q => { q with uses := addAt q.uses q.useSize n, useSize := q.useSize + 1 }

/-- src/ir/ir.c:121-123 the new operand of a projection knows the projection. -/
def addProject (g : Graph) (n : Nat) (a : Option Nat) : Res Graph :=
  if (g.node n).kind = .project then
    match a with
    | none => .ub
    | some x =>
      if 4 ≤ (g.node n).projIdx then .ub
      else .ok (g.upd x fun q => { q with projects := fun k => if k = (g.node n).projIdx then some n else q.projects k })
  else .ok g

/-- src/ir/ir.c:91-123 `node_set_argument` up to the sealing of blocks. -/
def setArg0 (g : Graph) (n i : Nat) (a : Option Nat) : Res Graph :=
  if 4 ≤ i ∨ g.size ≤ n ∨ (∃ x, a = some x ∧ g.size ≤ x) then .ub
  else if (g.node n).args i = a then .ok g
  else do
    let g1 ← dropUse g n ((g.node n).args i)
    let g2 := addUse g1 n a
    let g3 := g2.upd n fun q => { q with args := fun j => if j = i then a else q.args j }
    addProject g3 n a

/-- src/ir/ir.c:23-35 `ir_new`. -/
def new (g : Graph) (k : Kind) (bytes : Nat) : Graph × Nat :=
  ({ g with size := g.size + 1, node := fun m => if m = g.size then { kind := k, bytes := bytes, parent := g.fn } else g.node m }, g.size)

/-- src/ir/ir.c:134-141 `node_argument_count`. -/
def argCount (g : Graph) (n : Nat) : Nat := (List.range 4).countP fun i => ((g.node n).args i).isSome

/-- src/ir/ir.c:809-822 `node_is_control`. -/
def isControl (g : Graph) (n : Nat) : Res Bool :=
  match (g.node n).kind with
  | .region => .ok true
  | .project =>
    match (g.node n).args 0 with
    | none => .ub
    | some f => .ok ((g.node f).kind = .ifk ∨ ((g.node n).projIdx = 0 ∧ (g.node f).kind = .function))
  | _ => .ok false

/-- src/ir/ir.c:183-185 `write_state`. -/
def writeState (g : Graph) (b : Nat) (v : Option Nat) : Graph := g.upd b fun q => { q with state := v }

/-- src/ir/ir.c:66-68 `ir_new1` for a phi: a phi is no control node, so that no block is sealed. -/
def newPhi (g : Graph) (b : Nat) : Res (Graph × Nat) := do
  let r := new g .phi 0
  let g ← setArg0 r.1 r.2 0 (some b)
  .ok (g, r.2)

mutual

/-- src/ir/ir.c:187-199 the loop of `add_phi_operands`, from operand `i` on, with `count` operands to go. -/
def addPhiFrom (fuel : Nat) (g : Graph) (phi block i : Nat) (count : Nat) : Run Graph :=
  match fuel, count with
  | _, 0 => .ok g
  | 0, _ => .more
  | fuel + 1, count + 1 => do
    match (g.node block).args i with
    | none => .ub
    | some pred =>
      let r ← readState fuel g pred
      let g ← Run.ofRes (setArg0 r.1 phi (i + 1) (some r.2))
      addPhiFrom fuel g phi block (i + 1) count
termination_by fuel

/-- src/ir/ir.c:201-216 `read_state_recursive`. -/
def readRec (fuel : Nat) (g : Graph) (b : Nat) : Run (Graph × Nat) :=
  match fuel with
  | 0 => .more
  | fuel + 1 =>
    if (g.node b).isSealed = false then do
      let r ← Run.ofRes (newPhi g b)
      let g := r.1.upd b fun q => { q with phi := some r.2 }
      .ok (writeState g b (some r.2), r.2)
    else if (g.node b).kind = .project then
      match (g.node b).args 0 with
      | none => .ub
      | some i =>
        match (g.node i).args 0 with
        | none => .ub
        | some p => do
          let r ← readState fuel g p
          .ok (writeState r.1 b (some r.2), r.2)
    else do
      let r ← Run.ofRes (newPhi g b)
      let g := writeState r.1 b (some r.2)
      if (g.node b).kind ≠ .region then .fail
      else do
        let g ← addPhiFrom fuel g r.2 b 0 (argCount g b)
        .ok (writeState g b (some r.2), r.2)
termination_by fuel

/-- src/ir/ir.c:218-224 `read_state`. -/
def readState (fuel : Nat) (g : Graph) (b : Nat) : Run (Graph × Nat) :=
  match fuel with
  | 0 => .more
  | fuel + 1 =>
    match (g.node b).state with
    | some v => .ok (g, v)
    | none => readRec fuel g b
termination_by fuel

end

/-- src/ir/ir.c:187-199 `add_phi_operands`. -/
def addPhi (fuel : Nat) (g : Graph) (phi : Nat) : Run Graph :=
  match (g.node phi).args 0 with
  | none => .ub
  | some b => if (g.node b).kind ≠ .region then .fail else addPhiFrom fuel g phi b 0 (argCount g b)

/-- src/ir/ir.c:226-233 `seal_block`. -/
def sealBlock (fuel : Nat) (g : Graph) (b : Nat) : Run Graph :=
  let g := { g with fn := (g.node b).parent }
  if (g.node b).isSealed then .ok g
  else do
    let g ← match (g.node b).phi with
      | none => Run.ok g
      | some p => addPhi fuel g p
    .ok (g.upd b fun q => { q with isSealed := true })

/-- src/ir/ir.c:125-131 the end of `node_set_argument`: control nodes are sealed. -/
def afterSet (fuel : Nat) (g : Graph) (n i : Nat) : Run Graph := do
  let c ← Run.ofRes (isControl g n)
  if c then
    if (g.node n).kind = .project then .ok (g.upd n fun q => { q with isSealed := true })
    else if i = 1 then sealBlock fuel g n
    else .ok g
  else .ok g

/-- src/ir/ir.c:91-132 `node_set_argument`. -/
def setArg (fuel : Nat) (g : Graph) (n i : Nat) (a : Option Nat) : Run Graph :=
  if i < 4 ∧ n < g.size ∧ (g.node n).args i = a then .ok g
  else do
    let g ← Run.ofRes (setArg0 g n i a)
    afterSet fuel g n i

/-- src/ir/ir.c:37-68 `ir_new4`, `ir_new3`, `ir_new2`, `ir_new1`: a node with operands. -/
def setArgs (fuel : Nat) (g : Graph) (n : Nat) : Nat → List (Option Nat) → Run Graph
  | _, [] => .ok g
  | i, a :: as => do
    let g ← setArg fuel g n i a
    setArgs fuel g n (i + 1) as

/-- src/ir/ir.c:37-68 a new node with operands. -/
def newWith (fuel : Nat) (g : Graph) (k : Kind) (as : List (Option Nat)) (bytes : Nat) : Run (Graph × Nat) := do
  let r := new g k bytes
  let g ← setArgs fuel r.1 r.2 0 as
  .ok (g, r.2)

/-- src/ir/ir.c:143-149 `new_block`. -/
def newBlock (g : Graph) : Graph × Nat :=
  let r := new g .region 0
  ({ r.1 with seals := r.1.seals ++ [r.2] }, r.2)

/-- src/ir/ir.c:160-176 `new_function`. -/
def newFunction (g : Graph) : Graph × Nat :=
  let r := new g .function 0
  ({ r.1 with fn := some r.2, written := false, first := match r.1.fn with | none => some r.2 | some _ => r.1.first }, r.2)

/-- src/ir/ir.c:235-237 `set_state`. -/
def setState (g : Graph) (v : Nat) : Res Graph :=
  match g.block with
  | none => .ub
  | some b => .ok (writeState g b (some v))

/-- src/ir/ir.c:239-241 `get_state`. -/
def getState (fuel : Nat) (g : Graph) : Run (Graph × Nat) :=
  match g.block with
  | none => .ub
  | some b => readState fuel g b

/-- src/ir/ir.c:243-248 `ir_project`. -/
def project (fuel : Nat) (g : Graph) (n i bytes : Nat) : Run (Graph × Nat) := do
  let r := new g .project bytes
  let g := r.1.upd r.2 fun q => { q with projIdx := i }
  let g ← setArg fuel g r.2 0 (some n)
  .ok (g, r.2)

/-- src/ir/ir.c:262-268 `ir_block_start`. -/
def blockStart (fuel : Nat) (g : Graph) (b : Nat) : Run Graph :=
  let g := { g with block := some b }
  if g.written then .ok g
  else
    match g.fn with
    | none => .ub
    | some f => do
      let r ← project fuel g f 3 0
      let g ← Run.ofRes (setState r.1 r.2)
      .ok { g with written := true }

/-- src/ir/ir.c:294-302 `ir_connect`. -/
def connect (fuel : Nat) (g : Graph) (start stop : Nat) : Run Graph :=
  match (g.node stop).args 0 with
  | none => setArg fuel g stop 0 (some start)
  | some _ =>
    match (g.node stop).args 1 with
    | none => setArg fuel g stop 1 (some start)
    | some _ => .fail

/-- src/ir/ir.c:287-292 `ir_goto`. -/
def goto (fuel : Nat) (g : Graph) (jump : Nat) : Run Graph :=
  match g.block with
  | none => .ub
  | some b =>
    if (g.node jump).kind ≠ .region then .fail
    else if 2 ≤ argCount g jump then .fail
    else connect fuel g b jump

/-- src/ir/ir.c:270-285 `ir_if_selection`: the projections for true and false. -/
def ifSelection (fuel : Nat) (g : Graph) (cond : Nat) : Run (Graph × Nat × Nat) :=
  match g.block with
  | none => .ub
  | some b => do
    let r ← newWith fuel g .ifk [some b, some cond] 0
    let f ← project fuel r.1 r.2 1 0
    let t ← project fuel f.1 r.2 0 0
    .ok (t.1, t.2, f.2)

/-- src/ir/ir.c:304-307 `ir_return`. -/
def ret (fuel : Nat) (g : Graph) (regs : Option Nat) : Run Graph :=
  match g.block with
  | none => .ub
  | some b => do
    let s ← getState fuel g
    let r ← newWith fuel s.1 .ret [some b, regs, some s.2] 0
    .ok r.1

/-- src/ir/ir.c:803-807 `ir_seal_blocks`, from a list of blocks. -/
def sealBlocks (fuel : Nat) (g : Graph) : List Nat → Run Graph
  | [] => .ok g
  | b :: bs => do
    let g ← sealBlock fuel g b
    sealBlocks fuel g bs

/-- src/ir/ir.c:827-831 the operands of one user, from operand `j` on, with `k` operands to go. -/
def replaceIn (fuel : Nat) (g : Graph) (original replacement use j : Nat) : Nat → Run Graph
  | 0 => .ok g
  | k + 1 =>
    if (g.node use).args j = some original then do
      let g ← setArg fuel g use j (some replacement)
      replaceIn fuel g original replacement use (j + 1) k
    else replaceIn fuel g original replacement use (j + 1) k

/-- src/ir/ir.c:825-832 the users from the one before position `i` down. -/
def replaceFrom (fuel : Nat) (g : Graph) (original replacement : Nat) : Nat → Run Graph
  | 0 => .ok g
  | i + 1 =>
    match (g.node original).uses[i]? with
    | none => .ub
    | some use => do
      let g ← replaceIn fuel g original replacement use 0 4
      replaceFrom fuel g original replacement i

/-- src/ir/ir.c:824-836 `ir_replace_node`. -/
def replaceNode (fuel : Nat) (g : Graph) (original replacement : Nat) : Run Graph :=
  replaceFrom fuel g original replacement (g.node original).useSize

end Verif.Ir
