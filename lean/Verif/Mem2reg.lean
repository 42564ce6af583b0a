import Verif.Schedule
/-!
Model of the removal of variables from memory (src/optimize/mem2reg.c).

`alloc.size` and `set_zero_ptr.size` of the nodes are given by a function `extent`. The fields `visited` and `scratch` are one table: a node has an entry
if `visited` is the number of the current pass over the graph and `scratch` is not `NULL`; the numbers `30 + i` differ from all other marks. Stores have a
value, and whatever uses the state of memory has a state: otherwise the model stops with `ub`.
-/
namespace Verif.Ir
open Verif

/-- src/ir/ir.h:84 `IR_ZERO`. -/
def zeroKind : Kind := .op 70

/-- src/ir/ir.h:86 `IR_UNDEFINED`. -/
def undefinedKind : Kind := .op 72

/-- The graph and the table of the values found. -/
abbrev Found := Graph × (Nat → Option Nat)

/-- src/optimize/mem2reg.c:59 `scratch` of a state. -/
def note (memo : Nat → Option Nat) (s v : Nat) : Nat → Option Nat := fun m => if m = s then some v else memo m

/-- src/optimize/mem2reg.c:42-45 a value of a new phi, if the state has one. -/
def findSide (fuel : Nat) (find : Found → Nat → Run (Found × Nat)) (st : Found) (s n i : Nat) : Run Found :=
  match (st.1.node s).args i with
  | none => .ok st
  | some p => do
    let r ← find st p
    let g ← setArg fuel r.1.1 n i (some r.2)
    .ok (g, r.1.2)

/-- src/optimize/mem2reg.c:19,30,37,54 the search goes on in the state before. -/
def findBack (find : Found → Nat → Run (Found × Nat)) (st : Found) : Option Nat → Run (Found × Nat)
  | none => .ub
  | some p => find st p

/-- src/optimize/mem2reg.c:40-46 a phi for a phi. -/
def findPhi (extent : Nat → Nat) (a fuel : Nat) (find : Found → Nat → Run (Found × Nat)) (st : Found) (s : Nat) : Run (Found × Nat) := do
  let r ← newWith fuel st.1 .phi [(st.1.node s).args 0, none] (extent a)
  let st ← findSide fuel find (r.1, note st.2 s r.2) s r.2 1
  let st ← findSide fuel find st s r.2 2
  .ok (st, r.2)

/-- src/optimize/mem2reg.c:17-57 the cases of `recursive_find`. -/
def findCase (extent : Nat → Nat) (a fuel : Nat) (find : Found → Nat → Run (Found × Nat)) (st : Found) (s : Nat) : Run (Found × Nat) :=
  match (st.1.node s).kind with
  | .project => findBack find st ((st.1.node s).args 0)
  | .function => .ok (((new st.1 undefinedKind (extent a)).1, st.2), (new st.1 undefinedKind (extent a)).2)
  | .setZeroPtr =>
    if (st.1.node s).args 0 = some a then .ok (((new st.1 zeroKind (extent a)).1, st.2), (new st.1 zeroKind (extent a)).2)
    else findBack find st ((st.1.node s).args 1)
  | .store =>
    if (st.1.node s).args 0 = some a then
      match (st.1.node s).args 1 with
      | none => .ub
      | some v => .ok (st, v)
    else findBack find st ((st.1.node s).args 2)
  | .phi => findPhi extent a fuel find st s
  | _ =>
    match prevState st.1 s with
    | none => .fail
    | some p => find st p

/-- src/optimize/mem2reg.c:9-62 `recursive_find`. -/
def find (extent : Nat → Nat) (a : Nat) : Nat → Found → Nat → Run (Found × Nat)
  | 0, _, _ => .more
  | fuel + 1, st, s =>
    match st.2 s with
    | some v => .ok (st, v)
    | none => do
      let r ← findCase extent a fuel (find extent a fuel) st s
      .ok ((r.1.1, note r.1.2 s r.2), r.2)

/-- src/optimize/mem2reg.c:72-95 whether the variable `a` is only read and written as a whole, by its name. -/
def simpleUses (extent : Nat → Nat) (g : Graph) (a : Nat) : List Nat → Res Bool
  | [] => .ok true
  | u :: us =>
    match (g.node u).kind with
    | .setZeroPtr => if extent u ≠ extent a then .ok false else simpleUses extent g a us
    | .store =>
      match (g.node u).args 1 with
      | none => .ub
      | some v => if (g.node v).bytes ≠ extent a ∨ v = a ∨ (g.node u).args 0 ≠ some a then .ok false else simpleUses extent g a us
    | .load => if (g.node u).bytes ≠ extent a then .ok false else simpleUses extent g a us
    | _ => .ok false

/-- src/optimize/mem2reg.c:97-98,110-111 a loop over the users of `a`, from position `i` on. -/
def eachUse {σ : Type} (graph : σ → Graph) (a : Nat) (step : σ → Nat → Run σ) : Nat → Nat → σ → Run σ
  | 0, _, _ => .more
  | fuel + 1, i, st =>
    if i < ((graph st).node a).useSize then
      match ((graph st).node a).uses[i]? with
      | none => .ub
      | some u => do
        let st ← step st u
        eachUse graph a step fuel (i + 1) st
    else .ok st

/-- src/optimize/mem2reg.c:100-106 a load is replaced by the value that it loads. -/
def replaceLoad (extent : Nat → Nat) (fuel a : Nat) (st : Found) (u : Nat) : Run Found :=
  if (st.1.node u).kind = .load then
    match (st.1.node u).args 1 with
    | none => .ub
    | some s => do
      let r ← find extent a fuel st s
      let g ← replaceNode fuel r.1.1 u r.2
      .ok (g, r.1.2)
  else .ok st

/-- src/optimize/mem2reg.c:112-122 a store is replaced by the state before it. -/
def replaceStore (fuel : Nat) (g : Graph) (u : Nat) : Run Graph :=
  match (g.node u).kind with
  | .store | .setZeroPtr =>
    match prevState g u with
    | none => .ub
    | some p => replaceNode fuel g u p
  | .load => .ok g
  | _ => .fail

/-- src/optimize/mem2reg.c:64-124 `try_remove_alloc`. -/
def tryRemove (extent : Nat → Nat) (fuel : Nat) (g : Graph) (a : Nat) : Run Graph := do
  let g := { g with fn := (g.node a).parent }
  let simple ← Run.ofRes (simpleUses extent g a (g.node a).live)
  if simple then
    let st ← eachUse (·.1) a (replaceLoad extent fuel a) fuel 0 (g, fun _ => none)
    eachUse id a (replaceStore fuel) fuel 0 st.1
  else .ok g

/-- src/optimize/mem2reg.c:126-146 `optimize_mem2reg`. -/
def mem2reg (extent : Nat → Nat) (fuel : Nat) (g : Graph) : Run Graph :=
  forEach (tryRemove extent fuel) g ((List.range g.size).filter fun n => (g.node n).kind = .alloc)

end Verif.Ir
