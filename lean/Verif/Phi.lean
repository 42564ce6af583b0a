import Verif.Codegen
/-!
Model of the copies made on a jump to a join point: `codegen_phi_node`,
src/codegen/codegen.c:506-540.

A block is a number.  The uses of the join that are not phi nodes are left out, they are
skipped (:513).
-/
namespace Verif.Phi
open Verif Asm Codegen

/-- A phi node: its place and its two sources (src/ir/ir.c `ir_phi`: `arguments[1]` and
`arguments[2]`, possibly `NULL`). -/
structure Phi where
  out : Slot
  src : Option Slot × Option Slot
  deriving DecidableEq, Repr

/-- src/codegen/codegen.c:516-529: the source for the block `cur` at a join of the blocks
`a` and `b`; otherwise an internal error. -/
def source (cur a b : Nat) (p : Phi) : Res (Option Slot) :=
  if cur = a then .ok p.src.1 else if cur = b then .ok p.src.2 else .fail

/-- src/codegen/codegen.c:510-539: the copies, in the order of the list of uses. -/
def copies (cur a b : Nat) : List Phi → Res (List Ins)
  | [] => .ok []
  | p :: ps =>
    if p.out.size = 0 then copies cur a b ps
    else do
      match ← source cur a b p with
      | none => copies cur a b ps
      | some v =>
        let l ← scalarToReg v .rax
        let r ← copies cur a b ps
        pure (l ++ regToScalar .rax p.out ++ r)

end Verif.Phi
