import Verif.Frame
/-!
Model of the storage of variable length arrays: the numbers of the allocations (src/codegen/codegen.c:605-613), the slots cleared at the entry of a
function (:687-688) and the code of `IR_VLA_ALLOC` (:438-460).

Simplifications: as in `Frame`, the instructions of all blocks are one list. `codegen.c:452 tmp_label++` changes a variable that is not used any more.
The label in the middle is a fresh one (`register_label`), so that the code is two lists: before and after the label.
-/
namespace Verif.Vla
open Verif Asm Codegen Frame

/-- src/codegen/codegen.c:605-613: `dominance` of the allocations, counted through all blocks; `none` for other instructions. -/
def numbers (count : Nat) : List Node → List (Option Nat)
  | [] => []
  | n :: ns => if n.kind = .vla then some count :: numbers (count + 1) ns else none :: numbers count ns

/-- src/codegen/codegen.c:441, 688: a slot is cleared. -/
def clear (l : Layout) (i : Nat) : Ins := ⟨.movq, [IMM 0, vlaAddr l i]⟩

/-- src/codegen/codegen.c:687-688: all slots are cleared at the entry of the function. -/
def clearAll (l : Layout) : List Ins := (List.range l.vlaCount).map (clear l)

/-- src/codegen/codegen.c:440-441: the slots of greater numbers are cleared. -/
def clearLater (l : Layout) (k : Nat) : List Ins := (List.range (l.vlaCount - (k + 1))).map fun i => clear l (k + 1 + i)

/-- src/codegen/codegen.c:439-448: up to the label `lbl`. -/
def before (l : Layout) (k lbl : Nat) : List Ins :=
  clearLater l k ++
  [⟨.movq, [vlaAddr l k, R8 .rax]⟩,
   ⟨.cmpq, [IMM 0, R8 .rax]⟩,
   ⟨.jne, [.abs (some lbl) 0]⟩,
   ⟨.movq, [R8 .rsp, R8 .rax]⟩,
   ⟨.movq, [R8 .rax, vlaAddr l k]⟩]

/-- src/codegen/codegen.c:449-459: from the label on; `len` is the operand, `out` the node itself. -/
def after (l : Layout) (k : Nat) (len out : Slot) : Res (List Ins) := do
  let c ← scalarToReg len .rax
  .ok ([⟨.movq, [R8 .rax, R8 .rsp]⟩, ⟨.movq, [R8 .rsp, vlaAddr l k]⟩] ++ c ++ [⟨.subq, [R8 .rax, R8 .rsp]⟩] ++ regToScalar .rsp out ++
    [⟨.andq, [IMM (-16), R8 .rsp]⟩])

end Verif.Vla
