import Verif.Cast
import Verif.Memory
/-!
Model of conditions and of `switch` dispatch: src/parser/function_parser.c,
src/parser/expression_to_ir.c and `IR_IF` in src/codegen/codegen.c.
-/
namespace Verif.Cond
open Verif Asm Simple Codegen Cast Memory

/-- src/codegen/codegen.c:566-571: end of a block with `IR_IF`. -/
def branch (c : Slot) (lt lf : Nat) : Res (List Ins) := do
  let l ← scalarToReg c .rdi
  pure (l ++ [⟨.testq, [R8 .rdi, R8 .rdi]⟩, ⟨.je, [.abs (some lf) 0]⟩, ⟨.jmp, [.abs (some lt) 0]⟩])

/-- Condition of `if` (src/parser/function_parser.c:198-202) and of `?:`, `!`, `&&`, `||`
(src/parser/expression_to_ir.c:536-563): the variable itself is tested. -/
def ifCond (c : Slot) (lt lf : Nat) : Res (List Ins) := branch c lt lf

/-- src/parser/expression_to_ir.c:746-751 `expression_to_int`. -/
def toInt (abi : Abi) (t : Option ST) (c : Slot) (loc : Nat) : Res (Slot × List Ins) := do
  match ← castExpr abi t (some .int) c loc with
  | none => pure (c, [])
  | some (o, l) => pure (o, l)

/-- Condition of `while`, `do` and `for` (src/parser/function_parser.c:262-266, 304-307,
373-378): converted to `int`, then tested.  `loc` is the place of the converted value. -/
def loopCond (abi : Abi) (t : Option ST) (c : Slot) (loc lt lf : Nat) : Res (List Ins) := do
  let (o, l) ← toInt abi t c loc
  let b ← branch o lt lf
  pure (l ++ b)

/-- src/parser/function_parser.c:96-104: one case label: the constant node (at `cloc`), the
comparison (at `qloc`) and the branch.  `k` is the constant converted to `int`. -/
def caseTest (ctl : Slot) (k : Int) (cloc qloc lt lf : Nat) : Res (List Ins) := do
  let a ← constantCode (BitVec.ofInt 64 k) ⟨4, cloc⟩
  let q ← codegenBinary .equal ctl ⟨4, cloc⟩ ⟨irBinarySize ctl.size, qloc⟩
  let b ← branch ⟨irBinarySize ctl.size, qloc⟩ lt lf
  pure (a ++ q ++ b)

/-- A case label: the value of its constant after the cast to `int` (:83), the label of its
block and the places of the two nodes. -/
structure Case where
  k : Int
  label : Nat
  cloc : Nat
  qloc : Nat
  deriving DecidableEq, Repr

/-- The chain of entry blocks of a `switch`, in order of appearance (src/parser/
function_parser.c:79-111, 148-189): block `base + i` tests case `i` and continues with block
`base + i + 1`; the last entry block jumps to `last` (the default label, else the end, :181-184).
The block after the controlling expression jumps to block `base`. -/
def chain (ctl : Slot) (base last : Nat) : List Case → Res (List (Nat × List Ins))
  | [] => .ok [(base, [⟨.jmp, [.abs (some last) 0]⟩])]
  | c :: cs => do
    let t ← caseTest ctl c.k c.cloc c.qloc c.label (base + 1)
    let r ← chain ctl (base + 1) last cs
    pure ((base, t) :: r)

/-- The controlling expression (src/parser/function_parser.c:152-167): converted to `int`;
its block jumps to the first entry block. -/
def control (abi : Abi) (t : Option ST) (c : Slot) (loc base : Nat) : Res (Slot × List Ins) := do
  let (o, l) ← toInt abi t c loc
  pure (o, l ++ [⟨.jmp, [.abs (some base) 0]⟩])

/-- The blocks as code by label. -/
def codeOf (l : List (Nat × List Ins)) (n : Nat) : Option (List Ins) := (l.find? (·.1 == n)).map (·.2)

/-- The entry blocks of a `switch`. -/
def blocks (ctl : Slot) (base last : Nat) (cs : List Case) : Res (Nat → Option (List Ins)) := do
  let l ← chain ctl base last cs
  pure (codeOf l)

end Verif.Cond
