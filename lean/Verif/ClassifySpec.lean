import Verif.Classify
/-!
Specification of argument classification: System V psABI (AMD64) 3.2.3, for types made of
INTEGER and SSE scalars.
-/
namespace Verif.ClassifySpec
open Verif Classify

/-- A scalar inside a type. -/
structure Leaf where
  off : Nat
  size : Nat
  cls : Class
  deriving DecidableEq, Repr

/-- Size as a natural number. -/
def bytes (t : Ty) : Nat := (Classify.size t).toNat

mutual
/-- All scalars of a type with their offsets. -/
def leaves (t : Ty) : List Leaf :=
  match t with
  | .scalar c n => [⟨0, n, c⟩]
  | .struct _ fs => fieldLeaves fs
  | .array e n => (List.range n).flatMap fun i => (leaves e).map fun l => { l with off := bytes e * i + l.off }
  | _ => []
/-- The same for fields. -/
def fieldLeaves (fs : Fields) : List Leaf :=
  match fs with
  | .nil => []
  | .cons off t rest => ((leaves t).map fun l => { l with off := off + l.off }) ++ fieldLeaves rest
end

mutual
/-- A valid type: scalars are INTEGER or SSE and not empty, fields and elements lie inside. -/
def Valid (t : Ty) : Prop :=
  match t with
  | .scalar c n => (c = .integer ∨ c = .sse) ∧ 0 < n
  | .struct n fs => ValidFields n fs
  | .array e _ => Valid e ∧ e ≠ .flex
  | .flex => True
  | .other => False
/-- The same for the fields of a structure of `n` bytes. -/
def ValidFields (n : Nat) (fs : Fields) : Prop :=
  match fs with
  | .nil => True
  | .cons off t rest => Valid t ∧ off + bytes t ≤ n ∧ ValidFields n rest
end

/-- psABI 3.2.3 rule 4: merging of two classes. -/
def merge (a b : Class) : Class :=
  if a = b then a
  else if a = .noClass then b
  else if b = .noClass then a
  else if a = .memory then .memory
  else if b = .memory then .memory
  else if a = .integer then .integer
  else if b = .integer then .integer
  else if a = .x87 ∨ a = .x87up ∨ a = .complexX87 ∨ b = .x87 ∨ b = .x87up ∨ b = .complexX87 then .memory
  else .sse

/-- The scalars that have a byte in eightbyte `i`. -/
def inEightbyte (ls : List Leaf) (i : Nat) : List Leaf :=
  ls.filter fun l => decide (8 * i < l.off + l.size ∧ l.off < 8 * i + 8)

/-- Class of eightbyte `i`. -/
def eightbyte (ls : List Leaf) (i : Nat) : Class := ((inEightbyte ls i).map (·.cls)).foldl merge .noClass

/-- A scalar at its natural alignment. -/
def aligned (l : Leaf) : Bool := decide (l.off % l.size = 0)

/-- psABI 3.2.3: classification of an aggregate of `n` bytes with the scalars `ls`.  (Larger
aggregates of SSE and SSEUP eightbytes stem from vector types, which do not occur.) -/
def spec (n : Nat) (ls : List Leaf) : List Class :=
  if n > 16 ∨ ls.any (!aligned ·) then [.memory]
  else (List.range ((n + 7) / 8)).map (eightbyte ls)

/-- The full property. -/
def Follows (classify : Ty → Res (List Class)) : Prop :=
  ∀ n fs, 0 < n → Valid (.struct n fs) → classify (.struct n fs) = .ok (spec n (fieldLeaves fs))

end Verif.ClassifySpec
