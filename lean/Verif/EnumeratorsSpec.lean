import Verif.Enumerators
import Verif.ConstExprSpec
/-!
Specification of enumerations (C17 6.7.2.2), array sizes (6.7.6.2p1, p4) and widths of bit-fields
(6.7.2.1p4), with the types and values of constant expressions of `ConstExprSpec.lean`.
-/
namespace Verif.EnumeratorsSpec
open Verif Simple ConstExpr SimpleSpec ConstExprSpec Enumerators

/-- An enumerator: the name and the expression, if any. -/
structure Enumerator where
  name : Str
  value : Option E

/-- The tokens of a value. -/
def valueToks : Option E → List ETok
  | some e => [.eq e]
  | none => []

/-- The tokens of an enumerator. -/
def Enumerator.toks (m : Enumerator) : List ETok := .ident m.name :: valueToks m.value

/-- The list with its commas; `trailing` for a comma before the brace. -/
def listToks (trailing : Bool) : List Enumerator → List ETok
  | [] => []
  | [m] => m.toks ++ (if trailing then [.comma] else [])
  | m :: ms => m.toks ++ .comma :: listToks trailing ms

/-- Declaring a name. -/
def declare (N : Names) (x : Str) (v : Int) : Names := fun y => if y = x then some (.int, v) else N y

/-- 6.7.2.2p2, p3: the constants are visible after their enumerators, have type int and values that
an int can represent: the one given, 0 for the first, or one more than the one before. -/
inductive Enumerates (abi : Abi) : Names → Option Int → List Enumerator → Names → Prop where
  | done (N p) : Enumerates abi N p [] N
  | explicit (N p x e t v ms N') (ht : HasType abi N e t) (hi : IsInt t)
      (hv : HasValue abi N e (.int v)) (hr : InRange abi .int v)
      (h : Enumerates abi (declare N x v) (some v) ms N') :
      Enumerates abi N p (⟨x, some e⟩ :: ms) N'
  | first (N x ms N') (h : Enumerates abi (declare N x 0) (some 0) ms N') :
      Enumerates abi N none (⟨x, none⟩ :: ms) N'
  | next (N p x ms N') (hr : InRange abi .int (p + 1))
      (h : Enumerates abi (declare N x (p + 1)) (some (p + 1)) ms N') :
      Enumerates abi N (some p) (⟨x, none⟩ :: ms) N'

/-- No name is declared twice in the scope (6.7p3). -/
def Fresh (here : Str → Bool) (ms : List Enumerator) : Prop :=
  (∀ m ∈ ms, here m.name = false) ∧ (ms.map (·.name)).Nodup

end Verif.EnumeratorsSpec
