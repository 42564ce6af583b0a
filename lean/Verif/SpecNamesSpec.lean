import Verif.SpecNames
import Verif.SpecifiersSpec
/-!
C17 6.7.2p2, all of it: one of the lists of keywords, or one structure, union or enumeration
specifier, or one typedef name.  6.7.8: an identifier is a typedef name only where no type
specifier comes before it.
-/
namespace Verif.SpecNames
open Verif Simple Specifiers

/-- The token is a type specifier; `seen`: there was one before. -/
def isType (seen : Bool) : Tk → Bool
  | .kw t => decide (t ∈ typeKeywords)
  | .tag _ => true
  | .ident ty => !seen && ty.isSome

/-- The token is a specifier. -/
def isSpecifier (seen : Bool) : Tk → Bool
  | .kw t => decide (t ∈ typeKeywords) || decide (t ∈ otherKeywords)
  | k => isType seen k

/-- The specifiers in front of a text, and the rest of it. -/
def split (seen : Bool) : List Tk → List Tk × List Tk
  | [] => ([], [])
  | k :: r =>
    if isSpecifier seen k then (k :: (split (seen || isType seen k) r).1, (split (seen || isType seen k) r).2)
    else ([], k :: r)

/-- The keywords among the type specifiers. -/
def typeKw (l : List Tk) : List TType :=
  l.filterMap fun
    | .kw t => if t ∈ typeKeywords then some t else none
    | _ => none

/-- The types named. -/
def names (l : List Tk) : List Nat :=
  l.filterMap fun
    | .tag n => some n
    | .ident ty => ty
    | _ => none

/-- 6.7.2p2: the type that specifiers denote. -/
def Denotes (l : List Tk) (t : Named) : Prop :=
  (names l = [] ∧ ∃ r ∈ allowed, (typeKw l).Perm r.2 ∧ t = .simple r.1) ∨
  ∃ n, names l = [n] ∧ typeKw l = [] ∧ t = .data n

/-- No `_Atomic` after the specifiers, which the compiler does not have. -/
def NoAtomic (rest : List Tk) : Prop := rest.head? ≠ some (.kw .T_KATOMIC)

end Verif.SpecNames
