import Verif.Tentative
/-!
What C17 says about the definitions of objects at file scope: linkage (6.2.2), tentative
definitions (6.9.2), composite types of arrays (6.2.7p3).
-/
namespace Verif.Tentative
open Verif Types

/-- The declarations of a name at file scope, in order. -/
def declarations (x : Str) : List Item → List Decl
  | [] => []
  | .file d :: is => if d.name = x then d :: declarations x is else declarations x is
  | .block _ :: is => declarations x is

/-- 6.2.2p3-5: the linkage is internal when the first declaration says `static`; a declaration
with `extern` has the linkage of the one before it. -/
def Internal (ds : List Decl) : Bool :=
  match ds with
  | [] => false
  | d :: _ => d.isStatic

/-- 6.9p4, 6.9.2p1: a declaration with an initialiser is a definition. -/
def Decl.isDefinition (d : Decl) : Bool := d.init.isSome

/-- 6.9.2p2: no initialiser and no storage-class specifier, or `static`. -/
def Decl.isTentative (d : Decl) : Bool := !d.init.isSome && !d.isExtern

/-- Declarations of one object that C gives a meaning. -/
structure Valid (ds : List Decl) : Prop where
  /-- they declare an object -/
  object : ∀ d ∈ ds, tag d.type ≠ .function
  /-- 6.7.1p2: at most one storage-class specifier -/
  specifiers : ∀ d ∈ ds, ¬(d.isStatic = true ∧ d.isExtern = true)
  /-- 6.2.2p7: no name has both internal and external linkage -/
  isInternal : ∀ d ∈ ds, d.isStatic = true → Internal ds = true
  isExternal : ∀ d ∈ ds, d.isStatic = false → d.isExtern = false → Internal ds = false
  /-- 6.9p3, 6.9p5: there is at most one definition with an initialiser -/
  once : (ds.filter Decl.isDefinition).length ≤ 1

/-- The unit defines the object (6.9.2p1, 6.9.2p2). -/
def Defined (ds : List Decl) : Bool := ds.any Decl.isDefinition || ds.any Decl.isTentative

/-- The initialiser of the object; `none` stands for zero (6.9.2p2). -/
def initialiser (ds : List Decl) : Option (Nat × Nat) := ds.findSome? (·.init)

/-- Not an array of unknown size. -/
def isComplete (t : Ty) : Bool := decide (tag t ≠ .incompleteArray)

/-- The type of the object: that of a declaration which gives the size of the array, or else the
array has the elements of the initialiser (6.7.9p22), or else one element (6.9.2p5). -/
def objectType (ds : List Decl) : Option Ty :=
  match ds.find? (fun d => isComplete d.type) with
  | some d => some d.type
  | none =>
    match ds with
    | [] => none
    | d :: _ =>
      match initialiser ds with
      | some (_, n) => some (complete n d.type)
      | none => some (complete 1 d.type)

/-- A name written in the program: it begins neither with a digit nor with a full stop (6.4.2.1). -/
def IsIdentifier (x : Str) : Prop :=
  ∃ b rest, x = b :: rest ∧ b ≠ 46 ∧ ¬(48 ≤ b.toNat ∧ b.toNat ≤ 57)

/-- The variables registered under a label. -/
def labelled (x : Str) (vars : List Var) : List Var := vars.filter (fun v => decide (v.label = x))

end Verif.Tentative
