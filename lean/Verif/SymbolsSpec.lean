import Verif.Symbols
/-!
Scopes as C17 6.2.1 has them: a stack of finite maps, innermost first.
-/
namespace Verif.Symbols
open Verif

/-- The declarations of one scope. -/
abbrev Scope := Id → Option Nat

/-- A declaration added to a scope. -/
def Scope.bind (m : Scope) (id : Id) (d : Nat) : Scope := fun x => if x = id then some d else m x

/-- Bind in the outermost scope. -/
def bindLast (id : Id) (d : Nat) : List Scope → List Scope
  | [] => []
  | [m] => [m.bind id d]
  | m :: ms => m :: bindLast id d ms

/-- The innermost declaration. -/
def lookup (id : Id) : List Scope → Option Nat
  | [] => none
  | m :: ms => match m id with
    | some d => some d
    | none => lookup id ms

/-- The effect of one operation; `none`: an error is reported. -/
def specStep : List Scope → Op → Option (List Scope)
  | ms, .push => some ((fun _ => none) :: ms)
  | _ :: m :: ms, .pop => some (m :: ms)
  | _, .pop => none
  | [], _ => none
  | m :: ms, .addIdentifier n d =>
    if n = [] then some (m :: ms)
    else if (m (.identifier, n)).isSome then none else some (m.bind (.identifier, n) d :: ms)
  | m :: ms, .addStruct n d => if (m (.struct, n)).isSome then none else some (m.bind (.struct, n) d :: ms)
  | m :: ms, .addTypedef n d => some (m.bind (.typedef, n) d :: ms)
  | m :: ms, .addGlobal n d =>
    if ms.isEmpty = true ∧ (m (.identifier, n)).isSome = true then none else some (bindLast (.identifier, n) d (m :: ms))

/-- The effect of a history. -/
def specRun : List Op → List Scope → Option (List Scope)
  | [], ms => some ms
  | o :: os, ms => (specStep ms o).bind (specRun os)

/-- `depth` scopes are open on entry, none of the outer ones is closed, all inner ones are. -/
def Balanced : List Op → Nat → Prop
  | [], n => n = 0
  | .push :: os, n => Balanced os (n + 1)
  | .pop :: os, n => 0 < n ∧ Balanced os (n - 1)
  | _ :: os, n => Balanced os n

/-- No file-scope declaration from an inner scope. -/
def Op.isLocal : Op → Bool
  | .addGlobal _ _ => false
  | _ => true

end Verif.Symbols
