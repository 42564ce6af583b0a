import Verif.Basic
/-!
Model of the selection made by `_Generic` (src/parser/expression.c:661-701).

* The association list is the parsed list: `none` for `default`, `some t` for a type name,
  each with the expression after the colon.  A syntax error in it is outside the model.
* Types are compared by pointer; `Verif.Types.type_identity` (C22) shows that this is
  equality of types.  `T` is any type with decidable equality.
* The result of `parse_assignment_expression` is taken to be non-NULL.
-/
namespace Verif.Generic
open Verif

variable {T X : Type} [DecidableEq T]

/-- The locals of src/parser/expression.c:670-671. -/
structure St (X : Type) where
  res : Option X := none
  isDefault : Bool := false

/-- src/parser/expression.c:673-693, one pass of the `while` loop. -/
def step (m : T) (s : St X) (a : Option T × X) : Res (St X) :=
  match a.1 with
  | none =>
    let s := { s with isDefault := true }
    match s.res with
    | none => .ok { s with res := some a.2 }
    | some _ => .ok s
  | some t =>
    if t = m then
      if s.res.isSome ∧ s.isDefault = false then .fail
      else .ok { s with res := some a.2 }
    else .ok s

/-- src/parser/expression.c:673-693, the whole loop. -/
def loop (m : T) : St X → List (Option T × X) → Res (St X)
  | s, [] => .ok s
  | s, a :: as => step m s a >>= fun s => loop m s as

/-- src/parser/expression.c:670-700; `m` is `match_type`. -/
def select (m : T) (as : List (Option T × X)) : Res X :=
  loop m {} as >>= fun s =>
    match s.res with
    | none => .fail
    | some x => .ok x

end Verif.Generic
