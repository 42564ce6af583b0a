import Verif.DefineMap
/-!
Specification for C06 and C07: what a lookup must find after a history of operations.
Uses of the model: only the record type `Define`.
-/
namespace Verif.DefineMap
open Verif

/-- A stored definition: the body's outer whitespace is not part of the macro
(C17 6.10.3p7). -/
def stripEnds (l : List Tok) : List Tok :=
  l.mapIdx (fun i t => { t with
    whitespace := t.whitespace && decide (i ≠ 0)
    whitespaceAfter := t.whitespaceAfter && decide (i + 1 ≠ l.length) })

/-- A definition as it is to be found again. -/
def stored (d : Define) : Define := { d with body := stripEnds d.body }

/-- Table operations. -/
inductive Op where
  | define (d : Define)
  | undef (n : Str)

/-- What a lookup of `n` must find, the most recent operation first: the newest
definition of `n` unless it has been undefined since. -/
def lastDef (n : Str) : List Op → Option Define
  | [] => none
  | .define d :: ops => if d.name = n then some (stored d) else lastDef n ops
  | .undef m :: ops => if m = n then none else lastDef n ops

/-- Operations on macros including the two pragmas. -/
inductive MOp where
  | define (d : Define)
  | undef (n : Str)
  | push (n : Str)
  | pop (n : Str)

/-- Abstract state: the current meaning of each name and, per name, the saved
meanings, newest first.  `none` = not defined. -/
structure Abs where
  cur : Str → Option Define
  saved : Str → List (Option Define)

/-- Function update. -/
def upd {α : Type} (f : Str → α) (n : Str) (v : α) : Str → α := fun m => if m = n then v else f m

/-- What each operation must do. -/
def Abs.step (s : Abs) : MOp → Abs
  | .define d => { s with cur := upd s.cur d.name (some (stored d)) }
  | .undef n => { s with cur := upd s.cur n none }
  | .push n => { s with saved := upd s.saved n (s.cur n :: s.saved n) }
  | .pop n =>
    match s.saved n with
    | [] => s
    | d :: rest => ⟨upd s.cur n d, upd s.saved n rest⟩

/-- Initial abstract state. -/
def Abs.init : Abs := ⟨fun _ => none, fun _ => []⟩

end Verif.DefineMap
