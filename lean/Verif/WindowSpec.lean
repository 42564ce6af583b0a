import Verif.Window
/-!
What push-back has to be: a list of tokens, of which `next` removes the first and `push` puts one in front.
-/
namespace Verif.WindowSpec
open Verif

variable {σ : Type}

/-- The source delivers the tokens `l`, one after the other, from the state `s` on. -/
inductive Delivers (get : σ → Run (Tok × σ)) : σ → List Tok → Prop where
  | nil (s : σ) : Delivers get s []
  | cons {s s' : σ} {t : Tok} {l : List Tok} : get s = .ok (t, s') → Delivers get s' l → Delivers get s (t :: l)

/-- The effect of the operations on the list of the tokens. -/
def ideal : List Window.Op → List Tok → List Tok
  | [], l => l
  | .next :: os, l => ideal os l.tail
  | .push t :: os, l => ideal os (t :: l)

/-- The number of tokens read. -/
def reads (os : List Window.Op) : Nat := os.countP fun o => match o with
  | .next => true
  | .push _ => false

/-- A push is followed by a read before the next push. `pending`: a push has not yet been followed by a read. -/
def Alternating : Bool → List Window.Op → Prop
  | _, [] => True
  | _, .next :: os => Alternating false os
  | pending, .push _ :: os => pending = false ∧ Alternating true os

/-- Every pushed token is a token. -/
def Real (os : List Window.Op) : Prop := ∀ t, .push t ∈ os → t.type ≠ .T_NONE

/-- What the parser does with push-back (src/parser/expression.c:557-569, 573-585): it reads some tokens, of which the last is `(`, tries to
read a type name, which takes no token if there is none, pushes the parenthesis back, and goes on. -/
def parserOps : List (Nat × Tok) → List Window.Op
  | [] => []
  | (n, t) :: l => List.replicate (n + 1) .next ++ .push t :: parserOps l

end Verif.WindowSpec
