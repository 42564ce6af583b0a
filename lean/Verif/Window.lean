import Verif.Run
import Verif.Token
/-!
Model of the parser's window on the tokens: src/preprocessor/preprocessor.c. The source of the tokens, `string_concat_next`, is a parameter: a
function from a state to the next token and state, which may also stop the compiler.
-/
namespace Verif.Window
open Verif

variable {σ : Type}

/-- src/preprocessor/preprocessor.c:10-12 `struct token_stream`, with the state of the source beside it. -/
structure Win (σ : Type) where
  b0 : Tok := {}
  b1 : Tok := {}
  b2 : Tok := {}
  pushed : Tok := {}
  src : σ

/-- src/preprocessor/preprocessor.c:14-19 `t_next`. -/
def tNext (get : σ → Run (Tok × σ)) (w : Win σ) : Run (Win σ) :=
  if w.pushed.type ≠ .T_NONE then .ok { b0 := w.b1, b1 := w.b2, b2 := w.pushed, pushed := {}, src := w.src }
  else do
    let (t, s) ← get w.src
    .ok { b0 := w.b1, b1 := w.b2, b2 := t, pushed := {}, src := s }

/-- src/preprocessor/preprocessor.c:21-28 `t_push`. -/
def tPush (t : Tok) (w : Win σ) : Run (Win σ) :=
  if w.pushed.type ≠ .T_NONE then .fail
  else .ok { b0 := t, b1 := w.b0, b2 := w.b1, pushed := w.b2, src := w.src }

/-- src/preprocessor/preprocessor.c:30-35 `preprocessor_init`, after the file has been opened: the static buffer is zero, three tokens are read. -/
def init (get : σ → Run (Tok × σ)) (s : σ) : Run (Win σ) := do
  let w ← tNext get { src := s }
  let w ← tNext get w
  tNext get w

/-- src/preprocessor/preprocessor.c:37-40 `t_peek`. A negative index reads before the array. -/
def tPeek (n : Int) (w : Win σ) : Run Tok :=
  if n > 2 then .fail else if n = 0 then .ok w.b0 else if n = 1 then .ok w.b1 else if n = 2 then .ok w.b2 else .ub

/-- What the parser does to the window. -/
inductive Op where
  /-- `t_next()` -/
  | next
  /-- `t_push(t)` -/
  | push (t : Tok)

/-- One operation. -/
def step (get : σ → Run (Tok × σ)) : Op → Win σ → Run (Win σ)
  | .next => tNext get
  | .push t => tPush t

/-- A sequence of operations. -/
def run (get : σ → Run (Tok × σ)) : List Op → Win σ → Run (Win σ)
  | [], w => .ok w
  | o :: os, w => do
    let w ← step get o w
    run get os w

end Verif.Window
