import Verif.Include
/-!
Model of `directiver_next` (src/preprocessor/directives.c:488-638) with conditional directives over several files: the stack of conditions is one for all
files. Files, tokens and the other directives are those of `Include.lean`.

Simplifications: the table of macros is a list (C06 has the table, C14 and C67 have the expansion). What the expression of
`#if` is worth after `defined` has been replaced, that is `expand_token_list` and `evaluate_expression`, is a parameter `Ev` (C08 to C12 have it for one file).
-/
namespace Verif.Guard
open Verif Include

/-- src/preprocessor/macro_expander.h:7-14 `struct define`: the parameters of a function-like macro, with the flag `vararg`, and the replacement. -/
structure Macro where
  params : Option (List Tok × Bool) := none
  body : List Tok
  deriving DecidableEq

/-- The macros by their names, the last definition first. -/
abbrev Macros := List (Str × Macro)

/-- src/preprocessor/directives.c:358-362 and `result_is_zero` in 399-400: whether the expression is not zero. -/
abbrev Ev := Macros → List Tok → Run Bool

/-- `define_map_get(name) != NULL`. -/
def defined (defs : Macros) (s : Str) : Bool := defs.any fun m => decide (m.1 = s)

/-- `cond_stack`, top first, and the macros. -/
structure Cx where
  cond : List Int := [1]
  defs : Macros := []

/-- src/preprocessor/directives.c:520-522. -/
def isIf (s : Str) : Bool := s = str "ifndef" || s = str "ifdef" || s = str "if"

/-- src/preprocessor/directives.c:529-532. -/
def isElif (s : Str) : Bool := s = str "elif" || s = str "else" || s = str "elifndef" || s = str "elifdef"

/-- src/preprocessor/directives.c:334-349: the operand of `defined`, with its parentheses. -/
def operand (st : St) : Run (Tok × St) := (next st).bind fun a =>
  if a.1.type = .T_LPAR then (next a.2).bind fun x => (next x.2).bind fun y => if y.1.type = .T_RPAR then .ok (x.1, y.2) else .fail
  else .ok a

/-- src/preprocessor/directives.c:340-341. -/
def number (b : Bool) : Tok := { type := .T_NUM, str := if b then str "1" else str "0" }

/-- src/preprocessor/directives.c:332-356: the loop of `evaluate_until_newline`, where `t` has been read. -/
def gather : Nat → Macros → Tok → St → Run (List Tok × St)
  | 0, _, _, _ => .more
  | n + 1, defs, t, st =>
    if t.firstOfLine = true then (push t st).mapOk fun st => ([], st)
    else if t.str = str "defined" then (operand st).bind fun x => (next x.2).bind fun r => (gather n defs r.1 r.2).mapOk fun q =>
      (number (defined defs x.1.str) :: q.1, q.2)
    else (next st).bind fun r => (gather n defs r.1 r.2).mapOk fun q => (t :: q.1, q.2)

/-- src/preprocessor/directives.c:329-363 `evaluate_until_newline`. -/
def untilNewline (v : Ev) (n : Nat) (defs : Macros) (st : St) : Run (Bool × St) :=
  ((next st).bind fun r => gather n defs r.1 r.2).bind fun q => (v defs q.1).mapOk fun b => (b, q.2)

/-- src/preprocessor/directives.c:389-404 `directiver_evaluate_conditional`. -/
def evalCond (v : Ev) (n : Nat) (name : Str) (defs : Macros) (st : St) : Run (Bool × St) :=
  if name = str "ifdef" ∨ name = str "elifdef" then (next st).mapOk fun r => (defined defs r.1.str, r.2)
  else if name = str "ifndef" ∨ name = str "elifndef" then (next st).mapOk fun r => (!defined defs r.1.str, r.2)
  else if name = str "if" ∨ name = str "elif" then untilNewline v n defs st
  else if name = str "else" then .ok (true, st)
  else .fail

/-- src/preprocessor/directives.c:136-159: the parameters of a function-like macro and the flag `vararg`; `first` is `idx == 0`. -/
def params : Nat → Bool → St → Run ((List Tok × Bool) × St)
  | 0, _, _ => .more
  | n + 1, first, st => (next st).bind fun t =>
    if first = true ∧ t.1.type = .T_RPAR then .ok (([], false), t.2)
    else if t.1.type = .T_ELLIPSIS then (next t.2).bind fun c => if c.1.type = .T_RPAR then .ok (([], true), c.2) else .fail
    else if t.1.type ≠ .T_IDENT then .fail
    else (next t.2).bind fun c =>
      if c.1.type = .T_RPAR then .ok (([t.1], false), c.2)
      else if c.1.type = .T_COMMA then (params n false c.2).mapOk fun q => ((t.1 :: q.1.1, q.1.2), q.2)
      else .fail

/-- src/preprocessor/directives.c:128-171 `directiver_define`. -/
def defineDir (n : Nat) (defs : Macros) (st : St) : Run (Macros × St) :=
  (next st).bind fun x => (next x.2).bind fun t =>
    if t.1.type = .T_LPAR ∧ t.1.whitespace = false then (params n true t.2).bind fun ps => (next ps.2).bind fun u =>
      (readLine n u.1 u.2).mapOk fun q => ((x.1.str, ⟨some ps.1, q.1⟩) :: defs, q.2)
    else (readLine n t.1 t.2).mapOk fun q => ((x.1.str, ⟨none, q.1⟩) :: defs, q.2)

/-- src/preprocessor/directives.c:520-632: the directive `t`, `d`, where the stack is `top :: cs`. The flag is `pass_directive`. -/
def handle (e : Env) (v : Ev) (n : Nat) (t d : Tok) (top : Int) (cs : List Int) (defs : Macros) (st : St) : Run (Bool × Cx × St) :=
  if isIf d.str then
    if top = 1 then (evalCond v n d.str defs st).mapOk fun r => (false, ⟨(if r.1 then 1 else 0) :: top :: cs, defs⟩, r.2)
    else .ok (false, ⟨-1 :: top :: cs, defs⟩, st)
  else if isElif d.str then
    if top = 0 then (evalCond v n d.str defs st).mapOk fun r => (false, ⟨(if r.1 then 1 else 0) :: cs, defs⟩, r.2)
    else .ok (false, ⟨-1 :: cs, defs⟩, st)
  else if d.str = str "endif" then .ok (false, ⟨cs, defs⟩, st)
  else if top = 1 then
    if d.str = str "define" then (defineDir n defs st).mapOk fun r => (false, ⟨top :: cs, r.1⟩, r.2)
    else if d.str = str "undef" then (next st).mapOk fun r => (false, ⟨top :: cs, defs.filter (·.1 ≠ r.1.str)⟩, r.2)
    else (directive e n t d st).mapOk fun r => (r.1, ⟨top :: cs, defs⟩, r.2)
  else .ok (false, ⟨top :: cs, defs⟩, st)

/-- src/preprocessor/directives.c:488-638 `directiver_next`, called until it returns `T_EOI`: the tokens that are returned, and the opened files. `t` is the
token that the loop looks at, `pass` is `pass_directive`. -/
def stream (e : Env) (v : Ev) : Nat → Bool → Tok → Cx → St → Run (List Tok × List Str)
  | 0, _, _, _, _ => .more
  | n + 1, pass, t, c, st => match c.cond with
    | [] => .ub
    | top :: cs =>
      if (t.type ≠ .PP_DIRECTIVE ∧ top = 1) ∨ pass = true then
        if t.type = .T_EOI then .ok ([], st.deps)
        else (next st).bind fun r => (stream e v n false r.1 c r.2).mapOk fun q => (t :: q.1, q.2)
      else if t.type ≠ .PP_DIRECTIVE then (next st).bind fun r => stream e v n false r.1 c r.2
      else (next st).bind fun r =>
        if r.1.firstOfLine = true ∨ (r.1.type ≠ .T_IDENT ∧ top ≠ 1) then stream e v n false r.1 c r.2
        else if r.1.type ≠ .T_IDENT then .fail
        else (handle e v n t r.1 top cs c.defs r.2).bind fun q => (next q.2.2).bind fun s => stream e v n q.1 s.1 q.2.1 s.2

/-- The stream from here on: src/preprocessor/directives.c:495. -/
def rest (e : Env) (v : Ev) (n : Nat) (c : Cx) (st : St) : Run (List Tok × List Str) := (next st).bind fun r => stream e v n false r.1 c r.2

/-- src/preprocessor/preprocessor.c:30-35 `preprocessor_init`, then all tokens. -/
def preprocess (e : Env) (v : Ev) (includes : List Str) (path : Str) (n : Nat) : Run (List Tok × List Str) :=
  (pushInput e path false { paths := includes }).bind (rest e v n {})

end Verif.Guard
