import Verif.DefineMap
import Verif.Run
/-!
Model of the directive layer (src/preprocessor/directives.c) for one input file:
`next`, `push`, `directiver_define`, `evaluate_until_newline`,
`directiver_evaluate_conditional`, `directiver_handle_pragma`, `directiver_next`.

Simplifications:
* one file: `#include` is the separate outcome `fail` here (C61 models the file search);
* `expand_token_list` followed by `evaluate_expression` (359-363) is the parameter
  `evalBuf`, which sees the macro table only through `define_map_get`;
* `#line` operands that need macro expansion (588-607) and `#pragma once` bookkeeping
  are left out (`fail` and no-op);
* the token stream is the concatenation of what repeated calls of `directiver_next`
  return up to the first `T_EOI`.
-/
namespace Verif.Directives
open Verif DefineMap

/-- The static state of directives.c (12-34, 489-490) and of the macro table.
`pushed` has `pushed[pushed_idx-1]` first, `cond` has `cond_stack[cond_stack_n-1]`
first. -/
structure St where
  src : List Tok
  pushed : List Tok := []
  lineDiff : Int := 0
  newPath : Option Str := none
  tab : Table := init
  macs : Stacks := []
  cond : List Int := []

/-- What the model is parametric in: the hash of the macro table and the evaluation of
an `#if` buffer. -/
structure Par where
  hash : Str → Nat
  evalBuf : (Str → Option Define) → List Tok → Res Bool

/-- src/preprocessor/directives.c:102: the token returned at the end of the last file. -/
def eoi : Tok := { type := .T_EOI }

/-- src/preprocessor/directives.c:122-124: `#line` adjustment of a token delivered. -/
def adjust (st : St) (t : Tok) : Tok :=
  { t with line := t.line + st.lineDiff, path := st.newPath.getD t.path }

/-- src/preprocessor/directives.c:94-106, 114-126 `next` (one file, no parent). -/
def next (st : St) : Tok × St :=
  match st.pushed with
  | t :: ps => (adjust st t, { st with pushed := ps })
  | [] =>
    match st.src with
    | t :: ts => (adjust st t, { st with src := ts })
    | [] => (adjust st eoi, st)

/-- src/preprocessor/directives.c:108-112 `push`. -/
def push (t : Tok) (st : St) : Run St :=
  if st.pushed.length > 2 then .fail else .ok { st with pushed := t :: st.pushed }

/-- src/preprocessor/directives.c:163-168: collect tokens up to the next line. -/
def readLine : Nat → Tok → St → Run (List Tok × St)
  | 0, _, _ => .more
  | n + 1, t, st =>
    if t.firstOfLine then do
      let st ← push t st
      pure ([], st)
    else do
      let (t', st) := next st
      let (ts, st) ← readLine n t' st
      pure (t :: ts, st)

/-- src/preprocessor/directives.c:136-158: the parameter list, after `(`.
Result: parameters, `vararg`, state after the closing parenthesis. -/
def readParams : Nat → Bool → St → Run (List Tok × Bool × St)
  | 0, _, _ => .more
  | n + 1, first, st =>
    let (t, st) := next st
    if first ∧ t.type = .T_RPAR then .ok ([], false, st)
    else if t.type = .T_ELLIPSIS then
      let (t, st) := next st
      if t.type = .T_RPAR then .ok ([], true, st) else .fail
    else if t.type ≠ .T_IDENT then .fail
    else
      let (c, st) := next st
      if c.type = .T_RPAR then .ok ([t], false, st)
      else if c.type ≠ .T_COMMA then .fail
      else do
        let (ps, va, st) ← readParams n false st
        pure (t :: ps, va, st)

/-- src/preprocessor/directives.c:128-171 `directiver_define`. -/
def defineDir (p : Par) (n : Nat) (st : St) : Run St :=
  let (name, st) := next st
  let (t, st) := next st
  if t.type = .T_LPAR ∧ ¬ t.whitespace then do
    let (ps, va, st) ← readParams n true st
    let (t, st) := next st
    let (body, st) ← readLine n t st
    let df : Define := { name := name.str, func := true, vararg := va, body := body, par := ps }
    pure { st with tab := add p.hash st.tab df }
  else do
    let (body, st) ← readLine n t st
    let df : Define := { name := name.str, body := body }
    pure { st with tab := add p.hash st.tab df }

/-- src/preprocessor/directives.c:342-343: the token standing for `defined X`. -/
def definedTok (b : Bool) : Tok := { type := .T_NUM, str := if b then str "1" else str "0" }

/-- src/preprocessor/directives.c:333-357: the tokens of the line with `defined`
replaced; `t` is the token last read. -/
def readCond (p : Par) : Nat → Tok → St → Run (List Tok × St)
  | 0, _, _ => .more
  | n + 1, t, st =>
    if t.firstOfLine then do
      let st ← push t st
      pure ([], st)
    else if t.str = str "defined" then
      let (t, st) := next st
      if t.type = .T_LPAR then
        let (t, st) := next st
        let d := definedTok (get p.hash st.tab t.str).isSome
        let (t, st) := next st
        if t.type ≠ .T_RPAR then .fail
        else do
          let (t, st) := next st
          let (ts, st) ← readCond p n t st
          pure (d :: ts, st)
      else do
        let d := definedTok (get p.hash st.tab t.str).isSome
        let (t, st) := next st
        let (ts, st) ← readCond p n t st
        pure (d :: ts, st)
    else do
      let (t', st) := next st
      let (ts, st) ← readCond p n t' st
      pure (t :: ts, st)

/-- src/preprocessor/directives.c:331-364 `evaluate_until_newline`, as a truth value. -/
def evalLine (p : Par) (n : Nat) (st : St) : Run (Bool × St) := do
  let (t, st) := next st
  let (buf, st) ← readCond p n t st
  let b ← Run.ofRes (p.evalBuf (get p.hash st.tab) buf)
  pure (b, st)

/-- src/preprocessor/directives.c:389-404 `directiver_evaluate_conditional`. -/
def evalCond (p : Par) (n : Nat) (name : Str) (st : St) : Run (Bool × St) :=
  if name = str "ifdef" ∨ name = str "elifdef" then
    let (t, st) := next st
    .ok ((get p.hash st.tab t.str).isSome, st)
  else if name = str "ifndef" ∨ name = str "elifndef" then
    let (t, st) := next st
    .ok (!(get p.hash st.tab t.str).isSome, st)
  else if name = str "if" ∨ name = str "elif" then evalLine p n st
  else if name = str "else" then .ok (true, st)
  else .fail

/-- libc `atoi` on an unsigned digit string: the leading digits; more than `INT_MAX`
is undefined. -/
def atoiDigits : Nat → Str → Nat
  | acc, [] => acc
  | acc, c :: cs => if 0x30 ≤ c.toNat ∧ c.toNat ≤ 0x39 then atoiDigits (acc * 10 + (c.toNat - 0x30)) cs else acc

/-- libc `atoi`. -/
def atoi (s : Str) : Res Int :=
  let v := atoiDigits 0 s
  if v ≤ 0x7fffffff then .ok v else .ub

/-- src/preprocessor/directives.c:580-628 `#line`; `dirLine` is `directive.pos.line`.
Operands needing macro expansion (588-607) are the outcome `fail` in this model. -/
def lineDir (dirLine : Int) (st : St) : Run St :=
  let (d, st) := next st
  if d.firstOfLine then .fail
  else if d.type ≠ .T_NUM then .fail
  else
    let (s, st) := next st
    if s.firstOfLine then do
      let st ← push s st
      let v ← Run.ofRes (atoi d.str)
      pure { st with lineDiff := st.lineDiff + (v - dirLine - 1) }
    else do
      let v ← Run.ofRes (atoi d.str)
      if s.type ≠ .T_STRING then .fail
      else pure { st with lineDiff := st.lineDiff + (v - dirLine - 1)
                          newPath := some ((s.str.drop 1).take (s.str.length - 2)) }

/-- src/preprocessor/directives.c:448-480: `("name")` after push_macro / pop_macro. -/
def pragmaName (st : St) : Run (Str × St) :=
  let (lpar, st) := next st
  if lpar.type ≠ .T_LPAR then .fail
  else
    let (nm, st) := next st
    if nm.type ≠ .T_STRING then .fail
    else
      let (rpar, st) := next st
      if rpar.type ≠ .T_RPAR then .fail
      else .ok ((nm.str.drop 1).take (nm.str.length - 2), st)

/-- src/preprocessor/directives.c:443-486 `directiver_handle_pragma`; the flag is its
return value (the pragma is left for the parser). -/
def handlePragma (p : Par) (st : St) : Run (Bool × St) :=
  let (command, st) := next st
  if command.str = str "once" then .ok (false, st)
  else if command.str = str "push_macro" then do
    let (nm, st) ← pragmaName st
    let s := pushMacro p.hash nm ⟨st.tab, st.macs⟩
    pure (false, { st with tab := s.tab, macs := s.stacks })
  else if command.str = str "pop_macro" then do
    let (nm, st) ← pragmaName st
    let s ← Run.ofRes (popMacro p.hash nm ⟨st.tab, st.macs⟩)
    pure (false, { st with tab := s.tab, macs := s.stacks })
  else do
    let st ← push command st
    pure (true, st)

/-- Is the directive name one of `#if`, `#ifdef`, `#ifndef` (520-522)? -/
def isIf (s : Str) : Bool := s = str "ifndef" || s = str "ifdef" || s = str "if"
/-- Is it one of `#elif`, `#else`, `#elifdef`, `#elifndef` (529-532)? -/
def isElif (s : Str) : Bool :=
  s = str "elif" || s = str "else" || s = str "elifndef" || s = str "elifdef"

/-- src/preprocessor/directives.c:520-632, the body of the loop once the directive
name is an identifier, for `cond_stack = top :: cs`.  `t` is the `#`, `d` the name.
Result: the flag `pass_directive` and the state. -/
def handle (p : Par) (n : Nat) (t d : Tok) (top : Int) (cs : List Int) (st : St) :
    Run (Bool × St) :=
  if isIf d.str then
    if top = 1 then do
      let (b, st) ← evalCond p n d.str st
      pure (false, { st with cond := (if b then 1 else 0) :: top :: cs })
    else pure (false, { st with cond := -1 :: top :: cs })
  else if isElif d.str then
    if top = 0 then do
      let (b, st) ← evalCond p n d.str st
      pure (false, { st with cond := (if b then 1 else 0) :: cs })
    else pure (false, { st with cond := -1 :: cs })
  else if d.str = str "endif" then pure (false, { st with cond := cs })
  else if top = 1 then
    if d.str = str "define" then do
      let st ← defineDir p n st
      pure (false, st)
    else if d.str = str "undef" then
      let (x, st) := next st
      pure (false, { st with tab := remove p.hash st.tab x.str })
    else if d.str = str "error" then .fail
    else if d.str = str "include" then .fail
    else if d.str = str "pragma" then do
      let (pass, st) ← handlePragma p st
      if pass then do
        let st ← push d st
        let st ← push t st
        pure (true, st)
      else pure (false, st)
    else if d.str = str "line" then do
      let st ← lineDir d.line st
      pure (false, st)
    else .fail
  else pure (false, st)

/-- src/preprocessor/directives.c:488-638 `directiver_next`, called until it returns
`T_EOI`; `t` is the current token, the result the tokens returned.

Every iteration of the loop at 497 reads `cond_stack[cond_stack_n - 1]` unless `t` is a
directive whose name is an identifier, and then it is read at 523/533/541, or the
directive is another `#endif`; a stray `#endif` therefore leads to an access below the
array before anything can be returned, modelled as `ub` at the first read. -/
def stream (p : Par) : Nat → Tok → St → Run (List Tok)
  | 0, _, _ => .more
  | n + 1, t, st =>
    match st.cond with
    | [] => .ub
    | top :: cs =>
      if t.type ≠ .PP_DIRECTIVE ∧ top = 1 then
        -- loop exit, `t` is returned; 492-495 start the next call
        if t.type = .T_EOI then .ok []
        else
          let (t', st) := next st
          Run.mapOk (t :: ·) (stream p n t' st)
      else if t.type ≠ .PP_DIRECTIVE then
        let (t', st) := next st
        stream p n t' st
      else
        let (d, st) := next st
        if d.firstOfLine then stream p n d st
        else if d.type ≠ .T_IDENT ∧ top ≠ 1 then stream p n d st
        else if d.type ≠ .T_IDENT then .fail
        else do
          let (pass, st) ← handle p n t d top cs st
          let (t', st) := next st
          if pass then
            -- 497: `pass_directive` ends the loop, `t'` is returned
            if t'.type = .T_EOI then .ok []
            else
              let (t'', st) := next st
              Run.mapOk (t' :: ·) (stream p n t'' st)
          else stream p n t' st

/-- The whole file: 492-495 of the first call. -/
def preprocess (p : Par) (n : Nat) (src : List Tok) : Run (List Tok) :=
  let st : St := { src := src, cond := [1] }
  let (t, st) := next st
  stream p n t st

end Verif.Directives
