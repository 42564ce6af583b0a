import Verif.Input
import Verif.Directives
/-!
Model of the stack of files in src/preprocessor/directives.c with its tokens: what `#include` puts into the stream of tokens, and the positions
that the tokens get.

Simplifications. The directives that are modelled here are `#include`, `#pragma` without `push_macro` and `pop_macro`, `#line` with literal operands
and the null directive; the others are the subject of `Verif.Directives` and end the run here (`fail`). No group is skipped, so the condition stack
has the single element 1. Tokenizing a file and expanding the operand of `#include` are parameters. Paths are kept (`write_dependencies` is set).
-/
namespace Verif.Include
open Verif Input

/-- src/preprocessor/directives.c:10-20 `struct tokenized_file`: `toks` are the tokens from `token_idx` on, `pushed` the tokens pushed back, the
last one first. -/
structure File where
  path : Str
  toks : List Tok
  pushed : List Tok := []
  deriving DecidableEq

/-- src/preprocessor/directives.c:10-34: `files` is `current_file` and its parents; `paths` and `disabled` are the
state of src/preprocessor/input.c:8-12; `deps` is src/preprocessor/directives.c:36-38. -/
structure St where
  files : List File := []
  lineDiff : Int := 0
  newPath : Option Str := none
  paths : List Str := []
  disabled : List Str := []
  deps : List Str := []
  deriving DecidableEq

/-- What is not modelled here: the file system, `tokenize_input` and `expand_token_list`. -/
structure Env where
  fs : Fs
  tokenize : Str → List Byte → List Tok
  expand : List Tok → Run (List Tok)

/-- src/preprocessor/directives.c:122-124: the position of a token that is delivered. -/
def adjust (diff : Int) (np : Option Str) (t : Tok) : Tok := { t with line := t.line + diff, path := np.getD t.path }

/-- src/preprocessor/directives.c:92-126 `next_from_stack`, `next`: at the end of a file the token comes from a call of `next` for its parent, and is
adjusted by both calls. The end of the outermost file is `T_EOI`. -/
def nextFiles (diff : Int) (np : Option Str) : List File → Run (Tok × List File)
  | [] => .ub
  | f :: fs => match f.pushed with
    | t :: ps => .ok (adjust diff np t, { f with pushed := ps } :: fs)
    | [] => match f.toks with
      | t :: ts => .ok (adjust diff np t, { f with toks := ts } :: fs)
      | [] => match fs with
        | [] => .ok (adjust diff np { type := .T_EOI }, [f])
        | _ :: _ => (nextFiles diff np fs).mapOk fun r => (adjust diff np r.1, r.2)

/-- src/preprocessor/directives.c:114-126 `next`. -/
def next (st : St) : Run (Tok × St) := (nextFiles st.lineDiff st.newPath st.files).mapOk fun r => (r.1, { st with files := r.2 })

/-- src/preprocessor/directives.c:108-112 `push`: to the file that is current. -/
def push (t : Tok) (st : St) : Run St := match st.files with
  | [] => .ub
  | f :: fs => if f.pushed.length > 2 then .fail else .ok { st with files := { f with pushed := t :: f.pushed } :: fs }

/-- src/preprocessor/directives.c:74: the path of the including file. -/
def parentPath (st : St) : Str := match st.files with
  | [] => str "."
  | f :: _ => f.path

/-- src/preprocessor/directives.c:73-90 `directiver_push_input`. -/
def pushInput (e : Env) (path : Str) (system : Bool) (st : St) : Run St := do
  match ← inputOpen e.fs { paths := st.paths, disabled := st.disabled } (parentPath st) path system with
  | none => pure st
  | some (p, c) => pure { st with deps := st.deps ++ [p], files := { path := p, toks := e.tokenize p c } :: st.files }

/-- The spelling without its first and last character (`path.len -= 2; path.str++`). -/
def inner (s : Str) : Str := (s.drop 1).take (s.length - 2)

/-- src/preprocessor/directives.c:367-371: the loop that reads the line of the directive. -/
def readLine : Nat → Tok → St → Run (List Tok × St)
  | 0, _, _ => .more
  | n + 1, t, st =>
    if t.firstOfLine then (push t st).mapOk fun st => ([], st)
    else (next st).bind fun r => (readLine n r.1 r.2).mapOk fun q => (t :: q.1, q.2)

/-- src/preprocessor/directives.c:375-379: the expansion has to be one string literal. -/
def stringOf : List Tok → Run Str
  | [t] => if t.type = .T_STRING then .ok (inner t.str) else .fail
  | _ => .fail

/-- src/preprocessor/directives.c:366-387 `get_include_path` and the call at 572. -/
def includeMacro (e : Env) (n : Nat) (t : Tok) (st : St) : Run St :=
  (readLine n t st).bind fun r => (e.expand r.1).bind fun ts => (stringOf ts).bind fun path => pushInput e path false r.2

/-- src/preprocessor/directives.c:555-573: `#include`, after its name. -/
def includeDir (e : Env) (n : Nat) (st : St) : Run St :=
  (next { st with newPath := none, lineDiff := 0 }).bind fun r =>
    if r.1.type = .PP_HEADER_NAME_H then pushInput e (inner r.1.str) true r.2
    else if r.1.type = .PP_HEADER_NAME_Q then pushInput e (inner r.1.str) false r.2
    else includeMacro e n r.1 r.2

/-- src/preprocessor/directives.c:446-447: `#pragma once` (input.c:56-58). -/
def once (st : St) : Run St := match st.files with
  | [] => .ub
  | f :: _ => .ok { st with disabled := StringSet.insert st.disabled f.path }

/-- src/preprocessor/directives.c:443-486 `directiver_handle_pragma` and 576-582: the flag says that the tokens of the directive `t`, `d` are passed
on. -/
def pragmaDir (t d : Tok) (st : St) : Run (Bool × St) :=
  (next st).bind fun r =>
    if r.1.str = str "once" then (once r.2).mapOk fun st => (false, st)
    else if r.1.str = str "push_macro" ∨ r.1.str = str "pop_macro" then .fail
    else (push r.1 r.2).bind fun st => (push d st).bind fun st => (push t st).mapOk fun st => (true, st)

/-- src/preprocessor/directives.c:584-628: `#line` with a number and perhaps a string literal. -/
def lineDir (d : Tok) (st : St) : Run St :=
  (next st).bind fun r =>
    if r.1.firstOfLine ∨ r.1.type ≠ .T_NUM then .fail
    else (next r.2).bind fun s => (Run.ofRes (Directives.atoi r.1.str)).bind fun v =>
      if s.1.firstOfLine then (push s.1 s.2).mapOk fun st => { st with lineDiff := st.lineDiff + (v - d.line - 1) }
      else if s.1.type ≠ .T_STRING then .fail
      else .ok { s.2 with lineDiff := s.2.lineDiff + (v - d.line - 1), newPath := some (inner s.1.str) }

/-- src/preprocessor/directives.c:505-629: the directive named `d`; the flag is `pass_directive`. -/
def directive (e : Env) (n : Nat) (t d : Tok) (st : St) : Run (Bool × St) :=
  if d.type ≠ .T_IDENT then .fail
  else if d.str = str "include" then (includeDir e n st).mapOk fun st => (false, st)
  else if d.str = str "pragma" then pragmaDir t d st
  else if d.str = str "line" then (lineDir d st).mapOk fun st => (false, st)
  else .fail

/-- src/preprocessor/directives.c:488-638 `directiver_next`, called until it returns `T_EOI`: the tokens that are returned, and `deps` at the end.
`t` is the token that the loop looks at, `pass` is `pass_directive`. -/
def stream (e : Env) : Nat → Bool → Tok → St → Run (List Tok × List Str)
  | 0, _, _, _ => .more
  | n + 1, pass, t, st =>
    if t.type ≠ .PP_DIRECTIVE ∨ pass = true then
      if t.type = .T_EOI then .ok ([], st.deps)
      else (next st).bind fun r => (stream e n false r.1 r.2).mapOk fun q => (t :: q.1, q.2)
    else (next st).bind fun r =>
      if r.1.firstOfLine then stream e n false r.1 r.2
      else (directive e n t r.1 r.2).bind fun q => (next q.2).bind fun s => stream e n q.1 s.1 s.2

/-- The stream from here on: src/preprocessor/directives.c:495. -/
def rest (e : Env) (n : Nat) (st : St) : Run (List Tok × List Str) := (next st).bind fun r => stream e n false r.1 r.2

/-- src/preprocessor/preprocessor.c:30-35 `preprocessor_init` after src/main.c:139-143, which adds the include paths. -/
def preprocess (e : Env) (includes : List Str) (path : Str) (n : Nat) : Run (List Tok × List Str) :=
  (pushInput e path false { paths := includes }).bind (rest e n)

end Verif.Include
