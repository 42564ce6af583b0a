import Verif.Run
import Verif.StringSet
import Verif.DefineMap
import Verif.Escape
/-!
Model of the macro expander (src/preprocessor/macro_expander.c:97-550).

`input_buffer` is a stack: the list `buf` with `tokens[size-1]` first.  `output_buffer`
is `out`, oldest first.  `directiver_next` is the list `src` of the tokens it still has
to deliver, followed by `T_EOI` for ever; the macro table `env` does not change while
tokens are taken (C17 6.10.3p11 makes directives inside macro arguments undefined).
Loops are fuelled (`Run`).
-/
namespace Verif.Macro
open Verif DefineMap

/-- src/preprocessor/macro_expander.c:247-255 and the directive reader's tokens. -/
structure St where
  buf : List Tok := []
  out : List Tok := []
  src : List Tok := []
  deriving DecidableEq, Repr, Inhabited

/-- The token `(struct token) { .type = T_EOI }` (macro_expander.c:332, 523, 534). -/
def eoi : Tok := { type := .T_EOI }

/-- src/preprocessor/macro_expander.c:97-102 with src/preprocessor/token_list.c:13-18. -/
def getParam (d : Define) (t : Tok) : Option Nat :=
  if !d.func || t.type ≠ .T_IDENT then none
  else d.par.findIdx? (fun p => p.str = t.str)

/-- src/preprocessor/macro_expander.c:114-144 `paste_table`. -/
def pasteTable : List (TType × TType × TType) := [
  (.T_IDENT, .T_IDENT, .T_IDENT), (.T_IDENT, .T_NUM, .T_IDENT), (.T_IDENT, .T_IDENT, .T_IDENT),
  (.T_LSHIFT, .T_A, .T_LSHIFTA), (.T_RSHIFT, .T_A, .T_RSHIFTA), (.T_NUM, .T_NUM, .T_NUM),
  (.T_NUM, .T_IDENT, .T_NUM), (.T_ADD, .T_ADD, .T_INC), (.T_ADD, .T_A, .T_ADDA),
  (.T_SUB, .T_SUB, .T_DEC), (.T_SUB, .T_G, .T_ARROW), (.T_SUB, .T_A, .T_SUBA),
  (.T_DIV, .T_A, .T_DIVA), (.T_MOD, .T_A, .T_MODA), (.T_G, .T_GEQ, .T_RSHIFTA),
  (.T_G, .T_G, .T_RSHIFT), (.T_G, .T_A, .T_GEQ), (.T_L, .T_LEQ, .T_LSHIFTA),
  (.T_L, .T_L, .T_LSHIFT), (.T_L, .T_A, .T_LEQ), (.T_NOT, .T_A, .T_NEQ),
  (.T_BOR, .T_BOR, .T_OR), (.T_BOR, .T_A, .T_BORA), (.T_XOR, .T_A, .T_XORA),
  (.T_A, .T_A, .T_EQ), (.T_STAR, .T_A, .T_MULA), (.T_AMP, .T_A, .T_BANDA),
  (.T_AMP, .T_AMP, .T_AND), (.PP_HASH, .PP_HASH, .PP_HHASH)]

/-- src/preprocessor/macro_expander.c:151-153: the last matching row. -/
def pasteType (a b : TType) : TType :=
  pasteTable.foldl (fun r p => if p.2.1 = a ∧ p.1 = b then p.2.2 else r) .T_NONE

/-- src/preprocessor/macro_expander.c:146-162 `glue`: `b ## a`. -/
def glue (a b : Tok) : Run Tok :=
  let ty := pasteType a.type b.type
  if ty = .T_NONE then .fail
  else .ok { type := ty, str := b.str ++ a.str, whitespace := b.whitespace, firstOfLine := b.firstOfLine,
             whitespaceAfter := a.whitespaceAfter, firstOfLineAfter := a.firstOfLineAfter,
             hs := StringSet.inter a.hs b.hs, line := a.line, path := a.path }

/-- src/preprocessor/macro_expander.c:195-200: the characters of a literal, escaped. -/
def escapedChars : List Byte → Res (List Byte)
  | [] => .ok []
  | c :: cs => do
    let a ← Escape.printChar c true
    let b ← escapedChars cs
    pure (a ++ b)

/-- src/preprocessor/macro_expander.c:191-228: the characters of one token. -/
def tokenChars (t : Tok) : Res (List Byte) :=
  if t.type = .T_STRING ∨ t.type = .T_CHARACTER_CONSTANT then
    escapedChars t.str
  else if t.type = .PP_HASH ∨ t.type = .PP_DIRECTIVE then .ok (str "#")
  else if t.type = .PP_HHASH then .ok (str "##")
  else match symTable.find? (fun p => p.1 = t.type) with
    | some p => .ok p.2
    | none => .ok t.str

/-- src/preprocessor/macro_expander.c:187-229 `stringify_add` for every token of the
argument; `ws` is `stringify_whitespace`, `start` is `i == 0`. -/
def stringifyLoop : Bool → Bool → List Tok → List Byte → Res (List Byte)
  | _, _, [], buf => .ok buf
  | start, ws, t :: ts, buf => do
    let buf := if !start && (t.whitespace || ws) then buf ++ [ch ' '] else buf
    let cs ← tokenChars t
    stringifyLoop false t.whitespaceAfter ts (buf ++ cs)

/-- src/preprocessor/macro_expander.c:168-185, 416-419, 435-438. -/
def stringify (ts : List Tok) : Res Str := do
  let b ← stringifyLoop true false ts [ch '"']
  pure (b ++ [ch '"'])

/-- `printf("%d")`. -/
def decimal (i : Int) : Str := (toString i).toList.map ch

/-- src/preprocessor/macro_expander.c:231-245 `builtin_macros`. -/
def builtin (t : Tok) : Option Tok :=
  if t.str = str "__LINE__" then
    some { type := .T_NUM, str := decimal t.line, line := t.line, path := t.path,
           whitespace := t.whitespace, whitespaceAfter := t.whitespaceAfter }
  else if t.str = str "__FILE__" then
    some { type := .T_STRING, str := [ch '"'] ++ t.path ++ [ch '"'], line := t.line, path := t.path,
           whitespace := t.whitespace, whitespaceAfter := t.whitespaceAfter }
  else none

/-- src/preprocessor/macro_expander.c:263-272 `input_buffer_take`; ICE is `fail`. -/
def take (input : Bool) (s : St) : Run (Tok × St) :=
  match s.buf with
  | t :: b => .ok (t, { s with buf := b })
  | [] =>
    if input then
      match s.src with
      | t :: r => .ok (t, { s with src := r })
      | [] => .ok (eoi, s)
    else .fail

/-- src/preprocessor/macro_expander.c:274-285 `input_buffer_top`. -/
def top (input : Bool) (s : St) : Run (Tok × St) :=
  match s.buf with
  | t :: _ => .ok (t, s)
  | [] =>
    if input then
      match s.src with
      | t :: r => .ok (t, { s with buf := [t], src := r })
      | [] => .ok (eoi, { s with buf := [eoi] })
    else .fail

/-- src/preprocessor/macro_expander.c:257-261 `input_buffer_push`. -/
def push (t : Tok) (s : St) : St := { s with buf := t :: s.buf }

/-- src/preprocessor/macro_expander.c:288-319 `input_buffer_parse_argument`; `depth` and
`acc` are the loop's variables.  Returns the argument and whether it ended at `)`. -/
def parseArg (input ignoreComma : Bool) : Nat → Int → List Tok → St → Run (List Tok × Bool × St)
  | 0, _, _, _ => .more
  | n + 1, depth, acc, s => do
    let (t, s) ← take input s
    if t.type = .T_LPAR then parseArg input ignoreComma n (depth + 1) (acc ++ [t]) s
    else if t.type = .T_RPAR then
      if depth - 1 = 0 then pure (trimBody acc, true, push t s)
      else parseArg input ignoreComma n (depth - 1) (acc ++ [t]) s
    else if !ignoreComma ∧ t.type = .T_COMMA ∧ depth = 1 then pure (trimBody acc, false, s)
    else parseArg input ignoreComma n depth (acc ++ [t]) s

/-- src/preprocessor/macro_expander.c:336-343: the first token takes over the origin's
leading whitespace, the last one its trailing whitespace. -/
def orEnds (ws wa : Bool) : List Tok → List Tok
  | [] => []
  | t :: ts =>
    let l := { t with whitespace := t.whitespace || ws } :: ts
    match l.getLast? with
    | none => []
    | some z => l.dropLast ++ [{ z with whitespaceAfter := z.whitespaceAfter || wa }]

/-- src/preprocessor/macro_expander.c:324-327: glue `t` to the top of the buffer. -/
def glueTop (input : Bool) (t : Tok) (s : St) : Run St := do
  let (e, s) ← top input s
  let g ← glue e t
  match s.buf with
  | _ :: b => pure { s with buf := g :: b }
  | [] => .ub

/-- src/preprocessor/macro_expander.c:324-327: the last token of a non-empty argument is
glued when `*concat_with_prev`. -/
def glueLast (input glued : Bool) (tl : List Tok) (s : St) : Run St :=
  if glued then
    match tl.getLast? with
    | some z => glueTop input z s
    | none => .ub
  else .ok s

/-- src/preprocessor/macro_expander.c:321-355 `expand_argument`; `exp` is the recursive
`expand_buffer(input, 0, NULL)`. -/
def expandArgument (exp : St → Run St) (input : Bool) (origin : Tok) (tl : List Tok)
    (concatWithPrev concat stringify : Bool) (s : St) : Run St := do
  let glued := concatWithPrev && !tl.isEmpty
  let s ← glueLast input glued tl s
  let toks := orEnds origin.whitespace origin.whitespaceAfter (if glued then tl.dropLast else tl)
  if concat || stringify then pure { s with buf := toks ++ s.buf }
  else
    let pos := s.out.length
    let s ← exp { s with buf := toks ++ eoi :: s.buf }
    pure { s with buf := s.out.drop pos ++ s.buf, out := s.out.take pos }

/-- src/preprocessor/macro_expander.c:370-377: parse the arguments of the named
parameters; `k` of them are left. -/
def parseArgs (input : Bool) (n : Nat) : Nat → St → Run (List (List Tok) × Bool × St)
  | 0, s => .ok ([], false, s)
  | k + 1, s => do
    let (a, fin, s) ← parseArg input false n 1 [] s
    if fin then
      if k ≠ 0 then .fail else pure ([a], true, s)
    else
      let (as, fin, s) ← parseArgs input n k s
      pure (a :: as, fin, s)

/-- src/preprocessor/macro_expander.c:380-385: the tokens of `...`. -/
def parseVararg (input : Bool) (n : Nat) (needed : Bool) (s : St) : Run (List Tok × Bool × St) :=
  if needed then do
    let (va, e, s) ← parseArg input true n 1 [] s
    if e then pure (va, true, s) else .fail
  else .ok ([], false, s)

/-- What `subs_buffer` knows after reading the call. -/
structure Call where
  args : List (List Tok) := []
  vararg : List Tok := []
  varargIncluded : Bool := false
  deriving DecidableEq, Repr, Inhabited

/-- src/preprocessor/macro_expander.c:366-393. Returns the arguments, the trailing
whitespace and the hide set before the insertion of the name. -/
def readCall (input : Bool) (n : Nat) (origin : Tok) (d : Define) (hs : List Str) (s : St) :
    Run (Call × Bool × List Str × St) :=
  if d.func then do
    let (lpar, s) ← take input s
    if lpar.type ≠ .T_LPAR then .fail
    else
      let (args, fin, s) ← parseArgs input n d.par.length s
      let (va, inc, s) ← parseVararg input n (d.vararg && !fin) s
      let (rpar, s) ← take input s
      if rpar.type ≠ .T_RPAR then .fail
      else pure (⟨args, va, inc⟩, rpar.whitespaceAfter, StringSet.inter hs rpar.hs, s)
  else pure ({}, origin.whitespaceAfter, hs, s)

/-- src/preprocessor/macro_expander.c:399-468: the loop over the replacement list from
its end; the list is the part not yet visited, reversed, `skip` the extra `i--`, `cwp`
is `concat_with_prev`. -/
def substLoop (exp : St → Run St) (input : Bool) (d : Define) (c : Call) (line : Int) (path : Str) :
    Nat → Bool → List Tok → St → Run St
  | _, _, [], s => .ok s
  | skip + 1, cwp, _ :: rest, s => substLoop exp input d c line path skip cwp rest s
  | 0, cwp, t :: rest, s =>
    let concat : Bool := rest.head?.map (·.type) = some .PP_HHASH
    let strf : Bool := rest.head?.map (·.type) = some .PP_HASH
    let skip := if concat || strf then 1 else 0
    if t.type = .PP_HHASH then .fail
    else if t.str = str "__VA_ARGS__" then
      let paste : Bool := concat && (rest[1]?.map (·.type) = some .T_COMMA)
      if paste && !c.varargIncluded then
        substLoop exp input d c line path (skip + 1) cwp rest s
      else if strf then do
        let v ← Run.ofRes (stringify c.vararg)
        substLoop exp input d c line path skip cwp rest (push { t with type := .T_STRING, str := v } s)
      else if c.varargIncluded then do
        let s ← expandArgument exp input t c.vararg cwp concat strf s
        substLoop exp input d c line path skip (if c.vararg.isEmpty then cwp else !paste && concat) rest s
      else substLoop exp input d c line path skip cwp rest s
    else
      match getParam d t with
      | some i =>
        let a := c.args.getD i []
        if strf then do
          let v ← Run.ofRes (stringify a)
          substLoop exp input d c line path skip cwp rest (push { t with type := .T_STRING, str := v } s)
        else do
          let s ← expandArgument exp input t a cwp concat strf s
          substLoop exp input d c line path skip (if a.isEmpty then cwp else concat) rest s
      | none =>
        if cwp then do
          let s ← glueTop input t s
          substLoop exp input d c line path skip concat rest s
        else if strf then .fail
        else
          substLoop exp input d c line path skip concat rest (push { t with line := line, path := path } s)

/-- src/preprocessor/macro_expander.c:474-482: the tokens above `start` get the hide set
and the whitespace of the macro call. -/
def finish (start : Nat) (hs : List Str) (origin : Tok) (wa : Bool) (s : St) : St :=
  let k := s.buf.length - start
  let new := (s.buf.take k).map (fun t => { t with hs := StringSet.union hs t.hs })
  { s with buf := orEnds origin.whitespace wa new ++ s.buf.drop k }

/-- src/preprocessor/macro_expander.c:357-485 `subs_buffer`. -/
def subs (exp : St → Run St) (input : Bool) (n : Nat) (origin : Tok) (d : Define) (s : St) : Run St := do
  let (c, wa, hs, s) ← readCall input n origin d origin.hs s
  let hs := StringSet.insert hs d.name
  let start := s.buf.length
  let s ← substLoop exp input d c origin.line origin.path 0 false d.body.reverse s
  pure (finish start hs origin wa s)

/-- src/preprocessor/macro_expander.c:488-524 `expand_buffer(input, ret, t)`; the token
is `*t`, which is set when `ret` is. -/
def expand (env : Str → Option Define) (input ret : Bool) : Nat → St → Run (Option Tok × St)
  | 0, _ => .more
  | n + 1, s =>
    if !input && s.buf.isEmpty then .ok (if ret then some eoi else none, s)
    else do
      let (t, s) ← take input s
      if t.type = .T_EOI then pure (if ret then some eoi else none, s)
      else
        let emit (t : Tok) (s : St) : Run (Option Tok × St) :=
          if ret then .ok (some t, s) else expand env input ret n { s with out := s.out ++ [t] }
        let go (d : Define) (s : St) : Run (Option Tok × St) := do
          let s ← subs (fun s => Run.mapOk (·.2) (expand env input false n s)) input n t d s
          expand env input ret n s
        if t.type ≠ .T_IDENT ∨ StringSet.contains t.hs t.str then emit t s
        else match builtin t with
          | some t' => emit t' s
          | none =>
            match env t.str with
            | none => emit t s
            | some d =>
              if d.func then
                if !input && s.buf.isEmpty then emit t s
                else do
                  let (p, s) ← top input s
                  if p.type = .T_LPAR then go d s else emit t s
              else go d s

/-- src/preprocessor/macro_expander.c:526-531 `expander_next`. -/
def next (env : Str → Option Define) (n : Nat) (s : St) : Run (Tok × St) := do
  let (t, s) ← expand env true true n s
  match t with
  | some t => pure (t, s)
  | none => .ub

/-- src/preprocessor/macro_expander.c:533-550 `expand_token_list`. -/
def expandList (env : Str → Option Define) (n : Nat) (ts : List Tok) (s : St) : Run (List Tok × St) := do
  let pos := s.out.length
  let (_, s) ← expand env false false n { s with buf := ts ++ eoi :: s.buf }
  pure (s.out.drop pos, { s with out := s.out.take pos })

end Verif.Macro
