import Verif.Token
import Verif.Run
import Verif.Utf8
/-!
Model of src/preprocessor/tokenizer.c.

The input is the list of the bytes of a file with the terminating NUL; reading past its end is undefined behaviour. The static variables
`c`, `pos`, `str`, `needs_escape_sequences_removed` and `needs_digit_separator_removed` form the state `St`. Loops take fuel.
The column of a position and the path are left out of the result: they only appear in diagnostics.
-/
namespace Verif.Tokenizer
open Verif

/-- src/preprocessor/tokenizer.c:24-33 `eq_table`: the character class of a byte (the bytes from 128 have class 0). -/
def eqTable : List Nat := [
  1, 2,  2,  2,  2, 2,   2,  2,  2,  7,  10, 2,   2,   7,   2,   2,
  2, 2,  2,  2,  2, 2,   2,  2,  2,  2,  2,  2,   2,   2,   2,   2,
  7, 33, 34, 35, 9, 37,  38, 39, 40, 41, 42, 43,  44,  45,  46,  47,
  5, 5,  5,  5,  5, 5,   5,  5,  56, 5,  58, 59,  60,  61,  62,  63,
  2, 9,  9,  9,  9, 3,   9,  9,  9,  9,  9,  9,   76,  9,   9,   9,
  3, 9,  9,  9,  9, 85,  9,  9,  9,  9,  9,  91,  92,  93,  94,  9,
  2, 9,  9,  9,  9, 3,   9,  9,  9,  9,  9,  9,   9,   9,   9,   9,
  3, 9,  9,  9,  9, 117, 9,  9,  9,  9,  9,  123, 124, 125, 126, 2]

/-- Class of a byte; src/preprocessor/tokenizer.c:54. -/
def eq (b : Byte) : Nat := eqTable.getD b.toNat 0

/-- src/preprocessor/tokenizer.c:14-22, the named classes. -/
def EQ_UTF8 : Nat := 0
@[inherit_doc EQ_UTF8] def EQ_NULL : Nat := 1
@[inherit_doc EQ_UTF8] def EQ_EXPONENT : Nat := 3
@[inherit_doc EQ_UTF8] def EQ_DECIMAL : Nat := 5
@[inherit_doc EQ_UTF8] def EQ_SPACE : Nat := 7
@[inherit_doc EQ_UTF8] def EQ_ALPHA : Nat := 9

/-- src/preprocessor/tokenizer.c:9-12: the static variables. `str` is `rest`, and `str[-1]` is `prev` (a newline before the first
byte is read, where the C code only forms the address). -/
structure St where
  c : Nat
  prev : Byte
  rest : List Byte
  line : Nat
  esc : Bool
  sep : Bool
  deriving DecidableEq, Repr, Inhabited

/-- src/preprocessor/tokenizer.c:49-54: the byte `b` is read, `r` is left. -/
def arrive (s : St) (b : Byte) (r : List Byte) : St :=
  { s with c := eq b, prev := b, rest := r, line := if b = ch '\n' then s.line + 1 else s.line }

/-- src/preprocessor/tokenizer.c:39-44: a line splice is passed. -/
def passSplice (s : St) : St := { s with line := s.line + 1, esc := true }

/-- src/preprocessor/tokenizer.c:35-55 `next_char`, reading from the given bytes. -/
def advance (s : St) : List Byte → Run St
  | [] => .ub
  | [b] => if b = ch '\\' then .ub else .ok (arrive s b [])
  | b :: n :: r =>
    if b = ch '\\' ∧ n = ch '\n' then advance (passSplice s) r
    else match r with
      | [] => if b = ch '\\' ∧ n = ch '\r' then .ub else .ok (arrive s b [n])
      | m :: r' =>
        if b = ch '\\' ∧ n = ch '\r' ∧ m = ch '\n' then advance (passSplice s) r'
        else .ok (arrive s b (n :: m :: r'))

/-- src/preprocessor/tokenizer.c:35-55 `next_char`. -/
def nextChar (s : St) : Run St := advance s s.rest

/-- src/preprocessor/tokenizer.c:64-69: removal of backslash-newline from the text of a token. -/
def stripSplices : List Byte → List Byte
  | [] => []
  | [b] => [b]
  | b :: n :: r => if b = ch '\\' ∧ n = ch '\n' then stripSplices r else b :: stripSplices (n :: r)

/-- src/preprocessor/tokenizer.c:80-89: the value of a hexadecimal digit. -/
def hexDigit (b : Byte) : Res (BitVec 32) :=
  if ch '0' ≤ b ∧ b ≤ ch '9' then .ok ((b - ch '0').setWidth 32)
  else if ch 'a' ≤ b ∧ b ≤ ch 'f' then .ok ((b - ch 'a' + 10#8).setWidth 32)
  else if ch 'A' ≤ b ∧ b ≤ ch 'F' then .ok ((b - ch 'A' + 10#8).setWidth 32)
  else .fail

/-- src/preprocessor/tokenizer.c:77-89: the code point of `n` hexadecimal digits, and the bytes after them. The terminating NUL is not
a digit. -/
def hexValue : Nat → BitVec 32 → List Byte → Res (BitVec 32 × List Byte)
  | 0, v, r => .ok (v, r)
  | _ + 1, _, [] => .fail
  | n + 1, v, b :: r => do
    let d ← hexDigit b
    hexValue n ((v <<< 4) ||| d) r

/-- src/preprocessor/tokenizer.c:73-100: universal character names are replaced by their UTF-8 encoding. The fuel is the
number of bytes, more than is ever used. -/
def decodeNames : Nat → List Byte → Res (List Byte)
  | 0, _ => .ok []
  | _ + 1, [] => .ok []
  | _ + 1, [b] => .ok [b]
  | f + 1, b :: n :: r =>
    if b = ch '\\' ∧ (n = ch 'u' ∨ n = ch 'U') then do
      let (v, r') ← hexValue (if n = ch 'u' then 4 else 8) 0 r
      let e ← Utf8.encode v
      let t ← decodeNames f r'
      .ok (e.takeWhile (· ≠ 0) ++ t)
    else do
      let t ← decodeNames f (n :: r)
      .ok (b :: t)

/-- src/preprocessor/tokenizer.c:57-104 `remove_escape_sequences` on the text of a token, which has no NUL. -/
def removeEscapeSequences (t : List Byte) : Res (List Byte) :=
  decodeNames (stripSplices t).length (stripSplices t)

/-- src/preprocessor/tokenizer.c:106-121 `remove_digit_separator`. -/
def removeDigitSeparator (t : List Byte) : List Byte := t.filter (· ≠ ch '\'')

/-- src/preprocessor/tokenizer.c:124-146 `parse_number`. -/
def parseNumber : Nat → St → Run St
  | 0, _ => .more
  | f + 1, s =>
    if s.c = EQ_EXPONENT then do
      let s ← nextChar s
      if s.c = '+'.toNat ∨ s.c = '-'.toNat then do
        let s ← nextChar s
        parseNumber f s
      else parseNumber f s
    else if s.c = '\''.toNat then do
      let s ← nextChar s
      if s.c = '8'.toNat ∨ s.c = EQ_DECIMAL ∨ s.c = EQ_ALPHA ∨ s.c = 'u'.toNat ∨ s.c = 'U'.toNat ∨ s.c = 'L'.toNat then do
        let s ← nextChar { s with sep := true }
        parseNumber f s
      else .fail
    else if s.c = EQ_DECIMAL ∨ s.c = '8'.toNat ∨ s.c = EQ_ALPHA ∨ s.c = 'u'.toNat ∨ s.c = 'U'.toNat ∨ s.c = EQ_EXPONENT ∨
        s.c = 'L'.toNat ∨ s.c = '.'.toNat then do
      let s ← nextChar s
      parseNumber f s
    else .ok s

/-- src/preprocessor/tokenizer.c:148-165 `parse_string_like`. -/
def parseStringLike (e : Nat) : Nat → St → Run St
  | 0, _ => .more
  | f + 1, s =>
    if s.c ≠ '\n'.toNat ∧ s.c ≠ e ∧ s.c ≠ EQ_NULL then
      if s.c = '\\'.toNat then do
        let s ← nextChar s
        if s.c = 'u'.toNat ∨ s.c = 'U'.toNat then do
          let s ← nextChar s
          let s ← nextChar { s with esc := true }
          parseStringLike e f s
        else do
          let s ← nextChar s
          parseStringLike e f s
      else do
        let s ← nextChar s
        parseStringLike e f s
    else if s.c ≠ e then .fail
    else nextChar s

/-- src/preprocessor/tokenizer.c:167-182 `parse_identifier`. -/
def parseIdentifier : Nat → St → Run St
  | 0, _ => .more
  | f + 1, s =>
    if s.c = EQ_ALPHA ∨ s.c = 'u'.toNat ∨ s.c = 'U'.toNat ∨ s.c = EQ_EXPONENT ∨ s.c = 'L'.toNat ∨ s.c = EQ_DECIMAL ∨ s.c = '8'.toNat ∨
        s.c = EQ_UTF8 then do
      let s ← nextChar s
      parseIdentifier f s
    else if s.c = '\\'.toNat then do
      let s ← nextChar s
      if s.c = 'u'.toNat ∨ s.c = 'U'.toNat then do
        let s ← nextChar s
        parseIdentifier f { s with esc := true }
      else parseIdentifier f s
    else .ok s

/-- src/preprocessor/tokenizer.c:209-211: to the end of the line. -/
def lineComment : Nat → St → Run St
  | 0, _ => .more
  | f + 1, s =>
    if s.c ≠ '\n'.toNat ∧ s.c ≠ EQ_NULL then do
      let s ← nextChar s
      lineComment f s
    else .ok s

/-- src/preprocessor/tokenizer.c:216-227: the loop over a block comment. -/
def blockComment : Nat → St → Run St
  | 0, _ => .more
  | f + 1, s => do
    let s ← nextChar s
    if s.c = '*'.toNat then do
      let s ← nextChar s
      if s.c = '/'.toNat then nextChar s
      else blockComment f s
    else if s.c = EQ_NULL then .fail
    else blockComment f s

/-- src/preprocessor/tokenizer.c:187-189 `TYPE(t)` followed by `switch (c)` with the given cases, each of which is again such a
switch. -/
def op (t : TType) (alts : List (Char × (St → Run (TType × St)))) (s : St) : Run (TType × St) := do
  let s ← nextChar s
  match alts.find? fun a => a.1.toNat == s.c with
  | some a => a.2 s
  | none => .ok (t, s)

/-- src/preprocessor/tokenizer.c:363-452: the punctuators that need nothing but their characters, by the first character. -/
def opTable : List (Char × (St → Run (TType × St))) := [
  ('>', op .T_G [('>', op .T_RSHIFT [('=', op .T_RSHIFTA [])]), ('=', op .T_GEQ [])]),
  ('=', op .T_A [('=', op .T_EQ [])]),
  ('&', op .T_AMP [('=', op .T_BANDA []), ('&', op .T_AND [])]),
  ('|', op .T_BOR [('=', op .T_BORA []), ('|', op .T_OR [])]),
  ('+', op .T_ADD [('=', op .T_ADDA []), ('+', op .T_INC [])]),
  ('-', op .T_SUB [('=', op .T_SUBA []), ('-', op .T_DEC []), ('>', op .T_ARROW [])]),
  ('!', op .T_NOT [('=', op .T_NEQ [])]),
  ('^', op .T_XOR [('=', op .T_XORA [])]),
  ('*', op .T_STAR [('=', op .T_MULA [])]),
  ('%', op .T_MOD [('=', op .T_MODA [])]),
  ('~', op .T_BNOT []), ('?', op .T_QUEST []), (':', op .T_COLON []), (';', op .T_SEMI_COLON []),
  ('(', op .T_LPAR []), (')', op .T_RPAR []), ('[', op .T_LBRACK []), (']', op .T_RBRACK []),
  (',', op .T_COMMA []), ('{', op .T_LBRACE []), ('}', op .T_RBRACE [])]

/-- src/preprocessor/tokenizer.c:351-361: `<` where no header name is expected. -/
def less : St → Run (TType × St) := op .T_L [('<', op .T_LSHIFT [('=', op .T_LSHIFTA [])]), ('=', op .T_LEQ [])]

/-- A string or character constant of the given type, at its opening quote; `TYPE(t); parse_string_like(e)`. -/
def quoted (f : Nat) (t : TType) (e : Char) (s : St) : Run (TType × St) := do
  let s ← nextChar s
  let s ← parseStringLike e.toNat f s
  .ok (t, s)

/-- An identifier of which the first characters were read; src/preprocessor/tokenizer.c:255-257. -/
def identifier (f : Nat) (s : St) : Run (TType × St) := do
  let s ← parseIdentifier f s
  .ok (.T_IDENT, s)

/-- src/preprocessor/tokenizer.c:235-315: the cases of the switch that begin with a letter, a quote or a digit. -/
def scanWord (f : Nat) (s : St) : Run (TType × St) :=
  if s.c = 'u'.toNat then do
    let s ← nextChar s
    if s.c = '8'.toNat then do
      let s ← nextChar s
      if s.c = '"'.toNat then quoted f .T_STRING '"' s
      else identifier f s
    else if s.c = '"'.toNat then quoted f .T_STRING '"' s
    else if s.c = '\''.toNat then quoted f .T_CHARACTER_CONSTANT '\'' s
    else identifier f s
  else if s.c = 'L'.toNat ∨ s.c = 'U'.toNat then do
    let s ← nextChar s
    if s.c = '"'.toNat then quoted f .T_STRING '"' s
    else if s.c = '\''.toNat then quoted f .T_CHARACTER_CONSTANT '\'' s
    else identifier f s
  else if s.c = '"'.toNat then quoted f .T_STRING '"' s
  else if s.c = '\''.toNat then quoted f .T_CHARACTER_CONSTANT '\'' s
  else if s.c = EQ_EXPONENT ∨ s.c = EQ_UTF8 ∨ s.c = EQ_ALPHA then do
    let s ← nextChar s
    identifier f s
  else do
    -- case '8', EQ_DECIMAL
    let s ← nextChar s
    let s ← parseNumber f s
    .ok (.T_NUM, s)

/-- The classes that `scanWord` handles. -/
def wordClass (c : Nat) : Prop :=
  c = 'u'.toNat ∨ c = 'L'.toNat ∨ c = 'U'.toNat ∨ c = '"'.toNat ∨ c = '\''.toNat ∨ c = EQ_EXPONENT ∨ c = EQ_UTF8 ∨ c = EQ_ALPHA ∨
  c = '8'.toNat ∨ c = EQ_DECIMAL

instance (c : Nat) : Decidable (wordClass c) := by unfold wordClass; infer_instance

/-- src/preprocessor/tokenizer.c:317-334: the case `.`. -/
def dot (f : Nat) (s : St) : Run (TType × St) := do
  let s ← nextChar s
  if s.c = EQ_DECIMAL ∨ s.c = '8'.toNat then do
    let s ← nextChar s
    let s ← parseNumber f s
    .ok (.T_NUM, s)
  else if s.c = '.'.toNat then do
    let s ← nextChar s
    if s.c ≠ '.'.toNat then .fail
    else do
      let s ← nextChar s
      .ok (.T_ELLIPSIS, s)
  else .ok (.T_DOT, s)

/-- The variables `*is_header` and `*is_directive` of src/preprocessor/tokenizer.c:184. -/
structure Flags where
  header : Bool := false
  directive : Bool := false
  deriving DecidableEq, Repr, Inhabited

/-- src/preprocessor/tokenizer.c:336-347: the case `#`. -/
def hash (s : St) (fl : Flags) (first : Bool) : Run (TType × St × Flags) := do
  let s ← nextChar s
  if s.c = '#'.toNat then do
    let s ← nextChar s
    .ok (.PP_HHASH, s, fl)
  else if first then .ok (.PP_DIRECTIVE, s, { fl with directive := true })
  else .ok (.PP_HASH, s, fl)

/-- src/preprocessor/tokenizer.c:235-460: the cases that yield a token, without `/`, and the end of the input. -/
def scan (f : Nat) (s : St) (fl : Flags) (first : Bool) : Run (TType × St × Flags) :=
  if wordClass s.c then do
    let (t, s) ← scanWord f s
    .ok (t, s, fl)
  else if s.c = '.'.toNat then do
    let (t, s) ← dot f s
    .ok (t, s, fl)
  else if s.c = '#'.toNat then hash s fl first
  else if s.c = '<'.toNat then
    if fl.header then do
      let (t, s) ← quoted f .PP_HEADER_NAME_H '>' s
      .ok (t, s, fl)
    else do
      let (t, s) ← less s
      .ok (t, s, fl)
  else match opTable.find? fun a => a.1.toNat == s.c with
    | some a => do
      let (t, s) ← a.2 s
      .ok (t, s, fl)
    | none =>
      if s.c = EQ_NULL then .ok (.T_EOI, s, fl)
      else .fail

/-- src/preprocessor/tokenizer.c:466-478: the text of a token that began at `start`. -/
def tokenText (start : St) (s : St) : Run (List Byte) := do
  let raw := (start.prev :: start.rest).take (start.rest.length - s.rest.length)
  let t ← if s.esc then Run.ofRes (removeEscapeSequences raw) else .ok raw
  .ok (if s.sep then removeDigitSeparator raw else t)

/-- src/preprocessor/tokenizer.c:466-485: the token that began at `start`. -/
def finish (start : St) (t : TType) (s : St) (fl : Flags) (white first : Bool) : Run (Tok × St × Flags) := do
  let text ← tokenText start s
  let tok : Tok := { type := t, str := text, firstOfLine := first || decide (t = .T_EOI), whitespace := white, line := start.line }
  if t = .T_IDENT ∧ fl.directive = true then
    .ok (tok, s, { header := decide (text = str "include"), directive := false })
  else .ok (tok, s, fl)

/-- src/preprocessor/tokenizer.c:191-485 `tokenizer_next` from the label `restart`; `white` and `first` are `next.whitespace` and
`next.first_of_line`. -/
def restart : Nat → St → Flags → Bool → Bool → Run (Tok × St × Flags)
  | 0, _, _, _, _ => .more
  | f + 1, s, fl, white, first =>
    let start : St := { s with esc := false, sep := false }
    if s.c = EQ_SPACE then do
      let s ← nextChar start
      restart f s fl true first
    else if s.c = '\n'.toNat then do
      let s ← nextChar start
      restart f s { header := false, directive := false } true true
    else if s.c = '/'.toNat then do
      let s ← nextChar start
      if s.c = '/'.toNat then do
        let s ← lineComment f s
        restart f s fl true first
      else if s.c = '*'.toNat then do
        let s ← blockComment f s
        restart f s fl true first
      else if s.c = '='.toNat then do
        let s ← nextChar s
        finish start .T_DIVA s fl white first
      else finish start .T_DIV s fl white first
    else do
      let (t, s, fl) ← scan f start fl first
      finish start t s fl white first

/-- src/preprocessor/tokenizer.c:184-485 `tokenizer_next`. -/
def tokenizerNext (f : Nat) (s : St) (fl : Flags) : Run (Tok × St × Flags) := restart f s fl false false

/-- src/preprocessor/tokenizer.c:505-513: the loop of `tokenize_input` with the token `t` at hand. -/
def tokenLoop : Nat → Tok → St → Flags → Run (List Tok)
  | 0, _, _, _ => .more
  | f + 1, t, s, fl =>
    if t.type ≠ .T_EOI then do
      let (n, s, fl) ← tokenizerNext f s fl
      let l ← tokenLoop f n s fl
      .ok ({ t with whitespaceAfter := n.whitespace, firstOfLineAfter := n.firstOfLine } :: l)
    else .ok []

/-- src/preprocessor/tokenizer.c:500-502: a byte order mark is skipped. -/
def skipBom (l : List Byte) : List Byte := if l.take 3 = [0xef, 0xbb, 0xbf] then l.drop 3 else l

/-- src/preprocessor/tokenizer.c:487-516 `tokenize_input` on the contents of a file, with the terminating NUL. -/
def tokenizeInput (f : Nat) (contents : List Byte) : Run (List Tok) := do
  let s : St := { c := '\n'.toNat, prev := ch '\n', rest := skipBom contents, line := 1, esc := false, sep := false }
  let (t, s, fl) ← tokenizerNext f s {}
  tokenLoop f t s fl

end Verif.Tokenizer
