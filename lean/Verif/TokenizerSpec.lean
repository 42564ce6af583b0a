import Verif.Token
/-!
Lexical structure of C (C17 5.1.1.2 phases 2 and 3, 6.4, 6.4.1, 6.4.2, 6.4.4.4, 6.4.5, 6.4.6, 6.4.7, 6.4.8, 6.4.9), written without reference
to the tokenizer. A character of the source is a byte together with the number of the line it stands on.
-/
namespace Verif.TokenizerSpec
open Verif

/-- A byte of the source and its line. -/
abbrev Char' := Byte × Nat

/-- Phase 2: each backslash immediately followed by an end of line (a line feed, or a carriage return and a line feed) is deleted. The
characters carry the line they stand on, when the first one stands on line `n`. -/
def spliced (n : Nat) : List Byte → List Char'
  | [] => []
  | [b] => [(b, n)]
  | b :: c :: r =>
    if b = ch '\\' ∧ c = ch '\n' then spliced (n + 1) r
    else match r with
      | [] => (b, n) :: spliced (if b = ch '\n' then n + 1 else n) [c]
      | d :: r' =>
        if b = ch '\\' ∧ c = ch '\r' ∧ d = ch '\n' then spliced (n + 1) r'
        else (b, n) :: spliced (if b = ch '\n' then n + 1 else n) (c :: d :: r')

/-- 6.4.2.1 digit. -/
def isDigit (b : Byte) : Bool := ch '0' ≤ b && b ≤ ch '9'

/-- 6.4.2.1 identifier-nondigit without universal character names: letters, the underscore and, as "other implementation-defined
characters", the dollar sign and the bytes of UTF-8 sequences. -/
def isNondigit (b : Byte) : Bool :=
  (ch 'a' ≤ b && b ≤ ch 'z') || (ch 'A' ≤ b && b ≤ ch 'Z') || b == ch '_' || b == ch '$' || (128 : Byte) ≤ b

/-- Hexadecimal digit. -/
def isHex (b : Byte) : Bool := isDigit b || (ch 'a' ≤ b && b ≤ ch 'f') || (ch 'A' ≤ b && b ≤ ch 'F')

/-- Where a word stands: outside of a universal character name, behind a letter that may introduce an exponent, behind the backslash of a
universal character name, or before the last `n + 1` of its digits. -/
inductive Within where
  | plain
  | exponent
  | slash
  | hex (n : Nat)
  deriving DecidableEq, Repr

/-- 6.4.3: the characters of a universal character name after its backslash. -/
def Within.name (p : Within) (b : Byte) : Option Within :=
  match p with
  | .slash => if b = ch 'u' then some (.hex 3) else if b = ch 'U' then some (.hex 7) else none
  | .hex 0 => if isHex b then some .plain else none
  | .hex (n + 1) => if isHex b then some (.hex n) else none
  | _ => none

/-- Digits, identifier-nondigits and universal character names. -/
def identTail : Within → List Byte → Bool
  | p, [] => p == .plain
  | .plain, b :: r => if b = ch '\\' then identTail .slash r else (isNondigit b || isDigit b) && identTail .plain r
  | p, b :: r => match p.name b with
    | some p => identTail p r
    | none => false

/-- 6.4.2.1 identifier. -/
def isIdent : List Byte → Bool
  | [] => false
  | b :: r => !isDigit b && identTail .plain (b :: r)

/-- A letter after which a sign belongs to the number. -/
def isExponent (b : Byte) : Bool := b == ch 'e' || b == ch 'E' || b == ch 'p' || b == ch 'P'

/-- The characters of a preprocessing number after the first digit. -/
def numberTail : Within → List Byte → Bool
  | p, [] => p == .plain || p == .exponent
  | .plain, b :: r =>
    if b = ch '\\' then numberTail .slash r
    else (isNondigit b || isDigit b || b == ch '.') && numberTail (if isExponent b then .exponent else .plain) r
  | .exponent, b :: r =>
    if b = ch '+' ∨ b = ch '-' then numberTail .plain r
    else if b = ch '\\' then numberTail .slash r
    else (isNondigit b || isDigit b || b == ch '.') && numberTail (if isExponent b then .exponent else .plain) r
  | p, b :: r => match p.name b with
    | some p => numberTail p r
    | none => false

/-- 6.4.8 preprocessing number. -/
def isNumber : List Byte → Bool
  | [] => false
  | b :: r => (isDigit b && numberTail .plain r) || (b == ch '.' && match r with
    | d :: r => isDigit d && numberTail .plain r
    | [] => false)

/-- The characters of a string literal or character constant after the opening quote `q`, with the closing quote. A backslash takes
the next character along, whatever it is. -/
def quotedTail (q : Byte) : List Byte → Bool
  | [] => false
  | [b] => b == q
  | b :: c :: r =>
    if b == ch '\\' then c != ch '\n' && quotedTail q r
    else b != q && b != ch '\n' && quotedTail q (c :: r)

/-- 6.4.5 string literal. -/
def isString : List Byte → Bool
  | b :: r => (b == ch '"' && quotedTail (ch '"') r) || match r with
    | c :: r => ((b == ch 'u' || b == ch 'U' || b == ch 'L') && c == ch '"' && quotedTail (ch '"') r) || match r with
      | d :: r => b == ch 'u' && c == ch '8' && d == ch '"' && quotedTail (ch '"') r
      | [] => false
    | [] => false
  | [] => false

/-- 6.4.4.4 character constant. -/
def isCharConst : List Byte → Bool
  | b :: r => (b == ch '\'' && r != [ch '\''] && quotedTail (ch '\'') r) || match r with
    | c :: r => (b == ch 'u' || b == ch 'U' || b == ch 'L') && c == ch '\'' && r != [ch '\''] && quotedTail (ch '\'') r
    | [] => false
  | [] => false

/-- 6.4.6 the punctuators and the tokens they stand for. `#` is listed as `PP_HASH`. -/
def punctuators : List (Str × TType) := [
  (str "[", .T_LBRACK), (str "]", .T_RBRACK), (str "(", .T_LPAR), (str ")", .T_RPAR), (str "{", .T_LBRACE), (str "}", .T_RBRACE),
  (str ".", .T_DOT), (str "->", .T_ARROW), (str "++", .T_INC), (str "--", .T_DEC), (str "&", .T_AMP), (str "*", .T_STAR),
  (str "+", .T_ADD), (str "-", .T_SUB), (str "~", .T_BNOT), (str "!", .T_NOT), (str "/", .T_DIV), (str "%", .T_MOD),
  (str "<<", .T_LSHIFT), (str ">>", .T_RSHIFT), (str "<", .T_L), (str ">", .T_G), (str "<=", .T_LEQ), (str ">=", .T_GEQ),
  (str "==", .T_EQ), (str "!=", .T_NEQ), (str "^", .T_XOR), (str "|", .T_BOR), (str "&&", .T_AND), (str "||", .T_OR),
  (str "?", .T_QUEST), (str ":", .T_COLON), (str ";", .T_SEMI_COLON), (str "...", .T_ELLIPSIS), (str "=", .T_A), (str "*=", .T_MULA),
  (str "/=", .T_DIVA), (str "%=", .T_MODA), (str "+=", .T_ADDA), (str "-=", .T_SUBA), (str "<<=", .T_LSHIFTA), (str ">>=", .T_RSHIFTA),
  (str "&=", .T_BANDA), (str "^=", .T_XORA), (str "|=", .T_BORA), (str ",", .T_COMMA), (str "#", .PP_HASH), (str "##", .PP_HHASH),
  (str "<:", .T_LBRACK), (str ":>", .T_RBRACK), (str "<%", .T_LBRACE), (str "%>", .T_RBRACE), (str "%:", .PP_HASH),
  (str "%:%:", .PP_HHASH)]

/-- 6.4 the kind of token that a word is, if it is one. -/
def kind (w : List Byte) : Option TType :=
  if isIdent w then some .T_IDENT
  else if isNumber w then some .T_NUM
  else if isString w then some .T_STRING
  else if isCharConst w then some .T_CHARACTER_CONSTANT
  else punctuators.lookup w

/-- 6.4p4: of the text `w ++ r` the word `w` is the longest start that is a token, of kind `k`. -/
def Longest (w r : List Byte) (k : TType) : Prop :=
  kind w = some k ∧ ∀ n, w.length < n → n ≤ (w ++ r).length → kind ((w ++ r).take n) = none

/-- 6.4.9: a comment begins here. -/
def commentStart (t : List Byte) : Prop := t.take 2 = str "//" ∨ t.take 2 = str "/*"

/-- What 6.10 makes of the position: `first` – no token yet on this line; `white` – white space since the last token;
`hash` – the last token was the `#` that begins a directive; `incl` – inside an `#include` directive, where header names are
recognised. -/
structure Ctx where
  first : Bool
  white : Bool
  hash : Bool
  incl : Bool
  deriving DecidableEq, Repr

/-- At the beginning of a line. -/
def lineStart : Ctx := { first := true, white := true, hash := false, incl := false }

/-- After a token of kind `k` with text `w`. -/
def Ctx.after (c : Ctx) (k : TType) (w : List Byte) : Ctx :=
  { first := false, white := false, hash := decide (k = .PP_DIRECTIVE),
    incl := if c.hash then decide (w = str "include") else c.incl }

/-- 6.10p2: a `#` that is the first token of its line begins a directive. -/
def inContext (c : Ctx) (k : TType) : TType := if k = .PP_HASH ∧ c.first then .PP_DIRECTIVE else k

/-- A token as the specification sees it. -/
structure Item where
  kind : TType
  text : List Byte
  first : Bool
  white : Bool
  line : Nat
  deriving DecidableEq, Repr

/-- The bytes of a text. -/
def bytes (t : List Char') : List Byte := t.map Prod.fst

/-- 6.4p3 white space within a line (the carriage return as the host's). -/
def blanks : List Byte := [ch ' ', ch '\t', 11, 12, ch '\r']

/-- Phase 3: the text is decomposed into the tokens, in context `c`. The pieces of the text are restricted by `P`, which is given
the context, the piece and the text after it; `Everything` restricts nothing. -/
inductive Lexes (P : Ctx → List Byte → List Byte → Prop) : Ctx → List Char' → List Item → Prop
  | done (c : Ctx) : Lexes P c [] []
  | newline {c : Ctx} {n : Nat} {r : List Char'} {l : List Item} :
    Lexes P lineStart r l → Lexes P c ((ch '\n', n) :: r) l
  | blank {c : Ctx} {b : Byte} {n : Nat} {r : List Char'} {l : List Item} :
    b ∈ blanks → P c [b] (bytes r) →
    Lexes P { c with white := true } r l → Lexes P c ((b, n) :: r) l
  /-- `//` up to the end of the line, 6.4.9p2 -/
  | lineComment {c : Ctx} {w r : List Char'} {l : List Item} :
    (bytes w).take 2 = str "//" → ch '\n' ∉ bytes w → ((bytes r).head? = none ∨ (bytes r).head? = some (ch '\n')) →
    Lexes P { c with white := true } r l → Lexes P c (w ++ r) l
  /-- `/*` up to the first `*/`, 6.4.9p1 -/
  | blockComment {c : Ctx} {w r : List Char'} {body : List Byte} {l : List Item} :
    bytes w = str "/*" ++ body ++ str "*/" → (∀ a b, body ++ [ch '*'] ≠ a ++ str "*/" ++ b) →
    P c (bytes w) (bytes r) →
    Lexes P { c with white := true } r l → Lexes P c (w ++ r) l
  /-- 6.4.7 a header name -/
  | header {c : Ctx} {n : Nat} {w r : List Char'} {body : List Byte} {l : List Item} :
    c.incl = true → bytes ((ch '<', n) :: w) = ch '<' :: body ++ [ch '>'] →
    (∀ b ∈ body, b ≠ ch '\n' ∧ b ≠ ch '>' ∧ b ≠ ch '\\' ∧ b ≠ ch '"' ∧ b ≠ ch '\'') →
    Lexes P (c.after .PP_HEADER_NAME_H (bytes ((ch '<', n) :: w))) r l →
    Lexes P c ((ch '<', n) :: w ++ r) (⟨.PP_HEADER_NAME_H, bytes ((ch '<', n) :: w), c.first, c.white, n⟩ :: l)
  /-- any other token, 6.4p4 -/
  | token {c : Ctx} {b : Byte} {n : Nat} {w r : List Char'} {k : TType} {l : List Item} :
    ¬ commentStart (bytes ((b, n) :: w ++ r)) → ¬ (c.incl = true ∧ b = ch '<') → Longest (bytes ((b, n) :: w)) (bytes r) k →
    P c (bytes ((b, n) :: w)) (bytes r) →
    Lexes P (c.after (inContext c k) (bytes ((b, n) :: w))) r l →
    Lexes P c ((b, n) :: w ++ r) (⟨inContext c k, bytes ((b, n) :: w), c.first, c.white, n⟩ :: l)

/-- A UTF-8 byte order mark at the beginning is not part of the text. -/
def withoutMark (l : List Byte) : List Byte := if l.take 3 = [0xef, 0xbb, 0xbf] then l.drop 3 else l

/-- No restriction. -/
def Everything : Ctx → List Byte → List Byte → Prop := fun _ _ _ => True

/-- The asterisks at the end. -/
def trailingStars (body : List Byte) : Nat := (body.reverse.takeWhile (· == ch '*')).length

/-- The word has no backslash before `u` or `U`. -/
def NoNames (w : List Byte) : Prop := ∀ a b c, w = a ++ ch '\\' :: c :: b → c ≠ ch 'u' ∧ c ≠ ch 'U'

/-- The digraphs, 6.4.6p3. -/
def digraphs : List Str := [str "<:", str ":>", str "<%", str "%>", str "%:", str "%:%:"]

/-- The pieces of a text that the compiler splits as C does. -/
structure Supported (c : Ctx) (w r : List Byte) : Prop where
  /-- no vertical tab, no form feed -/
  blank : w ≠ [11] ∧ w ≠ [12]
  /-- block comments end in an odd number of asterisks and a slash -/
  comment : ∀ body, w = str "/*" ++ body ++ str "*/" → trailingStars body % 2 = 0
  /-- no digraphs -/
  digraph : w ∉ digraphs
  /-- not two periods in a row, unless three -/
  dots : w = str "." → r.head? ≠ some (ch '.')
  /-- no universal character names in tokens -/
  names : kind w ≠ none → NoNames w
  /-- numbers are ASCII, and no quote follows them -/
  number : isNumber w = true → r.head? ≠ some (ch '\'') ∧ ∀ b ∈ w, b < 128
  /-- no backslash follows an identifier -/
  ident : isIdent w = true → r.head? ≠ some (ch '\\')
  /-- a `#` that begins a line is followed by an identifier, if anything follows it on the line -/
  directive : c.hash = true → kind w ≠ none → isIdent w = true

end Verif.TokenizerSpec
