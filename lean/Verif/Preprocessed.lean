import Verif.Token
import Verif.Escape
import Verif.Macro
/-!
Model of what `-E` prints: the tokens of `string_concat_next` (src/preprocessor/string_concat.c:134-233;
the decoding of literals is in Escape.lean), and the loop of `preprocess_file` (src/main.c:262-274) with
`dbg_token` and `dbg_token_type` (src/debug.c:34-43, 267-304).

A call sequence of `string_concat_next` is one function on the list of the tokens of the macro expander, without
the end of input. The buffer of `dbg_token` is static: its size is passed along.
-/
namespace Verif.Preprocessed
open Verif Escape

/-- src/preprocessor/string_concat.c:11-20 `get_ident`. -/
def getIdent (s : Str) : TType :=
  match keyTable.find? fun e => e.2 == s with
  | some e => e.1
  | none => .T_IDENT

/-- src/preprocessor/string_concat.c:175-200: the type of a string token. -/
def stringType : StrType → TType
  | .default | .u8 => .T_STRING
  | .uLarge => .T_STRING_CHAR32
  | .uSmall => .T_STRING_CHAR16
  | .l => .T_STRING_WCHAR

/-- src/preprocessor/string_concat.c:216-230: the type of a character constant; `u8` was rejected before. -/
def charType : StrType → Res TType
  | .default => .ok .T_CHARACTER_CONSTANT
  | .uLarge => .ok .T_CHARACTER_CONSTANT_CHAR32
  | .uSmall => .ok .T_CHARACTER_CONSTANT_CHAR16
  | .l => .ok .T_CHARACTER_CONSTANT_WCHAR
  | .u8 => .fail

/-- src/preprocessor/string_concat.c:206-232: a token that is not a string. -/
def single (t : Tok) : Res Tok :=
  if t.type = .T_IDENT then .ok { t with type := getIdent t.str }
  else if t.type = .T_CHARACTER_CONSTANT then do
    let v := takePrefix t.str
    let ty ← charType v.1
    let b ← escapeString (v.2 ++ [0]) v.2.length v.1 []
    pure { t with type := ty, str := b }
  else .ok t

/-- Is it a string? -/
def isString (t : Tok) : Bool := t.type == .T_STRING

/-- src/preprocessor/string_concat.c:134-233: the tokens that the calls of `string_concat_next` return. The token
behind a run of strings is kept in `prev` and returned as it is (137-141, 154). The fuel is the number of tokens. -/
def concat : Nat → List Tok → Res (List Tok)
  | 0, _ => .ok []
  | _ + 1, [] => .ok []
  | f + 1, t :: ts =>
    if isString t then do
      let (ty, b) ← concatStrings (t.str :: (ts.takeWhile isString).map (·.str))
      let r := { t with type := stringType ty, str := b }
      match ts.dropWhile isString with
      | [] => pure [r]
      | p :: rest => do
        let l ← concat f rest
        pure (r :: p :: l)
    else do
      let t ← single t
      let l ← concat f ts
      pure (t :: l)

/-- src/preprocessor/tokens.h: the second column of the `X` entries. -/
def otherNames : List (TType × Str) := [
  (.T_NONE, str "Invalid token"), (.PP_HEADER_NAME_H, str "Header name"), (.PP_HEADER_NAME_Q, str "Header name"),
  (.PP_HASH, str "#"), (.PP_HHASH, str "##"), (.PP_DIRECTIVE, str "#"), (.COND_IF, str "Conditional"),
  (.COND_IF_TRUE, str "Conditional"), (.COND_IF_FALSE, str "Conditional"), (.COND_ENDIF, str "Conditional"),
  (.T_IDENT, str "Identifier"), (.T_STRING, str "String"), (.T_STRING_CHAR32, str "char32_t String"),
  (.T_STRING_CHAR16, str "char16_t String"), (.T_STRING_WCHAR, str "wchar_t String"),
  (.T_CHARACTER_CONSTANT, str "Character constant"), (.T_CHARACTER_CONSTANT_CHAR32, str "char32_t character constant"),
  (.T_CHARACTER_CONSTANT_CHAR16, str "char16_t character constant"),
  (.T_CHARACTER_CONSTANT_WCHAR, str "wchar_t character constant"), (.T_NUM, str "Numerical"), (.T_EOI, str "END OF INPUT")]

/-- src/debug.c:290-304 `dbg_token_type`. -/
def typeName (t : TType) : Str :=
  match (keyTable ++ symTable ++ otherNames).find? fun e => e.1 == t with
  | some e => e.2
  | none => []

/-- `%.*s`: at most the given bytes, and none from a NUL on. -/
def formatted (s : Str) : Str := s.takeWhile (· ≠ 0)

/-- src/debug.c:277-285: what is formatted. -/
def wanted (t : Tok) : Str :=
  if t.type = .T_IDENT then formatted t.str
  else if t.type = .T_NUM then formatted t.str
  else if t.type = .T_STRING then ch '"' :: formatted t.str ++ [ch '"']
  else typeName t.type

/-- `snprintf` with a limit of `n` bytes: one of them is for the NUL. -/
def snprintf (n : Nat) (s : Str) : Str := s.take (n - 1)

/-- src/debug.c:34-43, 267-288 `dbg_token` with a buffer of `size` bytes: the text and the new size. -/
def dbgToken (size : Nat) (t : Tok) : Str × Nat :=
  let w := wanted t
  if w.length + 1 > size then (snprintf (w.length + 1 - 1) w, w.length + 1)
  else (snprintf (size - 1) w, size)

/-- src/main.c:262-274: the loop over the tokens. -/
def printAll : Nat → List Tok → Str
  | _, [] => []
  | size, t :: ts =>
    (if t.firstOfLine then [ch '\n'] else if t.whitespace then [ch ' '] else []) ++ (dbgToken size t).1 ++
    (if t.whitespaceAfter then [ch ' '] else []) ++ printAll (dbgToken size t).2 ts

/-- src/debug.c:268 -/
def initialSize : Nat := 100

/-- The tokens that the calls of `expander_next` (src/preprocessor/macro_expander.c:526-531) return up to the end of the input. -/
def expanded (env : Str → Option DefineMap.Define) (n : Nat) : Nat → Macro.St → Run (List Tok)
  | 0, _ => .more
  | f + 1, s => do
    let (t, s) ← Macro.next env n s
    if t.type = .T_EOI then pure []
    else do
      let l ← expanded env n f s
      pure (t :: l)

/-- The tokens that `string_concat_next` (src/preprocessor/string_concat.c) hands to the parser, for the tokens that come from the directives. -/
def translated (env : Str → Option DefineMap.Define) (n : Nat) (ts : List Tok) : Run (List Tok) := do
  let es ← expanded env n n { src := ts }
  Run.ofRes (concat es.length es)

/-- What `-E` prints (src/main.c:227-276): the text of these tokens. -/
def preprocess (env : Str → Option DefineMap.Define) (n : Nat) (ts : List Tok) : Run Str := do
  let us ← translated env n ts
  pure (printAll initialSize us)

end Verif.Preprocessed
