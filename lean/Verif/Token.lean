import Verif.Basic
/-!
Tokens of the preprocessor and parser (src/preprocessor/tokens.h,
src/preprocessor/preprocessor.h:13-37).

A `struct string_view` / NUL-terminated string is the list of its bytes.
-/
namespace Verif
open Verif

/-- A string as its bytes (src/string_view.h; C strings without the NUL). -/
abbrev Str := List Byte

/-- The bytes of an ASCII literal. -/
def str (s : String) : Str := s.toList.map ch

/-- src/preprocessor/tokens.h:3-140 through the X-macro of
src/preprocessor/preprocessor.h:15-24: every `X`, `KEY` and `SYM` entry, in order. -/
inductive TType where
  | T_NONE | PP_HEADER_NAME_H | PP_HEADER_NAME_Q | PP_HASH
  | PP_HHASH | PP_DIRECTIVE | COND_IF | COND_IF_TRUE
  | COND_IF_FALSE | COND_ENDIF | T_IDENT | T_STRING
  | T_STRING_CHAR32 | T_STRING_CHAR16 | T_STRING_WCHAR | T_CHARACTER_CONSTANT
  | T_CHARACTER_CONSTANT_CHAR32 | T_CHARACTER_CONSTANT_CHAR16 | T_CHARACTER_CONSTANT_WCHAR | T_NUM
  | T_KAUTO | T_KCONST | T_KDOUBLE | T_KFLOAT
  | T_KINT | T_KSHORT | T_KBOOL | T_KCOMPLEX
  | T_KSTRUCT | T_KUNSIGNED | T_KBREAK | T_KCONTINUE
  | T_KELSE | T_KFOR | T_KLONG | T_KSIGNED
  | T_KSWITCH | T_KVOID | T_KCASE | T_KDEFAULT
  | T_KENUM | T_KGOTO | T_KREGISTER | T_KSIZEOF
  | T_KTYPEDEF | T_KVOLATILE | T_KCHAR | T_KDO
  | T_KEXTERN | T_KIF | T_KRETURN | T_KSTATIC
  | T_KTHREAD_LOCAL | T_KATOMIC | T_KRESTRICT | T_KUNION
  | T_KWHILE | T_KNORETURN | T_KINLINE | T_KALIGNAS
  | T_KALIGNOF | T_KSTATIC_ASSERT | T_KGENERIC | T_KVA_START
  | T_KVA_END | T_KVA_ARG | T_KVA_COPY | T_KOFFSETOF
  | T_KFUNC | T_KATTRIBUTE | T_LSHIFTA | T_RSHIFTA
  | T_ELLIPSIS | T_GEQ | T_LEQ | T_EQ
  | T_NEQ | T_BANDA | T_XORA | T_BORA
  | T_ADDA | T_SUBA | T_MULA | T_DIVA
  | T_MODA | T_LSHIFT | T_RSHIFT | T_AND
  | T_OR | T_INC | T_DEC | T_ARROW
  | T_ADD | T_SUB | T_DIV | T_MOD
  | T_G | T_L | T_NOT | T_BOR
  | T_XOR | T_BNOT | T_A | T_STAR
  | T_DOT | T_AMP | T_QUEST | T_COLON
  | T_SEMI_COLON | T_LPAR | T_RPAR | T_LBRACK
  | T_RBRACK | T_COMMA | T_LBRACE | T_RBRACE
  | T_EOI
  deriving DecidableEq, Repr, Inhabited

/-- src/preprocessor/tokens.h:86-135, the `SYM` entries: punctuator and spelling,
in the order of the file. -/
def symTable : List (TType × Str) := [
  (.T_LSHIFTA, str "<<="), (.T_RSHIFTA, str ">>="), (.T_ELLIPSIS, str "..."), (.T_GEQ, str ">="),
  (.T_LEQ, str "<="), (.T_EQ, str "=="), (.T_NEQ, str "!="), (.T_BANDA, str "&="),
  (.T_XORA, str "^="), (.T_BORA, str "|="), (.T_ADDA, str "+="), (.T_SUBA, str "-="),
  (.T_MULA, str "*="), (.T_DIVA, str "/="), (.T_MODA, str "%="), (.T_LSHIFT, str "<<"),
  (.T_RSHIFT, str ">>"), (.T_AND, str "&&"), (.T_OR, str "||"), (.T_INC, str "++"),
  (.T_DEC, str "--"), (.T_ARROW, str "->"), (.T_ADD, str "+"), (.T_SUB, str "-"),
  (.T_DIV, str "/"), (.T_MOD, str "%"), (.T_G, str ">"), (.T_L, str "<"),
  (.T_NOT, str "!"), (.T_BOR, str "|"), (.T_XOR, str "^"), (.T_BNOT, str "~"),
  (.T_A, str "="), (.T_STAR, str "*"), (.T_DOT, str "."), (.T_AMP, str "&"),
  (.T_QUEST, str "?"), (.T_COLON, str ":"), (.T_SEMI_COLON, str ";"), (.T_LPAR, str "("),
  (.T_RPAR, str ")"), (.T_LBRACK, str "["), (.T_RBRACK, str "]"), (.T_COMMA, str ","),
  (.T_LBRACE, str "{"), (.T_RBRACE, str "}")]

/-- src/preprocessor/tokens.h:31-82, the `KEY` entries. -/
def keyTable : List (TType × Str) := [
  (.T_KAUTO, str "auto"), (.T_KCONST, str "const"), (.T_KDOUBLE, str "double"), (.T_KFLOAT, str "float"),
  (.T_KINT, str "int"), (.T_KSHORT, str "short"), (.T_KBOOL, str "_Bool"), (.T_KCOMPLEX, str "_Complex"),
  (.T_KSTRUCT, str "struct"), (.T_KUNSIGNED, str "unsigned"), (.T_KBREAK, str "break"), (.T_KCONTINUE, str "continue"),
  (.T_KELSE, str "else"), (.T_KFOR, str "for"), (.T_KLONG, str "long"), (.T_KSIGNED, str "signed"),
  (.T_KSWITCH, str "switch"), (.T_KVOID, str "void"), (.T_KCASE, str "case"), (.T_KDEFAULT, str "default"),
  (.T_KENUM, str "enum"), (.T_KGOTO, str "goto"), (.T_KREGISTER, str "register"), (.T_KSIZEOF, str "sizeof"),
  (.T_KTYPEDEF, str "typedef"), (.T_KVOLATILE, str "volatile"), (.T_KCHAR, str "char"), (.T_KDO, str "do"),
  (.T_KEXTERN, str "extern"), (.T_KIF, str "if"), (.T_KRETURN, str "return"), (.T_KSTATIC, str "static"),
  (.T_KTHREAD_LOCAL, str "_Thread_local"), (.T_KATOMIC, str "_Atomic"), (.T_KRESTRICT, str "restrict"), (.T_KUNION, str "union"),
  (.T_KWHILE, str "while"), (.T_KNORETURN, str "_Noreturn"), (.T_KINLINE, str "inline"), (.T_KALIGNAS, str "_Alignas"),
  (.T_KALIGNOF, str "_Alignof"), (.T_KSTATIC_ASSERT, str "_Static_assert"), (.T_KGENERIC, str "_Generic"), (.T_KVA_START, str "__builtin_va_start"),
  (.T_KVA_END, str "__builtin_va_end"), (.T_KVA_ARG, str "__builtin_va_arg"), (.T_KVA_COPY, str "__builtin_va_copy"), (.T_KOFFSETOF, str "__builtin_offsetof"),
  (.T_KFUNC, str "__func__"), (.T_KATTRIBUTE, str "__attribute__")]

/-- src/preprocessor/preprocessor.h:26-37 `struct token`.  `pos` keeps the line and
the path; the hide set is the array of src/preprocessor/string_set.h. -/
structure Tok where
  type : TType := .T_NONE
  str : Str := []
  firstOfLine : Bool := false
  firstOfLineAfter : Bool := false
  whitespace : Bool := false
  whitespaceAfter : Bool := false
  line : Int := 0
  path : Str := []
  hs : List Str := []
  deriving DecidableEq, Repr, Inhabited

end Verif
