import Verif.TokenizerSpec
import Verif.EscapeSpec
/-!
What the text printed by `-E` must be: C17 5.1.1.2, the text is split (phases 2 and 3) into spellings of the tokens that
the translation phases after preprocessing are given.
-/
namespace Verif.PreprocessedSpec
open Verif TokenizerSpec

/-- 6.4.1 keywords, and the words that the compiler treats as such. -/
def keywords : List (String × TType) := [
  ("auto", .T_KAUTO), ("break", .T_KBREAK), ("case", .T_KCASE), ("char", .T_KCHAR), ("const", .T_KCONST),
  ("continue", .T_KCONTINUE), ("default", .T_KDEFAULT), ("do", .T_KDO), ("double", .T_KDOUBLE), ("else", .T_KELSE),
  ("enum", .T_KENUM), ("extern", .T_KEXTERN), ("float", .T_KFLOAT), ("for", .T_KFOR), ("goto", .T_KGOTO), ("if", .T_KIF),
  ("inline", .T_KINLINE), ("int", .T_KINT), ("long", .T_KLONG), ("register", .T_KREGISTER), ("restrict", .T_KRESTRICT),
  ("return", .T_KRETURN), ("short", .T_KSHORT), ("signed", .T_KSIGNED), ("sizeof", .T_KSIZEOF), ("static", .T_KSTATIC),
  ("struct", .T_KSTRUCT), ("switch", .T_KSWITCH), ("typedef", .T_KTYPEDEF), ("union", .T_KUNION), ("unsigned", .T_KUNSIGNED),
  ("void", .T_KVOID), ("volatile", .T_KVOLATILE), ("while", .T_KWHILE), ("_Alignas", .T_KALIGNAS), ("_Alignof", .T_KALIGNOF),
  ("_Atomic", .T_KATOMIC), ("_Bool", .T_KBOOL), ("_Complex", .T_KCOMPLEX), ("_Generic", .T_KGENERIC),
  ("_Noreturn", .T_KNORETURN), ("_Static_assert", .T_KSTATIC_ASSERT), ("_Thread_local", .T_KTHREAD_LOCAL),
  ("__builtin_va_start", .T_KVA_START), ("__builtin_va_end", .T_KVA_END), ("__builtin_va_arg", .T_KVA_ARG),
  ("__builtin_va_copy", .T_KVA_COPY), ("__builtin_offsetof", .T_KOFFSETOF), ("__func__", .T_KFUNC),
  ("__attribute__", .T_KATTRIBUTE)]

/-- The word is a literal: a prefix, the quote `q`, items, the quote. -/
def Literal (pre : String) (q : Byte) (is : List EscapeSpec.Item) (w : List Byte) : Prop :=
  EscapeSpec.BodyWF q is ∧ w = str pre ++ q :: EscapeSpec.renderAll is ++ [q]

/-- The word is spelled as a string of this encoding with these bytes. -/
def StringOf (pre : String) (e : EscapeSpec.Enc) (bs w : List Byte) : Prop :=
  ∃ is, Literal pre (ch '"') is w ∧ bs = EscapeSpec.denoteAll e is ++ EscapeSpec.nul e

/-- The word is spelled as a character constant of this encoding with these bytes. -/
def CharOf (pre : String) (e : EscapeSpec.Enc) (bs w : List Byte) : Prop :=
  ∃ is, Literal pre (ch '\'') is w ∧ bs = EscapeSpec.denoteAll e is

/-- The item `i` of a text is the token of type `t` (and text `s`, for identifiers, numbers and literals). -/
def Stands (i : Item) (t : TType) (s : Str) : Prop :=
  match t with
  | .T_IDENT => i.kind = .T_IDENT ∧ i.text = s ∧ ∀ k ∈ keywords, str k.1 ≠ s
  | .T_NUM => i.kind = .T_NUM ∧ i.text = s
  | .T_STRING => i.kind = .T_STRING ∧ (StringOf "" .narrow s i.text ∨ StringOf "u8" .narrow s i.text)
  | .T_STRING_CHAR16 => i.kind = .T_STRING ∧ StringOf "u" .utf16 s i.text
  | .T_STRING_CHAR32 => i.kind = .T_STRING ∧ StringOf "U" .utf32 s i.text
  | .T_STRING_WCHAR => i.kind = .T_STRING ∧ StringOf "L" .utf32 s i.text
  | .T_CHARACTER_CONSTANT => i.kind = .T_CHARACTER_CONSTANT ∧ CharOf "" .narrow s i.text
  | .T_CHARACTER_CONSTANT_CHAR16 => i.kind = .T_CHARACTER_CONSTANT ∧ CharOf "u" .utf16 s i.text
  | .T_CHARACTER_CONSTANT_CHAR32 => i.kind = .T_CHARACTER_CONSTANT ∧ CharOf "U" .utf32 s i.text
  | .T_CHARACTER_CONSTANT_WCHAR => i.kind = .T_CHARACTER_CONSTANT ∧ CharOf "L" .utf32 s i.text
  | t => (i.kind = t ∧ (i.text, t) ∈ punctuators ∧ t ≠ .PP_HASH ∧ t ≠ .PP_HHASH) ∨
      (i.kind = .T_IDENT ∧ ∃ k ∈ keywords, k.2 = t ∧ i.text = str k.1)

/-- The tokens, in order. -/
inductive AllStand : List Item → List Tok → Prop
  | nil : AllStand [] []
  | cons {i : Item} {l : List Item} {t : Tok} {ts : List Tok} :
    Stands i t.type t.str → AllStand l ts → AllStand (i :: l) (t :: ts)

/-- The text is split into the tokens. -/
def Reads (text : List Byte) (ts : List Tok) : Prop :=
  ∃ l, Lexes Everything lineStart (spliced 1 text) l ∧ AllStand l ts

/-- A token of C that has a spelling. -/
def IsToken (t : Tok) : Prop := ∃ i : Item, kind i.text = some i.kind ∧ Stands i t.type t.str

/-- The whole property: what is printed for tokens of C is split into these tokens, whatever the white space between them was. -/
def PrintsBack (print : List Tok → List Byte) (P : List Tok → Prop) : Prop :=
  ∀ ts, (∀ t ∈ ts, IsToken t) → P ts → Reads (print ts) ts

/-- The tokens that can be printed, with their spelling: identifiers, numbers, keywords, punctuators, and strings of
characters that need no escape sequence. -/
inductive Spelled : Tok → List Byte → Prop
  | ident {t : Tok} : t.type = .T_IDENT → isIdent t.str = true → (∀ k ∈ keywords, str k.1 ≠ t.str) → Spelled t t.str
  | number {t : Tok} : t.type = .T_NUM → isNumber t.str = true → Spelled t t.str
  | keyword {t : Tok} {k : String × TType} : k ∈ keywords → t.type = k.2 → Spelled t (str k.1)
  | punctuator {t : Tok} {w : List Byte} : (w, t.type) ∈ punctuators → w ∉ digraphs → t.type ≠ .PP_HASH → t.type ≠ .PP_HHASH →
    Spelled t w
  | string {t : Tok} {cps : List Nat} : t.type = .T_STRING →
    (∀ c ∈ cps, c ≤ 0x10ffff ∧ c ≠ 0 ∧ c ≠ '\n'.toNat ∧ c ≠ '"'.toNat ∧ c ≠ '\\'.toNat) →
    t.str = EscapeSpec.renderAll (cps.map .plain) ++ [0] →
    Spelled t (ch '"' :: EscapeSpec.renderAll (cps.map .plain) ++ [ch '"'])

/-- The spelling is of at most 98 bytes, and has no backslash (a universal character name). -/
def Short (w : List Byte) : Prop := w.length ≤ 98 ∧ ch '\\' ∉ w

/-- The word `v` may be written directly behind the word `w`: no token begins with `w` and continues with characters
of `v`, no comment begins, and there are no two periods. -/
def Apart (w v : List Byte) : Prop :=
  (∀ n, w.length < n → n ≤ (w ++ v).length → kind ((w ++ v).take n) = none) ∧
  ¬ (w = str "." ∧ v.head? = some (ch '.')) ∧ ¬ (w = str "/" ∧ (v.head? = some (ch '/') ∨ v.head? = some (ch '*')))

/-- Tokens that follow one another without white space are `Apart`. -/
inductive Separated : List (Tok × List Byte) → Prop
  | nil : Separated []
  | last {p : Tok × List Byte} : Separated [p]
  | cons {p q : Tok × List Byte} {l : List (Tok × List Byte)} :
    p.1.whitespaceAfter = true ∨ q.1.firstOfLine = true ∨ q.1.whitespace = true ∨ Apart p.2 q.2 →
    Separated (q :: l) → Separated (p :: q :: l)

end Verif.PreprocessedSpec
