import Verif.Guard
import Verif.IncludeSpec
/-!
Conditional inclusion over several files (C17 6.10.1 and 6.10.2): the sections of a file are complete in this file, and the groups that are not selected are
skipped.
-/
namespace Verif.GuardSpec
open Input (Fs)
open InputSpec IncludeSpec
open Guard (Macros Ev)

/-- The names that open a section. -/
def Opens (d : Tok) : Prop := d.str = str "if" ∨ d.str = str "ifdef" ∨ d.str = str "ifndef"
/-- The names that begin a further group. -/
def Further (d : Tok) : Prop := d.str = str "elif" ∨ d.str = str "else" ∨ d.str = str "elifdef" ∨ d.str = str "elifndef"

/-- `#` and a name on the same line. -/
def Directive (t d : Tok) : Prop := t.type = .PP_DIRECTIVE ∧ d.firstOfLine = false ∧ d.type = .T_IDENT

/-- A group that is skipped, in which `k` sections are still open; only the nesting of sections matters (6.10.1p6). -/
inductive Skipped : Nat → List Tok → Prop where
  | nil : Skipped 0 []
  | text {k t ts} : t.type ≠ .PP_DIRECTIVE → Skipped k ts → Skipped k (t :: ts)
  | other {k t d ts} : Directive t d → ¬Opens d → ¬Further d → d.str ≠ str "endif" → Skipped k ts → Skipped k (t :: d :: ts)
  /-- the null directive, and `#` with something that is no name -/
  | null {k t d ts} : t.type = .PP_DIRECTIVE → d.firstOfLine = true ∨ d.type ≠ .T_IDENT → Skipped k (d :: ts) → Skipped k (t :: d :: ts)
  | opens {k t d ts} : Directive t d → Opens d → Skipped (k + 1) ts → Skipped k (t :: d :: ts)
  | further {k t d ts} : Directive t d → Further d → Skipped (k + 1) ts → Skipped (k + 1) (t :: d :: ts)
  | closes {k t d ts} : Directive t d → d.str = str "endif" → Skipped k ts → Skipped (k + 1) (t :: d :: ts)

/-- What follows the selected group of a section: further groups, which are skipped, and `#endif`. -/
inductive Tail : List Tok → Prop where
  | close {t d} : Starts "endif" t d → Tail [t, d]
  | more {t d b tl} : Directive t d → Further d → Skipped 0 b → Tail tl → Tail (t :: d :: (b ++ tl))

/-- The macro is defined. -/
def IsDefined (M : Macros) (x : Str) : Prop := ∃ b, (x, b) ∈ M

/-- The operand `x` of `defined`, with or without parentheses. -/
def Operand (ops : List Tok) (x : Tok) : Prop :=
  (ops = [x] ∧ x.type ≠ .T_LPAR) ∨ ∃ o c : Tok, o.type = .T_LPAR ∧ c.type = .T_RPAR ∧ ops = [o, x, c]

/-- The constant 1 or 0. -/
def constant (s : String) : Tok := { type := .T_NUM, str := str s }

/-- The line of an expression, after `defined x` and `defined(x)` have been replaced by the constants 1 and 0 (6.10.1p4). -/
inductive Resolved (M : Macros) : List Tok → List Tok → Prop where
  | nil : Resolved M [] []
  | other {t ts us} : t.str ≠ str "defined" → Resolved M ts us → Resolved M (t :: ts) (t :: us)
  | yes {t ops x ts us} : t.str = str "defined" → Operand ops x → IsDefined M x.str → Resolved M ts us → Resolved M (t :: (ops ++ ts)) (constant "1" :: us)
  | no {t ops x ts us} : t.str = str "defined" → Operand ops x → ¬IsDefined M x.str → Resolved M ts us → Resolved M (t :: (ops ++ ts)) (constant "0" :: us)

/-- The directive `d` (with `el` in front of its name for a further group) with the tokens `l` of its line, followed by the tokens `z`, is a condition that is
true or not when the macros are `M`. The value of expressions is `v`. -/
inductive Cond (v : Ev) (M : Macros) (el : String) (d : Tok) : List Tok → List Tok → Bool → Prop where
  | ifdef {x z} : d.str = str (el ++ "ifdef") → IsDefined M x.str → Cond v M el d [x] z true
  | ifdefNot {x z} : d.str = str (el ++ "ifdef") → ¬IsDefined M x.str → Cond v M el d [x] z false
  | ifndef {x z} : d.str = str (el ++ "ifndef") → ¬IsDefined M x.str → Cond v M el d [x] z true
  | ifndefNot {x z} : d.str = str (el ++ "ifndef") → IsDefined M x.str → Cond v M el d [x] z false
  | expr {l l' u z b} : d.str = str (el ++ "if") → (∀ t ∈ l, t.firstOfLine = false) → Resolved M l l' → v M l' = .ok b → u.firstOfLine = true →
      Cond v M el d l (u :: z) b

/-- The parameters of a function-like macro after the parenthesis, at least one (6.10.3): identifiers, perhaps `...` at the end. -/
inductive Names1 : List Tok → List Tok → Bool → Prop where
  | last {i c : Tok} : i.type = .T_IDENT → c.type = .T_RPAR → Names1 [i, c] [i] false
  | dots {i c : Tok} : i.type = .T_ELLIPSIS → c.type = .T_RPAR → Names1 [i, c] [] true
  | more {i c : Tok} {ps is va} : i.type = .T_IDENT → c.type = .T_COMMA → Names1 ps is va → Names1 (i :: c :: ps) (i :: is) va

/-- The same, or no parameters. -/
def Parameters (ps is : List Tok) (va : Bool) : Prop :=
  Names1 ps is va ∨ ∃ c : Tok, c.type = .T_RPAR ∧ ps = [c] ∧ is = [] ∧ va = false

/-- `ts` is a part of the file `p` with complete sections. With the macros `M` and the marked files `D` it yields the tokens `out`, opening the files `os`;
afterwards the macros are `M'` and the marked files `D'`. The flag says that `ts` begins in a section no group of which has been selected so far, after a group. -/
inductive Yields (fs : Fs) (tok : Str → List Byte → List Tok) (v : Ev) (includes : List Str) :
    List Str → Macros → Str → Bool → List Tok → List Tok → List Str → List Str → Macros → Prop where
  | nil {D M p} : Yields fs tok v includes D M p false [] [] [] D M
  | plain {D M p t ts out os D' M'} : Plain t → Yields fs tok v includes D M p false ts out os D' M' →
      Yields fs tok v includes D M p false (t :: ts) (t :: out) os D' M'
  /-- the null directive -/
  | null {D M p t u ts out os D' M'} : t.type = .PP_DIRECTIVE → u.firstOfLine = true → Yields fs tok v includes D M p false (u :: ts) out os D' M' →
      Yields fs tok v includes D M p false (t :: u :: ts) out os D' M'
  | file {D M p t d h ts name sys q c out1 os1 D1 M1 out2 os2 D2 M2} : Starts "include" t d → HeaderName h name sys → Names fs includes p name sys q c →
      q ∉ D → Yields fs tok v includes D M q false (tok q (c ++ [0])) out1 os1 D1 M1 → Yields fs tok v includes D1 M1 p false ts out2 os2 D2 M2 →
      Yields fs tok v includes D M p false (t :: d :: h :: ts) (out1 ++ out2) (q :: os1 ++ os2) D2 M2
  /-- the last line of the included file is `#define x body`; the next line of the including file begins with `u` -/
  | fileDefine {D M p t d h ts name sys q c a t1 d1 x body u out1 os1 D1 M1 out2 os2 D2 M2} : Starts "include" t d → HeaderName h name sys →
      Names fs includes p name sys q c → q ∉ D → tok q (c ++ [0]) = a ++ t1 :: d1 :: x :: body → Yields fs tok v includes D M q false a out1 os1 D1 M1 →
      Starts "define" t1 d1 → (∀ b ∈ body, b.firstOfLine = false) → u.firstOfLine = true → u.whitespace = true →
      (∀ b bs, body = b :: bs → b.type = .T_LPAR → b.whitespace = true) →
      Yields fs tok v includes D1 ((x.str, ⟨none, body⟩) :: M1) p false (u :: ts) out2 os2 D2 M2 →
      Yields fs tok v includes D M p false (t :: d :: h :: u :: ts) (out1 ++ out2) (q :: os1 ++ os2) D2 M2
  | marked {D M p t d h ts name sys q c out os D' M'} : Starts "include" t d → HeaderName h name sys → Names fs includes p name sys q c →
      q ∈ D → Yields fs tok v includes D M p false ts out os D' M' → Yields fs tok v includes D M p false (t :: d :: h :: ts) out os D' M'
  | once {D M p t d o ts out os D' M'} : Starts "pragma" t d → o.str = str "once" → Yields fs tok v includes (p :: D) M p false ts out os D' M' →
      Yields fs tok v includes D M p false (t :: d :: o :: ts) out os D' M'
  /-- another pragma is passed on to the parser -/
  | pragma {D M p t d o ts out os D' M'} : Starts "pragma" t d → Plain o → o.str ≠ str "once" → o.str ≠ str "push_macro" → o.str ≠ str "pop_macro" →
      Yields fs tok v includes D M p false ts out os D' M' → Yields fs tok v includes D M p false (t :: d :: o :: ts) (t :: d :: o :: out) os D' M'
  /-- `#define x body` with the first token `u` of the next line, which is preceded by white space; the macro is not function-like -/
  | define {D M p t d x body u ts out os D' M'} : Starts "define" t d → (∀ b ∈ body, b.firstOfLine = false) → u.firstOfLine = true → u.whitespace = true →
      (∀ b bs, body = b :: bs → b.type = .T_LPAR → b.whitespace = true) →
      Yields fs tok v includes D ((x.str, ⟨none, body⟩) :: M) p false (u :: ts) out os D' M' →
      Yields fs tok v includes D M p false (t :: d :: x :: (body ++ u :: ts)) out os D' M'
  /-- `#define x(parameters) body` -/
  | defineFun {D M p t d x o ps is va body u ts out os D' M'} : Starts "define" t d → o.type = .T_LPAR → o.whitespace = false → Parameters ps is va →
      (∀ b ∈ body, b.firstOfLine = false) → u.firstOfLine = true →
      Yields fs tok v includes D ((x.str, ⟨some (is, va), body⟩) :: M) p false (u :: ts) out os D' M' →
      Yields fs tok v includes D M p false (t :: d :: x :: o :: (ps ++ (body ++ u :: ts))) out os D' M'
  | undef {D M M1 p t d x ts out os D' M'} : Starts "undef" t d → (M1 = M.filter (·.1 ≠ x.str)) → Yields fs tok v includes D M1 p false ts out os D' M' →
      Yields fs tok v includes D M p false (t :: d :: x :: ts) out os D' M'
  /-- a section whose first group is selected -/
  | yes {D M p t d l a tl ts out1 os1 D1 M1 out2 os2 D2 M2} : Directive t d → Cond v M "" d l (a ++ (tl ++ ts)) true →
      Yields fs tok v includes D M p false a out1 os1 D1 M1 → Tail tl → Yields fs tok v includes D1 M1 p false ts out2 os2 D2 M2 →
      Yields fs tok v includes D M p false (t :: d :: (l ++ (a ++ (tl ++ ts)))) (out1 ++ out2) (os1 ++ os2) D2 M2
  /-- a section whose first group is not selected -/
  | no {D M p t d l a ts out os D' M'} : Directive t d → Cond v M "" d l (a ++ ts) false → Skipped 0 a →
      Yields fs tok v includes D M p true ts out os D' M' → Yields fs tok v includes D M p false (t :: d :: (l ++ (a ++ ts))) out os D' M'
  /-- no group of the section is selected -/
  | close {D M p t d ts out os D' M'} : Starts "endif" t d → Yields fs tok v includes D M p false ts out os D' M' →
      Yields fs tok v includes D M p true (t :: d :: ts) out os D' M'
  /-- the group after `#else` is selected -/
  | otherwise {D M p t d b t2 d2 ts out1 os1 D1 M1 out2 os2 D2 M2} : Starts "else" t d → Yields fs tok v includes D M p false b out1 os1 D1 M1 →
      Starts "endif" t2 d2 → Yields fs tok v includes D1 M1 p false ts out2 os2 D2 M2 →
      Yields fs tok v includes D M p true (t :: d :: (b ++ t2 :: d2 :: ts)) (out1 ++ out2) (os1 ++ os2) D2 M2
  /-- the group after `#elif` is selected -/
  | elifYes {D M p t d l a tl ts out1 os1 D1 M1 out2 os2 D2 M2} : Directive t d → Cond v M "el" d l (a ++ (tl ++ ts)) true →
      Yields fs tok v includes D M p false a out1 os1 D1 M1 → Tail tl → Yields fs tok v includes D1 M1 p false ts out2 os2 D2 M2 →
      Yields fs tok v includes D M p true (t :: d :: (l ++ (a ++ (tl ++ ts)))) (out1 ++ out2) (os1 ++ os2) D2 M2
  /-- nor is it -/
  | elifNo {D M p t d l a ts out os D' M'} : Directive t d → Cond v M "el" d l (a ++ ts) false → Skipped 0 a →
      Yields fs tok v includes D M p true ts out os D' M' → Yields fs tok v includes D M p true (t :: d :: (l ++ (a ++ ts))) out os D' M'

/-- A file with an include guard: `#ifndef h`, `#define h`, any text with complete sections, `#endif` at the end. -/
def Guarded (h : Str) (ts : List Tok) : Prop := ∃ t d x t1 d1 y a t2 d2, Starts "ifndef" t d ∧ x.str = h ∧ x.type ≠ .PP_DIRECTIVE ∧
  Starts "define" t1 d1 ∧ y.str = h ∧ y.type ≠ .PP_DIRECTIVE ∧ Skipped 0 a ∧ Starts "endif" t2 d2 ∧
  ts = t :: d :: x :: t1 :: d1 :: y :: (a ++ [t2, d2])

end Verif.GuardSpec
