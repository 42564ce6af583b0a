import Verif.Include
import Verif.InputSpec
/-!
What the stream of tokens has to be (C17 6.10.2): an `#include` directive is replaced by the contents of the file that it names, which are
preprocessed in the same way; `#pragma once` makes further inclusions of the same path empty.
-/
namespace Verif.IncludeSpec
open Verif Input InputSpec

/-- The token is a header name: `<name>`, which is not searched beside the including file, or `"name"`. -/
def HeaderName (h : Tok) (name : Str) (system : Bool) : Prop :=
  (h.type = .PP_HEADER_NAME_H ∧ h.str = str "<" ++ name ++ str ">" ∧ system = true) ∨
  (h.type = .PP_HEADER_NAME_Q ∧ h.str = str "\"" ++ name ++ str "\"" ∧ system = false)

/-- `#` that begins a directive, and the name of the directive on the same line. -/
def Starts (name : String) (t d : Tok) : Prop :=
  t.type = .PP_DIRECTIVE ∧ d.firstOfLine = false ∧ d.type = .T_IDENT ∧ d.str = str name

/-- A token that is not the `#` of a directive (and no end marker). -/
def Plain (t : Tok) : Prop := t.type ≠ .PP_DIRECTIVE ∧ t.type ≠ .T_EOI

/-- The file `p` with the contents `c` is the one that the name stands for in the file `parent`. -/
def Names (fs : Fs) (includes : List Str) (parent name : Str) (system : Bool) (p : Str) (c : List Byte) : Prop :=
  ∃ d, Directory parent d ∧ FirstOf fs (places d includes name system) p c

/-- An `#include` of the file `p` is replaced by: nothing if the path is marked, otherwise what the tokens of the file yield. -/
inductive Yields (fs : Fs) (tok : Str → List Byte → List Tok) (expand : List Tok → Run (List Tok)) (includes : List Str) :
    List Str → Str → List Tok → List Tok → List Str → List Str → Prop where
  /-- the end of the file -/
  | nil {D p} : Yields fs tok expand includes D p [] [] [] D
  /-- text -/
  | plain {D p t ts out os D'} : Plain t → Yields fs tok expand includes D p ts out os D' →
      Yields fs tok expand includes D p (t :: ts) (t :: out) os D'
  /-- the null directive -/
  | null {D p t u ts out os D'} : t.type = .PP_DIRECTIVE → u.firstOfLine = true → Yields fs tok expand includes D p (u :: ts) out os D' →
      Yields fs tok expand includes D p (t :: u :: ts) out os D'
  /-- `#include` of a file that is not marked: its tokens, then those after the directive -/
  | file {D p t d h ts name sys q c out1 os1 D1 out2 os2 D2} : Starts "include" t d → HeaderName h name sys → Names fs includes p name sys q c →
      q ∉ D → Yields fs tok expand includes D q (tok q (c ++ [0])) out1 os1 D1 → Yields fs tok expand includes D1 p ts out2 os2 D2 →
      Yields fs tok expand includes D p (t :: d :: h :: ts) (out1 ++ out2) (q :: os1 ++ os2) D2
  /-- `#include` of a marked file -/
  | marked {D p t d h ts name sys q c out os D'} : Starts "include" t d → HeaderName h name sys → Names fs includes p name sys q c →
      q ∈ D → Yields fs tok expand includes D p ts out os D' → Yields fs tok expand includes D p (t :: d :: h :: ts) out os D'
  /-- `#include` with a macro whose expansion is a string literal -/
  | computed {D p t d m ms u ts s name q c out1 os1 D1 out2 os2 D2} : Starts "include" t d →
      m.type ≠ .PP_HEADER_NAME_H → m.type ≠ .PP_HEADER_NAME_Q → (∀ x ∈ m :: ms, x.firstOfLine = false) → u.firstOfLine = true →
      expand (m :: ms) = .ok [s] → s.type = .T_STRING → s.str = str "\"" ++ name ++ str "\"" → Names fs includes p name false q c →
      q ∉ D → Yields fs tok expand includes D q (tok q (c ++ [0])) out1 os1 D1 → Yields fs tok expand includes D1 p (u :: ts) out2 os2 D2 →
      Yields fs tok expand includes D p (t :: d :: m :: ms ++ u :: ts) (out1 ++ out2) (q :: os1 ++ os2) D2
  /-- `#pragma once` -/
  | once {D p t d o ts out os D'} : Starts "pragma" t d → o.str = str "once" → Yields fs tok expand includes (p :: D) p ts out os D' →
      Yields fs tok expand includes D p (t :: d :: o :: ts) out os D'
  /-- another pragma is left for the parser -/
  | pragma {D p t d o ts out os D'} : Starts "pragma" t d → Plain o → o.str ≠ str "once" → o.str ≠ str "push_macro" → o.str ≠ str "pop_macro" →
      Yields fs tok expand includes D p ts out os D' → Yields fs tok expand includes D p (t :: d :: o :: ts) (t :: d :: o :: out) os D'

/-- 6.10.4p3: the line number of a token in line `l` of a file in whose line `dl` stands `#line v`, with no other `#line` between them. -/
def presumed (v dl l : Int) : Int := v + (l - dl - 1)

end Verif.IncludeSpec
