import Verif.DefineMapSpec
/-!
Specification of conditional inclusion (C17 6.10.1): a preprocessing file is a tree of
groups; evaluation of the tree keeps exactly the selected groups.  Uses of the model:
the token and definition records only.
-/
namespace Verif.DirectivesSpec
open Verif DefineMap

/-- Meaning of names: which macros are defined. -/
abbrev Env := Str → Option Define

/-- The `#` and the name token that begin a directive line. -/
structure Dir where
  hash : Tok
  name : Tok

/-- One operand of a `#if` line: an ordinary token, `defined X` or `defined ( X )`. -/
inductive CondItem where
  | tok (t : Tok)
  | defd (kw name : Tok)
  | defdP (kw lp name rp : Tok)

/-- A condition: `#ifdef X`, `#ifndef X` or `#if expr` (and the `#elif` forms). -/
inductive Cond where
  | ifdef (name : Tok)
  | ifndef (name : Tok)
  | expr (l : List CondItem)

/-- The parameters of a function-like macro, between the parentheses: an optional list
of names separated by commas, possibly ended by `...`. -/
inductive Params where
  /-- nothing before `)`; only right after `(` -/
  | none
  | dots (t : Tok)
  | last (t : Tok)
  | more (t comma : Tok) (r : Params)

mutual
/-- A group: a sequence of items. -/
inductive Group where
  | nil
  | cons (i : Item) (g : Group)
/-- One line of text, one directive line, or one whole `#if` section. -/
inductive Item where
  | text (l : List Tok)
  | define (d : Dir) (name : Tok) (body : List Tok)
  /-- `#define name(params) body` -/
  | defineF (d : Dir) (name lp : Tok) (ps : Params) (rp : Tok) (body : List Tok)
  | undef (d : Dir) (name : Tok)
  /-- null directive -/
  | null (hash : Tok)
  /-- any other directive -/
  | other (d : Dir) (rest : List Tok)
  /-- `#` followed by something that is not an identifier -/
  | nonIdent (hash : Tok) (rest : List Tok)
  | sect (d : Dir) (c : Cond) (g : Group) (t : Tail)
/-- The rest of a section after a group. -/
inductive Tail where
  | endif (d : Dir)
  | els (d : Dir) (g : Group) (e : Dir)
  | elif (d : Dir) (c : Cond) (g : Group) (t : Tail)
end

/-! ### The tokens of a tree -/

/-- Tokens of a condition operand. -/
def CondItem.render : CondItem → List Tok
  | .tok t => [t]
  | .defd kw n => [kw, n]
  | .defdP kw lp n rp => [kw, lp, n, rp]

/-- Tokens of a condition. -/
def Cond.render : Cond → List Tok
  | .ifdef n => [n]
  | .ifndef n => [n]
  | .expr l => l.flatMap CondItem.render

/-- Tokens of a parameter list. -/
def Params.render : Params → List Tok
  | .none => []
  | .dots t => [t]
  | .last t => [t]
  | .more t c r => t :: c :: r.render

/-- The names in a parameter list. -/
def Params.names : Params → List Tok
  | .none => []
  | .dots _ => []
  | .last t => [t]
  | .more t _ r => t :: r.names

/-- Does the list end in `...`? -/
def Params.variadic : Params → Bool
  | .none => false
  | .dots _ => true
  | .last _ => false
  | .more _ _ r => r.variadic

mutual
/-- Tokens of a group. -/
def Group.render : Group → List Tok
  | .nil => []
  | .cons i g => i.render ++ g.render
/-- Tokens of an item. -/
def Item.render : Item → List Tok
  | .text l => l
  | .define d n b => d.hash :: d.name :: n :: b
  | .defineF d n lp ps rp b => d.hash :: d.name :: n :: lp :: (ps.render ++ rp :: b)
  | .undef d n => [d.hash, d.name, n]
  | .null h => [h]
  | .other d r => d.hash :: d.name :: r
  | .nonIdent h r => h :: r
  | .sect d c g t => d.hash :: d.name :: (c.render ++ (g.render ++ t.render))
/-- Tokens of the rest of a section. -/
def Tail.render : Tail → List Tok
  | .endif d => [d.hash, d.name]
  | .els d g e => d.hash :: d.name :: (g.render ++ [e.hash, e.name])
  | .elif d c g t => d.hash :: d.name :: (c.render ++ (g.render ++ t.render))
end

/-! ### Lexical well-formedness: tokens sit on the lines the tree says -/

/-- `# name` on a new line. -/
def Dir.WF (d : Dir) (s : Str) : Prop :=
  d.hash.type = .PP_DIRECTIVE ∧ d.hash.firstOfLine = true ∧
  d.name.type = .T_IDENT ∧ d.name.str = s ∧ d.name.firstOfLine = false

/-- An ordinary token inside a line. -/
def Inner (t : Tok) : Prop :=
  t.firstOfLine = false ∧ t.type ≠ .PP_DIRECTIVE ∧ t.type ≠ .T_EOI

/-- A token that begins a line.  The tokenizer marks it as preceded by whitespace
(src/preprocessor/tokenizer.c:207); only a parenthesis needs that here. -/
def LineStart (t : Tok) : Prop :=
  t.firstOfLine = true ∧ (t.type = .T_LPAR → t.whitespace = true)

/-- Operands stay on the line; `defined` is used as an operator only. -/
def CondItem.WF : CondItem → Prop
  | .tok t => Inner t ∧ t.str ≠ str "defined"
  | .defd kw n => Inner kw ∧ kw.str = str "defined" ∧ Inner n ∧ n.type ≠ .T_LPAR
  | .defdP kw lp n rp => Inner kw ∧ kw.str = str "defined" ∧ Inner lp ∧ lp.type = .T_LPAR
      ∧ Inner n ∧ Inner rp ∧ rp.type = .T_RPAR

/-- A condition on one line. -/
def Cond.WF : Cond → Prop
  | .ifdef n => Inner n
  | .ifndef n => Inner n
  | .expr l => ∀ i ∈ l, i.WF

/-- Directive spelling of a condition in first position. -/
def Cond.ifName : Cond → Str
  | .ifdef _ => str "ifdef"
  | .ifndef _ => str "ifndef"
  | .expr _ => str "if"

/-- Directive spelling of a condition in later position. -/
def Cond.elifName : Cond → Str
  | .ifdef _ => str "elifdef"
  | .ifndef _ => str "elifndef"
  | .expr _ => str "elif"

/-- Directive names with a meaning for conditional inclusion. -/
def condNames : List Str :=
  [str "if", str "ifdef", str "ifndef", str "elif", str "elifdef", str "elifndef",
   str "else", str "endif"]

/-- A well-formed parameter list: names, commas and `...` where they belong.  `first`:
right after the opening parenthesis. -/
def Params.WF : Bool → Params → Prop
  | first, .none => first = true
  | _, .dots t => Inner t ∧ t.type = .T_ELLIPSIS
  | _, .last t => Inner t ∧ t.type = .T_IDENT
  | _, .more t c r => Inner t ∧ t.type = .T_IDENT ∧ Inner c ∧ c.type = .T_COMMA ∧ r.WF false

mutual
/-- Lexical well-formedness of a group. -/
def Group.WF : Group → Prop
  | .nil => True
  | .cons i g => i.WF ∧ g.WF
/-- Lexical well-formedness of an item. -/
def Item.WF : Item → Prop
  | .text l => ∃ t ts, l = t :: ts ∧ LineStart t ∧ t.type ≠ .PP_DIRECTIVE ∧
      t.type ≠ .T_EOI ∧ ∀ x ∈ ts, Inner x
  | .define d n b => d.WF (str "define") ∧ Inner n ∧ (∀ x ∈ b, Inner x) ∧
      ∀ x ∈ b.head?, ¬ (x.type = .T_LPAR ∧ x.whitespace = false)
  | .defineF d n lp ps rp b => d.WF (str "define") ∧ Inner n ∧
      (Inner lp ∧ lp.type = .T_LPAR ∧ lp.whitespace = false) ∧ ps.WF true ∧
      (Inner rp ∧ rp.type = .T_RPAR) ∧ ∀ x ∈ b, Inner x
  | .undef d n => d.WF (str "undef") ∧ Inner n
  | .null h => h.type = .PP_DIRECTIVE ∧ h.firstOfLine = true
  | .other d r => (∃ s, s ∉ condNames ∧ d.WF s) ∧ ∀ x ∈ r, Inner x
  | .nonIdent h r => h.type = .PP_DIRECTIVE ∧ h.firstOfLine = true ∧
      ∃ t ts, r = t :: ts ∧ t.type ≠ .T_IDENT ∧ ∀ x ∈ r, Inner x
  | .sect d c g t => d.WF c.ifName ∧ c.WF ∧ g.WF ∧ t.WF
/-- Lexical well-formedness of the rest of a section. -/
def Tail.WF : Tail → Prop
  | .endif d => d.WF (str "endif")
  | .els d g e => d.WF (str "else") ∧ g.WF ∧ e.WF (str "endif")
  | .elif d c g t => d.WF c.elifName ∧ c.WF ∧ g.WF ∧ t.WF
end

/-! ### Evaluation -/

/-- The number token standing for a `defined` operand. -/
def numTok (b : Bool) : Tok := { type := .T_NUM, str := if b then str "1" else str "0" }

/-- An operand after `defined` has been replaced. -/
def CondItem.subst (e : Env) : CondItem → Tok
  | .tok t => t
  | .defd _ n => numTok (e n.str).isSome
  | .defdP _ _ n _ => numTok (e n.str).isSome

/-- Truth of a condition; `ev` evaluates an expression (`none`: not a valid one). -/
def Cond.holds (ev : Env → List Tok → Option Bool) (e : Env) : Cond → Option Bool
  | .ifdef n => some (e n.str).isSome
  | .ifndef n => some (!(e n.str).isSome)
  | .expr l => ev e (l.map (CondItem.subst e))

mutual
/-- The text a group leaves and the macros afterwards.  `none`: a directive outside this
specification is reached. -/
def Group.eval (ev : Env → List Tok → Option Bool) (e : Env) : Group → Option (List Tok × Env)
  | .nil => some ([], e)
  | .cons i g =>
    match i.eval ev e with
    | none => none
    | some (o1, e1) =>
      match g.eval ev e1 with
      | none => none
      | some (o2, e2) => some (o1 ++ o2, e2)
/-- An item. -/
def Item.eval (ev : Env → List Tok → Option Bool) (e : Env) : Item → Option (List Tok × Env)
  | .text l => some (l, e)
  | .define _ n b => some ([], upd e n.str (some (stored { name := n.str, body := b })))
  | .defineF _ n _ ps _ b => some ([], upd e n.str (some (stored
      { name := n.str, func := true, vararg := ps.variadic, par := ps.names, body := b })))
  | .undef _ n => some ([], upd e n.str none)
  | .null _ => some ([], e)
  | .other _ _ => none
  | .nonIdent _ _ => none
  | .sect _ c g t =>
    match c.holds ev e with
    | none => none
    | some true => g.eval ev e
    | some false => t.eval ev e
/-- The rest of a section, none of whose earlier groups was selected. -/
def Tail.eval (ev : Env → List Tok → Option Bool) (e : Env) : Tail → Option (List Tok × Env)
  | .endif _ => some ([], e)
  | .els _ g _ => g.eval ev e
  | .elif _ c g t =>
    match c.holds ev e with
    | none => none
    | some true => g.eval ev e
    | some false => t.eval ev e
end

/-- The file does not end in a directive line that reads up to the next line. -/
def Group.EndsSafely : Group → Prop
  | .nil => True
  | .cons (.define _ _ _) .nil => False
  | .cons (.defineF _ _ _ _ _ _) .nil => False
  | .cons (.null _) .nil => False
  | .cons _ g => g.EndsSafely

end Verif.DirectivesSpec

/-! ### Balance of conditional directives (C09) -/
namespace Verif.DirectivesSpec
open Verif

/-- Scan the directives of a file with the number of open sections: is an `#elif`,
`#else` or `#endif` met outside a section, or a section left open at the end? -/
def malformed : Nat → List Tok → Bool
  | depth, [] => depth ≠ 0
  | depth, [_] => depth ≠ 0
  | depth, h :: d :: r =>
    if h.type = .PP_DIRECTIVE ∧ d.type = .T_IDENT then
      if d.str ∈ [str "if", str "ifdef", str "ifndef"] then malformed (depth + 1) r
      else if d.str ∈ [str "elif", str "elifdef", str "elifndef", str "else"] then
        if depth = 0 then true else malformed depth r
      else if d.str = str "endif" then
        if depth = 0 then true else malformed (depth - 1) r
      else malformed depth r
    else malformed depth (d :: r)

/-! ### Presumed line numbers (C10) -/

/-- A file for the purpose of `#line`: lines of text, `#line N`, `#line N "file"`. -/
inductive LItem where
  | text (l : List Tok)
  | line (h d num : Tok)
  | lineFile (h d num file : Tok)

/-- Tokens of the file. -/
def LItem.render : LItem → List Tok
  | .text l => l
  | .line h d n => [h, d, n]
  | .lineFile h d n f => [h, d, n, f]

/-- The number a digit sequence spells. -/
def decVal (s : Str) : Nat := s.foldl (fun a c => a * 10 + (c.toNat - 48)) 0

/-- A digit sequence in the range C17 6.10.4p3 allows. -/
def IsLineNumber (s : Str) : Prop :=
  (∀ c ∈ s, 48 ≤ c.toNat ∧ c.toNat ≤ 57) ∧ decVal s ≤ 2147483647

/-- Lexical well-formedness. -/
def LItem.WF : LItem → Prop
  | .text l => ∃ t ts, l = t :: ts ∧ LineStart t ∧ t.type ≠ .PP_DIRECTIVE ∧
      t.type ≠ .T_EOI ∧ ∀ x ∈ ts, Inner x
  | .line h d n => (Dir.mk h d).WF (str "line") ∧ n.firstOfLine = false ∧ n.type = .T_NUM ∧
      IsLineNumber n.str
  | .lineFile h d n f => (Dir.mk h d).WF (str "line") ∧ n.firstOfLine = false ∧ n.type = .T_NUM ∧
      IsLineNumber n.str ∧ f.firstOfLine = false ∧ f.type = .T_STRING

/-- C17 6.10.4: the line after `#line N` is presumed to be line N.  `off` is presumed
minus physical line number now in force, `file` the presumed file. -/
def presumed (off : Int) (file : Option Str) : List LItem → List Tok
  | [] => []
  | .text l :: is =>
    l.map (fun t => { t with line := t.line + off, path := file.getD t.path })
      ++ presumed off file is
  | .line _ d n :: is => presumed (decVal n.str - (d.line + 1)) file is
  | .lineFile _ d n f :: is =>
    presumed (decVal n.str - (d.line + 1)) (some ((f.str.drop 1).dropLast)) is

end Verif.DirectivesSpec
