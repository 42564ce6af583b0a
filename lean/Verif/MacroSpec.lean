import Verif.Token
/-!
Specification of macro replacement (C17 6.10.3).  A preprocessing token is its kind and
its spelling; a macro table maps names to replacement lists.  Nothing here mentions the
expander.
-/
namespace Verif.MacroSpec
open Verif

/-- A preprocessing token: kind and spelling. -/
abbrev PP := TType × Str

/-- Replacement of object-like macros (C17 6.10.3p9, 6.10.3.4p1-2): `Expands m H ts out`
means that `ts`, read while the macros named in `H` are being replaced, becomes `out`.
A name in `H` is not replaced. -/
inductive Expands (m : Str → Option (List PP)) : List Str → List PP → List PP → Prop
  | nil (H) : Expands m H [] []
  | keep (H t ts out) : (t.1 ≠ .T_IDENT ∨ t.2 ∈ H ∨ m t.2 = none) → Expands m H ts out →
      Expands m H (t :: ts) (t :: out)
  | repl (H x body ts o1 o2) : x ∉ H → m x = some body → Expands m (x :: H) body o1 →
      Expands m H ts o2 → Expands m H ((.T_IDENT, x) :: ts) (o1 ++ o2)

/-- Replacement is deterministic. -/
theorem Expands.unique {m H ts o1 o2} (h1 : Expands m H ts o1) (h2 : Expands m H ts o2) : o1 = o2 := by
  induction h1 generalizing o2 with
  | nil => cases h2; rfl
  | keep H t ts out hk _ ih =>
    cases h2 with
    | keep _ _ _ _ _ h => rw [ih h]
    | repl _ x body _ p q hx hm _ _ =>
      rcases hk with h | h | h
      · exact absurd rfl h
      · exact absurd h hx
      · rw [h] at hm; cases hm
  | repl H x body ts p q hx hm _ _ ih1 ih2 =>
    cases h2 with
    | keep _ _ _ _ hk h =>
      rcases hk with h | h | h
      · exact absurd rfl h
      · exact absurd h hx
      · rw [h] at hm; cases hm
    | repl _ _ body' _ p' q' _ hm' a b =>
      rw [hm] at hm'
      cases hm'
      rw [ih1 a, ih2 b]

/-- Tokens with matching parentheses; commas only inside them when `commas` is false
(C17 6.10.3p10-11). -/
inductive Balanced : Bool → List Tok → Prop
  | nil (c) : Balanced c []
  | tok (c t ts) : t.type ≠ .T_LPAR → t.type ≠ .T_RPAR → (t.type = .T_COMMA → c = true) →
      Balanced c ts → Balanced c (t :: ts)
  | paren (c l inner r ts) : l.type = .T_LPAR → r.type = .T_RPAR → Balanced true inner → Balanced c ts →
      Balanced c (l :: inner ++ r :: ts)

/-- The text of a macro call after its `(`: arguments separated by top-level commas, the
last one followed by `)`. -/
inductive CallArgs : List (List Tok) → List Tok → Tok → Prop
  | last (a r) : Balanced false a → r.type = .T_RPAR → CallArgs [a] (a ++ [r]) r
  | more (a c as ts r) : Balanced false a → c.type = .T_COMMA → CallArgs as ts r → CallArgs (a :: as) (a ++ c :: ts) r

/-- The same for a variadic macro: the named arguments, then everything up to `)`. -/
inductive CallVar : List (List Tok) → List Tok → List Tok → Tok → Prop
  | var (va r) : Balanced true va → r.type = .T_RPAR → CallVar [] va (va ++ [r]) r
  | arg (a c as va ts r) : Balanced false a → c.type = .T_COMMA → CallVar as va ts r →
      CallVar (a :: as) va (a ++ c :: ts) r

/-- Argument substitution (C17 6.10.3.1p1) for a replacement list without `#` and `##`:
each parameter becomes the expansion of its argument. -/
def substitute (params : List Str) (exps : List (List PP)) (body : List PP) : List PP :=
  body.flatMap (fun t =>
    match (if t.1 = .T_IDENT then params.findIdx? (fun p => decide (p = t.2)) else none) with
    | some i => exps.getD i []
    | none => [t])

/-- The spelling of a preprocessing token (C17 6.4). -/
def spelling (t : Tok) : Str :=
  if t.type = .PP_HASH ∨ t.type = .PP_DIRECTIVE then str "#"
  else if t.type = .PP_HHASH then str "##"
  else match symTable.find? (fun p => p.1 = t.type) with
    | some p => p.2
    | none => t.str

/-- The text of a token sequence as `#` wants it (C17 6.10.3.2p2): spellings, each
occurrence of white space between two tokens one space, none at the ends. -/
def text : List Tok → Str
  | [] => []
  | [t] => spelling t
  | t :: u :: ts => spelling t ++ (if t.whitespaceAfter || u.whitespace then [ch ' '] else []) ++ text (u :: ts)

/-! ### Replacement lists with `#` and `##` -/

/-- An operand: an ordinary token, the `i`-th parameter, or `__VA_ARGS__`. -/
inductive Item where
  | tok (t : PP)
  | par (i : Nat)
  | va
  deriving DecidableEq, Repr

/-- A piece of a replacement list: an operand by itself, `# x`, or `x ## y ## …`. -/
inductive Element where
  | one (x : Item)
  | text (x : Item)
  | paste (x : Item) (xs : List Item)
  deriving DecidableEq, Repr

/-- The operand a token of the replacement list stands for; `ps` are the parameters. -/
inductive ReadsItem (ps : List Str) : Tok → Item → Prop
  | tok (t) : t.type ≠ .PP_HASH → t.type ≠ .PP_HHASH → t.str ≠ str "__VA_ARGS__" →
      (t.type = .T_IDENT → t.str ∉ ps) → ReadsItem ps t (.tok (t.type, t.str))
  | par (t i) : t.type = .T_IDENT → t.str ≠ str "__VA_ARGS__" → ps[i]? = some t.str → ReadsItem ps t (.par i)
  | va (t) : t.type = .T_IDENT → t.str = str "__VA_ARGS__" → ReadsItem ps t .va

/-- `## y ## z …`. -/
inductive ReadsTail (ps : List Str) : List Tok → List Item → Prop
  | nil : ReadsTail ps [] []
  | cons (h t x ts xs) : h.type = .PP_HHASH → ReadsItem ps t x → ReadsTail ps ts xs →
      ReadsTail ps (h :: t :: ts) (x :: xs)

/-- The pieces of a replacement list (C17 6.10.3.2p1, 6.10.3.3p1). -/
inductive ReadsBody (ps : List Str) : List Tok → List Element → Prop
  | nil : ReadsBody ps [] []
  | one (t x ts es) : ReadsItem ps t x → ReadsBody ps ts es → ReadsBody ps (t :: ts) (.one x :: es)
  | text (h t x ts es) : h.type = .PP_HASH → ReadsItem ps t x → (∀ u, x ≠ .tok u) → ReadsBody ps ts es →
      ReadsBody ps (h :: t :: ts) (.text x :: es)
  | paste (t x tl y ys ts es) : ReadsItem ps t x → ReadsTail ps tl (y :: ys) → ReadsBody ps ts es →
      ReadsBody ps (t :: tl ++ ts) (.paste x (y :: ys) :: es)

/-- All punctuators with their spellings, `#` and `##` included. -/
def punctuators : List (TType × Str) := symTable ++ [(.PP_HASH, str "#"), (.PP_HHASH, str "##")]

/-- A character of an identifier (C17 6.4.2.1). -/
def identChar (b : Byte) : Bool :=
  (ch 'a' ≤ b ∧ b ≤ ch 'z') ∨ (ch 'A' ≤ b ∧ b ≤ ch 'Z') ∨ (ch '0' ≤ b ∧ b ≤ ch '9') ∨ b = ch '_'

/-- `a ## b` is the token `g` (C17 6.10.3.3p3): the spelling of both, when it is that of a
preprocessing token: an identifier, a preprocessing number, or a punctuator. -/
inductive Pastes : PP → PP → PP → Prop
  | ident (a b) : Pastes (.T_IDENT, a) (.T_IDENT, b) (.T_IDENT, a ++ b)
  | digits (a b) : (∀ c ∈ b, identChar c = true) → Pastes (.T_IDENT, a) (.T_NUM, b) (.T_IDENT, a ++ b)
  | num (a b) : Pastes (.T_NUM, a) (.T_NUM, b) (.T_NUM, a ++ b)
  | suffix (a b) : Pastes (.T_NUM, a) (.T_IDENT, b) (.T_NUM, a ++ b)
  | punct (p q r x y a b) : (p, x) ∈ punctuators → (q, y) ∈ punctuators → (r, x ++ y) ∈ punctuators →
      Pastes (p, a) (q, b) (r, a ++ b)

/-- What an operand stands for in a call: its tokens as written, the same completely
macro-replaced, and the string literal of their text. -/
structure Actual where
  raw : List PP
  exp : List PP := raw
  txt : Str := []

/-- `x ## y ## …`: the operands as written, the last token of each pasted to the first of
what follows it.  (The order of evaluation is unspecified, 6.10.3.3p3.) -/
inductive Chain (A : Item → Actual) : Item → List Item → List PP → Prop
  | last (x) : Chain A x [] (A x).raw
  | cons (x y ys a b g xs l) : Chain A y ys (b :: l) → (A x).raw = xs ++ [a] → Pastes a b g →
      Chain A x (y :: ys) (xs ++ g :: l)

/-- Argument substitution (C17 6.10.3.1-6.10.3.3): an operand of neither `#` nor `##` is
replaced by its complete expansion, `# x` by the string literal, `##` pastes. -/
inductive Subst (A : Item → Actual) : List Element → List PP → Prop
  | nil : Subst A [] []
  | one (x es o) : Subst A es o → Subst A (.one x :: es) ((A x).exp ++ o)
  | text (x es o) : Subst A es o → Subst A (.text x :: es) ((.T_STRING, (A x).txt) :: o)
  | paste (x xs l es o) : Chain A x xs l → Subst A es o → Subst A (.paste x xs :: es) (l ++ o)

end Verif.MacroSpec
