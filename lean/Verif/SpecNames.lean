import Verif.Specifiers
/-!
Model of the declaration specifiers with structures, unions, enumerations and typedef names:
src/parser/declaration.c:98-233, 548-599.  A whole `struct`, `union` or `enum` specifier is one
token with the number of its type (C95 is about them).  An identifier carries the type that
`symbols_get_typedef` finds, if any.  `_Alignas` is not modelled: here it ends the sequence.
-/
namespace Verif.SpecNames
open Verif Simple Specifiers

/-- The tokens that specifiers consist of. -/
inductive Tk where
  | kw (t : TType)
  /-- what `parse_struct` or `parse_enum` accepts, and the type that it stores in `data_type` -/
  | tag (ty : Nat)
  /-- an identifier, and `sym->data_type` of 159-163 -/
  | ident (ty : Option Nat)
  deriving DecidableEq, Repr

/-- Tokens left, and `ts->specifiers`, `tq->const_n`, `ts->data_type`, `got_ts`. -/
structure St where
  toks : List Tk
  flags : Flags
  constN : Nat
  data : Option Nat
  got : Bool

/-- The keywords in front: all that the condition 120-131 can look at. -/
def keywords : List Tk → List TType × List Tk
  | .kw t :: r => (t :: (keywords r).1, (keywords r).2)
  | r => ([], r)

/-- declaration.c:98-211 `parse_specifier`; result: whether something was accepted. -/
def parseSpecifier (s : St) : Res (Bool × St) := do
  -- 119-138
  let c ← chain chainTable ⟨(keywords s.toks).1, s.flags, s.constN⟩
  let s' : St := { s with toks := c.toks.map .kw ++ (keywords s.toks).2, flags := c.flags }
  if sameFlags c.flags s.flags = false then
    pure (true, { s' with got := true })
  else
    match s'.toks with
    -- 140-148
    | .tag ty :: r => pure (true, { s' with toks := r, data := some ty, got := true })
    -- 158-169
    | .ident ty :: r =>
      if s'.got then pure (false, s')
      else match ty with
        | some ty => pure (true, { s' with toks := r, data := some ty, got := true })
        | none => pure (false, { s' with got := true })
    -- 154-156, 171-188
    | .kw t :: r =>
      if t = .T_KATOMIC then .fail
      else if t ∈ counted then
        pure (true, { s' with toks := r, constN := if t = .T_KCONST then s'.constN + 1 else s'.constN })
      else pure (false, s')
    | [] => pure (false, s')

/-- The loop 229-231. -/
def loop : Nat → St → Res St
  | 0, _ => .ub
  | n + 1, s => do
    let (b, s) ← parseSpecifier s
    if b then loop n s else pure s

/-- declaration.c:213-233 `parse_specifiers`; every round but the last consumes a token. -/
def parseSpecifiers (toks : List Tk) : Res St :=
  loop (toks.length + 1) ⟨toks, fun _ => false, 0, none, false⟩

/-- A type of 548-599. -/
inductive Named where
  | simple (t : ST)
  | data (n : Nat)
  deriving DecidableEq, Repr

/-- declaration.c:548-599 `specifiers_to_type`. -/
def specifiersToType (s : Flags) (data : Option Nat) : Res Named :=
  match specTable.find? (fun r => sameFlags s (mask r.2)) with
  | some r => .ok (.simple r.1)
  | none =>
    match data with
    | some n => .ok (.data n)
    | none => .fail

/-- The type of the specifiers, and the tokens after them. -/
def typeOf (toks : List Tk) : Res (Named × List Tk) := do
  let s ← parseSpecifiers toks
  let t ← specifiersToType s.flags s.data
  pure (t, s.toks)

end Verif.SpecNames
