import Verif.Declarator
/-!
Model of the members of a structure or union: src/parser/declaration.c:362-430, the list between the braces in
`parse_struct`, with the declarators of Declarator.lean.

Simplifications, beyond those of Declarator.lean:

* the width of a bit-field is one token, a constant with its value (C100, C102) or an expression that is not constant;
* a structure specifier is one token, `spec` with a structure type; the other `spec` tokens stand for keywords (an
  enumeration is not distinguished from `int`), so they leave `data_type` NULL.
-/
namespace Verif.Members
open Verif Simple Declarator
open Verif.Types (Ty Kind)

/-- src/types.h `struct field`: `bitfield` is -1 for an ordinary member. -/
structure Field where
  type : Ty
  name : Option Nat
  bitfield : Int

/-- Is it a structure or union? -/
def isRecord : Ty → Bool
  | .node (.struct _) _ _ => true
  | _ => false

/-- `parse_specifiers(&s.ts, NULL, &s.tq, NULL, &s.as)`, src/parser/declaration.c:98-233: the qualifiers, and the type with
whether `data_type` is set. What `_Alignas` says goes to `s.as`, which is not looked at. -/
def specs (env : Nat → Option Ty) (q : Quals) (ty : Option (Ty × Bool)) (matched : Bool) :
    List DTok → Res (Option (Quals × Option (Ty × Bool)) × List DTok)
  | .qual .const :: r => specs env { q with const := q.const + 1 } ty true r
  | .qual _ :: r => specs env { q with rest := q.rest + 1 } ty true r
  | .alignas _ :: r => specs env q ty true r
  | .kvoid :: r =>
    match ty with
    | none => specs env q (some (.node (.simple .void) false [], false)) true r
    | some _ => .fail
  | .spec t :: r =>
    match ty with
    | none => specs env q (some (t, isRecord t)) true r
    | some _ => .fail
  | .ident n :: r =>
    match ty, env n with
    | none, some t => specs env q (some (t, true)) true r
    | _, _ => .ok (if matched then some (q, ty) else none, .ident n :: r)
  | r => .ok (if matched then some (q, ty) else none, r)

/-- The type of the specifiers and qualifiers; without a type specifier it is an error. -/
def specType (q : Quals) : Option (Ty × Bool) → Run Ty
  | some (t, _) => .ok (applyTq t q)
  | none => .fail

/-- src/parser/declaration.c:393-400: the value of the width, converted to `int`. -/
def width : List DTok → Run (Int × List DTok)
  | .num _ v :: r => .ok ((BitVec.ofInt 32 v).toInt, r)
  | .expr _ :: _ => .fail
  -- no expression: `expression_cast` is given NULL
  | _ => .ub

/-- `TACCEPT(T_COMMA)` -/
def acceptComma : List DTok → List DTok
  | .comma :: r => r
  | r => r

/-- src/parser/declaration.c:373-413: the declarators of one member declaration, and `found_one`. -/
def declarators (env : Nat → Option Ty) (q : Quals) (ty : Option (Ty × Bool)) :
    Nat → List Field → Bool → List DTok → Run (List Field × Bool × List DTok)
  | 0, _, _, _ => .more
  | f + 1, fs, found, toks => do
    let (a, abs, _, r) ← declarator env f none toks
    match a with
    | some a =>
      if abs then .fail
      else do
        let t ← specType q ty
        let (dt, name) ← Run.ofRes (astToType false t a)
        match r with
        | .colon :: r => do
          let t ← specType q ty
          let (w, r) ← width r
          declarators env q ty f (fs ++ [⟨t, name, w⟩]) true (acceptComma r)
        | r => declarators env q ty f (fs ++ [⟨dt, name, -1⟩]) true (acceptComma r)
    | none =>
      match r with
      | .colon :: r => do
        let t ← specType q ty
        let (w, r) ← width r
        declarators env q ty f (fs ++ [⟨t, none, w⟩]) true (acceptComma r)
      | r => .ok (fs, found, r)

/-- src/parser/declaration.c:417-427: a declaration without declarators. -/
def anonymous : Option (Ty × Bool) → Run Field
  | some (t, true) => if isRecord t then .ok ⟨t, none, -1⟩ else .fail
  -- `s.ts.data_type` is NULL
  | _ => .ub

/-- src/parser/declaration.c:368-430: the members up to the closing brace. -/
def members (env : Nat → Option Ty) : Nat → List Field → List DTok → Run (List Field × List DTok)
  | 0, _, _ => .more
  | f + 1, fs, toks => do
    let (s, r) ← Run.ofRes (specs env ⟨0, 0⟩ none false toks)
    match s with
    | none =>
      match r with
      | .rbrace :: r => .ok (fs, r)
      | _ => .fail
    | some (q, ty) => do
      let (fs, found, r) ← declarators env q ty f fs false r
      match r with
      | .semi :: r =>
        if found then members env f fs r
        else do
          let a ← anonymous ty
          members env f (fs ++ [a]) r
      | _ => .fail

end Verif.Members
