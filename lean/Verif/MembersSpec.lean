import Verif.DeclaratorSpec
/-!
The members of a structure or union: ISO C17 6.7.2.1, independent of the model, on the declarators of DeclaratorSpec.lean.
-/
namespace Verif.MembersSpec
open Verif Simple DeclaratorSpec
open Verif.Types (Ty Kind)
open Verif.Declarator (Qual DTok Size)

/-- struct-declarator -/
inductive MD where
  | plain (d : D)
  /-- a bit-field, without a name if `d` is empty -/
  | bits (d : D) (sgn : Bool) (width : Int)

/-- struct-declaration; without declarators it is an anonymous structure or union -/
structure M where
  /-- `_Alignas(n)` -/
  align : Option Nat := none
  spec : Spec
  ds : List MD

/-! ### Tokens -/

def MD.toks : MD → List DTok
  | .plain d => d.toks
  | .bits d s w => d.toks ++ [.colon, .num s w]

/-- With commas between them. -/
def listToks : List MD → List DTok
  | [] => []
  | [m] => m.toks
  | m :: ms => m.toks ++ .comma :: listToks ms

def M.toks (m : M) : List DTok :=
  (match m.align with | some n => [.alignas n] | none => []) ++ m.spec.toks ++ listToks m.ds ++ [.semi]

/-! ### Meaning -/

/-- A member: its type, its name, its width if it is a bit-field, and the alignment that is asked for. -/
structure Member where
  type : Ty
  name : Option Nat
  width : Option Int
  align : Option Nat

def MD.member (a : Option Nat) (t : Ty) : MD → Member
  | .plain d => ⟨d.denote t, d.name?, none, a⟩
  -- 6.7.2.1p12: the declarator of a bit-field declares its type like any other
  | .bits d _ w => ⟨d.denote t, d.name?, some w, a⟩

/-- 6.7.2.1p13: an anonymous structure is an unnamed member with the type of the specifiers. -/
def M.members (m : M) : List Member :=
  if m.ds.isEmpty then [⟨m.spec.type, none, none, m.align⟩] else m.ds.map (MD.member m.align m.spec.type)

/-! ### Valid declarations -/

/-- Is it a structure or union type? -/
def Record (t : Ty) : Prop := ∃ i c l, t = .node (.struct i) c l

/-- 6.7.2.1p4, p5: a bit-field has an integer type, so there is nothing but the name in its declarator; its width is
not negative, and at most that of the type. -/
def MD.Valid (env : Nat → Option Ty) : MD → Prop
  | .plain d => d.Valid env false ∧ d.name? ≠ none
  | .bits d _ w => d.Valid env false ∧ d.bare = true ∧ (d.name? = none → d = .empty) ∧ 0 ≤ w ∧ w ≤ 64

/-- A declaration without declarators is one of a structure or union. -/
def M.Valid (env : Nat → Option Ty) (m : M) : Prop :=
  m.spec.Valid env ∧ (∀ d ∈ m.ds, d.Valid env) ∧ (m.ds = [] → ∃ t, m.spec.ty = .type t ∧ Record t)

end Verif.MembersSpec
