import Verif.ConstExpr
/-!
Model of the declarations that need constants: enumerators (src/parser/declaration.c:235-299), the
sizes of arrays (656-686) and the widths of bit-fields (388-400).

Simplifications: an expression is already parsed (C29), it is one token here; the symbol table (C25)
is reduced to the enumeration constants that are visible and the names declared in the current
scope; the tag of an enumeration is the subject of C95.
-/
namespace Verif.Enumerators
open Verif Simple ConstExpr

/-- Tokens between the braces of an enumeration; `eq e` is `=` with the expression behind it. -/
inductive ETok where
  | ident (x : Str)
  | eq (e : E)
  | comma
  | rbrace
  | other
  deriving DecidableEq, Repr

/-- What the symbol table says about identifiers. -/
structure Scope where
  /-- the enumeration constants that are visible -/
  names : Str → Option Const
  /-- declared in the current block -/
  here : Str → Bool

/-- `symbols_add_identifier` (src/parser/symbols.c:168-176) for a constant: a second declaration in
the same block is an error (C25). -/
def Scope.add (s : Scope) (x : Str) (c : Const) : Res Scope :=
  if s.here x then .fail
  else .ok ⟨fun y => if y = x then some c else s.names y, fun y => if y = x then true else s.here y⟩

/-- src/arch/x64.c:299-306 `constant_increment`: `NOTIMP` unless the type is a signed integer type;
`int_d++`. -/
def increment (c : Const) : Res Const :=
  if isInteger c.ty then do
    let s ← isSigned c.ty
    if s then do
      let v ← int64 (c.bits.toInt + 1)
      pure { c with bits := v }
    else .fail
  else .fail

/-- declaration.c:242-258: the value of an enumerator and the tokens behind it.  `prev` is `none`
while the variable of the caller is not initialised. -/
def enumValue (abi : Abi) (names : Str → Option Const) (prev : Option Const) (first : Bool) :
    List ETok → Res (Const × List ETok)
  | .eq e :: ts => do
    let t ← build abi names e
    match t.constant? with
    | some c => pure (c, ts)
    | none => .fail
  | ts =>
    if !first then
      match prev with
      | some p => do
        let c ← increment p
        pure (c, ts)
      | none => .ub
    else pure (simpleConst .int 0, ts)

/-- declaration.c:235-272 `parse_enumerator`: the value returned, the scope, `*prev` and the tokens
left. -/
def parseEnumerator (abi : Abi) (s : Scope) (prev : Option Const) (first : Bool) :
    List ETok → Res (Bool × Scope × Option Const × List ETok)
  | .ident x :: ts => do
    let (c, ts) ← enumValue abi s.names prev first ts
    let s ← s.add x c
    match ts with
    | .comma :: ts => pure (true, s, some c, ts)
    | ts => pure (false, s, prev, ts)
  | ts => .ok (false, s, prev, ts)

/-- declaration.c:290-295: the loop, at most `n` times, and the closing brace. -/
def parseEnumerators (abi : Abi) : Nat → Scope → Option Const → Bool → List ETok →
    Res (Scope × List ETok)
  | 0, _, _, _, _ => .fail
  | n + 1, s, prev, first, ts => do
    let (more, s, prev, ts) ← parseEnumerator abi s prev first ts
    if more then parseEnumerators abi n s prev false ts
    else match ts with
      | .rbrace :: ts => pure (s, ts)
      | _ => .fail

/-- declaration.c:288-295: what is between the braces.  A call that returns 1 takes two tokens, so
the number of tokens bounds the number of calls. -/
def parseEnumBody (abi : Abi) (s : Scope) (ts : List ETok) : Res (Scope × List ETok) :=
  parseEnumerators abi (ts.length + 1) s none true ts

/-- `abi_info.size_type` (src/abi/sysv.c:529, src/abi/microsoft.c:266). -/
def sizeType : Abi → ST
  | .sysv => .ulong
  | .ms => .ullong

/-- declaration.c:656-686: the number of elements, `none` for a variable-length array. -/
def arrayLength (abi : Abi) (names : Str → Option Const) (e : E) : Res (Option Nat) := do
  let t ← build abi names e
  let bad ← (match t.constant? with
    | some c => do
      let s ← isSigned c.ty
      pure (s && decide (c.bits.toInt ≤ 0))
    | none => pure false)
  if bad then .fail
  else do
    let l ← castTo abi t (sizeType abi)
    match l.constant? with
    | some c => pure (some c.bits.toNat)
    | none => pure none

/-- declaration.c:388-400: the width of a bit-field, an `int`; -1 stands for no bit-field. -/
def bitWidth (abi : Abi) (names : Str → Option Const) (e : E) : Res Int := do
  let t ← build abi names e
  let t ← castTo abi t .int
  match t.constant? with
  | some c => if c.ty = .int then pure (c.bits.setWidth 32).toInt else .fail
  | none => .fail

end Verif.Enumerators
