import Verif.Basic
/-!
Model of tags: src/parser/declaration.c 274-339 (`parse_enum`) and 341-512 (`parse_struct`), with
`symbols_add_struct`, `symbols_get_struct` and `symbols_get_struct_in_current_scope`
(src/parser/symbols.c 209-229).

Simplifications:

* the symbol table is a list of scopes, the innermost first (that the hash table behaves like this
  is C25);
* of a program only the specifiers with `struct`, `union` and `enum` and the scopes are left (blocks
  and parameter lists, symbols.c 53-68), in the order of the text.  The members of a structure are
  given by the specifiers and scopes that occur in them (their declarators are C93, their layout is
  C19); the enumerators of an enumeration by those that occur in their expressions;
* attributes and packing are left out;
* names are numbers.
-/
namespace Verif.Tags
open Verif

/-- src/parser/symbols.h 59-64. -/
inductive TagKind where
  | struct | union | enum
  deriving DecidableEq, Repr

/-- What is left of a program. -/
inductive Item where
  /-- `struct T`, not followed by a brace; `alone`: followed by a semicolon, without anything else in
  the declaration -/
  | ref (k : TagKind) (t : Nat) (alone : Bool)
  /-- `struct T {` members `}`, or without the tag -/
  | define (k : TagKind) (t : Option Nat) (ms : List Item)
  /-- a block, or a parameter list -/
  | scope (is : List Item)

/-- Names of tags: identifiers, and the names made up in 286-287 and 358-359. -/
inductive Name where
  | ident (n : Nat)
  | anonStruct (n : Nat)
  | anonEnum (n : Nat)
  deriving DecidableEq, Repr

/-- src/parser/symbols.h 58-68 `struct symbol_struct`; `data` is the number of the `struct_data` or
`enum_data`. -/
structure Def where
  kind : TagKind
  data : Nat
  deriving DecidableEq, Repr

/-- The type that a specifier stands for. -/
inductive Den where
  | int
  /-- `TY_STRUCT` with this `struct_data` -/
  | record (data : Nat)
  deriving DecidableEq, Repr

/-- What a specifier in the text stands for, and whether this type is complete there. -/
structure Out where
  den : Den
  complete : Bool
  deriving DecidableEq, Repr

/-- The state. -/
structure St where
  scopes : List (Name → Option Def)
  /-- the number of `struct_data` and `enum_data` made so far -/
  next : Nat
  /-- `struct_data`: the choice of structure or union and the types in its members, if it is
  complete -/
  fields : Nat → Option (TagKind × List Out)
  /-- the two `anonymous_counter` -/
  anonStructs : Nat
  anonEnums : Nat

/-- The start of a translation unit. -/
def init : St := ⟨[fun _ => none], 0, fun _ => none, 0, 0⟩

/-- src/parser/symbols.c 154-156 `symbols_get`. -/
def get : List (Name → Option Def) → Name → Option Def
  | [], _ => none
  | s :: r, n =>
    match s n with
    | some d => some d
    | none => get r n

/-- src/parser/symbols.c 158-162 `symbols_get_in_current_scope`. -/
def getCurrent : List (Name → Option Def) → Name → Option Def
  | [], _ => none
  | s :: _, n => s n

/-- src/parser/symbols.c 145-152 `symbols_add`. -/
def add (st : St) (n : Name) (d : Def) : Res St :=
  match st.scopes with
  | [] => .fail
  | s :: r => if (s n).isSome then .fail else .ok { st with scopes := (fun m => if m = n then some d else s m) :: r }

/-- src/types.c 178-184 `register_struct`, `register_enum`: a new number. -/
def register (st : St) : Nat × St := (st.next, { st with next := st.next + 1 })

/-- declaration.c 455-468: the fields are written. -/
def setFields (st : St) (data : Nat) (v : Option (TagKind × List Out)) : St :=
  { st with fields := fun m => if m = data then v else st.fields m }

/-- The type of a specifier. -/
def typeOf (st : St) (data : Nat) : Out := ⟨.record data, (st.fields data).isSome⟩

/-- declaration.c 481-510: `struct T` without a brace. -/
def structRef (k : TagKind) (n : Name) (st : St) : Res (St × Out) :=
  match get st.scopes n with
  | none => do
    let (data, st) := register st
    let st ← add (setFields st data none) n ⟨k, data⟩
    .ok (st, typeOf st data)
  | some d => if d.kind ≠ k then .fail else .ok (st, typeOf st d.data)

/-- declaration.c 428-479: after the closing brace; `o` are the types in the members. -/
def structDefine (k : TagKind) (n : Name) (o : List Out) (st : St) : Res (St × Out) :=
  match getCurrent st.scopes n with
  | none => do
    let (data, st) := register st
    let st ← add st n ⟨k, data⟩
    let st := setFields st data (some (k, o))
    .ok (st, typeOf st data)
  | some d =>
    if d.kind ≠ k then .fail
    else if (st.fields d.data).isSome then .fail
    else
      let st := setFields st d.data (some (k, o))
      .ok (st, typeOf st d.data)

/-- declaration.c 320-336: `enum T` without a brace. -/
def enumRef (n : Name) (st : St) : Res (St × Out) :=
  match get st.scopes n with
  | none => do
    let (data, st) := register st
    let st ← add st n ⟨.enum, data⟩
    .ok (st, ⟨.int, true⟩)
  | some d => if d.kind ≠ .enum then .fail else .ok (st, ⟨.int, true⟩)

/-- declaration.c 297-319: after the closing brace.  `is_complete` is never set. -/
def enumDefine (n : Name) (st : St) : Res (St × Out) :=
  match getCurrent st.scopes n with
  | none => do
    let (data, st) := register st
    let st ← add st n ⟨.enum, data⟩
    .ok (st, ⟨.int, true⟩)
  | some d => if d.kind ≠ .enum then .fail else .ok (st, ⟨.int, true⟩)

/-- declaration.c 280-288 and 352-360: the name, or a name that is made up. -/
def nameOf (k : TagKind) (t : Option Nat) (st : St) : Name × St :=
  match t with
  | some t => (.ident t, st)
  | none =>
    if k = .enum then (.anonEnum st.anonEnums, { st with anonEnums := st.anonEnums + 1 })
    else (.anonStruct st.anonStructs, { st with anonStructs := st.anonStructs + 1 })

mutual
/-- `parse_struct` or `parse_enum`, or a scope: the types of the specifiers in it, in the order of
the text. -/
def item : Item → St → Res (St × List Out)
  | .ref k t _, st => do
    let (st, o) ← (if k = .enum then enumRef (.ident t) st else structRef k (.ident t) st)
    .ok (st, [o])
  | .define k t ms, st => do
    let (n, st) := nameOf k t st
    let (st, os) ← items ms st
    let (st, o) ← (if k = .enum then enumDefine n st else structDefine k n os st)
    .ok (st, o :: os)
  | .scope is, st => do
    let (st, os) ← items is { st with scopes := (fun _ => none) :: st.scopes }
    .ok ({ st with scopes := st.scopes.tail }, os)

/-- One after the other. -/
def items : List Item → St → Res (St × List Out)
  | [], st => .ok (st, [])
  | i :: is, st => do
    let (st, o) ← item i st
    let (st, os) ← items is st
    .ok (st, o ++ os)
end

end Verif.Tags
