import Verif.Types
/-!
Model of the declarations of objects with static storage in src/parser/declaration.c: the part of
`parse_init_declarator` after the declarator (1246-1394) and `generate_tentative_definitions`
(1443-1455), with `data_register_static_var` (src/codegen/rodata.c:98-106).

The declarator and the specifiers are given already read (C27): the name, the type it gives, and
whether `static` and `extern` were among the specifiers.  An initialiser is given by a number that
names it and by how many elements it gives to an array of unknown size (declaration.c:940-949 and
1161-1180).  The symbols of file scope are a map from names (C25).  A block-scope declaration looks
up only its own block (1257, `symbols_get_identifier_in_current_scope`); it is taken to be the
first of its name there.  Functions bodies, type definitions and variable length arrays register no
static variable and are left out.
-/
namespace Verif.Tentative
open Verif Types

/-- The bytes of a name. -/
abbrev Str := List Byte

/-- One declarator with its initialiser. -/
structure Decl where
  name : Str
  type : Ty
  /-- `s.scs.static_n` -/
  isStatic : Bool
  /-- `s.scs.extern_n` -/
  isExtern : Bool
  /-- the initialiser and the number of elements it has at its top level -/
  init : Option (Nat × Nat)
  /-- `s.as.alignment` -/
  alignment : Nat

/-- A declaration of an object or a function: at file scope, or in a block. -/
inductive Item where
  | file (d : Decl)
  | block (d : Decl)

/-- src/parser/symbols.h:21-46 `struct symbol_identifier` of a label. -/
structure Sym where
  type : Ty
  isTentative : Bool
  isGlobal : Bool
  hasDefinition : Bool
  alignment : Nat

/-- src/codegen/rodata.c:87-93 `struct static_var`; `init = none` is INIT_EMPTY. -/
structure Var where
  label : Str
  type : Ty
  init : Option Nat
  isGlobal : Bool
  alignment : Nat

/-- The variables of the functions: the symbols of file scope, `potentially_tentative` (1211-1214),
`static_vars` (src/codegen/rodata.c:95) and `local_var` (1348). -/
structure St where
  syms : Str → Option Sym
  names : List Str
  vars : List Var
  localVar : Nat

/-- The state at the start of the translation unit. -/
def St.start : St := ⟨fun _ => none, [], [], 0⟩

/-- Give a name a symbol. -/
def setSym (f : Str → Option Sym) (x : Str) (s : Sym) : Str → Option Sym :=
  fun y => if y = x then some s else f y

/-- `type->type`. -/
def tag : Ty → Tag
  | .node k _ _ => k.tag

/-- src/parser/declaration.c:940-949, 1161-1180: the initialiser completes an array of unknown
size; other types are unchanged. -/
def complete (n : Nat) : Ty → Ty
  | .node .incompleteArray c children => .node (.array n) c children
  | t => t

/-- `%d` of printf for a number that is not negative. -/
def decimal (n : Nat) : Str :=
  if n < 10 then [BitVec.ofNat 8 (48 + n)] else decimal (n / 10) ++ [BitVec.ofNat 8 (48 + n % 10)]

/-- src/parser/declaration.c:1349 `.LVAR%d%.*s`. -/
def localLabel (n : Nat) (name : Str) : Str :=
  [46, 76, 86, 65, 82] ++ (decimal n ++ name)

/-- src/parser/declaration.c:1256-1276: the composite with an earlier declaration. -/
def agree (prev : Option Sym) (t : Ty) : Res Ty :=
  match prev with
  | none => .ok t
  | some p =>
    match composite t p.type with
    | some c => .ok c
    | none => .fail

/-- src/parser/declaration.c:1258, 1261: `prev_definition`. -/
def hasDefinition (prev : Option Sym) : Bool :=
  match prev with
  | some p => p.hasDefinition
  | none => false

/-- src/parser/declaration.c:1256-1394 `parse_init_declarator (s, 1, …)` after the declarator. -/
def fileDeclarator (d : Decl) (st : St) : Res St := do
  let prev := st.syms d.name
  let prevDefinition := hasDefinition prev
  let type ← agree prev d.type
  -- 1281-1293
  if tag type = .function then
    if d.init.isSome then .fail
    else
      let sym : Sym := match prev with
        | some p => { p with type := type }
        | none => ⟨type, false, false, false, 0⟩
      .ok { st with syms := setSym st.syms d.name sym }
  -- 1300-1301
  else if d.isExtern && d.init.isSome then .fail
  else
    -- 1306-1319
    let isGlobal := !d.isStatic
    let hasDefinition := !d.isExtern && d.init.isSome
    let isTentative := !d.isExtern && !d.init.isSome
    -- 1332-1340
    let sym : Sym :=
      if prevDefinition = false then ⟨type, isTentative, isGlobal, hasDefinition, d.alignment⟩
      else
        match prev with
        | some p => { p with type := type, alignment := d.alignment
                             isTentative := if !isTentative && hasDefinition then false else p.isTentative }
        | none => ⟨type, isTentative, isGlobal, hasDefinition, d.alignment⟩
    -- 1341-1342
    let names := if isTentative && !prevDefinition then st.names ++ [d.name] else st.names
    if hasDefinition then
      -- 1345-1360
      let type := match d.init with
        | some (_, n) => complete n type
        | none => type
      .ok { st with
            syms := setSym st.syms d.name { sym with type := type }
            names := names
            vars := st.vars ++ [⟨d.name, type, d.init.map (·.1), isGlobal, sym.alignment⟩] }
    else
      -- 1387-1391
      .ok { st with syms := setSym st.syms d.name sym, names := names }

/-- src/parser/declaration.c:1256-1394 `parse_init_declarator (s, 0, …)` after the declarator. -/
def blockDeclarator (d : Decl) (st : St) : Res St :=
  if tag d.type = .function then
    if d.init.isSome || d.isStatic then .fail else .ok st
  else if d.isExtern && d.init.isSome then .fail
  else if !d.isExtern && d.isStatic then
    let type := match d.init with
      | some (_, n) => complete n d.type
      | none => d.type
    .ok { st with
          localVar := st.localVar + 1
          vars := st.vars ++ [⟨localLabel st.localVar d.name, type, d.init.map (·.1), false, d.alignment⟩] }
  else .ok st

/-- One declaration. -/
def item (i : Item) (st : St) : Res St :=
  match i with
  | .file d => fileDeclarator d st
  | .block d => blockDeclarator d st

/-- src/parser/parser.c:90: all declarations in order. -/
def items : List Item → St → Res St
  | [], st => .ok st
  | i :: is, st => do items is (← item i st)

/-- src/parser/declaration.c:1443-1455 `generate_tentative_definitions`. -/
def tentative : List Str → St → St
  | [], st => st
  | x :: xs, st =>
    match st.syms x with
    | some s =>
      if s.isTentative then
        tentative xs { st with
          syms := setSym st.syms x { s with isTentative := false }
          vars := st.vars ++ [⟨x, s.type, none, s.isGlobal, s.alignment⟩] }
      else tentative xs st
    | none => tentative xs st

/-- src/parser/parser.c:89-96 `parse_into_ir`: the static variables registered. -/
def unit (is : List Item) : Res (List Var) := do
  let st ← items is St.start
  .ok (tentative st.names st).vars

end Verif.Tentative
