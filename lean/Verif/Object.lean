import Verif.Basic
/-!
The object under construction (src/linker/object.c, src/linker/object.h) and the labels
(src/codegen/rodata.c:16-85).

Names are C strings (lists of bytes without NUL).  Allocation always succeeds; sizes and counts are
unbounded.  `current_object` and `current_section` are the state `Obj`, `entries` is a parameter.
-/
namespace Verif.Object
open Verif

/-- A C string. -/
abbrev Name := List Byte

/-- The bytes of a C string literal. -/
def str (s : String) : Name := s.toList.map ch

/-- src/linker/object.h:9-13 `enum relocation_type`. -/
inductive RelType where
  | r64 | r32 | r32rel
  deriving DecidableEq, Repr, Inhabited

/-- src/linker/object.h:8-18 `struct object_relocation`. -/
structure Relocation where
  type : RelType
  idx : Nat
  offset : BitVec 64
  add : BitVec 64
  deriving DecidableEq, Repr, Inhabited

/-- src/linker/object.h:20-29 `struct section`. -/
structure Section where
  name : Option Name
  alignment : Nat := 0
  data : List Byte := []
  relocs : List Relocation := []
  deriving DecidableEq, Repr, Inhabited

/-- src/linker/object.h:31-39 `struct symbol`; `section == -1` is `none`. -/
structure Symbol where
  name : Option Name
  value : BitVec 64 := 0
  size : BitVec 64 := 0
  global : Bool := false
  sect : Option Nat := none
  deriving DecidableEq, Repr, Inhabited

/-- src/linker/object.h:41-47 `struct object` with src/linker/object.c:8-9
`current_section`. -/
structure Obj where
  sections : List Section := []
  symbols : List Symbol := []
  cur : Nat := 0
  deriving DecidableEq, Repr, Inhabited

/-! ### Labels -/

/-- src/codegen/rodata.c:17-20 `enum entry_type`. -/
inductive EntryType where
  | str | labelName
  deriving DecidableEq, Repr, Inhabited

/-- src/codegen/rodata.c:16-23 `struct entry`; the `id` is always the index in `entries`. -/
structure Entry where
  type : EntryType
  name : Name
  deriving DecidableEq, Repr, Inhabited

/-- src/codegen/rodata.c:29-34 the search of `label_register` from index `i`. -/
def findEntry (type : EntryType) (s : Name) : List Entry → Nat → Option Nat
  | [], _ => none
  | e :: es, i => if e.name = s ∧ e.type = type then some i else findEntry type s es (i + 1)

/-- src/codegen/rodata.c:28-44 `label_register`; `rodata_register` (46-48) is the type `str`,
`register_label_name` (78-80) the type `labelName`. -/
def labelRegister (es : List Entry) (type : EntryType) (s : Name) : List Entry × Nat :=
  match findEntry type s es 0 with
  | some i => (es, i)
  | none => (es ++ [⟨type, s⟩], es.length)

/-- Decimal digits, as `%d` prints a non-negative number. -/
def dec (n : Nat) : Name :=
  if n < 10 then [BitVec.ofNat 8 (48 + n)] else dec (n / 10) ++ [BitVec.ofNat 8 (48 + n % 10)]

/-- src/codegen/rodata.c:50-64 `rodata_get_label` with `n == 64`.  `label_id` is `Int`
(no overflow at `INT_MIN`); an `id` past the entries is read out of bounds. -/
def getLabel (es : List Entry) (id : Int) : Res Name :=
  let check (n : Name) : Res Name := if n.length ≥ 64 then .fail else .ok n
  if id < 0 then check (str ".L" ++ dec (-id).toNat)
  else match es[id.toNat]? with
    | some ⟨.str, _⟩ => check (str ".Ls" ++ dec id.toNat)
    | some ⟨.labelName, n⟩ => check (n.takeWhile (· ≠ 0))
    | none => .ub

/-- src/parser/declaration.c:1347-1348 the name of the `n`-th static variable in block scope. -/
def localVarName (n : Nat) (name : Name) : Name := str ".LVAR" ++ dec n ++ name

/-! ### The object -/

/-- src/linker/object.c:16-20 the search of `get_symbol` from index `i`. -/
def findSymbol (n : Name) : List Symbol → Nat → Option Nat
  | [], _ => none
  | s :: ss, i => if s.name = some n then some i else findSymbol n ss (i + 1)

/-- src/linker/object.c:11-37 `get_symbol`. -/
def getSymbol (es : List Entry) (o : Obj) (label : Int) : Res (Obj × Nat) := do
  let n ← getLabel es label
  match findSymbol n o.symbols 0 with
  | some i => .ok (o, i)
  | none =>
    let s : Symbol := { name := if label ≠ -1 then some n else none }
    .ok ({ o with symbols := o.symbols ++ [s] }, o.symbols.length)

/-- src/linker/object.c:58-63 the search of `object_set_section` from index `i`; a section
without a name would be read through NULL, but sections made here have names. -/
def findSection (n : Name) : List Section → Nat → Option Nat
  | [], _ => none
  | s :: ss, i => if s.name = some n then some i else findSection n ss (i + 1)

/-- src/linker/object.c:57-73 `object_set_section`. -/
def setSection (o : Obj) (n : Name) : Obj :=
  match findSection n o.sections 0 with
  | some i => { o with cur := i }
  | none => { o with sections := o.sections ++ [{ name := some n }], cur := o.sections.length }

/-- src/linker/object.c:39-43 `object_start`. -/
def objectStart : Obj := setSection {} (str ".text")

/-- An update through `&current_object.sections[current_section]`. -/
def onSection (o : Obj) (f : Section → Section) : Res Obj :=
  match o.sections[o.cur]? with
  | some s => .ok { o with sections := o.sections.set o.cur (f s) }
  | none => .ub

/-- src/linker/object.c:75-80 `object_write`; `object_write_byte` (82-85) is one byte,
`object_write_zero` (98-101) zeros. -/
def write (o : Obj) (bs : List Byte) : Res Obj :=
  onSection o fun s => { s with data := s.data ++ bs }

/-- src/linker/object.c:87-96 `object_write_quad`. -/
def writeQuad (o : Obj) (v : BitVec 64) : Res Obj := do
  let o ← write o [v.setWidth 8]
  let o ← write o [(v >>> 8).setWidth 8]
  let o ← write o [(v >>> 16).setWidth 8]
  let o ← write o [(v >>> 24).setWidth 8]
  let o ← write o [(v >>> 32).setWidth 8]
  let o ← write o [(v >>> 40).setWidth 8]
  let o ← write o [(v >>> 48).setWidth 8]
  write o [(v >>> 56).setWidth 8]

/-- src/linker/object.c:103-111 `object_align`; a zero alignment divides by zero. -/
def align (o : Obj) (alignment : Nat) : Res Obj :=
  match o.sections[o.cur]? with
  | none => .ub
  | some s =>
    if alignment = 0 then .ub
    else
      let remainder := s.data.length % alignment
      if remainder = 0 then .ok o
      else do
        let o ← write o (List.replicate (alignment - remainder) 0)
        onSection o fun s => { s with alignment := max s.alignment alignment }

/-- src/linker/object.c:113-127 `object_symbol_relocate`.  The callers (src/assembler/assembler.c)
pass offsets that are not negative. -/
def symbolRelocate (es : List Entry) (o : Obj) (label : Int) (offset : Nat) (add : BitVec 64)
    (type : RelType) : Res Obj := do
  let (o, idx) ← getSymbol es o label
  onSection o fun s =>
    { s with relocs := s.relocs ++ [⟨type, idx, BitVec.ofNat 64 (s.data.length + offset), add⟩] }

/-- src/linker/object.c:129-139 `object_symbol_set`. -/
def symbolSet (es : List Entry) (o : Obj) (label : Int) (global : Bool) : Res Obj :=
  match o.sections[o.cur]? with
  | none => .ub
  | some s => do
    let (o, idx) ← getSymbol es o label
    match o.symbols[idx]? with
    | none => .ub
    | some y =>
      let y' : Symbol :=
        { y with sect := some o.cur, value := BitVec.ofNat 64 s.data.length, global := global }
      .ok { o with symbols := o.symbols.set idx y' }

/-- src/linker/object.c:45-55 `object_finish`. -/
def objectFinish (o : Obj) : Obj :=
  { o with symbols := o.symbols.map fun s => if s.sect = none then { s with global := true } else s }

/-! ### The assembler on top of it -/

/-- The calls that the assembler makes (src/assembler/assembler.c). -/
inductive Op where
  | sect (name : Name)
  | write (bs : List Byte)
  | quad (v : BitVec 64)
  | zero (n : Nat)
  | align (n : Nat)
  | label (global : Bool) (id : Int)
  | reloc (id : Int) (offset : Nat) (add : BitVec 64) (type : RelType)
  deriving DecidableEq, Repr, Inhabited

/-- One call. -/
def step (es : List Entry) (o : Obj) : Op → Res Obj
  | .sect n => .ok (setSection o n)
  | .write bs => write o bs
  | .quad v => writeQuad o v
  | .zero n => write o (List.replicate n 0)
  | .align n => align o n
  | .label global id => symbolSet es o id global
  | .reloc id offset add type => symbolRelocate es o id offset add type

/-- A sequence of calls. -/
def run (es : List Entry) : Obj → List Op → Res Obj
  | o, [] => .ok o
  | o, op :: ops => do run es (← step es o op) ops

/-- src/assembler/assembler.c:107-119 `asm_string` when writing an object. -/
def asmString (s : Name) : List Op := [.write s, .write [0]]

/-- src/codegen/rodata.c:66-76 `rodata_codegen` from entry `i`. -/
def rodataEntries : List Entry → Nat → List Op
  | [], _ => []
  | e :: es, i =>
    (if e.type = .str then .label false i :: asmString e.name else []) ++ rodataEntries es (i + 1)

/-- src/codegen/rodata.c:66-76 `rodata_codegen`. -/
def rodataCodegen (es : List Entry) : List Op := .sect (str ".rodata") :: rodataEntries es 0

end Verif.Object
