import Verif.StaticInit
/-!
Model of a command with several C files (src/main.c:122-219 `compile_file`, called for every operand
at 306-318): what one file leaves behind for the next.

After a file `preprocessor_reset`, `ir_reset`, `asm_reset` and `parser_reset` are called
(src/main.c:214-218).  They do not touch the labels and the static variables of
src/codegen/rodata.c:25-26 and 95-96, the counters of temporary labels
(src/codegen/rodata.c:82-85) and of static variables in blocks (src/parser/declaration.c:1347), and
`parser_reset` frees `packs` without forgetting the pointer (src/parser/parser.c:21-26).  These are
the state here.  What the resets do clear is taken to be as at the start.

A file is given by what its parsing registers and by the assembler calls of its functions, with
labels in place of numbers.  A static variable is given by the pieces of its image (C48 says how an
initialiser becomes one); initialisers with compound literals are left out.  Only the output as an
object is modelled, not as assembly text.
-/
namespace Verif.Session
open Verif Object

/-- A label in a file: of a string, of an identifier, of the `k`-th static variable in a block of
the file, the `k`-th temporary label of the file. -/
inductive Lab where
  | string (s : Name)
  | name (n : Name)
  | localVar (k : Nat) (n : Name)
  | tmp (k : Nat)
  deriving DecidableEq, Repr, Inhabited

/-- An assembler call of a function: code, a reference, a label. -/
inductive FOp where
  | code (bs : List Byte)
  | refer (l : Lab) (offset : Nat) (add : BitVec 64) (type : RelType)
  | label (global : Bool) (l : Lab)
  deriving Repr, Inhabited

/-- A piece of the image of a static variable: bytes, zeros, an address. -/
inductive Piece where
  | bytes (bs : List Byte)
  | zero (n : Nat)
  | addr (l : Lab) (add : BitVec 64)
  deriving Repr, Inhabited

/-- A static variable of a file. -/
structure SVar where
  label : Lab
  global : Bool
  align : Nat
  image : List Piece
  deriving Repr, Inhabited

/-- A file: the labels its parsing registers in order, the calls of its functions, its static
variables, the number of temporary labels and of static variables in blocks, and the number of
`#pragma pack(push)`. -/
structure File where
  regs : List Lab
  code : List FOp
  vars : List SVar
  tmps : Nat
  locals : Nat
  pushes : Nat
  deriving Repr, Inhabited

/-- src/codegen/rodata.c:87-93 `struct static_var`; the image is what `codegen_initializer` calls. -/
structure Var where
  label : Int
  global : Bool
  align : Nat
  image : List Op
  deriving Repr, Inhabited

/-- The pointer `packs` (src/parser/parser.c:14). -/
inductive Ptr where
  | null | live | freed
  deriving DecidableEq, Repr, Inhabited

/-- What survives from file to file. -/
structure G where
  /-- src/codegen/rodata.c:25-26 `entries` -/
  entries : List Entry := []
  /-- src/codegen/rodata.c:95-96 `static_vars` -/
  vars : List Var := []
  /-- src/codegen/rodata.c:83: temporary labels made so far -/
  tmp : Nat := 0
  /-- src/parser/declaration.c:1347 `local_var` -/
  localVar : Nat := 0
  packs : Ptr := .null

/-- What a label is registered as; a temporary label is not. -/
def Lab.req (localVar : Nat) : Lab → Option (EntryType × Name)
  | .string s => some (.str, s)
  | .name n => some (.labelName, n)
  | .localVar k n => some (.labelName, localVarName (localVar + k) n)
  | .tmp _ => none

/-- src/codegen/rodata.c:28-44, 82-85: the number of a label. -/
def Lab.id (tmp localVar : Nat) (es : List Entry) : Lab → Int
  | .string s => (labelRegister es .str s).2
  | .name n => (labelRegister es .labelName n).2
  | .localVar k n => (labelRegister es .labelName (localVarName (localVar + k) n)).2
  | .tmp k => -(2 + tmp + k : Nat)

/-- The registrations of a file in order. -/
def register (localVar : Nat) : List Entry → List Lab → List Entry
  | es, [] => es
  | es, l :: ls =>
    match l.req localVar with
    | some (t, n) => register localVar (labelRegister es t n).1 ls
    | none => register localVar es ls

/-- A call of a function with the numbers of the labels. -/
def FOp.op (id : Lab → Int) : FOp → Op
  | .code bs => .write bs
  | .refer l offset add type => .reloc (id l) offset add type
  | .label global l => .label global (id l)

/-- The calls for a piece (src/codegen/rodata.c:276-297, 316). -/
def Piece.ops (id : Lab → Int) : Piece → List Op
  | .bytes bs => [.write bs]
  | .zero n => [.zero n]
  | .addr l add => StaticInit.asmQuad (id l) add

/-- src/codegen/rodata.c:98-106 `data_register_static_var`. -/
def SVar.register (id : Lab → Int) (v : SVar) : Var :=
  ⟨id v.label, v.global, v.align, v.image.flatMap (Piece.ops id)⟩

/-- src/codegen/rodata.c:304-326 `codegen_static_var`. -/
def codegenVar (v : Var) : List Op :=
  .sect (str ".data") :: .align v.align :: .label v.global v.label :: v.image ++ [.sect (str ".text")]

/-- src/codegen/rodata.c:328-332 `data_codegen`. -/
def dataCodegen (vars : List Var) : List Op := vars.flatMap codegenVar

/-- src/common.h:28 `ADD_ELEMENT` on `packs` (src/parser/parser.c:53): `realloc` of the pointer. -/
def push : Nat → Ptr → Res Ptr
  | 0, p => .ok p
  | n + 1, p => match p with
    | .freed => .ub
    | _ => push n .live

/-- src/parser/parser.c:24 `free(packs)`. -/
def free : Ptr → Res Ptr
  | .null => .ok .null
  | .live => .ok .freed
  | .freed => .ub

/-- src/main.c:122-219 `compile_file`: the file is parsed, `codegen` (src/codegen/codegen.c:706-714)
makes the object from the functions of this file, all strings and all static variables, and
`parser_reset` ends it. -/
def compile (g : G) (f : File) : Res (G × Obj) := do
  let packs ← push f.pushes g.packs
  let es := register g.localVar g.entries f.regs
  let id := Lab.id g.tmp g.localVar es
  let vars := g.vars ++ f.vars.map (SVar.register id)
  let o ← run es objectStart (f.code.map (FOp.op id) ++ rodataCodegen es ++ dataCodegen vars)
  let packs ← free packs
  .ok (⟨es, vars, g.tmp + f.tmps, g.localVar + f.locals, packs⟩, objectFinish o)

/-- src/main.c:306-318: the files in order. -/
def session : G → List File → Res (List Obj)
  | _, [] => .ok []
  | g, f :: fs => do
    let (g, o) ← compile g f
    let os ← session g fs
    .ok (o :: os)

end Verif.Session
