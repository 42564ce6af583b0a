import Verif.Arguments
/-!
Model of src/main.c: `main`, `compile_file`, `preprocess_file` and what they call to set up a
translation, on the arguments as src/arguments.c gives them (Verif/Arguments.lean).

The translation of one file is a parameter: `World.accepts` says whether the phases from
`preprocessor_init` to `codegen` end normally for a source with these include directories, macros and
flags; the contents of what is written are named by that source.  That one translation is not disturbed
by those before it is the subject of C106, not of this file.  So are `linker_link` and
`elf_read_object` (parameters `links` and `object`).  The messages on the standard output (293, 296,
104, 114, 326) and `export_dot` (164-165) are left out.  The table of macros is a function from names
to their values (C06: the hash table behaves like this); the values are kept as texts.
-/
namespace Verif.Driver
open Verif Arguments

/-- The table of macros: the text of the value of a name. -/
abbrev Macros := Str → Option Str

/-- src/preprocessor/macro_expander.c:104-108 `define_string`, with `define_map_add` (48-65): an
existing definition is replaced. -/
def defineString (n v : Str) (m : Macros) : Macros := fun k => if k = n then some v else m k

/-- src/preprocessor/preprocessor.c:48-51 `define_remove`. -/
def defineRemove (n : Str) (m : Macros) : Macros := fun k => if k = n then none else m k

/-- What src/main.c:92-117 `set_flags` sets: `codegen_flags` (src/codegen/codegen.h:12-16; start
values src/codegen/codegen.c:16-19), `abi`, `mingw_workarounds` (config.def.h:14-19) and
`dump_ir_path`. -/
structure Flags where
  large : Bool := false
  debugStack : Bool := false
  debugMin : Int := 0
  ms : Bool := false
  mingw : Bool := false
  dump : Option Str := none
  deriving DecidableEq, Repr

/-- src/main.c:93-116: one round of the loop of `set_flags`. -/
def setFlag (flag : Str) (f : Flags) : Run Flags :=
  if flag = str "cmodel=small" then .ok { f with large := false }
  else if flag = str "cmodel=large" then .ok { f with large := true }
  else if flag.take 16 = str "debug-stack-size" then
    -- `flag[16]` is the terminating NUL if nothing follows
    match flag.drop 16 with
    | c :: v => if c = ch '=' then do
        let n ← atoi v
        .ok { f with debugStack := true, debugMin := n }
      else .ok { f with debugStack := true }
    | [] => .ok { f with debugStack := true }
  else if flag = str "abi=ms" then .ok { f with ms := true }
  else if flag = str "abi=sysv" then .ok { f with ms := false }
  else if flag = str "mingw-workarounds" then .ok { f with mingw := true }
  else if flag.take 8 = str "dump-ir=" then .ok { f with dump := some (flag.drop 8) }
  else .ok f

/-- src/main.c:92-117 `set_flags`. -/
def setFlags : List Str → Flags → Run Flags
  | [], f => .ok f
  | s :: l, f => do
    let f ← setFlag s f
    setFlags l f

/-- A source with all that its translation depends on. -/
structure Src where
  path : Str
  includes : List Str
  macros : Macros
  flags : Flags

/-- An object: of a source, or read from a file. -/
inductive Obj where
  | compiled (s : Src)
  | read (path : Str)
  /-- the object `{ 0 }` of src/main.c:172 -/
  | zero

/-- What a file contains. -/
inductive Content where
  /-- assembly -/
  | text (s : Src)
  | elf (o : Obj)
  | coff (o : Obj)
  | executable (os : List Obj)
  /-- the target and the files that have been opened -/
  | deps (target : Str) (files : List Str)

/-- What `fopen` and `read_header` find at the path of an object file. -/
inductive Found where
  | missing | notElf | object
  deriving DecidableEq

/-- The surroundings of the program. -/
structure World where
  date : Str
  time : Str
  accepts : Src → Bool
  /-- the files that are opened for a source, in order -/
  reads : Src → List Str
  object : Str → Found
  links : List Obj → Bool
  /-- `fopen(path, "w")` succeeds -/
  writable : Str → Bool

/-- What has happened so far: what has been printed for sources with `-E`, the files that have been
written in order, and the objects of src/main.c:119-120. -/
structure St where
  printed : List Src := []
  written : List (Str × Content) := []
  objects : List Obj := []

/-- src/main.c:32-50 `add_implementation_defs`; the texts of the date and the time are parameters. -/
def addImplementationDefs (w : World) (m : Macros) : Macros :=
  let m := defineString (str "NULL") (str "(void*)0") m
  let m := defineString (str "__DATE__") w.date m
  let m := defineString (str "__TIME__") w.time m
  let m := defineString (str "__STDC__") (str "1") m
  let m := defineString (str "__FUNCTION__") (str "__func__") m
  let m := defineString (str "__STDC_HOSTED__") (str "0") m
  let m := defineString (str "__STDC_VERSION__") (str "201710L") m
  defineString (str "__x86_64__") (str "1") m

/-- The definitions of src/abi/microsoft.c:290-313 `abi_init_mingw_workarounds`, in order. -/
def mingwDefs : List (Str × Str) :=
  [(str "_VA_LIST_DEFINED", str "1"), (str "_crt_va_start", str "__builtin_va_start"), (str "_crt_va_end", str "__builtin_va_end"),
   (str "_crt_va_arg", str "__builtin_va_arg"), (str "_crt_va_copy", str "__builtin_va_copy"), (str "_CRTIMP", []), (str "_SECIMP", []),
   (str "__MINGW_IMPORT", []), (str "__CRT__NO_INLINE", str "1"), (str "__cdecl", []), (str "__forceinline", str "static inline"),
   (str "__inline", str "inline"), (str "__int8", str "int"), (str "__int16", str "short"), (str "__int32", str "int"),
   (str "__int64", str "long long"), (str "__cdecl", []), (str "_MSVCRT_", str "1"), (str "__x86_64", str "1")]

/-- The definitions of src/abi/microsoft.c:285-287 and src/abi/sysv.c:585. -/
def abiDefs (ms : Bool) : List (Str × Str) :=
  if ms then [(str "_WIN32", str "1"), (str "_WIN64", str "1"), (str "__LLP64__", str "1")] else [(str "__LP64__", str "1")]

/-- A list of `define_string` calls. -/
def defineAll (l : List (Str × Str)) (m : Macros) : Macros := l.foldl (fun m d => defineString d.1 d.2 m) m

/-- config.def.h:3-7 `default_include`. -/
def defaultInclude : List Str := [str "include/linux/", str "/usr/include/"]

/-- config.def.h:9-12 `default_defs`. -/
def defaultDefs : List Str := [str "__linux"]

/-- src/main.c:128-149 and 232-253: the macros before `-U` is looked at, starting with an empty table
(src/preprocessor/macro_expander.c:18-22). -/
def baseMacros (w : World) (f : Flags) (a : Args) : Macros :=
  let m : Macros := fun _ => none
  let m := if f.mingw then defineAll mingwDefs m else m
  let m := defineAll (abiDefs f.ms) m
  let m := addImplementationDefs w m
  let m := defineAll (defaultDefs.map addDefinition) m
  defineAll (a.defines.map addDefinition) m

/-- src/abi/microsoft.c:315: the workarounds set the code model. -/
def effective (f : Flags) : Flags := if f.mingw then { f with large := true } else f

/-- src/main.c:52-59 `get_basename`: `last` is `last_slash + 1`. -/
def afterSlash : Str → Nat → Nat → Nat
  | [], _, last => last
  | c :: s, i, last => afterSlash s (i + 1) (if c = ch '/' then i + 1 else last)

/-- src/main.c:52-59 `get_basename`. -/
def getBasename (path : Str) : Str := path.drop (afterSlash path 0 0)

/-- `%.*s` with the length `len - 2` (src/main.c:178 and 180). -/
def cut (s : Str) : Str := s.take (s.length - 2)

/-- `fopen(path, "w")` without a test (src/linker/elf.c:748, src/linker/coff.c,
src/preprocessor/directives.c:47): what is written through the null pointer is undefined. -/
def write (w : World) (path : Str) (c : Content) (st : St) : Run St :=
  if w.writable path then .ok { st with written := st.written ++ [(path, c)] } else .ub

/-- src/main.c:174-183: the name of the output. -/
def outName (a : Args) (path : Str) : Str := match a.outfile with
  | some o => o
  | none =>
    if a.flagUpperS then cut (getBasename path) ++ str ".s"
    else if a.flagC then cut (getBasename path) ++ str ".o"
    else str "a.out"

/-- src/main.c:203-218; `fopen` of a null pointer is undefined. -/
def writeDeps (w : World) (a : Args) (src : Src) (outfile : Str) (st : St) : Run St :=
  if a.flagMD then
    match a.mfPath.or (dependencyPath outfile) with
    | some mf => write w mf (.deps (a.mtPath.getD outfile) (w.reads src)) st
    | none => .ub
  else .ok st

/-- src/main.c:185-201.  `asm_init_text_out` tests the result of `fopen` (src/assembler/assembler.c:35-38). -/
def emit (w : World) (f : Flags) (a : Args) (src : Src) (outfile : Str) (st : St) : Run St :=
  if a.flagUpperS then
    if w.writable outfile then
      let st := { st with written := st.written ++ [(outfile, .text src)] }
      if a.flagC then write w outfile (if f.ms then .coff .zero else .elf .zero) st else .ok st
    else .fail
  else if a.flagC then write w outfile (if f.ms then .coff (.compiled src) else .elf (.compiled src)) st
  else .ok { st with objects := st.objects ++ [.compiled src] }

/-- src/main.c:122-225 `compile_file`. -/
def compileFile (w : World) (f : Flags) (a : Args) (path : Str) (st : St) : Run St :=
  let macros := a.undefines.foldl (fun m n => defineRemove n m) (baseMacros w f a)
  let src : Src := ⟨path, a.includes ++ defaultInclude, macros, effective f⟩
  if ¬ w.accepts src then .fail
  else do
    let st ← emit w f a src (outName a path) st
    writeDeps w a src (outName a path) st

/-- src/main.c:229-281 `preprocess_file`.  The dependencies are collected (258-259) but not written. -/
def preprocessFile (w : World) (f : Flags) (a : Args) (path : Str) (st : St) : Run St :=
  -- 255-256
  if a.undefines ≠ [] then .fail
  else
    let src : Src := ⟨path, a.includes ++ defaultInclude, baseMacros w f a, effective f⟩
    if ¬ w.accepts src then .fail
    else .ok { st with printed := st.printed ++ [src] }

/-- src/main.c:305-329: one operand. -/
def operand (w : World) (f : Flags) (a : Args) (path : Str) (st : St) : Run St := do
  let basename := getBasename path
  if a.flagE then
    if ← isExtFile basename (ch 'c') then preprocessFile w f a path st else .fail
  else if ← isExtFile basename (ch 'c') then compileFile w f a path st
  else if ← isExtFile basename (ch 'o') then
    -- the assertion of 320
    if a.flagUpperS ∨ a.flagC then .fail
    else match w.object path with
      -- `read_header` reads from a null pointer (src/linker/elf.c:758-761)
      | .missing => .ub
      | .notElf => .fail
      | .object => .ok { st with objects := st.objects ++ [.read path] }
  else .fail

/-- src/main.c:305: the loop. -/
def operandsLoop (w : World) (f : Flags) (a : Args) : List Str → St → Run St
  | [], st => .ok st
  | p :: ps, st => do
    let st ← operand w f a p st
    operandsLoop w f a ps st

/-- src/main.c:286-334 `main` after `arguments_parse`. -/
def run (w : World) (a : Args) : Run St := do
  let willLink := ¬ (a.flagUpperS ∨ a.flagC ∨ a.flagE)
  if a.flagS then .fail
  else if a.operands.length ≠ 1 ∧ a.outfile ≠ none ∧ (a.flagUpperS ∨ a.flagC) then .fail
  else do
    let f ← setFlags a.flags {}
    let st ← operandsLoop w f a a.operands {}
    if willLink then
      if ¬ w.links st.objects then .fail
      else write w (a.outfile.getD (str "a.out")) (.executable st.objects) st
    else .ok st

/-- src/main.c:283-339 `main`; `fuel` is for the loop of `arguments_parse`. -/
def main (w : World) (fuel : Nat) (argv : List Str) : Run St := do
  let a ← argumentsParse fuel argv
  run w a

end Verif.Driver
