import Verif.Run
import Verif.StringSet
/-!
Model of src/preprocessor/input.c and of the stack of files in src/preprocessor/directives.c. The file system is a function that does not change
while the compiler runs. Paths are strings without NUL; their length fits in an `int`.
-/
namespace Verif.Input
open Verif

/-- What `fopen(path, "r")` finds. -/
inductive Found where
  /-- no such file: `errno == ENOENT` -/
  | missing
  /-- another error -/
  | denied
  /-- the file and its contents -/
  | file (contents : List Byte)
  deriving DecidableEq

/-- The files. -/
abbrev Fs := Str → Found

/-- src/preprocessor/input.h `struct input`; `none` is the input with null pointers. The contents end in NUL (input.c:19-21). -/
abbrev In := Option (Str × List Byte)

/-- src/preprocessor/input.c:27-34 `length_of_path_without_filename`: the loop at index `i`. -/
def lengthLoop : Str → Nat → Nat → Nat
  | [], _, pos => pos
  | c :: s, i, pos => lengthLoop s (i + 1) (if c = ch '/' then i + 1 else pos)

/-- src/preprocessor/input.c:27-34 `length_of_path_without_filename`. -/
def lengthWithoutFilename (s : Str) : Nat := lengthLoop s 0 0

/-- src/preprocessor/input.c:36-43 `try_open_file`: `none` is the null pointer. -/
def tryOpen (fs : Fs) (path : Str) : Run (Option (List Byte)) := match fs path with
  | .missing => .ok none
  | .denied => .fail
  | .file c => .ok (some c)

/-- The global state: src/preprocessor/input.c:8-12 (`paths`, `disabled_headers`) and the chain of `current_file`
(src/preprocessor/directives.c:10-20), the innermost file first. -/
structure St where
  paths : List Str := []
  disabled : List Str := []
  files : List (Str × List Byte) := []

/-- src/preprocessor/input.c:52-54 `input_add_include_path`. -/
def addIncludePath (p : Str) (st : St) : St := { st with paths := st.paths ++ [p] }

/-- src/preprocessor/input.c:56-58 `input_disable_path`. -/
def disablePath (p : Str) (st : St) : St := { st with disabled := StringSet.insert st.disabled p }

/-- src/preprocessor/input.c:74-77: the loop over the include paths; `none` when no file was found. -/
def searchLoop (fs : Fs) (path : Str) : List Str → Run (Option (Str × List Byte))
  | [] => .ok none
  | p :: ps => do
    let buffer := p ++ ch '/' :: path
    match ← tryOpen fs buffer with
    | some c => .ok (some (buffer, c))
    | none => searchLoop fs path ps

/-- src/preprocessor/input.c:79-94, the end of `input_open`: a file that was found is delivered unless its path is disabled. -/
def deliver (st : St) : Option (Str × List Byte) → Run In
  | none => .fail
  | some (buffer, c) => if StringSet.contains st.disabled buffer then .ok none else .ok (some (buffer, c ++ [0]))

/-- src/preprocessor/input.c:65-72: beside the including file. -/
def openBeside (fs : Fs) (parent path : Str) : Run (Option (Str × List Byte)) := do
  let buffer := parent.take (lengthWithoutFilename parent) ++ path
  let r ← tryOpen fs buffer
  .ok (r.map fun c => (buffer, c))

/-- src/preprocessor/input.c:59-95 `input_open`. -/
def inputOpen (fs : Fs) (st : St) (parent path : Str) (system : Bool) : Run In := do
  let first ← if system then .ok none else openBeside fs parent path
  let found ← if first.isSome then .ok first else searchLoop fs path st.paths
  deliver st found

/-- src/preprocessor/directives.c:75. -/
def parentPath (st : St) : Str := match st.files with
  | [] => str "."
  | f :: _ => f.1

/-- src/preprocessor/directives.c:74-90 `directiver_push_input`. -/
def pushInput (fs : Fs) (path : Str) (system : Bool) (st : St) : Run St := do
  match ← inputOpen fs st (parentPath st) path system with
  | none => .ok st
  | some f => .ok { st with files := f :: st.files }

/-- src/preprocessor/directives.c:446-447: `#pragma once`. Outside of any file `current_file` is null. -/
def pragmaOnce (st : St) : Run St := match st.files with
  | [] => .ub
  | f :: _ => .ok (disablePath f.1 st)

/-- src/preprocessor/directives.c:94-101, in `next_from_stack`: the end of a file continues in the file that includes it. -/
def endOfFile (st : St) : Run St := match st.files with
  | [] => .ub
  | [f] => .ok { st with files := [f] }
  | _ :: g :: fs => .ok { st with files := g :: fs }

/-- What happens to the files while a translation unit is read. -/
inductive Ev where
  /-- the main file, or an `#include` directive -/
  | incl (path : Str) (system : Bool)
  /-- `#pragma once` -/
  | once
  /-- the end of the file -/
  | finish

/-- One event. -/
def step (fs : Fs) : Ev → St → Run St
  | .incl p s => pushInput fs p s
  | .once => pragmaOnce
  | .finish => endOfFile

/-- A history. -/
def run (fs : Fs) : List Ev → St → Run St
  | [], st => .ok st
  | e :: es, st => do
    let st ← step fs e st
    run fs es st

/-- src/preprocessor/input.c:45-50 `input_reset` and src/main.c:139-143: the state before the main file is opened. -/
def start (includes : List Str) : St := includes.foldl (fun st p => addIncludePath p st) {}

end Verif.Input
