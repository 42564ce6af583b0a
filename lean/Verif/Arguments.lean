import Verif.Run
import Verif.Token
/-!
Model of src/arguments.c and of the functions of src/main.c that interpret single arguments. A C string is the list of its bytes without the
terminating NUL; reading beyond the NUL is undefined behaviour. The arrays (`ADD_ELEMENT`) are lists.
-/
namespace Verif.Arguments
open Verif

/-- src/arguments.h `struct arguments`. -/
structure Args where
  operands : List Str := []
  defines : List Str := []
  undefines : List Str := []
  includes : List Str := []
  libraryDirs : List Str := []
  libraries : List Str := []
  flags : List Str := []
  outfile : Option Str := none
  mtPath : Option Str := none
  mfPath : Option Str := none
  optlevel : Int := 0
  flagC : Bool := false
  flagG : Bool := false
  flagS : Bool := false
  flagE : Bool := false
  flagUpperS : Bool := false
  flagMD : Bool := false
  deriving DecidableEq

/-- src/arguments.c:31-43 `enum state`. -/
inductive State where
  | operand | define | undefine | include' | libraryDir | library | flag | outfile | optlevel | mt | mf
  deriving DecidableEq

/-- The digits of libc `atoi`; the result must fit in an `int`. -/
def digits : Str → Nat → Nat
  | [], n => n
  | c :: s, n => if ch '0' ≤ c ∧ c ≤ ch '9' then digits s (n * 10 + (c.toNat - 48)) else n

/-- libc `atoi`: white space, a sign, digits. A value outside of `int` is undefined behaviour. -/
def atoi (s : Str) : Run Int :=
  let s := s.dropWhile fun c => c = 32 ∨ (9 ≤ c ∧ c ≤ 13)
  let v : Int := match s with
    | [] => 0
    | c :: r => if c = ch '-' then -(digits r 0 : Int) else if c = ch '+' then digits r 0 else digits (c :: r) 0
  if -2147483648 ≤ v ∧ v ≤ 2147483647 then .ok v else .ub

/-- src/arguments.c:66-70: the letter after `-M`: the new result, the next state, `cont`. -/
def letterM (c : Byte) (a : Args) : Args × State × Bool :=
  if c = ch 'D' then ({ a with flagMD := true }, .operand, false)
  else if c = ch 'T' then (a, .mt, true)
  else if c = ch 'F' then (a, .mf, true)
  else (a, .operand, true)

/-- src/arguments.c:88-107: the letter after `-`: the new result, the next state, `cont`, `ignore`. -/
def letter (c : Byte) (a : Args) : Args × State × Bool × Bool :=
  if c = ch 'c' then ({ a with flagC := true }, .operand, false, false)
  else if c = ch 'g' then ({ a with flagG := true }, .operand, false, false)
  else if c = ch 's' then ({ a with flagS := true }, .operand, false, false)
  else if c = ch 'E' then ({ a with flagE := true }, .operand, false, false)
  else if c = ch 'S' then ({ a with flagUpperS := true }, .operand, false, false)
  else if c = ch 'W' then (a, .operand, false, true)
  else if c = ch 'o' then (a, .outfile, true, false)
  else if c = ch 'O' then (a, .optlevel, true, false)
  else if c = ch 'D' then (a, .define, true, false)
  else if c = ch 'U' then (a, .undefine, true, false)
  else if c = ch 'I' then (a, .include', true, false)
  else if c = ch 'L' then (a, .libraryDir, true, false)
  else if c = ch 'l' then (a, .library, true, false)
  else if c = ch 'f' then (a, .flag, true, false)
  else (a, .operand, true, false)

/-- src/arguments.c:74-80, 111-117: what follows the letter. `rest` is `argv[i]`, …; the message prints `argv[i]` with `%s`, which is a null
pointer at the end. -/
def after (rest : List Str) (s : Str) (cont ignore : Bool) : Run (Option Str) :=
  if s = [] then .ok none
  else if cont then .ok (some s)
  else if ignore then .ok none
  else match rest with
    | [] => .ub
    | _ :: _ => .fail

/-- src/arguments.c:58-120: an argument in the state `S_OPERAND`: the new result, the next state, `next_arg`. -/
def operandArg (rest : List Str) (arg : Str) (a : Args) : Run (Args × State × Option Str) :=
  match arg with
  | [] => .ok ({ a with operands := a.operands ++ [[]] }, .operand, none)
  | c :: s =>
    if c = ch '-' then
      if s.head? = some (ch 'M') then
        match s.tail with
        | [] => .fail
        | m :: t => do
          let (a, st, cont) := letterM m a
          let n ← after rest t cont false
          .ok (a, st, n)
      else if s.take 3 = str "std" then .ok (a, .operand, none)
      else match s with
        | [] => .ub
        | l :: t => do
          let (a, st, cont, ignore) := letter l a
          let n ← after rest t cont ignore
          .ok (a, st, n)
    else .ok ({ a with operands := a.operands ++ [arg] }, .operand, none)

/-- src/arguments.c:121-141: the value of an option. -/
def store (s : State) (arg : Str) (a : Args) : Run Args := match s with
  | .operand => .ok a
  | .define => .ok { a with defines := a.defines ++ [arg] }
  | .undefine => .ok { a with undefines := a.undefines ++ [arg] }
  | .include' => .ok { a with includes := a.includes ++ [arg] }
  | .library => .ok { a with libraries := a.libraries ++ [arg] }
  | .libraryDir => .ok { a with libraryDirs := a.libraryDirs ++ [arg] }
  | .flag => .ok { a with flags := a.flags ++ [arg] }
  | .outfile => .ok { a with outfile := some arg }
  | .mt => .ok { a with mtPath := some arg }
  | .mf => .ok { a with mfPath := some arg }
  | .optlevel => do
    let v ← atoi arg
    .ok { a with optlevel := v }

/-- src/arguments.c:58-143: one round of the loop for the argument `arg`. -/
def round (rest : List Str) (arg : Str) (s : State) (a : Args) : Run (Args × State × Option Str) :=
  if s = .operand then operandArg rest arg a
  else do
    let a ← store s arg a
    .ok (a, .operand, none)

/-- src/arguments.c:47-144: the loop; `argv` is what follows index `i`. -/
def loop : Nat → List Str → Option Str → State → Args → Run Args
  | 0, _, _, _, _ => .more
  | f + 1, argv, some arg, s, a => do
    let (a, s, n) ← round argv arg s a
    loop f argv n s a
  | f + 1, arg :: argv, none, s, a => do
    let (a, s, n) ← round argv arg s a
    loop f argv n s a
  | _ + 1, [], none, _, a => .ok a

/-- src/arguments.c:7-167 `arguments_parse`; `argv` without the name of the program. -/
def argumentsParse (f : Nat) (argv : List Str) : Run Args := loop f argv none .operand {}

/-- src/main.c:75-88 `add_definition`: the name and the value that `define_string` gets. -/
def addDefinition (s : Str) : Str × Str :=
  (s.takeWhile (· ≠ ch '='), match s.dropWhile (· ≠ ch '=') with
    | [] => str "1"
    | _ :: v => v)

/-- src/main.c:65-73 `dependency_path_from_outfile`; `none` is the null pointer. -/
def dependencyPath (path : Str) : Option Str :=
  let len := path.length
  if len ≤ 2 ∨ (path.drop (len - 2) ≠ str ".o" ∧ path.drop (len - 2) ≠ str ".s") then none
  else some (path.take (len - 2) ++ str ".d")

/-- src/main.c:60-63 `is_ext_file` on a view with `len` bytes: indices `len - 2` and `len - 1` are read; before the string they are out of
bounds. -/
def isExtFile (view : Str) (ext : Byte) : Run Bool :=
  if view.length < 2 then .ub
  else .ok (view[view.length - 2]? = some (ch '.') && view[view.length - 1]? = some ext)

end Verif.Arguments
