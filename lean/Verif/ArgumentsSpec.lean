import Verif.Arguments
/-!
The command line: a list of items, each of which can be written in one or two ways; its meaning does not depend on how it is written nor on
where the items stand among items of other kinds.
-/
namespace Verif.ArgumentsSpec
open Verif Arguments

/-- Options without a value. -/
inductive Flag where
  | c | g | s | E | S | MD
  deriving DecidableEq

/-- How it is written. -/
def Flag.text : Flag → Str
  | .c => str "-c" | .g => str "-g" | .s => str "-s" | .E => str "-E" | .S => str "-S" | .MD => str "-MD"

/-- Options with a value. -/
inductive Opt where
  | D | U | I | L | l | f | o | MT | MF
  deriving DecidableEq

/-- How it is written. -/
def Opt.text : Opt → Str
  | .D => str "-D" | .U => str "-U" | .I => str "-I" | .L => str "-L" | .l => str "-l" | .f => str "-f" | .o => str "-o"
  | .MT => str "-MT" | .MF => str "-MF"

/-- What stands on a command line. -/
inductive Item where
  /-- a file -/
  | operand (s : Str)
  | flag (f : Flag)
  | value (o : Opt) (v : Str)
  /-- the optimisation level -/
  | level (n : Nat)
  /-- `-std=…` and `-W…` have no effect -/
  | ignored (s : Str)
  deriving DecidableEq

/-- `v` is a decimal numeral for `n`. -/
def Numeral (v : Str) (n : Nat) : Prop :=
  v ≠ [] ∧ (∀ c ∈ v, ch '0' ≤ c ∧ c ≤ ch '9') ∧ v.foldl (fun n c => n * 10 + (c.toNat - 48)) 0 = n

/-- The ways to write an item. -/
inductive Written : Item → List Str → Prop where
  | operand {s : Str} : s.head? ≠ some (ch '-') → Written (.operand s) [s]
  | flag (f : Flag) : Written (.flag f) [f.text]
  | attached {o : Opt} {v : Str} : v ≠ [] → Written (.value o v) [o.text ++ v]
  | separate (o : Opt) (v : Str) : Written (.value o v) [o.text, v]
  | levelAttached {v : Str} {n : Nat} : Numeral v n → n < 2147483648 → Written (.level n) [str "-O" ++ v]
  | levelSeparate {v : Str} {n : Nat} : Numeral v n → n < 2147483648 → Written (.level n) [str "-O", v]
  | std (v : Str) : Written (.ignored v) [str "-std" ++ v]
  | warning (v : Str) : Written (.ignored v) [str "-W" ++ v]

/-- The items one after the other. -/
inductive CommandLine : List Item → List Str → Prop where
  | nil : CommandLine [] []
  | cons {i : Item} {is : List Item} {a as : List Str} : Written i a → CommandLine is as → CommandLine (i :: is) (a ++ as)

/-- The values of an option in their order. -/
def values (o : Opt) (l : List Item) : List Str := l.filterMap fun i => match i with
  | .value o' v => if o' = o then some v else none
  | _ => none

/-- The operands in their order. -/
def operands (l : List Item) : List Str := l.filterMap fun i => match i with
  | .operand s => some s
  | _ => none

/-- The levels in their order. -/
def levels (l : List Item) : List Int := l.filterMap fun i => match i with
  | .level n => some (n : Int)
  | _ => none

/-- What the items mean: lists in order; of options that can be given once, the last counts. -/
def meaning (l : List Item) : Args where
  operands := operands l
  defines := values .D l
  undefines := values .U l
  includes := values .I l
  libraryDirs := values .L l
  libraries := values .l l
  flags := values .f l
  outfile := (values .o l).getLast?
  mtPath := (values .MT l).getLast?
  mfPath := (values .MF l).getLast?
  optlevel := (levels l).getLast?.getD 0
  flagC := decide (.flag .c ∈ l)
  flagG := decide (.flag .g ∈ l)
  flagS := decide (.flag .s ∈ l)
  flagE := decide (.flag .E ∈ l)
  flagUpperS := decide (.flag .S ∈ l)
  flagMD := decide (.flag .MD ∈ l)

end Verif.ArgumentsSpec
