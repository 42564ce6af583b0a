import Verif.Driver
import Verif.ArgumentsSpec
/-!
Specification of the driver: what a command line asks for, after POSIX (utility `c99`), C17 6.10.8 and,
for `-S`, `-MD`, `-MT`, `-MF` and the `-f` options, the usage of the other compilers.
Uses of the model: the records that describe outputs (`Src`, `Flags`, `Obj`, `Content`, `World`).
-/
namespace Verif.DriverSpec
open Verif Arguments ArgumentsSpec Driver

/-- `-D d` defines `n` as `v`. -/
def Defines (d n v : Str) : Prop := ch '=' ∉ n ∧ (d = n ++ str "=" ++ v ∨ d = n ∧ v = str "1")

/-- The last of a list for which there is a value. -/
def lastOf {α : Type} (p : Str → Option α) (l : List Str) : Option α := l.reverse.findSome? p

/-- `-fabi=…`: is it the Microsoft one? -/
def abiOf (s : Str) : Option Bool :=
  if s = str "abi=ms" then some true else if s = str "abi=sysv" then some false else none

/-- `-fcmodel=…`: is it the large one? -/
def modelOf (s : Str) : Option Bool :=
  if s = str "cmodel=large" then some true else if s = str "cmodel=small" then some false else none

/-- `-fdebug-stack-size=…`. -/
def debugOf (s : Str) : Option Int :=
  if str "debug-stack-size=" <+: s then some ((s.drop 17).foldl (fun n c => n * 10 + (c.toNat - 48)) 0 : Nat) else none

/-- `-fdump-ir=…`. -/
def dumpOf (s : Str) : Option Str := if str "dump-ir=" <+: s then some (s.drop 8) else none

/-- What the `-f` options mean; the last one counts. -/
def flagsOf (l : List Str) : Flags where
  ms := (lastOf abiOf l).getD false
  mingw := decide (str "mingw-workarounds" ∈ l)
  large := decide (str "mingw-workarounds" ∈ l) || (lastOf modelOf l).getD false
  debugStack := l.any fun s => decide (str "debug-stack-size" <+: s)
  debugMin := (lastOf debugOf l).getD 0
  dump := lastOf dumpOf l

/-- The numbers in `-f` options are decimal numerals for an `int`. -/
def FlagsOk (l : List Str) : Prop := ∀ v, str "debug-stack-size=" ++ v ∈ l → ∃ n, Numeral v n ∧ n < 2147483648

/-- The macros before the first line (6.10.8 and the system), without those of `-fmingw-workarounds`. -/
inductive Predefined (w : World) (ms : Bool) : Str → Str → Prop where
  | date : Predefined w ms (str "__DATE__") w.date
  | time : Predefined w ms (str "__TIME__") w.time
  | stdc : Predefined w ms (str "__STDC__") (str "1")
  | hosted : Predefined w ms (str "__STDC_HOSTED__") (str "0")
  | version : Predefined w ms (str "__STDC_VERSION__") (str "201710L")
  | x86 : Predefined w ms (str "__x86_64__") (str "1")
  | linux : Predefined w ms (str "__linux") (str "1")
  | lp64 : ms = false → Predefined w ms (str "__LP64__") (str "1")
  | win32 : ms = true → Predefined w ms (str "_WIN32") (str "1")
  | win64 : ms = true → Predefined w ms (str "_WIN64") (str "1")
  | llp64 : ms = true → Predefined w ms (str "__LLP64__") (str "1")

/-- 6.10.8p4: names of other predefined macros begin with an underscore and a capital letter or a second underscore. -/
def Reserved (n : Str) : Prop :=
  ∃ c r, n = ch '_' :: c :: r ∧ (c = ch '_' ∨ ch 'A' ≤ c ∧ c ≤ ch 'Z')

/-- The macros a command line asks for: `-U` wins over `-D`, of several `-D` the last one counts, and what the user
does not mention is as predefined; other names of the user are not macros. -/
structure MacrosFor (w : World) (items : List Item) (m : Macros) : Prop where
  undefined : ∀ n ∈ values .U items, m n = none
  defined : ∀ (n v d : Str) (l r : List Str), n ∉ values .U items → values .D items = l ++ d :: r → Defines d n v →
    (∀ e ∈ r, ∀ u, ¬ Defines e n u) → m n = some v
  predefined : ∀ n v : Str, n ∉ values .U items → (∀ e ∈ values .D items, ∀ u, ¬ Defines e n u) →
    Predefined w ((lastOf abiOf (values .f items)).getD false) n v → m n = some v
  /-- 6.10.8p4; `NULL` is an exception here, see `null_violated` -/
  clean : ∀ n : Str, str "mingw-workarounds" ∉ values .f items → ¬ Reserved n → n ≠ str "NULL" →
    (∀ e ∈ values .D items, ∀ u, ¬ Defines e n u) → m n = none

/-- What is to be translated for the operand `p`. -/
structure SourceFor (w : World) (items : List Item) (p : Str) (s : Src) : Prop where
  path : s.path = p
  includes : s.includes = values .I items ++ [str "include/linux/", str "/usr/include/"]
  macros : MacrosFor w items s.macros
  flags : s.flags = flagsOf (values .f items)

/-- The parts of the name of a file: the directory with its final slash, and the name without suffix. -/
structure File where
  dir : Str
  base : Str

/-- The parts are as described. -/
structure File.Ok (f : File) : Prop where
  dir : f.dir = [] ∨ ∃ d, f.dir = d ++ str "/"
  base : ch '/' ∉ f.base
  nonempty : f.base ≠ []

/-- The path of a source file. -/
def File.source (f : File) : Str := f.dir ++ f.base ++ str ".c"

/-- The path of an object file. -/
def File.object (f : File) : Str := f.dir ++ f.base ++ str ".o"

/-- The name of the output: that of `-o`, or the name of the source without its directory and with another suffix. -/
def target (items : List Item) (suffix : Str) (f : File) : Str := ((values .o items).getLast?).getD (f.base ++ suffix)

/-- A name with one of the suffixes for which `-MD` can choose a name. -/
def Suffixed (n : Str) : Prop := ∃ stem, stem ≠ [] ∧ (n = stem ++ str ".o" ∨ n = stem ++ str ".s")

/-- The dependency file of an output: that of `-MF`, or the name of the output with the suffix `.d`. -/
def depFile (items : List Item) (out : Str) : Str := ((values .MF items).getLast?).getD (out.take (out.length - 2) ++ str ".d")

/-- The files to be written for one source. -/
def outputs (w : World) (items : List Item) (suffix : Str) (content : Src → Content) (src : Str → Src) (f : File) : List (Str × Content) :=
  let out := target items suffix f
  (out, content (src f.source)) ::
    if Item.flag .MD ∈ items then
      [(depFile items out, .deps (((values .MT items).getLast?).getD out) (w.reads (src f.source)))]
    else []

/-- An operand of a command that links. -/
inductive Operand where
  | source (f : File)
  | object (f : File)

/-- Its path. -/
def Operand.path : Operand → Str
  | .source f => f.source
  | .object f => f.object

/-- The name can be taken apart. -/
def Operand.Ok : Operand → Prop
  | .source f => f.Ok
  | .object f => f.Ok

/-- What it gives to the linker. -/
def Operand.obj (src : Str → Src) : Operand → Obj
  | .source f => .compiled (src f.source)
  | .object f => .read f.object

end Verif.DriverSpec
