import Verif.Simple
/-!
Model of the declaration specifiers that are keywords: src/parser/declaration.c:17-26,
98-233, 548-612.  The bit set `ts->specifiers` is the set of its flags.  `struct`, `union`,
`enum`, typedef names and `_Alignas` are not modelled: here they end the sequence.
-/
namespace Verif.Specifiers
open Verif Simple

/-- src/parser/declaration.h:46-61 -/
inductive Flag where
  | void | char | short | int | long1 | long2 | float | double | signed | unsigned | bool | complex
  deriving DecidableEq, Repr

/-- `ts->specifiers`. -/
abbrev Flags := Flag → Bool

/-- The or of some flags. -/
def mask (l : List Flag) : Flags := fun f => decide (f ∈ l)

/-- declaration.c:18-26 `set_sbit`: the previous state of the bit and the new flags. -/
def setSbit (s : Flags) (f : Flag) : Bool × Flags :=
  if s f then (true, s) else (false, fun g => if g = f then true else s g)

/-- One conjunction of 120-131: `TACCEPT(tok) && set_sbit(..) [&& set_sbit(..)]`, with the
flags tried in order. Result: whether the conjunction is true. -/
def tryFlags : List Flag → Flags → Bool × Flags
  | [], s => (true, s)
  | f :: fs, s =>
    match setSbit s f with
    | (false, s) => (false, s)
    | (true, s) => tryFlags fs s

/-- The order of 120-131. -/
def chainTable : List (TType × List Flag) :=
  [(.T_KVOID, [.void]), (.T_KCHAR, [.char]), (.T_KINT, [.int]), (.T_KFLOAT, [.float]), (.T_KDOUBLE, [.double]),
   (.T_KSIGNED, [.signed]), (.T_KUNSIGNED, [.unsigned]), (.T_KBOOL, [.bool]), (.T_KCOMPLEX, [.complex]),
   (.T_KSHORT, [.short]), (.T_KLONG, [.long1, .long2])]

/-- Tokens left, flags, the counters that matter (`const_n`). -/
structure St where
  toks : List TType
  flags : Flags
  constN : Nat

/-- The condition 120-131: every alternative accepts its token if it is next, so one
evaluation may consume several. True is the error of 132. -/
def chain : List (TType × List Flag) → St → Res St
  | [], s => .ok s
  | (t, fs) :: rest, s =>
    match s.toks with
    | u :: us =>
      if u = t then
        match tryFlags fs s.flags with
        | (true, _) => .fail
        | (false, flags) => chain rest { s with toks := us, flags := flags }
      else chain rest s
    | [] => chain rest s

/-- The keywords counted by 171-188 (without `_Atomic`). -/
def counted : List TType :=
  [.T_KTYPEDEF, .T_KEXTERN, .T_KSTATIC, .T_KTHREAD_LOCAL, .T_KAUTO, .T_KREGISTER, .T_KCONST, .T_KRESTRICT, .T_KVOLATILE,
   .T_KINLINE, .T_KNORETURN]

/-- `==` on `ts->specifiers`. -/
def sameFlags (s t : Flags) : Bool :=
  [Flag.void, .char, .short, .int, .long1, .long2, .float, .double, .signed, .unsigned, .bool, .complex].all
    (fun f => s f == t f)

/-- declaration.c:98-211 `parse_specifier`; result: whether something was accepted. The test
135 compares the flags before and after. -/
def parseSpecifier (s : St) : Res (Bool × St) := do
  let s' ← chain chainTable s
  if sameFlags s'.flags s.flags = false then
    pure (true, s')
  else
    match s'.toks with
    | [] => pure (false, s')
    | t :: ts =>
      if t = .T_KATOMIC then .fail
      else if t ∈ counted then
        pure (true, { s' with toks := ts, constN := if t = .T_KCONST then s'.constN + 1 else s'.constN })
      else pure (false, s')

/-- The loop 229-231. -/
def loop : Nat → St → Res St
  | 0, _ => .ub
  | n + 1, s => do
    let (b, s) ← parseSpecifier s
    if b then loop n s else pure s

/-- declaration.c:213-233 `parse_specifiers`; every round but the last consumes a token. -/
def parseSpecifiers (toks : List TType) : Res St :=
  loop (toks.length + 1) ⟨toks, fun _ => false, 0⟩

/-- The table 550-592. -/
def specTable : List (ST × List Flag) :=
  [(.void, [.void]), (.char, [.char]), (.schar, [.signed, .char]), (.uchar, [.unsigned, .char]),
   (.short, [.short]), (.short, [.signed, .short]), (.short, [.short, .int]), (.short, [.signed, .short, .int]),
   (.ushort, [.unsigned, .short]), (.ushort, [.unsigned, .short, .int]),
   (.int, [.int]), (.int, [.signed]), (.int, [.int, .signed]),
   (.uint, [.unsigned]), (.uint, [.unsigned, .int]),
   (.long, [.long1]), (.long, [.long1, .signed]), (.long, [.long1, .int]), (.long, [.long1, .int, .signed]),
   (.ulong, [.long1, .unsigned]), (.ulong, [.long1, .int, .unsigned]),
   (.llong, [.long1, .long2]), (.llong, [.long1, .long2, .signed]), (.llong, [.long1, .long2, .int]), (.llong, [.long1, .long2, .int, .signed]),
   (.ullong, [.long1, .long2, .unsigned]), (.ullong, [.long1, .long2, .int, .unsigned]),
   (.float, [.float]), (.double, [.double]), (.double, [.double, .long1]), (.bool, [.bool]),
   (.floatC, [.float, .complex]), (.doubleC, [.double, .complex]), (.ldoubleC, [.double, .long1, .complex])]

/-- declaration.c:548-599 `specifiers_to_type`, `data_type` NULL. -/
def specifiersToType (s : Flags) : Res ST :=
  match specTable.find? (fun r => sameFlags s (mask r.2)) with
  | some r => .ok r.1
  | none => .fail

/-- declaration.c:608-617: the type of the specifiers and whether `apply_tq` makes it
`const`. -/
def typeOf (toks : List TType) : Res (ST × Bool) := do
  let s ← parseSpecifiers toks
  let t ← specifiersToType s.flags
  pure (t, s.constN == 1)

end Verif.Specifiers
