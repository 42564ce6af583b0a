import Verif.Convention
/-!
Specification of parameter passing: System V psABI (AMD64) 3.2.3 "Passing", for types whose
eightbytes are INTEGER or SSE or that are MEMORY.
-/
namespace Verif.ConventionSpec
open Verif Asm Convention
open Verif.Classify (Class)
open Verif.Call (Dest)

/-- Where an argument is passed: one register for each eightbyte, or the stack. -/
inductive Loc where
  | regs (rs : List Dest)
  | mem (off : Nat)
  deriving DecidableEq, Repr

/-- Registers for INTEGER eightbytes, in order. -/
def intRegs : List Dest := [.gpr .rdi, .gpr .rsi, .gpr .rdx, .gpr .rcx, .gpr .r8, .gpr .r9]

/-- Registers for SSE eightbytes, in order. -/
def sseRegs : List Dest := [.sse 0, .sse 1, .sse 2, .sse 3, .sse 4, .sse 5, .sse 6, .sse 7]

/-- The types that are covered: MEMORY, or one class for each of at most two eightbytes. -/
def Valid (t : Ty) : Prop :=
  t.classes = [.memory] ∨
  (t.classes ≠ [] ∧ (∀ c ∈ t.classes, c = .integer ∨ c = .sse) ∧ t.classes.length = (t.size + 7) / 8 ∧ t.size ≤ 16)

/-- Number of eightbytes of a class. -/
def need (c : Class) (t : Ty) : Nat := (t.classes.filter (· = c)).length

/-- Each eightbyte gets the next register of its class. -/
def assign : List Class → List Dest → List Dest → List Dest
  | [], _, _ => []
  | .integer :: cs, i :: is, ss => i :: assign cs is ss
  | .sse :: cs, is, s :: ss => s :: assign cs is ss
  | _ :: cs, is, ss => assign cs is ss

/-- Next multiple of `a` (which is not 0). -/
def up (n a : Nat) : Nat := (n + a - 1) / a * a

/-- An argument is passed in registers if it is not MEMORY and there are enough registers left
for all of it; the others are on the stack in order, each at the next offset with its
alignment, at least 8.  `is` and `ss` are the registers left, `off` the stack bytes used. -/
def place (is ss : List Dest) (off : Nat) : List Ty → List Loc
  | [] => []
  | t :: ts =>
    if t.classes ≠ [.memory] ∧ need .integer t ≤ is.length ∧ need .sse t ≤ ss.length then
      .regs (assign t.classes is ss) :: place (is.drop (need .integer t)) (ss.drop (need .sse t)) off ts
    else
      let o := up off (max 8 t.align)
      .mem o :: place is ss (o + up t.size 8) ts

/-- A value of class MEMORY is returned through a pointer in the first register. -/
def hidden (ret : Option Ty) : Bool :=
  match ret with
  | some t => t.classes == [.memory]
  | none => false

/-- Locations of the arguments of a call. -/
def locations (ret : Option Ty) (args : List Ty) : List Loc :=
  place (if hidden ret then intRegs.drop 1 else intRegs) sseRegs 0 args

/-- The registers of argument `i` as the compiler describes them: eightbyte `j` is at offset
`8 * j` and has up to 8 bytes. -/
def eightbytes (i size : Nat) (rs : List Dest) : List RegInfo :=
  (rs.zip (List.range rs.length)).map fun x => ⟨x.1, some (i, 8 * x.2), min (size - 8 * x.2) 8⟩

/-- All registers of the arguments from `i` on. -/
def regsOf (i : Nat) : List Ty → List Loc → List RegInfo
  | t :: ts, .regs rs :: ls => eightbytes i t.size rs ++ regsOf (i + 1) ts ls
  | _ :: ts, _ :: ls => regsOf (i + 1) ts ls
  | _, _ => []

/-- All arguments from `i` on that are on the stack, with their offsets. -/
def memOf (i : Nat) : List Loc → List (Nat × Nat)
  | .mem o :: ls => (i, o) :: memOf (i + 1) ls
  | .regs _ :: ls => memOf (i + 1) ls
  | [] => []

/-- Size of argument `i`. -/
def sizeOf (args : List Ty) (i : Nat) : Nat := (args[i]?.map (·.size)).getD 0

/-- C41, the convention: the compiler's registers and stack offsets are the psABI's. -/
def FollowsAbi (conv : Option Ty → List Ty → Res CallInfo)
    (offsets : List Ty → Nat → List Nat → List (Nat × Nat)) : Prop :=
  ∀ ret args, (∀ t, ret = some t → Valid t) → (∀ t ∈ args, Valid t) →
    ∃ c, conv ret args = .ok c ∧
      c.regs = (if hidden ret then [⟨.gpr .rdi, none, 8⟩] else []) ++ regsOf 0 args (locations ret args) ∧
      offsets args 0 c.stack = memOf 0 (locations ret args)

/-- C41, the transfer: what the caller passes is what the callee finds in its parameters, byte
for byte, and the callee has the hidden pointer. -/
def Transfers (send : Option Ty → List Ty → (Nat → Nat → Byte) → (Nat → Byte) → Place → Res Place)
    (receive : Option Ty → List Ty → Place → Res (Nat → Nat → Option Byte))
    (receiveHidden : Option Ty → List Ty → Place → Res (Option (Nat → Byte)))
    (ret : Option Ty) (args : List Ty) : Prop :=
  ∀ (vals : Nat → Nat → Byte) (ptr : Nat → Byte) (p : Place),
    ∃ p' o h, send ret args vals ptr p = .ok p' ∧ receive ret args p' = .ok o ∧
      receiveHidden ret args p' = .ok h ∧
      (∀ i k, k < sizeOf args i → o i k = some (vals i k)) ∧
      (if hidden ret then ∃ f, h = some f ∧ ∀ k, k < 8 → f k = ptr k else h = none)

/-- C79: the caller's result object holds the returned value and nothing behind it changes.
With a hidden pointer the object is the one it points to. -/
def Returns (conv : Option Ty → List Ty → Res CallInfo) (give : Ty → (Nat → Byte) → Result → Res Result)
    (take : CallInfo → Ty → Result → (Nat → Byte) → Res (Nat → Byte)) (t : Ty) : Prop :=
  ∀ (args : List Ty) (c : CallInfo) (v : Nat → Byte) (p : Result), conv (some t) args = .ok c →
    ∃ r o, give t v p = .ok r ∧ take c t r p.obj = .ok o ∧
      (∀ k, k < t.size → o k = v k) ∧ (∀ k, t.size ≤ k → o k = p.obj k)

/-- psABI 3.2.3: with a hidden pointer, `%rax` has that pointer on return. -/
def ReturnsPointer (give : Ty → (Nat → Byte) → Result → Res Result) : Prop :=
  ∀ (t : Ty) (v : Nat → Byte) (ptr : Nat → Byte) (p : Result), t.classes = [.memory] →
    (∀ k, k < 8 → p.reg (.gpr .rdi) k = ptr k) →
    ∃ r, give t v p = .ok r ∧ ∀ k, k < 8 → r.reg (.gpr .rax) k = ptr k

end Verif.ConventionSpec
