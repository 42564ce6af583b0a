import Verif.CodegenSpec
import Verif.Cast
/-!
Specification of conversions between scalar types (C17 6.3.1).  `castExpr` is the code under
test; everything else here is about values and bytes.
-/
namespace Verif.CastSpec
open Verif Asm X86 Simple SimpleSpec CodegenSpec
open Verif.Codegen (Slot)
open Verif.Cast (castExpr)

/-- Converting slot `a` from `src` to `dst` yields a slot with `Q`: either the operand
itself, or a new slot at `loc` which the code fills, changing nothing else. -/
def Yields (abi : Abi) (F : FP) (src dst : Option ST) (a : Slot) (loc : Nat) (s : State)
    (Q : State → Slot → Prop) : Prop :=
  (castExpr abi src dst a loc = .ok none ∧ Q s a) ∨
  ∃ n c s', castExpr abi src dst a loc = .ok (some (⟨n, loc⟩, c)) ∧ run F c s = .ok s' ∧
    Frame s s' ⟨n, loc⟩ ∧ Q s' ⟨n, loc⟩

/-- The encoding of the floating number in a slot. -/
def slotFlt (n : Nat) (s : State) (o : Slot) : Nat := rd s.mem (slotAddr s o) n

/-- 6.3.1.1-6.3.1.3: integer to integer.  (The operand holds a value of its type: a `_Bool`
holds 0 or 1.) -/
def IntToInt : Prop :=
  ∀ (abi : Abi) (F : FP) (src dst : ST) (a : Slot) (loc : Nat) (s : State),
    IsInt src → IsInt dst → a.size = bytes abi src → InRange abi src (slotVal abi src s a) →
    Yields abi F (some src) (some dst) a loc s fun s' o =>
      o.size = bytes abi dst ∧ IsConversion abi dst (slotVal abi src s a) (slotVal abi dst s' o)

/-- 6.3.1.4: integer to floating, rounded to nearest. -/
def IntToFloat : Prop :=
  ∀ (abi : Abi) (F : FP) (src dst : ST) (f : Float.Fmt) (n : Nat) (a : Slot) (loc : Nat) (s : State),
    IsInt src → fmtOf dst = some (f, n) → a.size = bytes abi src →
    Yields abi F (some src) (some dst) a loc s fun s' o =>
      o.size = n ∧ slotFlt n s' o = Float.ofInt f (slotVal abi src s a)

/-- 6.3.1.4: floating to integer, where the truncated value can be represented. -/
def FloatToInt : Prop :=
  ∀ (abi : Abi) (F : FP) (src dst : ST) (f : Float.Fmt) (n : Nat) (a : Slot) (loc : Nat) (s : State) (v : Int),
    fmtOf src = some (f, n) → IsInt dst → dst ≠ .bool → a.size = n →
    Float.trunc f (slotFlt n s a) = some v → InRange abi dst v →
    Yields abi F (some src) (some dst) a loc s fun s' o =>
      o.size = bytes abi dst ∧ slotVal abi dst s' o = v

/-- 6.3.1.2: floating to `_Bool`: 0 if the value compares equal to 0, otherwise 1. -/
def FloatToBool : Prop :=
  ∀ (abi : Abi) (F : FP) (src : ST) (f : Float.Fmt) (n : Nat) (a : Slot) (loc : Nat) (s : State),
    fmtOf src = some (f, n) → a.size = n →
    Yields abi F (some src) (some .bool) a loc s fun s' o =>
      o.size = 1 ∧ slotVal abi .bool s' o = if Float.cmp f (slotFlt n s a) 0 = .eq then 0 else 1

end Verif.CastSpec
