import Verif.CastSpec
import Verif.X86Control
import Verif.X86Lemmas
import Verif.Cond
/-!
Specification of conditions (C17 6.8.4.1, 6.8.5, 6.5.13-6.5.15: a scalar condition holds iff
it compares unequal to 0) and of `switch` (6.8.4.2).
-/
namespace Verif.CondSpec
open Verif Asm X86 Simple SimpleSpec CodegenSpec CastSpec
open Verif.Codegen (Slot)
open Verif.Cond (Case)

/-- The slot holds a value of the scalar type `t` (`none`: a pointer). -/
def Holds (abi : Abi) (t : Option ST) (s : State) (c : Slot) : Prop :=
  match t with
  | none => c.size = 8
  | some t =>
    match fmtOf t with
    | some (_, n) => c.size = n
    | none => IsInt t ∧ c.size = bytes abi t ∧ InRange abi t (slotVal abi t s c)

/-- The value in the slot compares unequal to 0. -/
def IsTrue (abi : Abi) (t : Option ST) (s : State) (c : Slot) : Prop :=
  match t with
  | none => rd s.mem (slotAddr s c) 8 ≠ 0
  | some t =>
    match fmtOf t with
    | some (f, n) => Float.cmp f (slotFlt n s c) 0 ≠ .eq
    | none => slotVal abi t s c ≠ 0

instance (abi t s c) : Decidable (Holds abi t s c) := by
  unfold Holds; split
  · infer_instance
  · split <;> infer_instance

instance (abi t s c) : Decidable (IsTrue abi t s c) := by
  unfold IsTrue; split
  · infer_instance
  · split <;> infer_instance

/-- The code ends with a jump to `lt` if `p` holds, to `lf` otherwise, and changes only
scratch registers and the slot `out`. -/
def Decides (code : Res (List Ins)) (F : FP) (s : State) (out : Slot) (p : Prop) (lt lf : Nat) : Prop :=
  ∃ c s', code = .ok c ∧ Frame s s' out ∧
    ((p ∧ runC F c s = .ok (s', .jump lt)) ∨ (¬ p ∧ runC F c s = .ok (s', .jump lf)))

/-- Conditions of `if`, `?:`, `!`, `&&` and `||`. -/
def IfConditions (code : Slot → Nat → Nat → Res (List Ins)) : Prop :=
  ∀ (abi : Abi) (F : FP) (t : Option ST) (c : Slot) (s : State) (lt lf : Nat), Holds abi t s c →
    Decides (code c lt lf) F s ⟨0, 0⟩ (IsTrue abi t s c) lt lf

/-- Conditions of `while`, `do` and `for`; `loc` is a place for an intermediate value. -/
def LoopConditions (code : Abi → Option ST → Slot → Nat → Nat → Nat → Res (List Ins)) : Prop :=
  ∀ (abi : Abi) (F : FP) (t : Option ST) (c : Slot) (s : State) (loc lt lf : Nat), Holds abi t s c →
    Decides (code abi t c loc lt lf) F s ⟨4, loc⟩ (IsTrue abi t s c) lt lf

/-- The type of a controlling expression after the integer promotions. -/
def promoted (abi : Abi) (t : ST) : ST := if width abi t < 32 then .int else t

/-- 6.8.4.2p5: constant expression `k` (converted to the promoted type) is the value `v`. -/
def Matches (abi : Abi) (t : ST) (v k : Int) : Prop := IsConversion abi (promoted abi t) k v

/-- The label a `switch` on `v` jumps to, given the constants and labels of its cases in
order and the label of the default (or the end). -/
inductive Selects (abi : Abi) (t : ST) (v : Int) (last : Nat) : List (Int × Nat) → Nat → Prop
  | none : Selects abi t v last [] last
  | here {k l cs} : Matches abi t v k → Selects abi t v last ((k, l) :: cs) l
  | next {k l cs m} : ¬ Matches abi t v k → Selects abi t v last cs m → Selects abi t v last ((k, l) :: cs) m

/-- `Case.k` is the constant of the label converted to `int`, as the parser leaves it. -/
def Converted (abi : Abi) (ks : List Int) (cs : List Case) : Prop :=
  ks.length = cs.length ∧ ∀ p ∈ ks.zip cs, IsConversion abi .int p.1 p.2.k

/-- The memory of every slot in `l` is apart from that of `v`. -/
def Apart (s : State) (v : Slot) (l : List Slot) : Prop :=
  ∀ o ∈ l, Disj (slotAddr s v) v.size (slotAddr s o) o.size

/-- The slots a chain of case tests uses. -/
def caseSlots (cs : List Case) : List Slot := cs.flatMap fun c => [⟨4, c.cloc⟩, ⟨4, c.qloc⟩]

/-- Only the slots of the list have changed, and scratch registers. -/
def FrameL (s s' : State) (l : List Slot) : Prop :=
  s'.reg .rbp = s.reg .rbp ∧ s'.reg .rsp = s.reg .rsp ∧
  ∀ x, (∀ o ∈ l, ∀ i, i < o.size → x ≠ slotAddr s o + BitVec.ofNat 64 i) → s'.mem x = s.mem x

/-- A `switch` reaches the label that C selects.  `control` is the code of the controlling
expression's block and gives the slot of the value; `chain` the code of the entry blocks. -/
def SwitchSelects
    (control : Abi → Option ST → Slot → Nat → Nat → Res (Slot × List Ins))
    (blocks : Slot → Nat → Nat → List Case → Res (Nat → Option (List Ins))) (ok : Abi → ST → Prop) : Prop :=
  ∀ (abi : Abi) (F : FP) (t : ST) (c : Slot) (s : State) (loc base last : Nat) (ks : List Int) (cs : List Case),
    ok abi t → IsInt t → Holds abi (some t) s c → Converted abi ks cs →
    (∀ l ∈ last :: cs.map (·.label), l < base) →
    Apart s c (caseSlots cs) → Apart s ⟨4, loc⟩ (caseSlots cs) →
    ∃ o l b s1 fuel s2 target, control abi (some t) c loc base = .ok (o, l) ∧ blocks o base last cs = .ok b ∧
      runC F l s = .ok (s1, .jump base) ∧ runBlocks F b fuel base s1 = some (.ok (s2, .jump target)) ∧
      FrameL s s2 (⟨4, loc⟩ :: caseSlots cs) ∧
      Selects abi t (slotVal abi t s c) last (ks.zip (cs.map (·.label))) target

end Verif.CondSpec
