import Verif.Vla
import Verif.X86Control
/-!
Specification of variable length arrays (C17 6.2.4p7, 6.7.6.2): the arrays that are alive at the same time are different objects in the part of the
stack that the function has taken, and stay where they are.
-/
namespace Verif.VlaSpec
open Verif Asm X86
open Verif.Codegen (Slot)
open Verif.Frame (Node Kind Layout layout)

/-- Code in two parts with the label `lbl` in between. -/
def runParts (F : FP) (lbl : Nat) (a b : List Ins) (s : State) : Out State :=
  match runC F a s with
  | .ok (s', .fall) => run F b s'
  | .ok (s', .jump x) => if x = lbl then run F b s' else .bad
  | .ok (_, .ret _) => .bad
  | .trap => .trap
  | .bad => .bad

/-- The eight bytes that begin `loc` bytes below `%rbp`. -/
def word (s : State) (loc : Nat) : Nat := rd s.mem (s.reg .rbp - BitVec.ofNat 64 loc) 8

/-- The word kept for the allocation `k`. -/
def slot (l : Layout) (s : State) (k : Nat) : Nat := word s (l.vlaOffset - 8 * k)

/-- Instruction `j` of the function is the `k`th allocation; its operand is the value at `len`, its own value is at `out`; both have eight bytes. -/
structure Declares (ns : List Node) (pre : Nat) (k : Nat) (len out : Slot) : Prop where
  alloc : ∃ j, ns[j]? = some (Node.mk 8 .vla) ∧ k = ((ns.take j).filter (·.kind = .vla)).length ∧ (layout ns pre).values[j]? = some out.loc
  operand : ∃ (i : Nat) (kind : Kind), ns[i]? = some (Node.mk 8 kind) ∧ (layout ns pre).values[i]? = some len.loc
  outSize : out.size = 8
  lenSize : len.size = 8

/-- The code of an allocation runs from `s` to `s'`. -/
def Allocates (F : FP) (ns : List Node) (pre : Nat) (k : Nat) (len out : Slot) (s s' : State) : Prop :=
  ∃ lbl c, Vla.after (layout ns pre) k len out = .ok c ∧ runParts F lbl (Vla.before (layout ns pre) k lbl) c s = .ok s'

/-- An array: the number of its allocation, its address and its size in bytes. -/
structure Arr where
  num : Nat
  addr : Nat
  size : Nat
  deriving DecidableEq, Repr

/-- No byte in common. -/
def Apart (a b : Arr) : Prop := a.addr + a.size ≤ b.addr ∨ b.addr + b.size ≤ a.addr

instance (a b) : Decidable (Apart a b) := by unfold Apart; infer_instance

/-- Other code keeps `%rsp`, `%rbp` and the words of the allocations. -/
structure Keeps (l : Layout) (s s' : State) : Prop where
  rsp : s'.reg .rsp = s.reg .rsp
  rbp : s'.reg .rbp = s.reg .rbp
  slots : ∀ k, k < l.vlaCount → slot l s' k = slot l s k

/-- What a function has executed, with the arrays that are alive: it starts with no array and the stack pointer at `top`; other code runs, at which
arrays may end; an allocation ends the array of the same declaration and begins a new one. `Outer i k` tells which arrays may be alive when the
allocation `k` is executed: those of the declarations before `k` in the same block or a block around it. The arrays fit on the stack. -/
inductive History (F : FP) (ns : List Node) (pre : Nat) (Outer : Nat → Nat → Prop) (top : Nat) : List Arr → State → Prop
  | start {s s' : State} : 16 ∣ top → (s.reg .rsp).toNat = top → (s.reg .rbp).toNat = top + (layout ns pre).frame →
      run F (Vla.clearAll (layout ns pre)) s = .ok s' → History F ns pre Outer top [] s'
  | other {live live' : List Arr} {s s' : State} : History F ns pre Outer top live s → Keeps (layout ns pre) s s' → live'.Sublist live →
      History F ns pre Outer top live' s'
  | alloc {live : List Arr} {s s' : State} {k : Nat} {len out : Slot} : History F ns pre Outer top live s → Declares ns pre k len out →
      (∀ a ∈ live, a.num = k ∨ Outer a.num k) → word s len.loc < (s.reg .rsp).toNat → Allocates F ns pre k len out s s' →
      History F ns pre Outer top (⟨k, word s' out.loc, word s len.loc⟩ :: live.filter (·.num ≠ k)) s'

/-- The arrays are apart, within the part of the stack that is taken, and aligned as far as 16 and their size allow. -/
structure Stored (top : Nat) (live : List Arr) (s : State) : Prop where
  apart : live.Pairwise Apart
  taken : ∀ a ∈ live, (s.reg .rsp).toNat ≤ a.addr ∧ a.addr + a.size ≤ top
  aligned : ∀ a ∈ live, ∀ d, d ∣ 16 → d ∣ a.size → d ∣ a.addr
  stack : 16 ∣ (s.reg .rsp).toNat

/-- Code between two executions of the allocation `k`: other code, and allocations of greater numbers. -/
inductive Within (F : FP) (ns : List Node) (pre : Nat) (k : Nat) : State → State → Prop
  | none {s : State} : Within F ns pre k s s
  | other {s s' s'' : State} : Within F ns pre k s s' → Keeps (layout ns pre) s' s'' → Within F ns pre k s s''
  | alloc {s s' s'' : State} {j : Nat} {len out : Slot} : Within F ns pre k s s' → k < j → Declares ns pre j len out →
      Allocates F ns pre j len out s' s'' → Within F ns pre k s s''

end Verif.VlaSpec
