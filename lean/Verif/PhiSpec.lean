import Verif.CodegenSpec
import Verif.X86Lemmas
import Verif.Phi
/-!
Specification of the copies at a join: a parallel assignment.
-/
namespace Verif.PhiSpec
open Verif Asm X86 CodegenSpec
open Verif.Codegen (Slot)
open Verif.Phi (Phi)

/-- The source of a phi node for the first or the second predecessor. -/
def chosen (second : Bool) (p : Phi) : Option Slot := if second then p.src.2 else p.src.1

/-- The assignments `out := source` that a jump has to make. -/
def moves (second : Bool) (ps : List Phi) : List (Slot × Slot) :=
  ps.filterMap fun p => (chosen second p).map fun v => (p.out, v)

/-- All assignments of the list at once: every target has the value its source had before,
no other memory and neither `%rbp` nor `%rsp` change. -/
def Parallel (ms : List (Slot × Slot)) (s s' : State) : Prop :=
  s'.reg .rbp = s.reg .rbp ∧ s'.reg .rsp = s.reg .rsp ∧
  (∀ m ∈ ms, rd s'.mem (slotAddr s m.1) m.1.size = rd s.mem (slotAddr s m.2) m.1.size) ∧
  ∀ x, (∀ m ∈ ms, ∀ i, i < m.1.size → x ≠ slotAddr s m.1 + BitVec.ofNat 64 i) → s'.mem x = s.mem x

/-- Slots of different nodes do not overlap (this is what C37 gives). -/
def Apart (s : State) (a b : Slot) : Prop := Disj (slotAddr s a) a.size (slotAddr s b) b.size

/-- The nodes of a join: scalars, each with a slot of its own, sources of the same size. -/
structure Nodes (s : State) (ms : List (Slot × Slot)) : Prop where
  scalar : ∀ m ∈ ms, m.1.size = 1 ∨ m.1.size = 2 ∨ m.1.size = 4 ∨ m.1.size = 8
  same : ∀ m ∈ ms, m.2.size = m.1.size
  apart : ms.Pairwise fun m n => Apart s m.1 n.1

/-- The full property: whatever the sources are, even other nodes of the join. -/
def JoinCorrect (copies : Nat → Nat → Nat → List Phi → Res (List Ins)) : Prop :=
  ∀ (F : FP) (a b : Nat) (second : Bool) (ps : List Phi) (s : State), a ≠ b →
    (∀ p ∈ ps, p.out.size ≠ 0) → Nodes s (moves second ps) →
    ∃ c s', copies (if second then b else a) a b ps = .ok c ∧ run F c s = .ok s' ∧ Parallel (moves second ps) s s'

end Verif.PhiSpec
