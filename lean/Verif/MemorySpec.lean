import Verif.CodegenSpec
import Verif.X86Lemmas
/-!
Specification of block copies: what memory looks like afterwards, and which bytes an
instruction accesses.
-/
namespace Verif.MemorySpec
open Verif Asm X86 Simple SimpleSpec CodegenSpec
open Verif.Codegen (Slot)

/-- Memory after the `n` bytes at `a` were copied to `d`. -/
def copied (m : BitVec 64 → BitVec 8) (a d : BitVec 64) (n : Nat) : BitVec 64 → BitVec 8 :=
  fun x => if (x - d).toNat < n then m (a + (x - d)) else m x

/-- Memory after the `n` bytes at `d` were cleared. -/
def cleared (m : BitVec 64 → BitVec 8) (d : BitVec 64) (n : Nat) : BitVec 64 → BitVec 8 :=
  fun x => if (x - d).toNat < n then 0 else m x

/-- Nothing but `%rax`, `%rsi`, `%rdi`, the flags and memory differ. -/
def Scratch (s s' : State) : Prop :=
  (∀ r, r ≠ .rax → r ≠ .rsi → r ≠ .rdi → s'.reg r = s.reg r) ∧ s'.xmm = s.xmm

/-- Bytes moved by a plain move. -/
def moved : Mn → Option Nat
  | .movb => some 1
  | .movw => some 2
  | .movl => some 4
  | .movq => some 8
  | _ => none

/-- The moves of `c` read only the `n` bytes from `(r)` and write only the `k` bytes from
`(w)`. -/
def Within (c : List Ins) (r : Reg) (n : Nat) (w : Reg) (k : Nat) : Prop :=
  ∀ i ∈ c, ∃ z src dst, moved i.mn = some z ∧ i.ops = [src, dst] ∧
    (∀ o b, src = .mem o b → b = r ∧ 0 ≤ o ∧ o + z ≤ n) ∧
    (∀ o b, dst = .mem o b → b = w ∧ 0 ≤ o ∧ o + z ≤ k)

/-- Two ranges of `n` bytes are disjoint or the same. -/
def NoPartialOverlap (a d : BitVec 64) (n : Nat) : Prop := a = d ∨ Disj a n d n

/-- The object of type `t` whose address is in the slot `p`. -/
def target (s : State) (p : Slot) : BitVec 64 := BitVec.ofNat 64 (rd s.mem (slotAddr s p) 8)

/-- Running `c` ends normally, gives the object at `d` the value `v` of type `t` and changes
no memory but that object and the temporary `tmp`. -/
def Assigns (abi : Abi) (F : FP) (c : List Ins) (s : State) (d : BitVec 64) (t : ST) (v : Int)
    (tmp : Slot) : Prop :=
  ∃ s', run F c s = .ok s' ∧
    bitsVal t (BitVec.ofNat (8 * bytes abi t) (rd s'.mem d (bytes abi t))) = v ∧
    s'.reg .rbp = s.reg .rbp ∧ s'.reg .rsp = s.reg .rsp ∧
    ∀ x, (∀ i, i < bytes abi t → x ≠ d + BitVec.ofNat 64 i) →
      (∀ i, i < tmp.size → x ≠ slotAddr s tmp + BitVec.ofNat 64 i) → s'.mem x = s.mem x

/-- An assignment `x = a op b` to an object of the type of `a op b`, whenever C defines the
value, the operands and the address are in slots of their own and the object does not
overlap the temporary: exactly the object is written. -/
def AssignmentExact (assign : ST → Op → Slot → Slot → Nat → Slot → Res (List Ins)) : Prop :=
  ∀ (abi : Abi) (F : FP) (t : ST) (op : Op) (a b : Slot) (loc : Nat) (p : Slot) (s : State) (v : Int),
    CodegenSpec.Promoted t → a.size = bytes abi t → b.size = bytes abi t → p.size = 8 →
    opVal abi t op (slotVal abi t s a) (slotVal abi t s b) = some v →
    Disj (slotAddr s p) 8 (slotAddr s ⟨8, loc⟩) 8 → Disj (target s p) 8 (slotAddr s ⟨8, loc⟩) 8 →
    ∃ c, assign t op a b loc p = .ok c ∧ Assigns abi F c s (target s p) (opType t op) v ⟨8, loc⟩

end Verif.MemorySpec
