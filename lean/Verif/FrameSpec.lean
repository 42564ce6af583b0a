import Verif.X86Control
import Verif.Frame
/-!
Specification of stack frames: byte ranges below `%rbp`, and what a function must restore.
-/
namespace Verif.FrameSpec
open Verif Asm X86
open Verif.Frame (Node Kind Layout)

/-- A range of bytes: `size` bytes starting `loc` bytes below `%rbp`. -/
structure Range where
  loc : Nat
  size : Nat
  deriving DecidableEq, Repr

/-- The ranges have no byte in common. -/
def Disjoint (a b : Range) : Prop := a.loc + b.size ≤ b.loc ∨ b.loc + a.size ≤ a.loc

/-- The range lies within a frame of `f` bytes. -/
def Inside (f : Nat) (r : Range) : Prop := r.size ≤ r.loc ∧ r.loc ≤ f

instance (a b) : Decidable (Disjoint a b) := by unfold Disjoint; infer_instance
instance (f r) : Decidable (Inside f r) := by unfold Inside; infer_instance

/-- The ranges of the values. -/
def valueRanges (ns : List Node) (l : Layout) : List Range :=
  (ns.zip l.values).filterMap fun p => if p.1.size = 0 then none else some ⟨p.2, p.1.size⟩

/-- The slots of the VLAs: slot `i` is at `vlaOffset - 8 i`. -/
def vlaRanges (l : Layout) : List Range := (List.range l.vlaCount).map fun i => ⟨l.vlaOffset - 8 * i, 8⟩

/-- The ranges of the locals. -/
def allocRanges (ns : List Node) (l : Layout) : List Range :=
  (ns.zip l.allocs).filterMap fun p =>
    match p.1.kind with
    | .alloc size _ => some ⟨p.2, size⟩
    | _ => none

/-- The register save area and the saved stack pointer. -/
def otherRanges (pre : Nat) (l : Layout) : List Range :=
  ⟨l.preamble, pre⟩ :: (match l.saved with | some o => [⟨o, 8⟩] | none => [])

/-- Everything in the frame. -/
def ranges (ns : List Node) (pre : Nat) (l : Layout) : List Range :=
  valueRanges ns l ++ vlaRanges l ++ allocRanges ns l ++ otherRanges pre l

/-- A good frame. -/
structure Good (ns : List Node) (pre : Nat) (l : Layout) : Prop where
  values : l.values.length = ns.length
  vlas : l.vlaCount = (ns.filter (·.kind = .vla)).length
  allocs : l.allocs.length = ns.length
  disjoint : (ranges ns pre l).Pairwise Disjoint
  inside : ∀ r ∈ ranges ns pre l, Inside l.frame r
  aligned : ∀ p ∈ ns.zip l.allocs, ∀ size a, p.1.kind = .alloc size a → a ∣ p.2 ∨ a = 0
  round : 16 ∣ l.frame
  align : ∀ n ∈ ns, ∀ size a, n.kind = .alloc size a → a ≤ l.align
  saved : l.saved = none ↔ l.align ≤ 16

/-- Aligned `rbp`: a multiple of 16, and of every requested alignment. -/
def BaseAligned (l : Layout) (rbp : BitVec 64) : Prop :=
  16 ∣ rbp.toNat ∧ (l.saved ≠ none → l.align ∣ rbp.toNat)

/-- Entry and exit of a function with the layout `l`.  At entry `%rsp` holds the address of
the return address and is 8 modulo 16 (psABI 3.2.2).  After the entry code the frame is
below `%rbp`, which is aligned; memory from the return address up is untouched; and whatever
the body does, if it keeps `%rbp` and the bytes at and above `%rbp` and the saved pointer's
slot, the exit code returns to the caller with its `%rsp` and `%rbp`. -/
def EntryExit (l : Layout) (pro epi : List Ins) : Prop :=
  ∀ (F : FP) (s : State), (s.reg .rsp).toNat % 16 = 8 → l.frame + l.align + 8 ≤ (s.reg .rsp).toNat →
    ∃ s1, run F pro s = .ok s1 ∧ BaseAligned l (s1.reg .rbp) ∧
      s1.reg .rsp = s1.reg .rbp - BitVec.ofNat 64 l.frame ∧
      (s1.reg .rbp).toNat + 8 ≤ (s.reg .rsp).toNat ∧ l.frame ≤ (s1.reg .rbp).toNat ∧
      (∀ x : BitVec 64, (s.reg .rsp).toNat ≤ x.toNat → s1.mem x = s.mem x) ∧
      ∀ s2 : State, s2.reg .rbp = s1.reg .rbp →
        (∀ x : BitVec 64, (s1.reg .rbp).toNat ≤ x.toNat → x.toNat < (s.reg .rsp).toNat + 8 → s2.mem x = s1.mem x) →
        (∀ o, l.saved = some o → ∀ i, i < 8 → s2.mem (s1.reg .rbp - BitVec.ofNat 64 o + BitVec.ofNat 64 i) =
          s1.mem (s1.reg .rbp - BitVec.ofNat 64 o + BitVec.ofNat 64 i)) →
        ∃ s3, runC F epi s2 = .ok (s3, .ret (BitVec.ofNat 64 (rd s.mem (s.reg .rsp) 8))) ∧
          s3.reg .rsp = s.reg .rsp + 8 ∧ s3.reg .rbp = s.reg .rbp

end Verif.FrameSpec
