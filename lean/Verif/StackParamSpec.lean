import Verif.StackParam
import Verif.FrameSpec
import Verif.MemorySpec
/-!
Specification of parameters on the stack: psABI 3.2.2, the argument area begins above the
return address.
-/
namespace Verif.StackParamSpec
open Verif Asm X86 Frame MemorySpec CodegenSpec
open Verif.Codegen (Slot)

/-- C80: in a function with the layout `l`, whose entry code was run from `s`, the code for a
parameter at offset `off` copies the bytes at that offset behind the return address into the
parameter's object, wherever between the two it is run. -/
def ReadsParam (l : Layout) (load : Nat → Nat → Slot → Res (List Ins)) : Prop :=
  ∀ (F : FP) (s s1 s2 : State) (off size : Nat) (dst : Slot), (s.reg .rsp).toNat % 16 = 8 →
    l.frame + l.align + 8 ≤ (s.reg .rsp).toNat → (s.reg .rsp).toNat + 8 + off + size ≤ 2 ^ 64 → size ≤ 2 ^ 30 → off ≤ 2 ^ 30 →
    run F (prologue l) s = .ok s1 → s2.reg .rbp = s1.reg .rbp →
    (∀ x : BitVec 64, (s.reg .rsp).toNat ≤ x.toNat → s2.mem x = s.mem x) → dst.size = 8 →
    Disj (s.reg .rsp + BitVec.ofNat 64 (8 + off)) size (target s2 dst) size →
    ∃ c s3, load off size dst = .ok c ∧ run F c s2 = .ok s3 ∧
      ∀ i, i < size → s3.mem (target s2 dst + BitVec.ofNat 64 i) = s.mem (s.reg .rsp + BitVec.ofNat 64 (8 + off + i))

end Verif.StackParamSpec
