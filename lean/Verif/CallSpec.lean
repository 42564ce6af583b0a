import Verif.CodegenSpec
import Verif.X86Lemmas
import Verif.Call
/-!
Specification of calls: the state at the call instruction and after the call.
-/
namespace Verif.CallSpec
open Verif Asm X86 CodegenSpec
open Verif.Codegen (Slot)
open Verif.Call (StackArg Dest Call)

/-- The place of the bytes to pass, before the call is set up. -/
def src (s : State) : StackArg → BitVec 64
  | .value v _ => slotAddr s v
  | .object p _ _ => BitVec.ofNat 64 (rd s.mem (slotAddr s p) 8)

/-- Offset of a stack argument in the outgoing area. -/
def off : StackArg → Nat
  | .value _ o => o
  | .object _ o _ => o

/-- Its size. -/
def size : StackArg → Nat
  | .value v _ => v.size
  | .object _ _ n => n

/-- The `n` bytes at `a` are outside of the `area` bytes at `base`. -/
def Outside (base : BitVec 64) (area : Nat) (a : BitVec 64) (n : Nat) : Prop :=
  ∀ i, i < n → area ≤ (a + BitVec.ofNat 64 i - base).toNat

/-- Everything a stack argument reads is outside of the outgoing area. -/
def Clear (s : State) (base : BitVec 64) (area : Nat) : StackArg → Prop
  | .value v _ => Outside base area (slotAddr s v) v.size
  | .object p o n => p.size = 8 ∧ Outside base area (slotAddr s p) 8 ∧ Outside base area (src s (.object p o n)) n

/-- The stack arguments have their own bytes inside the outgoing area. -/
def Placed (area : Nat) (as : List StackArg) : Prop :=
  (∀ a ∈ as, off a + size a ≤ area) ∧ as.Pairwise fun a b => off a + size a ≤ off b ∨ off b + size b ≤ off a

/-- A register argument is a scalar in a frame slot; its register is not a frame register. -/
def RegOk (s : State) (base : BitVec 64) (area : Nat) : Dest × Slot → Prop
  | (.gpr r, v) => (v.size = 1 ∨ v.size = 2 ∨ v.size = 4 ∨ v.size = 8) ∧ r ≠ .rsp ∧ r ≠ .rbp ∧
      Outside base area (slotAddr s v) v.size
  | (.sse _, v) => Outside base area (slotAddr s v) 8

/-- The register has the (zero-extended) value the slot has in `s`. -/
def Holds (s s1 : State) : Dest × Slot → Prop
  | (.gpr r, v) => s1.reg r = BitVec.ofNat 64 (rd s.mem (slotAddr s v) v.size)
  | (.sse i, v) => s1.xmm i = BitVec.ofNat 64 (rd s.mem (slotAddr s v) 8)

/-- What a call must be given: an outgoing area of `area` bytes, every argument with a place
of its own, values outside of the outgoing area. -/
structure Ok (s : State) (area : Nat) (c : Call) : Prop where
  change : c.change = -(area : Int)
  small : area ≤ 2 ^ 62
  placed : Placed area c.stack
  clear : ∀ a ∈ c.stack, Clear s (s.reg .rsp - BitVec.ofNat 64 area) area a
  regs : ∀ r ∈ c.regs, RegOk s (s.reg .rsp - BitVec.ofNat 64 area) area r
  distinct : (c.regs.map (·.1)).Nodup
  callee : c.callee.size = 8 ∧ Outside (s.reg .rsp - BitVec.ofNat 64 area) area (slotAddr s c.callee) 8
  reg : c.reg ≠ .rsp ∧ c.reg ≠ .rbp ∧ Dest.gpr c.reg ∉ c.regs.map (·.1)

/-- At the call instruction: `%rsp` points to the outgoing area, every argument is in its
place, the callee's address in its register, and nothing but the outgoing area has changed. -/
structure SetUp (s s1 : State) (area : Nat) (c : Call) : Prop where
  rsp : s1.reg .rsp = s.reg .rsp - BitVec.ofNat 64 area
  rbp : s1.reg .rbp = s.reg .rbp
  stack : ∀ a ∈ c.stack, ∀ i, i < size a →
    s1.mem (s1.reg .rsp + BitVec.ofNat 64 (off a + i)) = s.mem (src s a + BitVec.ofNat 64 i)
  regs : ∀ r ∈ c.regs, Holds s s1 r
  callee : s1.reg c.reg = BitVec.ofNat 64 (rd s.mem (slotAddr s c.callee) 8)
  rest : ∀ x : BitVec 64, area ≤ (x - s1.reg .rsp).toNat → s1.mem x = s.mem x

/-- What the callee does to the frame registers (psABI 3.2.1). -/
def Returned (s1 s2 : State) : Prop := s2.reg .rsp = s1.reg .rsp ∧ s2.reg .rbp = s1.reg .rbp

/-- A result is a scalar; a floating result is a `float` or a `double`. -/
def ResultOk : Dest × Slot → Prop
  | (.gpr r, v) => r ≠ .rsp ∧ (v.size = 1 ∨ v.size = 2 ∨ v.size = 4 ∨ v.size = 8)
  | (.sse _, v) => v.size = 4 ∨ v.size = 8

/-- Content of a register. -/
def regVal (s : State) : Dest → Nat
  | .gpr r => (s.reg r).toNat
  | .sse i => (s.xmm i).toNat

/-- The results are in their slots: `s2` is the state right after the callee returned. -/
def Received (s2 s3 : State) (c : Call) : Prop :=
  (∀ r ∈ c.results, rd s3.mem (slotAddr s2 r.2) r.2.size = regVal s2 r.1 % 256 ^ r.2.size) ∧
  ∀ x, (∀ r ∈ c.results, ∀ i, i < r.2.size → x ≠ slotAddr s2 r.2 + BitVec.ofNat 64 i) → s3.mem x = s2.mem x

/-- C39: the stack pointer after the call is the one before it. -/
def Restores (before : Call → Res (List Ins)) (after : Call → List Ins) : Prop :=
  ∀ (F : FP) (c : Call) (s : State) (area : Nat), Ok s area c → (∀ r ∈ c.results, ResultOk r) →
    ∃ b s1, before c = .ok b ∧ run F b s = .ok s1 ∧
      ∀ s2, Returned s1 s2 → ∃ s3, run F (after c) s2 = .ok s3 ∧ s3.reg .rsp = s.reg .rsp ∧ s3.reg .rbp = s.reg .rbp

/-- Registers a function must preserve (psABI figure 3.4), besides `%rsp` and `%rbp`. -/
def calleeSaved : List Reg := [.rbx, .r12, .r13, .r14, .r15]

end Verif.CallSpec
