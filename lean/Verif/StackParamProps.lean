import Verif.StackParamSpec
import Verif.EntryLemmas
import Verif.FrameLemmas
import Verif.VaArgProps
import Verif.PhiProps
/-!
Properties of parameters on the stack (C80).
-/
namespace Verif.StackParam
open Verif Asm X86 Codegen CodegenSpec Memory MemorySpec Frame StackParamSpec
open Verif.VaArg (add_off copied_in)

theorem exec_push_bp (F : FP) (s : State) : exec F ⟨.pushq, [R8 .rbp]⟩ s =
    .ok ((s.set .rsp (s.reg .rsp - 8)).store (s.reg .rsp - 8) 8 (s.reg .rbp).toNat) := rfl

/-- Without over-aligned locals, `%rbp` is 8 below the return address. -/
theorem base_plain (F : FP) (l : Layout) (hl : l.saved = none) (s s1 : State) (h : run F (prologue l) s = .ok s1) :
    s1.reg .rbp = s.reg .rsp - 8 := by
  unfold prologue at h
  rw [hl] at h
  simp only [List.append_nil, List.singleton_append, List.cons_append, List.nil_append] at h
  obtain ⟨s', e1, e2, _⟩ := run_sub F (((s.set .rsp (s.reg .rsp - 8)).store (s.reg .rsp - 8) 8 (s.reg .rbp).toNat).set .rbp (s.reg .rsp - 8)) l.frame
  have h2 : exec F ⟨.movq, [R8 .rsp, R8 .rbp]⟩ ((s.set .rsp (s.reg .rsp - 8)).store (s.reg .rsp - 8) 8 (s.reg .rbp).toNat) =
      .ok (((s.set .rsp (s.reg .rsp - 8)).store (s.reg .rsp - 8) 8 (s.reg .rbp).toNat).set .rbp (s.reg .rsp - 8)) := by
    rw [exec_mov_sp]
    simp
  rw [run_cons, exec_push_bp, Out.bind_ok, run_cons, h2, Out.bind_ok, e1] at h
  cases h
  rw [e2]
  simp

/-- C80 for functions none of whose locals needs more than 16-byte alignment.  Missing:
functions with over-aligned locals, see `reads_param_violated`. -/
theorem reads_param_partial (l : Layout) (hl : l.saved = none) : ReadsParam l loadParam := by
  intro F s s1 s2 off size dst hsp hroom htop hsize hoff hrun hbp hmem hd hdisj
  obtain ⟨c, e, ld⟩ := run_load F dst .rsi (by rw [hd]; simp [ScalarSize])
  have hb := base_plain F l hl s s1 hrun
  have hsrc : s2.reg .rbp + BitVec.ofInt 64 ((off + 16 : Nat) : Int) = s.reg .rsp + BitVec.ofNat 64 (8 + off) := by
    rw [hbp, hb, BitVec.ofInt_natCast, show off + 16 = 8 + (8 + off) by omega, ← add_off]
    show s.reg .rsp - BitVec.ofNat 64 8 + BitVec.ofNat 64 8 + _ = _
    rw [BitVec.sub_add_cancel]
  have h1 : exec F ⟨.leaq, [MEM ((off + 16 : Nat) : Int) .rbp, R8 .rdi]⟩ s2 = .ok (s2.set .rdi (s.reg .rsp + BitVec.ofNat 64 (8 + off))) := by
    rw [MEM, R8, exec_leaq, State.addr, hsrc]
  have h2 : run F c (s2.set .rdi (s.reg .rsp + BitVec.ofNat 64 (8 + off))) =
      .ok ((s2.set .rdi (s.reg .rsp + BitVec.ofNat 64 (8 + off))).set .rsi (target s2 dst)) := by
    rw [ld, hd, slotAddr_set _ _ _ _ (by decide)]
    rfl
  obtain ⟨v, hv⟩ := memcpy_copies F size (by omega) ((s2.set .rdi (s.reg .rsp + BitVec.ofNat 64 (8 + off))).set .rsi (target s2 dst))
    (by simp only [set_reg, if_true]; simpa using .inr hdisj)
  refine ⟨_, _, by rw [loadParam, e]; rfl, by
    rw [List.append_assoc, List.singleton_append, run_cons, h1, Out.bind_ok, run_append_ok h2, hv], ?_⟩
  intro i hi
  simp only [set_mem, set_reg, if_true, reduceCtorEq, if_false]
  rw [copied_in _ _ _ _ _ hi (by omega), add_off, hmem]
  have := (s.reg .rsp).isLt
  rw [BitVec.toNat_add, BitVec.toNat_ofNat]
  omega

/-- A function with two locals and a third argument on the stack. -/
example : (layout [⟨8, .alloc 4 4⟩, ⟨8, .alloc 24 8⟩, ⟨4, .plain⟩] 0).saved = none := by decide

/-- A function with a local of 32-byte alignment, called with `%rsp` at `0x1018`, the argument
area full of ones. -/
def over : Layout := layout [⟨8, .alloc 4 32⟩] 0

def overState : State :=
  { reg := fun r => if r = .rsp then 0x1018 else 0, xmm := fun _ => 0, fl := none,
    mem := fun x => if 0x1020 ≤ x.toNat then 1 else 0 }

def overRead : Option (BitVec 8 × BitVec 8) :=
  match run Phi.anyFP (prologue over) overState with
  | .ok s1 =>
    match loadParam 0 4 ⟨8, 8⟩ with
    | .ok c =>
      match run Phi.anyFP c s1 with
      | .ok s3 => some (s3.mem (target s1 ⟨8, 8⟩), overState.mem 0x1020)
      | _ => none
    | _ => none
  | _ => none

/-- C80 is wrong when a local needs more than 16-byte alignment: `%rbp` is aligned down, so the
offsets from it miss the argument area; the first `int` on the stack, `0x01010101`, is read
as 0. -/
theorem reads_param_violated : ¬ ∀ l, ReadsParam l loadParam := by
  intro h
  have hv : overRead = some (0, 1) := by decide +kernel
  have hrun : ∃ s1, run Phi.anyFP (prologue over) overState = .ok s1 ∧ 16 ≤ (s1.reg .rbp).toNat ∧
      target s1 ⟨8, 8⟩ = 0 ∧ (s1.reg .rbp).toNat = 0x1000 := by
    cases hr : run Phi.anyFP (prologue over) overState with
    | ok s1 =>
      have h1 : (match run Phi.anyFP (prologue over) overState with
        | .ok s1 => (target s1 ⟨8, 8⟩, (s1.reg .rbp).toNat) | _ => (1, 0)) = (0, 0x1000) := by decide +kernel
      rw [hr] at h1
      simp only [Prod.mk.injEq] at h1
      exact ⟨s1, rfl, by omega, h1.1, h1.2⟩
    | bad => rw [overRead, hr] at hv; cases hv
    | trap => rw [overRead, hr] at hv; cases hv
  obtain ⟨s1, hr, hbp, htgt, hb⟩ := hrun
  have hE := (entry_exit_of (l := over) ⟨by decide, by
    intro o ho
    have : over.saved = some 40 := by decide
    rw [this] at ho
    cases ho
    exact ⟨by decide, by decide, 5, by decide, by decide, by decide⟩⟩) Phi.anyFP overState (by decide) (by decide)
  obtain ⟨s1', hr', _, _, _, _, hmem, _⟩ := hE
  rw [hr] at hr'
  cases hr'
  obtain ⟨c, s3, e1, e2, e3⟩ := h over Phi.anyFP overState s1 s1 0 4 ⟨8, 8⟩ (by decide) (by decide) (by decide) (by decide) (by decide)
    hr rfl hmem rfl (by rw [htgt]; unfold Disj; decide +kernel)
  have := e3 0 (by decide)
  rw [overRead, hr, e1] at hv
  simp only [e2] at hv
  rw [BitVec.add_zero] at this
  rw [this] at hv
  revert hv
  decide +kernel

end Verif.StackParam
