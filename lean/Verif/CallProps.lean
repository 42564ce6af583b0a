import Verif.CallLemmas
/-!
Properties of calls (C39, C77, C78).
-/
namespace Verif.Call
open Verif Asm X86 Codegen CodegenSpec Memory MemorySpec CallSpec

/-- The state at the call instruction, with all that has changed. -/
theorem set_up (F : FP) (c : Call) (s : State) (area : Nat) (h : Ok s area c) :
    ∃ b s1, before c = .ok b ∧ run F b s = .ok s1 ∧ SetUp s s1 area c ∧
      ∀ r, r ≠ .rax → r ≠ .rsi → r ≠ .rdi → r ≠ .rsp → r ≠ c.reg → Dest.gpr r ∉ c.regs.map (·.1) →
        s1.reg r = s.reg r := by
  have hadd : exec F ⟨.addq, [IMM c.change, R8 .rsp]⟩ s =
      .ok { s.set .rsp (s.reg .rsp - BitVec.ofNat 64 area) with fl := none } := by
    rw [IMM, R8, exec_addq, h.change]
    simp [alu, legal, getOp, putOp, merge64, BitVec.ofInt_neg, BitVec.ofInt_natCast, BitVec.sub_eq_add_neg]
  generalize ht : ({ s.set .rsp (s.reg .rsp - BitVec.ofNat 64 area) with fl := none } : State) = t at hadd
  have htsp : t.reg .rsp = s.reg .rsp - BitVec.ofNat 64 area := by rw [← ht]; simp
  have htm : t.mem = s.mem := by rw [← ht]; rfl
  have htr : ∀ r, r ≠ .rsp → t.reg r = s.reg r := by intro r hr; rw [← ht]; simp [hr]
  have hsl : ∀ v : Slot, slotAddr t v = slotAddr s v := by
    intro v; rw [slotAddr, slotAddr, htr _ (by decide)]
  have hsrc : ∀ a, src t a = src s a := by intro a; cases a <;> simp [src, hsl, htm]
  have hcl : ∀ a ∈ c.stack, Clear t (t.reg .rsp) area a := by
    intro a ha
    have := h.clear a ha
    rw [← htsp] at this
    have e := hsrc a
    cases a with
    | value v o => simpa [Clear, hsl] using this
    | object p o n => simp only [Clear, hsl, e] at this ⊢; exact this
  obtain ⟨c1, s1, e1, r1, k1, st1, o1⟩ := run_stackStores F c.stack t area h.small hcl h.placed
  have hbp1 : s1.reg .rbp = s.reg .rbp := by rw [k1.1 _ (by decide) (by decide) (by decide), htr _ (by decide)]
  have hsp1 : s1.reg .rsp = t.reg .rsp := k1.1 _ (by decide) (by decide) (by decide)
  have hsl1 : ∀ v : Slot, slotAddr s1 v = slotAddr s v := by intro v; simp [slotAddr, hbp1]
  have hout1 : ∀ x : BitVec 64, area ≤ (x - t.reg .rsp).toNat → s1.mem x = s.mem x := by
    intro x hx
    rw [o1 x fun a ha => by have := h.placed.1 a ha; omega, htm]
  have hrd1 : ∀ (a : BitVec 64) n, Outside (t.reg .rsp) area a n → rd s1.mem a n = rd s.mem a n :=
    fun a n hO => rd_congr fun i hi => hout1 _ (hO i hi)
  obtain ⟨c2, s2, e2, r2, m2, g2, _, hold⟩ := run_setRegs F c.regs s1 (by
    intro r v hr
    have := h.regs _ hr
    exact ⟨this.1, this.2.2.1⟩) h.distinct
  have hsp : Dest.gpr .rsp ∉ c.regs.map (·.1) := by
    intro hm
    obtain ⟨⟨d, v⟩, ha, hd⟩ := List.mem_map.1 hm
    simp only at hd
    subst hd
    exact (h.regs _ ha).2.1 rfl
  have hbp : Dest.gpr .rbp ∉ c.regs.map (·.1) := by
    intro hm
    obtain ⟨⟨d, v⟩, ha, hd⟩ := List.mem_map.1 hm
    simp only at hd
    subst hd
    exact (h.regs _ ha).2.2.1 rfl
  obtain ⟨c3, e3, r3⟩ := run_load F c.callee c.reg (by rw [h.callee.1]; simp [ScalarSize])
  have hsl2 : ∀ v : Slot, slotAddr s2 v = slotAddr s v := by intro v; rw [slotAddr, g2 _ hbp, hbp1, slotAddr]
  generalize hy : BitVec.ofNat 64 (rd s2.mem (slotAddr s2 c.callee) c.callee.size) = y
  have hy' : y = BitVec.ofNat 64 (rd s.mem (slotAddr s c.callee) 8) := by
    rw [← hy, h.callee.1, m2, hsl2, hrd1]
    rw [htsp]
    exact h.callee.2
  have r3' : run F c3 s2 = .ok (s2.set c.reg y) := by rw [r3 s2, hy]
  have hspf : (s2.set c.reg y).reg .rsp = t.reg .rsp := by
    rw [set_reg, if_neg h.reg.1.symm, g2 _ hsp, hsp1]
  refine ⟨⟨.addq, [IMM c.change, R8 .rsp]⟩ :: (c1 ++ c2 ++ c3), s2.set c.reg y, ?_, ?_, ⟨?_, ?_, ?_, ?_, ?_, ?_⟩, ?_⟩
  · unfold before
    rw [e1, e2, e3]
    rfl
  · rw [run_cons, hadd, Out.bind_ok, List.append_assoc, run_append_ok r1, run_append_ok r2, r3']
  · rw [hspf, htsp]
  · rw [set_reg, if_neg h.reg.2.1.symm, g2 _ hbp, hbp1]
  · intro a ha i hi
    rw [hspf, set_mem, m2, st1 a ha i hi, htm, hsrc]
  · intro a ha
    have h1 := hold a ha
    have h2 := h.regs a ha
    have h3 := h.reg.2.2
    obtain ⟨d, v⟩ := a
    cases d with
    | gpr r =>
      simp only [Holds, RegOk] at h1 h2 ⊢
      rw [set_reg, if_neg, h1, hsl1, hrd1]
      · rw [htsp]; exact h2.2.2.2
      · rintro rfl
        exact h3 (List.mem_map.2 ⟨_, ha, rfl⟩)
    | sse i =>
      simp only [Holds, RegOk] at h1 h2 ⊢
      rw [set_xmm, h1, hsl1, hrd1]
      rw [htsp]; exact h2
  · rw [set_reg, if_pos rfl, hy']
  · intro x hx
    rw [hspf] at hx
    rw [set_mem, m2, hout1 x hx]
  · intro r h1 h2 h3 h4 h5 h6
    rw [set_reg, if_neg h5, g2 r h6, k1.1 r h1 h2 h3, htr r h4]

/-- C77: at the call instruction every argument is in its register or at its offset from
`%rsp`, and the callee's address in its register. -/
theorem call_set_up (F : FP) (c : Call) (s : State) (area : Nat) (h : Ok s area c) :
    ∃ b s1, before c = .ok b ∧ run F b s = .ok s1 ∧ SetUp s s1 area c := by
  obtain ⟨b, s1, h1, h2, h3, _⟩ := set_up F c s area h
  exact ⟨b, s1, h1, h2, h3⟩

theorem run_addq (F : FP) (n : Int) (s : State) :
    exec F ⟨.addq, [IMM n, R8 .rsp]⟩ s = .ok { s.set .rsp (s.reg .rsp + BitVec.ofInt 64 n) with fl := none } := by
  rw [IMM, R8, exec_addq]
  simp [alu, legal, getOp, putOp, merge64]

/-- C77: after the call every result is in its slot and no other memory has changed. -/
theorem call_results (F : FP) (c : Call) (s2 : State) (hr : ∀ r ∈ c.results, ResultOk r)
    (hd : c.results.Pairwise fun a b => Disj (slotAddr s2 a.2) a.2.size (slotAddr s2 b.2) b.2.size) :
    ∃ s3, run F (after c) s2 = .ok s3 ∧ Received s2 s3 c := by
  obtain ⟨s3, r, g, o, v⟩ := run_getRegs F c.results { s2.set .rsp (s2.reg .rsp + BitVec.ofInt 64 c.change) with fl := none } hr
  have hsl : ∀ w : Slot, slotAddr { s2.set .rsp (s2.reg .rsp + BitVec.ofInt 64 c.change) with fl := none } w = slotAddr s2 w := by
    intro w; simp [slotAddr]
  simp only [hsl] at o v
  refine ⟨s3, by rw [after, run_cons, run_addq, Out.bind_ok, r], ?_, o⟩
  intro a ha
  rw [v hd a ha]
  have := hr a ha
  obtain ⟨d, w⟩ := a
  cases d with
  | gpr r =>
    have : regVal { s2.set .rsp (s2.reg .rsp + BitVec.ofInt 64 c.change) with fl := none } (.gpr r) = regVal s2 (.gpr r) := by
      simp [regVal, this.1]
    rw [this]
  | sse i => rfl

/-- C39, when no stack space is needed for arguments. -/
theorem call_restores_partial (F : FP) (c : Call) (s : State) (h : Ok s 0 c) (hr : ∀ r ∈ c.results, ResultOk r) :
    ∃ b s1, before c = .ok b ∧ run F b s = .ok s1 ∧
      ∀ s2, Returned s1 s2 → ∃ s3, run F (after c) s2 = .ok s3 ∧ s3.reg .rsp = s.reg .rsp ∧ s3.reg .rbp = s.reg .rbp := by
  obtain ⟨b, s1, h1, h2, h3⟩ := call_set_up F c s 0 h
  refine ⟨b, s1, h1, h2, fun s2 hs => ?_⟩
  obtain ⟨s3, r, g, _⟩ := run_getRegs F c.results { s2.set .rsp (s2.reg .rsp + BitVec.ofInt 64 c.change) with fl := none } hr
  refine ⟨s3, by rw [after, run_cons, run_addq, Out.bind_ok, r], ?_, ?_⟩
  · rw [g]
    simp [hs.1, h3.rsp, h.change]
  · rw [g]
    simp [hs.2, h3.rbp]

/-- What happens instead: the stack pointer ends `2 * area` below, whatever the arguments. -/
theorem call_leaks (F : FP) (c : Call) (s : State) (area : Nat) (h : Ok s area c) (hr : ∀ r ∈ c.results, ResultOk r) :
    ∃ b s1, before c = .ok b ∧ run F b s = .ok s1 ∧
      ∀ s2, Returned s1 s2 → ∃ s3, run F (after c) s2 = .ok s3 ∧
        s3.reg .rsp = s.reg .rsp - BitVec.ofNat 64 (2 * area) := by
  obtain ⟨b, s1, h1, h2, h3⟩ := call_set_up F c s area h
  refine ⟨b, s1, h1, h2, fun s2 hs => ?_⟩
  obtain ⟨s3, r, g, _⟩ := run_getRegs F c.results { s2.set .rsp (s2.reg .rsp + BitVec.ofInt 64 c.change) with fl := none } hr
  refine ⟨s3, by rw [after, run_cons, run_addq, Out.bind_ok, r], ?_⟩
  rw [g]
  simp only [set_reg, if_true, hs.1, h3.rsp, h.change]
  have e : BitVec.ofInt 64 (-(area : Int)) = - BitVec.ofNat 64 area := by
    rw [BitVec.ofInt_neg, BitVec.ofInt_natCast]
  rw [e, Nat.two_mul, BitVec.ofNat_add]
  generalize BitVec.ofNat 64 area = x
  generalize s.reg .rsp = y
  simp only [BitVec.sub_eq_add_neg, BitVec.neg_add, BitVec.add_assoc]

/-- A call with a 16-byte structure on the stack, an integer and a double in registers. -/
def someCall : Call :=
  { change := -16, stack := [.object ⟨8, 8⟩ 0 16], regs := [(.gpr .rdi, ⟨4, 12⟩), (.sse 0, ⟨8, 24⟩)],
    callee := ⟨8, 32⟩, reg := .rbx, results := [(.gpr .rax, ⟨4, 36⟩)] }

/-- `%rbp` is 0x2000, `%rsp` 0x1f00, the structure at 0x3000. -/
def someState : State :=
  { reg := fun r => if r = .rbp then 0x2000 else if r = .rsp then 0x1f00 else 0, xmm := fun _ => 0, fl := none,
    mem := wr (fun _ => 0) 0x1ff8 8 0x3000 }

theorem someCall_ok : Ok someState 16 someCall := by
  refine ⟨by decide, by decide, ⟨by decide, by simp [someCall]⟩, ?_, ?_, by decide, ⟨by decide, ?_⟩, by decide⟩
  · intro a ha
    simp only [someCall, List.mem_singleton] at ha
    subst ha
    unfold Clear Outside
    decide +kernel
  · intro a ha
    simp only [someCall, List.mem_cons, List.not_mem_nil, or_false] at ha
    rcases ha with rfl | rfl
    · unfold RegOk Outside
      decide +kernel
    · unfold RegOk Outside
      decide +kernel
  · unfold Outside
    decide +kernel

/-- C39 fails for every call that passes something on the stack; here with 16 bytes. -/
theorem call_restores_violated : ¬ Restores before after := by
  intro h
  have hr : ∀ r ∈ someCall.results, ResultOk r := by
    intro r hr
    simp only [someCall, List.mem_singleton] at hr
    subst hr
    simp [ResultOk]
  let F : FP := ⟨fun a _ => a, fun a _ => a, fun a _ => a, fun a _ => a, fun a _ => a, fun a _ => a,
    fun a _ => a, fun a _ => a, fun _ => 0, fun _ => 0⟩
  obtain ⟨b, s1, e, r, k⟩ := h F someCall someState 16 someCall_ok hr
  obtain ⟨b', s1', e', r', k'⟩ := call_leaks F someCall someState 16 someCall_ok hr
  rw [e] at e'
  cases e'
  rw [r] at r'
  cases r'
  obtain ⟨s3, x, y, _⟩ := k s1 ⟨rfl, rfl⟩
  obtain ⟨s3', x', y'⟩ := k' s1 ⟨rfl, rfl⟩
  rw [x] at x'
  cases x'
  rw [y] at y'
  exact absurd y' (by decide +kernel)

/-- C78: setting up a call changes no callee-saved register but the one used for the
callee's address. -/
theorem call_keeps (F : FP) (c : Call) (s : State) (area : Nat) (h : Ok s area c)
    (hr : ∀ a ∈ c.regs, ∀ r, a.1 = .gpr r → r ∉ calleeSaved) :
    ∃ b s1, before c = .ok b ∧ run F b s = .ok s1 ∧ ∀ r ∈ calleeSaved, r ≠ c.reg → s1.reg r = s.reg r := by
  obtain ⟨b, s1, h1, h2, _, h4⟩ := set_up F c s area h
  refine ⟨b, s1, h1, h2, fun r hm hc => h4 r ?_ ?_ ?_ ?_ hc ?_⟩
  · rintro rfl; exact absurd hm (by decide)
  · rintro rfl; exact absurd hm (by decide)
  · rintro rfl; exact absurd hm (by decide)
  · rintro rfl; exact absurd hm (by decide)
  · intro hx
    obtain ⟨a, ha, e⟩ := List.mem_map.1 hx
    exact hr a ha r e hm

theorem callee_reg_restored (F : FP) (v : Slot) (hv : v.size = 8) (rest : List (Dest × Slot))
    (hr : ∀ r w, (Dest.gpr r, w) ∈ rest → ScalarSize w.size ∧ r ≠ .rbp) (hd : (rest.map (·.1)).Nodup)
    (hn : Dest.gpr calleeReg ∉ rest.map (·.1)) (s : State) :
    ∃ s1, run F (saveCode v) s = .ok s1 ∧ ∀ s2 : State, s2.reg .rbp = s.reg .rbp →
      (∀ i, i < 8 → s2.mem (slotAddr s v + BitVec.ofNat 64 i) = s1.mem (slotAddr s v + BitVec.ofNat 64 i)) →
      ∃ c s3, returnRegs v rest = .ok c ∧ run F c s2 = .ok s3 ∧ s3.reg calleeReg = s.reg calleeReg := by
  obtain ⟨s1, r1, _, _, h1⟩ := run_getRegs F [(.gpr calleeReg, v)] s (by
    intro r hr
    simp only [List.mem_singleton] at hr
    subst hr
    exact ⟨by decide, by simp [hv]⟩)
  refine ⟨s1, r1, fun s2 hb hm => ?_⟩
  obtain ⟨c, s3, e, r, _, _, _, hold⟩ := run_setRegs F ((.gpr calleeReg, v) :: rest) s2 (by
    intro r w hm
    rcases List.mem_cons.1 hm with h | h
    · simp only [Prod.mk.injEq, Dest.gpr.injEq] at h
      obtain ⟨rfl, rfl⟩ := h
      exact ⟨by rw [hv]; simp [ScalarSize], by decide⟩
    · exact hr r w h) (by rw [List.map_cons, List.nodup_cons]; exact ⟨hn, hd⟩)
  refine ⟨c, s3, e, r, ?_⟩
  have h2 := hold _ (List.mem_cons_self ..)
  have h3 := h1 (by simp) _ (List.mem_cons_self ..)
  simp only [Holds, hv] at h2 h3
  have hsl : slotAddr s2 v = slotAddr s v := by simp [slotAddr, hb]
  rw [h2, hsl, rd_congr hm, h3]
  simp only [regVal]
  have := (s.reg calleeReg).isLt
  rw [show (256 : Nat) ^ 8 = 2 ^ 64 by decide, Nat.mod_eq_of_lt this]
  simp

/-- C78: `%rbx`, the only callee-saved register the code uses, is saved at entry and
restored on return, provided the body keeps `%rbp` and the slot. -/
theorem saved_restored (F : FP) (v : Slot) (hv : v.size = 8) (rest : List (Dest × Slot))
    (hr : ∀ r w, (Dest.gpr r, w) ∈ rest → ScalarSize w.size ∧ r ≠ .rbp) (hd : (rest.map (·.1)).Nodup)
    (hn : Dest.gpr .rbx ∉ rest.map (·.1)) (s : State) :
    ∃ s1, run F (saveCode v) s = .ok s1 ∧ ∀ s2 : State, s2.reg .rbp = s.reg .rbp →
      (∀ i, i < 8 → s2.mem (slotAddr s v + BitVec.ofNat 64 i) = s1.mem (slotAddr s v + BitVec.ofNat 64 i)) →
      ∃ c s3, returnRegs v rest = .ok c ∧ run F c s2 = .ok s3 ∧ s3.reg .rbx = s.reg .rbx :=
  callee_reg_restored F v hv rest hr hd hn s

/-- A function that returns a pair of integers. -/
example : (∀ r w, (Dest.gpr r, w) ∈ [(Dest.gpr .rax, (⟨8, 16⟩ : Slot)), (Dest.gpr .rdx, ⟨8, 24⟩)] → ScalarSize w.size ∧ r ≠ .rbp) ∧
    Dest.gpr .rbx ∉ [(Dest.gpr .rax, (⟨8, 16⟩ : Slot)), (Dest.gpr .rdx, ⟨8, 24⟩)].map (·.1) := by
  constructor
  · intro r w h
    simp at h
    rcases h with ⟨rfl, rfl⟩ | ⟨rfl, rfl⟩ <;> simp [ScalarSize]
  · decide

end Verif.Call
