import Verif.CodegenLemmas
import Verif.MemoryLemmas
/-!
C73: storing a register, for every size that a register can hold.
-/
namespace Verif.Codegen
open Verif Asm X86 CodegenSpec

theorem exec_movN (F : FP) (s : State) (r b : Reg) (d : Int) {n : Nat} (hn : n = 1 ∨ n = 2 ∨ n = 4 ∨ n = 8) :
    exec F ⟨movN n, [.reg r n, MEM d b]⟩ s = .ok (s.store (s.reg b + BitVec.ofInt 64 d) n (s.reg r).toNat) := by
  rcases hn with rfl | rfl | rfl | rfl
  · simp only [movN, exec_movb, mov, legal, getOp, putOp, State.addr]
    simp [Out.of]
    rw [State.store, State.store, show (256 : Nat) = 256 ^ 1 by rfl, wr_mod]
  · simp only [movN, exec_movw, mov, legal, getOp, putOp, State.addr]
    simp [Out.of]
    rw [State.store, State.store, show (65536 : Nat) = 256 ^ 2 by rfl, wr_mod]
  · simp only [movN, exec_movl, mov, legal, getOp, putOp, State.addr]
    simp [Out.of]
    rw [State.store, State.store, show (4294967296 : Nat) = 256 ^ 4 by rfl, wr_mod]
  · simp only [movN, exec_movq_rm, mov, legal, getOp, putOp, State.addr]
    simp [Out.of]

theorem exec_shr (F : FP) (s : State) (r : Reg) {m : Nat} (hm : m < 8) :
    exec F ⟨.shrq, [IMM (m * 8), R8 r]⟩ s = .ok { s.set r (s.reg r >>> (8 * m)) with fl := none } := by
  have h : ((m : Int) * 8 % 256).toNat % 64 = 8 * m := by omega
  simp only [exec_shrq, shift, getOp, putOp, R8]
  simp [Out.of, merge64]
  rw [h]

theorem chunk_cases (i len : Nat) (h : i < len) : (chunk i len = 1 ∨ chunk i len = 2 ∨ chunk i len = 4 ∨ chunk i len = 8) ∧ i + chunk i len ≤ len := by
  unfold chunk
  split
  · omega
  · split
    · omega
    · split <;> omega

/-- What a store of a register leaves. -/
structure Stored (s s' : State) (r : Reg) (a : BitVec 64) (n v : Nat) : Prop where
  mem : s'.mem = wr s.mem a n v
  reg : ∀ x, x ≠ r → s'.reg x = s.reg x
  xmm : s'.xmm = s.xmm

theorem run_storeLoop (F : FP) (r b : Reg) (hb : b ≠ r) (d : Int) (size : Nat) (hs : size ≤ 8) (v : BitVec 64) : ∀ k i m s, size - i ≤ k → i ≤ size → m ≤ i →
    (i < size → m < 8) → s.reg r = v >>> (8 * (i - m)) →
    ∃ s', run F (storeLoop r size (fun i => MEM (d + i) b) i m) s = .ok s' ∧
      Stored s s' r (s.reg b + BitVec.ofInt 64 d + BitVec.ofNat 64 i) (size - i) (v.toNat / 256 ^ i) := by
  intro k
  induction k with
  | zero =>
    intro i m s hk hi hm hm8 hr
    have : i = size := by omega
    subst this
    rw [storeLoop, if_neg (by omega)]
    refine ⟨s, rfl, ?_, fun _ _ => rfl, rfl⟩
    rw [Nat.sub_self]
    rfl
  | succ k ih =>
    intro i m s hk hi hm hm8 hr
    by_cases hlt : i < size
    · obtain ⟨hc, hle⟩ := chunk_cases i size hlt
      rw [storeLoop, if_pos hlt]
      -- the shift
      have hshift : ∃ s1, run F (if m ≠ 0 then [⟨.shrq, [IMM (m * 8), R8 r]⟩] else []) s = .ok s1 ∧ s1.reg r = v >>> (8 * i) ∧ s1.mem = s.mem ∧
          (∀ x, x ≠ r → s1.reg x = s.reg x) ∧ s1.xmm = s.xmm := by
        by_cases hm0 : m = 0
        · rw [if_neg (by simp [hm0])]
          refine ⟨s, rfl, ?_, rfl, fun _ _ => rfl, rfl⟩
          rw [hr, hm0, Nat.sub_zero]
        · rw [if_pos (by simpa using hm0), run_cons, exec_shr F s r (hm8 hlt)]
          refine ⟨_, rfl, ?_, rfl, fun x hx => by simp [hx], rfl⟩
          simp only [set_reg, if_true]
          rw [hr, ← BitVec.shiftRight_add]
          congr 1
          omega
      obtain ⟨s1, e1, h1, h2, h3, h4⟩ := hshift
      rw [run_append, e1]
      show ∃ s', run F (_ :: _) s1 = _ ∧ _
      rw [run_cons, exec_movN F s1 r b _ hc]
      show ∃ s', run F _ _ = _ ∧ _
      obtain ⟨s', e2, h5⟩ := ih (i + chunk i size) (chunk i size)
        (s1.store (s1.reg b + BitVec.ofInt 64 (d + i)) (chunk i size) (s1.reg r).toNat) (by have := chunk_pos i size; omega) hle (by omega) (by intro; omega) (by
          show s1.reg r = _
          rw [h1, Nat.add_sub_cancel])
      refine ⟨s', e2, ?_, fun x hx => (h5.reg x hx).trans (h3 x hx), h5.xmm.trans h4⟩
      have ha : s1.reg b + BitVec.ofInt 64 (d + i) = s.reg b + BitVec.ofInt 64 d + BitVec.ofNat 64 i := by
        rw [h3 b hb, BitVec.ofInt_add, BitVec.ofInt_natCast, ← BitVec.add_assoc]
      have hv : (s1.reg r).toNat = v.toNat / 256 ^ i := by
        rw [h1, BitVec.toNat_ushiftRight, Nat.shiftRight_eq_div_pow, Nat.pow_mul]
      have hm := h5.mem
      have hbase : (s1.store (s1.reg b + BitVec.ofInt 64 (d + i)) (chunk i size) (s1.reg r).toNat).reg b = s.reg b := h3 b hb
      rw [hbase] at hm
      rw [hm, ha, hv]
      show wr (wr s1.mem _ _ _) _ _ _ = _
      rw [h2, show size - i = chunk i size + (size - (i + chunk i size)) by omega, wr_split _ _ _ _ _ (by omega)]
      rw [Nat.div_div_eq_div_mul, ← Nat.pow_add]
      congr 1
      rw [BitVec.add_assoc (s.reg b + BitVec.ofInt 64 d)]
      congr 1
      apply BitVec.eq_of_toNat_eq
      simp [BitVec.toNat_add]
    · have : i = size := by omega
      subst this
      rw [storeLoop, if_neg (by omega)]
      refine ⟨s, rfl, ?_, fun _ _ => rfl, rfl⟩
      rw [Nat.sub_self]
      rfl

/-- C73: a register is stored to a slot as exactly the low bytes of the slot's size, for every size up to eight (structures in registers have any):
no other byte is written and no other register changes. -/
theorem store_slot_exact (F : FP) (v : Slot) (hv : v.size ≤ 8) (r : Reg) (hr : r ≠ .rbp) (s : State) :
    ∃ s', run F (regToScalar r v) s = .ok s' ∧ Stored s s' r (slotAddr s v) v.size (s.reg r).toNat := by
  obtain ⟨s', h1, h2⟩ := run_storeLoop F r .rbp (Ne.symm hr) (-(v.loc : Int)) v.size hv (s.reg r) v.size 0 0 s (by omega) (by omega) (by omega) (by omega) (by simp)
  refine ⟨s', h1, ?_⟩
  have e := slot_addr0 s v
  simp only [Nat.sub_zero, Nat.pow_zero, Nat.div_one] at h2
  rw [show s.reg .rbp + BitVec.ofInt 64 (-(v.loc : Int)) + BitVec.ofNat 64 0 = slotAddr s v by rw [← e]; simp] at h2
  exact h2

/-- C73: a register is stored where `%rsi` points as exactly the low bytes of the given size. -/
theorem store_memory_exact (F : FP) (size : Nat) (hs : size ≤ 8) (r : Reg) (hr : r ≠ .rsi) (s : State) :
    ∃ s', run F (regToMemory r size) s = .ok s' ∧ Stored s s' r (s.reg .rsi) size (s.reg r).toNat := by
  obtain ⟨s', h1, h2⟩ := run_storeLoop F r .rsi (Ne.symm hr) 0 size hs (s.reg r) size 0 0 s (by omega) (by omega) (by omega) (by omega) (by simp)
  refine ⟨s', ?_, by simpa using h2⟩
  rw [← h1]
  unfold regToMemory
  simp

/-- Seven bytes: three stores. -/
example (F : FP) (s : State) : ∃ s', run F (regToScalar .rax ⟨7, 24⟩) s = .ok s' ∧ Stored s s' .rax (slotAddr s ⟨7, 24⟩) 7 (s.reg .rax).toNat :=
  store_slot_exact F ⟨7, 24⟩ (by decide) .rax (by decide) s

example (F : FP) (s : State) : ∃ s', run F (regToMemory .rax 5) s = .ok s' ∧ Stored s s' .rax (s.reg .rsi) 5 (s.reg .rax).toNat :=
  store_memory_exact F 5 (by decide) .rax (by decide) s

end Verif.Codegen
