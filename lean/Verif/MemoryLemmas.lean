import Verif.Memory
import Verif.MemorySpec
import Verif.CodegenLemmas
/-!
Lemmas about block copies.
-/
namespace Verif.Memory
open Verif Asm X86 Codegen CodegenSpec MemorySpec

theorem rd_byte (m : BitVec 64 → BitVec 8) (b : BitVec 64) (n j : Nat) (h : j < n) :
    BitVec.ofNat 8 (rd m b n / 256 ^ j) = m (b + BitVec.ofNat 64 j) := by
  induction n generalizing b j with
  | zero => omega
  | succ n ih =>
    rw [rd]
    have hb := (m b).isLt
    cases j with
    | zero =>
      apply BitVec.eq_of_toNat_eq
      simp; omega
    | succ j =>
      rw [add_ofNat_succ, ← ih (b + 1) j (by omega), Nat.pow_succ, Nat.mul_comm (256 ^ j), ← Nat.div_div_eq_div_mul]
      congr 2
      omega

theorem add_sub_ofNat (a x : BitVec 64) : a + BitVec.ofNat 64 (x - a).toNat = x := by
  rw [BitVec.ofNat_toNat, BitVec.setWidth_eq, BitVec.add_comm, BitVec.sub_add_cancel]

theorem wr_eq (m : BitVec 64 → BitVec 8) (a : BitVec 64) (n v : Nat) (x : BitVec 64) :
    wr m a n v x = if (x - a).toNat < n then BitVec.ofNat 8 (v / 256 ^ (x - a).toNat) else m x := by
  have h := wr_at m a n v (x - a).toNat (x - a).isLt
  rw [add_sub_ofNat] at h
  exact h

theorem wr_rd (m : BitVec 64 → BitVec 8) (a d : BitVec 64) (n : Nat) :
    wr m d n (rd m a n) = copied m a d n := by
  funext x
  rw [wr_eq, copied]
  split
  · rename_i h
    rw [rd_byte _ _ _ _ h, BitVec.ofNat_toNat, BitVec.setWidth_eq]
  · rfl

theorem wr_zero (m : BitVec 64 → BitVec 8) (d : BitVec 64) (n : Nat) :
    wr m d n 0 = cleared m d n := by
  funext x
  rw [wr_eq, cleared]
  simp

/-- One more chunk. -/
theorem cleared_step (m : BitVec 64 → BitVec 8) (d : BitVec 64) (i c : Nat) (h : i + c ≤ 2 ^ 63) :
    cleared (cleared m d i) (d + BitVec.ofNat 64 i) c = cleared m d (i + c) := by
  funext x
  simp only [cleared]
  have e : (x - (d + BitVec.ofNat 64 i)) = (x - d) - BitVec.ofNat 64 i := by
    apply BitVec.eq_of_toNat_eq
    simp [BitVec.toNat_sub, BitVec.toNat_add]; omega
  rw [e]
  have hy := (x - d).isLt
  generalize x - d = y at *
  rw [BitVec.toNat_sub, BitVec.toNat_ofNat, Nat.mod_eq_of_lt (a := i) (by omega)]
  by_cases h1 : y.toNat < i
  · simp only [h1, if_true, show y.toNat < i + c by omega]; split <;> rfl
  · simp only [h1, if_false]
    by_cases h2 : y.toNat < i + c
    · rw [if_pos (by omega), if_pos h2]
    · rw [if_neg (by omega), if_neg h2]

theorem copied_step (m : BitVec 64 → BitVec 8) (a d : BitVec 64) (i c n : Nat) (h : i + c ≤ n) (hn : n ≤ 2 ^ 63)
    (ho : NoPartialOverlap a d n) :
    copied (copied m a d i) (a + BitVec.ofNat 64 i) (d + BitVec.ofNat 64 i) c = copied m a d (i + c) := by
  funext x
  have e : (x - (d + BitVec.ofNat 64 i)) = (x - d) - BitVec.ofNat 64 i := by
    apply BitVec.eq_of_toNat_eq
    simp [BitVec.toNat_sub, BitVec.toNat_add]; omega
  have e2 : a + BitVec.ofNat 64 i + (x - d - BitVec.ofNat 64 i) = a + (x - d) := by
    apply BitVec.eq_of_toNat_eq
    simp [BitVec.toNat_sub, BitVec.toNat_add]; omega
  simp only [copied, e, e2]
  have hy := (x - d).isLt
  generalize hyd : x - d = y at *
  rw [BitVec.toNat_sub, BitVec.toNat_ofNat, Nat.mod_eq_of_lt (a := i) (by omega)]
  by_cases h2 : y.toNat < i + c
  · rw [if_pos h2]
    by_cases h1 : y.toNat < i
    · rw [if_neg (by omega), if_pos h1]
    · rw [if_pos (by omega)]
      -- the source byte is intact
      rcases ho with rfl | ho
      · split
        · have : a + y - a = y := by
            apply BitVec.eq_of_toNat_eq
            simp [BitVec.toNat_sub, BitVec.toNat_add]; omega
          rw [this]
        · rfl
      · rw [if_neg]
        intro h3
        refine ho y.toNat (by omega) (a + y - d).toNat (by omega) ?_
        rw [add_sub_ofNat, BitVec.ofNat_toNat, BitVec.setWidth_eq]
  · rw [if_neg h2, if_neg (by omega), if_neg (by omega)]

theorem copied_zero (m : BitVec 64 → BitVec 8) (a d : BitVec 64) : copied m a d 0 = m := by
  funext x; simp [copied]
theorem cleared_zero (m : BitVec 64 → BitVec 8) (d : BitVec 64) : cleared m d 0 = m := by
  funext x; simp [cleared]

theorem chunk_cases (i len : Nat) :
    chunk i len = 8 ∨ chunk i len = 4 ∨ chunk i len = 2 ∨ chunk i len = 1 := by
  unfold chunk; split <;> (try split) <;> (try split) <;> simp

theorem chunk_le {i len : Nat} (h : i < len) : i + chunk i len ≤ len := by
  unfold chunk; split <;> (try split) <;> (try split) <;> omega

theorem addr_nat (s : State) (i : Nat) (b : Reg) : s.addr i b = s.reg b + BitVec.ofNat 64 i := by
  rw [State.addr, BitVec.ofInt_natCast]

/-- One copied chunk. -/
theorem run_copy1 (F : FP) (i k : Nat) (hk : k = 8 ∨ k = 4 ∨ k = 2 ∨ k = 1) (s : State) (rest : List Ins) :
    ∃ v, run F (⟨movN k, [MEM i .rdi, .reg .rax k]⟩ :: ⟨movN k, [.reg .rax k, MEM i .rsi]⟩ :: rest) s
      = run F rest ((s.set .rax v).store (s.reg .rsi + BitVec.ofNat 64 i) k
          (rd s.mem (s.reg .rdi + BitVec.ofNat 64 i) k)) := by
  have hl := rd_lt s.mem (s.reg .rdi + BitVec.ofNat 64 i) k
  rcases hk with rfl | rfl | rfl | rfl
  · refine ⟨BitVec.ofNat 64 (rd s.mem (s.reg .rdi + BitVec.ofNat 64 i) 8), ?_⟩
    rw [run_cons, movN, exec_movq_mr]
    simp only [mov, legal, getOp, putOp, if_true, Option.bind_eq_bind, Option.bind_some, addr_nat, Out.of_some, Out.bind_ok]
    rw [run_cons, exec_movq_rm]
    simp only [mov, legal, getOp, putOp, if_true, Option.bind_eq_bind, Option.bind_some, addr_nat, Out.of_some, Out.bind_ok,
      set_reg, reduceCtorEq, if_false, merge64, BitVec.setWidth_eq, BitVec.toNat_ofNat]
    congr 2
    exact Nat.mod_eq_of_lt hl
  · refine ⟨(BitVec.ofNat 32 (rd s.mem (s.reg .rdi + BitVec.ofNat 64 i) 4)).setWidth 64, ?_⟩
    rw [run_cons, movN, exec_movl]
    simp only [mov, legal, getOp, putOp, if_true, Option.bind_eq_bind, Option.bind_some, addr_nat, Out.of_some, Out.bind_ok]
    rw [run_cons, exec_movl]
    simp only [mov, legal, getOp, putOp, if_true, Option.bind_eq_bind, Option.bind_some, addr_nat, Out.of_some, Out.bind_ok,
      set_reg, reduceCtorEq, if_false, merge32]
    congr 2
    simp only [BitVec.toNat_setWidth, BitVec.toNat_ofNat]
    simp only [Nat.reducePow, Nat.reduceDiv] at *
    omega
  · refine ⟨merge (s.reg .rax) 16 (BitVec.ofNat 16 (rd s.mem (s.reg .rdi + BitVec.ofNat 64 i) 2)), ?_⟩
    rw [run_cons, movN, exec_movw]
    simp only [mov, legal, getOp, putOp, if_true, Option.bind_eq_bind, Option.bind_some, addr_nat, Out.of_some, Out.bind_ok]
    rw [run_cons, exec_movw]
    simp only [mov, legal, getOp, putOp, if_true, Option.bind_eq_bind, Option.bind_some, addr_nat, Out.of_some, Out.bind_ok,
      set_reg, reduceCtorEq, if_false, merge16_low]
    congr 2
    simp only [BitVec.toNat_ofNat]
    exact Nat.mod_eq_of_lt hl
  · refine ⟨merge (s.reg .rax) 8 (BitVec.ofNat 8 (rd s.mem (s.reg .rdi + BitVec.ofNat 64 i) 1)), ?_⟩
    show run F (⟨.movb, _⟩ :: ⟨.movb, _⟩ :: rest) s = _
    rw [run_cons, exec_movb]
    simp only [mov, legal, getOp, putOp, if_true, Option.bind_eq_bind, Option.bind_some, addr_nat, Out.of_some, Out.bind_ok]
    rw [run_cons, exec_movb]
    simp only [mov, legal, getOp, putOp, if_true, Option.bind_eq_bind, Option.bind_some, addr_nat, Out.of_some, Out.bind_ok,
      set_reg, reduceCtorEq, if_false, merge8_low]
    congr 2
    simp only [BitVec.toNat_ofNat]
    exact Nat.mod_eq_of_lt hl

/-- One cleared chunk. -/
theorem run_clear1 (F : FP) (i k : Nat) (hk : k = 8 ∨ k = 4 ∨ k = 2 ∨ k = 1) (s : State) (rest : List Ins) :
    run F (⟨movN k, [IMM 0, MEM i .rdi]⟩ :: rest) s
      = run F rest (s.store (s.reg .rdi + BitVec.ofNat 64 i) k 0) := by
  rcases hk with rfl | rfl | rfl | rfl
  · rw [run_cons, movN, exec_movq_im]
    simp [mov, legal, getOp, putOp, addr_nat]
  · rw [run_cons, movN, exec_movl]
    simp [mov, legal, getOp, putOp, addr_nat]
  · rw [run_cons, movN, exec_movw]
    simp [mov, legal, getOp, putOp, addr_nat]
  · show run F (⟨.movb, _⟩ :: rest) s = _
    rw [run_cons, exec_movb]
    simp [mov, legal, getOp, putOp, addr_nat]

/-- The copy loop, from offset `i`. -/
theorem run_memcpyFrom (F : FP) (m : BitVec 64 → BitVec 8) (a d : BitVec 64) (n : Nat) (hn : n ≤ 2 ^ 63)
    (ho : NoPartialOverlap a d n) : ∀ k i, n - i = k → i ≤ n → ∀ s : State, s.reg .rdi = a → s.reg .rsi = d →
      s.mem = copied m a d i →
      ∃ v, run F (memcpyFrom i n) s = .ok { s.set .rax v with mem := copied m a d n } := by
  intro k
  induction k using Nat.strongRecOn with
  | _ k ih =>
    intro i hk hi s ha hd hm
    rw [memcpyFrom]
    by_cases h : i < n
    · rw [if_pos h]
      obtain ⟨v, hv⟩ := run_copy1 F i (chunk i n) (chunk_cases i n) s (memcpyFrom (i + chunk i n) n)
      rw [hv]
      have hp := chunk_pos i n
      have hc := chunk_le h
      have hm2 : ((s.set .rax v).store (s.reg .rsi + BitVec.ofNat 64 i) (chunk i n)
          (rd s.mem (s.reg .rdi + BitVec.ofNat 64 i) (chunk i n))).mem = copied m a d (i + chunk i n) := by
        rw [store_mem, set_mem, wr_rd, hm, ha, hd, copied_step m a d i _ n hc hn ho]
      obtain ⟨w, hw⟩ := ih (n - (i + chunk i n)) (by omega) (i + chunk i n) rfl hc _ (by simp [ha]) (by simp [hd]) hm2
      refine ⟨w, ?_⟩
      rw [hw]
      congr 1
      simp only [State.set, State.store, State.mk.injEq, and_true, true_and]
      funext r
      split <;> rfl
    · rw [if_neg h]
      refine ⟨s.reg .rax, ?_⟩
      have : i = n := by omega
      subst this
      rw [run_nil, ← hm]
      congr 1
      obtain ⟨r, x, f, mm⟩ := s
      simp only [State.set, State.mk.injEq, and_true]
      funext r'
      split
      · rename_i h; rw [h]
      · rfl

/-- The clearing loop. -/
theorem run_memzeroFrom (F : FP) (m : BitVec 64 → BitVec 8) (d : BitVec 64) (n : Nat) (hn : n ≤ 2 ^ 63) :
    ∀ k i, n - i = k → i ≤ n → ∀ s : State, s.reg .rdi = d → s.mem = cleared m d i →
      run F (memzeroFrom i n) s = .ok { s with mem := cleared m d n } := by
  intro k
  induction k using Nat.strongRecOn with
  | _ k ih =>
    intro i hk hi s hd hm
    rw [memzeroFrom]
    by_cases h : i < n
    · rw [if_pos h, run_clear1 F i (chunk i n) (chunk_cases i n)]
      have hp := chunk_pos i n
      have hc := chunk_le h
      rw [ih (n - (i + chunk i n)) (by omega) (i + chunk i n) rfl hc _ (by simp [hd]) (by
        rw [store_mem, wr_zero, hm, hd, cleared_step m d i _ (by omega)])]
      rfl
    · rw [if_neg h]
      have : i = n := by omega
      subst this
      rw [run_nil, ← hm]

end Verif.Memory
