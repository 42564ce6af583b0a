import Verif.FrameLemmas
import Verif.CondLemmas
/-!
Lemmas about function entry and exit.
-/
namespace Verif.Frame
open Verif Asm X86 Codegen FrameSpec

theorem neg_pow (k : Nat) (h : k ≤ 30) : BitVec.ofInt 64 (-((2 ^ k : Nat) : Int)) = BitVec.allOnes 64 <<< k := by
  have : ∀ k : Fin 31, BitVec.ofInt 64 (-((2 ^ k.val : Nat) : Int)) = BitVec.allOnes 64 <<< k.val := by decide +kernel
  exact this ⟨k, by omega⟩

theorem align_down (x : BitVec 64) (k : Nat) (h : k ≤ 30) :
    (x &&& BitVec.ofInt 64 (-((2 ^ k : Nat) : Int))).toNat = x.toNat - x.toNat % 2 ^ k := by
  rw [neg_pow k h]
  have e : x &&& (BitVec.allOnes 64 <<< k) = (x >>> k) <<< k := by
    ext i hi
    simp only [BitVec.getElem_and, BitVec.getElem_shiftLeft, BitVec.getElem_allOnes, BitVec.getElem_ushiftRight]
    by_cases hk : i < k
    · simp [hk]
    · simp [hk]
      have hik : k + (i - k) = i := by omega
      rw [hik, BitVec.getLsbD_eq_getElem hi]
  rw [e, BitVec.toNat_shiftLeft, BitVec.toNat_ushiftRight, Nat.shiftLeft_eq, Nat.shiftRight_eq_div_pow]
  have := Nat.div_add_mod x.toNat (2 ^ k)
  have hm : x.toNat / 2 ^ k * 2 ^ k = x.toNat - x.toNat % 2 ^ k := by rw [Nat.mul_comm]; omega
  rw [hm]
  exact Nat.mod_eq_of_lt (by have := x.isLt; omega)

theorem add_toNat (a : BitVec 64) (i : Nat) (h : a.toNat + i < 2 ^ 64) : (a + BitVec.ofNat 64 i).toNat = a.toNat + i := by
  simp only [BitVec.toNat_add, BitVec.toNat_ofNat]
  omega

theorem sub_toNat (a : BitVec 64) (i : Nat) (h : i ≤ a.toNat) : (a - BitVec.ofNat 64 i).toNat = a.toNat - i := by
  have := a.isLt
  simp only [BitVec.toNat_sub, BitVec.toNat_ofNat]
  omega

theorem wr_far (m : BitVec 64 → BitVec 8) (a : BitVec 64) (n v : Nat) (x : BitVec 64) (hn : a.toNat + n ≤ 2 ^ 64)
    (h : a.toNat + n ≤ x.toNat ∨ x.toNat < a.toNat) : wr m a n v x = m x := by
  refine wr_out m a n v x fun i hi e => ?_
  have := congrArg BitVec.toNat e
  rw [add_toNat a i (by omega)] at this
  omega

theorem rd_at (m : BitVec 64 → BitVec 8) (a : BitVec 64) (v : BitVec 64) :
    BitVec.ofNat 64 (rd (wr m a 8 v.toNat) a 8) = v := by
  rw [rd_wr_same _ _ _ _ (by decide), Nat.mod_eq_of_lt (by have := v.isLt; simpa using this)]
  simp

theorem align_facts (x : BitVec 64) (k : Nat) (h : k ≤ 30) (h4 : 4 < k) :
    ∃ q, x &&& BitVec.ofInt 64 (-((2 ^ k : Nat) : Int)) = q ∧ q.toNat ≤ x.toNat ∧ x.toNat < q.toNat + 2 ^ k ∧
      2 ^ k ∣ q.toNat ∧ 16 ∣ q.toNat := by
  refine ⟨_, rfl, ?_⟩
  rw [align_down x k h]
  have hdv : 2 ^ k ∣ x.toNat - x.toNat % 2 ^ k := Nat.dvd_sub_mod _
  have h16k : (16 : Nat) ∣ 2 ^ k := ⟨2 ^ (k - 4), by rw [show (16 : Nat) = 2 ^ 4 by rfl, ← Nat.pow_add]; congr 1; omega⟩
  have hm := Nat.mod_lt x.toNat (show 0 < 2 ^ k from Nat.pow_pos (by decide))
  refine ⟨Nat.sub_le _ _, ?_, hdv, Nat.dvd_trans h16k hdv⟩
  generalize x.toNat % 2 ^ k = M at *
  generalize 2 ^ k = K at *
  omega

/-- The layouts that occur. -/
structure Shape (l : Layout) : Prop where
  frame : 16 ∣ l.frame
  saved : ∀ o, l.saved = some o → 8 ≤ o ∧ o ≤ l.frame ∧ ∃ k, k ≤ 30 ∧ 4 < k ∧ l.align = 2 ^ k

theorem run_sub (F : FP) (s : State) (n : Nat) :
    ∃ s', run F (if n ≠ 0 then [⟨.subq, [.imm none n, R8 .rsp]⟩] else []) s = .ok s' ∧
      s'.reg .rbp = s.reg .rbp ∧ s'.reg .rsp = s.reg .rsp - BitVec.ofNat 64 n ∧ s'.mem = s.mem := by
  by_cases h : n = 0
  · subst h
    exact ⟨s, rfl, rfl, by simp, rfl⟩
  · rw [if_pos h]
    refine ⟨{ s.set .rsp (s.reg .rsp - BitVec.ofInt 64 n) with fl := none }, ?_, ?_, ?_, rfl⟩
    · rw [run_cons, exec_subq]
      simp [alu, legal, getOp, putOp, merge64]
    · simp
    · simp [BitVec.ofInt_natCast]

/-- The last two instructions of a function. -/
theorem run_leave (F : FP) (s : State) (a ra b : BitVec 64) (hrbp : s.reg .rbp = a)
    (h1 : BitVec.ofNat 64 (rd s.mem a 8) = b) (h2 : BitVec.ofNat 64 (rd s.mem (a + 8) 8) = ra) :
    ∃ s3, runC F [⟨.leave, []⟩, ⟨.ret, []⟩] s = .ok (s3, .ret ra) ∧ s3.reg .rsp = a + 8 + 8 ∧ s3.reg .rbp = b := by
  rw [Cond.runC_exec (F := F) (exec_leave (F := F) (s := s))]
  refine ⟨((s.set .rsp (a + 8)).set .rbp b).set .rsp (a + 8 + 8), ?_, by simp, by simp⟩
  rw [runC, hrbp, h1]
  have h2' : BitVec.ofNat 64 (rd s.mem (a + 8#64) 8) = ra := h2
  simp [h2']

theorem exec_mov_sp (F : FP) (s : State) : exec F ⟨.movq, [R8 .rsp, R8 .rbp]⟩ s = .ok (s.set .rbp (s.reg .rsp)) := by
  rw [R8, R8, exec_movq_rr]
  simp [mov, legal, getOp, putOp, merge64]

theorem exec_and_sp (F : FP) (s : State) (a : Int) : exec F ⟨.andq, [.imm none a, R8 .rsp]⟩ s =
    .ok { s.set .rsp (s.reg .rsp &&& BitVec.ofInt 64 a) with fl := none } := by
  rw [R8, exec_andq]
  simp [alu, legal, getOp, putOp, merge64]

theorem addr_neg (s : State) (o : Nat) (r : Reg) : s.addr (-(o : Int)) r = s.reg r - BitVec.ofNat 64 o := by
  simp [State.addr, BitVec.sub_eq_add_neg, BitVec.ofInt_neg, BitVec.ofInt_natCast]

theorem exec_save_bp (F : FP) (s : State) (o : Nat) : exec F ⟨.movq, [R8 .rbp, .mem (-(o : Int)) .rsp]⟩ s =
    .ok (s.store (s.reg .rsp - BitVec.ofNat 64 o) 8 (s.reg .rbp).toNat) := by
  rw [R8, exec_movq_rm]
  simp only [mov, legal, getOp, putOp, addr_neg]
  simp

theorem exec_load_bp (F : FP) (s : State) (o : Nat) : exec F ⟨.movq, [.mem (-(o : Int)) .rbp, R8 .rbp]⟩ s =
    .ok (s.set .rbp (BitVec.ofNat 64 (rd s.mem (s.reg .rbp - BitVec.ofNat 64 o) 8))) := by
  rw [R8, exec_movq_mr]
  simp [mov, legal, getOp, putOp, merge64, addr_neg]

theorem entry_exit_of {l : Layout} (h : Shape l) : EntryExit l (prologue l) (epilogue l) := by
  intro F s h16 hlow
  generalize hr : s.reg .rsp = r at *
  generalize hb : s.reg .rbp = b at *
  have hrlt := r.isLt
  have hp : (r - 8).toNat = r.toNat - 8 := sub_toNat r 8 (by omega)
  have hpush : exec F ⟨.pushq, [R8 .rbp]⟩ s = .ok ((s.set .rsp (r - 8)).store (r - 8) 8 b.toNat) := by
    rw [R8, exec_pushq, hr, hb]
  have hpr : r - 8 + 8 = r := by bv_omega
  cases hs : l.saved with
  | none =>
    generalize ht : (((s.set .rsp (r - 8)).store (r - 8) 8 b.toNat).set .rbp (r - 8)) = t
    have hmov : exec F ⟨.movq, [R8 .rsp, R8 .rbp]⟩ ((s.set .rsp (r - 8)).store (r - 8) 8 b.toNat) = .ok t := by
      rw [R8, R8, exec_movq_rr, ← ht]
      simp [mov, legal, getOp, putOp, merge64]
    obtain ⟨s1, r1, b1, p1, m1⟩ := run_sub F t l.frame
    have htm : t.mem = wr s.mem (r - 8) 8 b.toNat := by rw [← ht]; simp
    have htb : t.reg .rbp = r - 8 := by rw [← ht]; simp
    have htp : t.reg .rsp = r - 8 := by rw [← ht]; simp
    rw [htb] at b1
    rw [htp] at p1
    rw [htm] at m1
    have hab : ∀ x : BitVec 64, r.toNat ≤ x.toNat → s1.mem x = s.mem x := by
      intro x hx; rw [m1]; exact wr_far _ _ _ _ _ (by omega) (by left; omega)
    refine ⟨s1, ?_, ⟨?_, by rw [hs]; simp⟩, ?_, ?_, ?_, hab, ?_⟩
    · rw [prologue, hs]
      simp only [List.cons_append, List.nil_append, List.append_nil]
      rw [run_cons, hpush, Out.bind_ok, run_cons, hmov, Out.bind_ok, r1]
    · rw [b1, hp]; omega
    · rw [p1, b1]
    · rw [b1, hp]; omega
    · rw [b1, hp]; omega
    · intro s2 hb2 hm2 _
      rw [b1] at hb2 hm2
      have hrd1 : BitVec.ofNat 64 (rd s2.mem (r - 8) 8) = b := by
        rw [rd_congr (m' := s1.mem) (fun i hi => hm2 _ (by rw [add_toNat _ _ (by omega)]; omega)
          (by rw [add_toNat _ _ (by omega)]; omega)), m1]
        exact rd_at _ _ _
      have hrd2 : rd s2.mem (r - 8 + 8) 8 = rd s.mem r 8 := by
        rw [hpr]
        by_cases hw : r.toNat + 8 ≤ 2 ^ 64
        · refine rd_congr fun i hi => ?_
          rw [hm2 _ (by rw [add_toNat _ _ (by omega)]; omega) (by rw [add_toNat _ _ (by omega)]; omega),
            hab _ (by rw [add_toNat _ _ (by omega)]; omega)]
        · omega
      obtain ⟨s3, e1, e2, e3⟩ := run_leave F s2 (r - 8) (BitVec.ofNat 64 (rd s.mem r 8)) b hb2 hrd1 (by rw [hrd2])
      refine ⟨s3, ?_, by rw [e2, hpr], e3⟩
      rw [epilogue, hs]
      exact e1
  | some o =>
    obtain ⟨ho1, ho2, k, hk1, hk2, hk3⟩ := h.saved o hs
    obtain ⟨q, hq, hq1, hq2, hdv, hq16⟩ := align_facts (r - 8) k hk1 hk2
    rw [hp] at hq1 hq2
    rw [← hk3] at hq2 hdv hq
    clear hk3 hk1 hk2
    have hqo : (q - BitVec.ofNat 64 o).toNat = q.toNat - o := sub_toNat q o (by omega)
    generalize ht : ({ (((s.set .rsp (r - 8)).store (r - 8) 8 b.toNat).set .rbp (r - 8)).set .rsp q with fl := none } : State) = t
    have hc1 : exec F ⟨.movq, [R8 .rsp, R8 .rbp]⟩ ((s.set .rsp (r - 8)).store (r - 8) 8 b.toNat) =
        .ok (((s.set .rsp (r - 8)).store (r - 8) 8 b.toNat).set .rbp (r - 8)) := by
      rw [exec_mov_sp]; simp
    have hc2 : exec F ⟨.andq, [.imm none (-(l.align : Int)), R8 .rsp]⟩
        (((s.set .rsp (r - 8)).store (r - 8) 8 b.toNat).set .rbp (r - 8)) = .ok t := by
      rw [exec_and_sp, ← ht, ← hq]; simp
    have htm : t.mem = wr s.mem (r - 8) 8 b.toNat := by rw [← ht]; simp
    have htb : t.reg .rbp = r - 8 := by rw [← ht]; simp
    have htp : t.reg .rsp = q := by rw [← ht]; simp
    have hc3 : exec F ⟨.movq, [R8 .rbp, .mem (-(o : Int)) .rsp]⟩ t = .ok (t.store (q - BitVec.ofNat 64 o) 8 (r - 8).toNat) := by
      rw [exec_save_bp, htb, htp]
    generalize hu : (t.store (q - BitVec.ofNat 64 o) 8 (r - 8).toNat).set .rbp q = u
    have hc4 : exec F ⟨.movq, [R8 .rsp, R8 .rbp]⟩ (t.store (q - BitVec.ofNat 64 o) 8 (r - 8).toNat) = .ok u := by
      rw [exec_mov_sp, ← hu]; simp [htp]
    have hum : u.mem = wr (wr s.mem (r - 8) 8 b.toNat) (q - BitVec.ofNat 64 o) 8 (r - 8).toNat := by
      rw [← hu]; simp [htm]
    have hub : u.reg .rbp = q := by rw [← hu]; simp
    have hup : u.reg .rsp = q := by rw [← hu]; simp [htp]
    obtain ⟨s1, r1, b1, p1, m1⟩ := run_sub F u l.frame
    rw [hub] at b1
    rw [hup] at p1
    rw [hum] at m1
    have hab1 : ∀ x : BitVec 64, q.toNat ≤ x.toNat → s1.mem x = wr s.mem (r - 8) 8 b.toNat x := by
      intro x hx; rw [m1]; exact wr_far _ _ _ _ _ (by omega) (by left; omega)
    have hab : ∀ x : BitVec 64, r.toNat ≤ x.toNat → s1.mem x = s.mem x := by
      intro x hx; rw [hab1 x (by omega)]; exact wr_far _ _ _ _ _ (by omega) (by left; omega)
    refine ⟨s1, ?_, ⟨?_, fun _ => ?_⟩, ?_, ?_, ?_, hab, ?_⟩
    · rw [prologue, hs]
      simp only [List.cons_append, List.nil_append]
      rw [run_cons, hpush, Out.bind_ok, run_cons, hc1, Out.bind_ok, run_cons, hc2, Out.bind_ok, run_cons, hc3,
        Out.bind_ok, run_cons, hc4, Out.bind_ok, r1]
    · rw [b1]; exact hq16
    · rw [b1]; exact hdv
    · rw [p1, b1]
    · rw [b1]; omega
    · rw [b1]; omega
    · intro s2 hb2 hm2 hs2
      rw [b1] at hb2 hm2 hs2
      have hs2 := hs2 o rfl
      have hrbp : BitVec.ofNat 64 (rd s2.mem (q - BitVec.ofNat 64 o) 8) = r - 8 := by
        rw [rd_congr (m' := s1.mem) hs2, m1]
        exact rd_at _ _ _
      have hld : exec F ⟨.movq, [.mem (-(o : Int)) .rbp, R8 .rbp]⟩ s2 = .ok (s2.set .rbp (r - 8)) := by
        rw [exec_load_bp, hb2, hrbp]
      have hrd1 : BitVec.ofNat 64 (rd s2.mem (r - 8) 8) = b := by
        rw [rd_congr (m' := wr s.mem (r - 8) 8 b.toNat) (fun i hi => by
          rw [hm2 _ (by rw [add_toNat _ _ (by omega)]; omega) (by rw [add_toNat _ _ (by omega)]; omega)]
          exact hab1 _ (by rw [add_toNat _ _ (by omega)]; omega))]
        exact rd_at _ _ _
      have hrd2 : rd s2.mem (r - 8 + 8) 8 = rd s.mem r 8 := by
        rw [hpr]
        refine rd_congr fun i hi => ?_
        rw [hm2 _ (by rw [add_toNat _ _ (by omega)]; omega) (by rw [add_toNat _ _ (by omega)]; omega),
          hab _ (by rw [add_toNat _ _ (by omega)]; omega)]
      obtain ⟨s3, e1, e2, e3⟩ := run_leave F (s2.set .rbp (r - 8)) (r - 8) (BitVec.ofNat 64 (rd s.mem r 8)) b (by simp)
        (by simpa using hrd1) (by rw [← hrd2]; simp)
      refine ⟨s3, ?_, by rw [e2, hpr], e3⟩
      rw [epilogue, hs]
      simp only [List.cons_append, List.nil_append]
      rw [Cond.runC_exec hld]
      exact e1

end Verif.Frame
