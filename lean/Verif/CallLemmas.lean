import Verif.CallSpec
import Verif.MemoryProps
/-!
Lemmas about call sequences.
-/
namespace Verif.Call
open Verif Asm X86 Codegen CodegenSpec Memory MemorySpec CallSpec

theorem in_range (x base : BitVec 64) (o n : Nat) (h : o + n ≤ 2 ^ 63) :
    (x - (base + BitVec.ofNat 64 o)).toNat < n ↔ o ≤ (x - base).toNat ∧ (x - base).toNat < o + n := by
  have e : x - (base + BitVec.ofNat 64 o) = (x - base) - BitVec.ofNat 64 o := by
    rw [BitVec.sub_eq_add_neg, BitVec.sub_eq_add_neg, BitVec.sub_eq_add_neg, BitVec.neg_add, BitVec.sub_eq_add_neg, BitVec.add_assoc]
  rw [e]
  generalize x - base = y
  have := y.isLt
  rw [BitVec.toNat_sub, BitVec.toNat_ofNat, Nat.mod_eq_of_lt (a := o) (by omega)]
  omega

theorem off_toNat (base : BitVec 64) (k : Nat) (h : k < 2 ^ 64) : (base + BitVec.ofNat 64 k - base).toNat = k := by
  have : base + BitVec.ofNat 64 k - base = BitVec.ofNat 64 k := by
    rw [BitVec.add_comm]; exact BitVec.add_sub_cancel ..
  rw [this, BitVec.toNat_ofNat, Nat.mod_eq_of_lt h]

theorem add_add_ofNat (a : BitVec 64) (i j : Nat) : a + BitVec.ofNat 64 i + BitVec.ofNat 64 j = a + BitVec.ofNat 64 (i + j) := by
  rw [BitVec.add_assoc, ← BitVec.ofNat_add]

theorem outside_disj {base a : BitVec 64} {area n o : Nat} (h : Outside base area a n) (ho : o + n ≤ area)
    (ha : area ≤ 2 ^ 62) : Disj a n (base + BitVec.ofNat 64 o) n := by
  intro i hi j hj e
  have := h i hi
  rw [e, add_add_ofNat, off_toNat _ _ (by omega)] at this
  omega

/-- One stack argument. -/
theorem run_arg (F : FP) (a : StackArg) (s : State) (area : Nat) (hn : area ≤ 2 ^ 62)
    (hc : Clear s (s.reg .rsp) area a) (hp : off a + size a ≤ area) :
    ∃ c s', (∀ as, stackStores (a :: as) = (stackStores as).bind fun r => .ok (c ++ r)) ∧ run F c s = .ok s' ∧
      Scratch s s' ∧ s'.mem = copied s.mem (src s a) (s.reg .rsp + BitVec.ofNat 64 (off a)) (size a) := by
  cases a with
  | value v o =>
    simp only [off, size, Clear, src] at *
    let s1 := (s.set .rsi (s.reg .rsp + BitVec.ofNat 64 o)).set .rdi (slotAddr s v)
    have h1 : run F [⟨.leaq, [MEM o .rsp, R8 .rsi]⟩, leaSlot v .rdi] s = .ok s1 := by
      rw [run_cons, MEM, R8, exec_leaq, Out.bind_ok, run_cons, leaSlot, Slot.mem, exec_leaq, Out.bind_ok, run_nil, addr_nat]
      congr 1
      show State.set _ _ (_ + _) = _
      rw [show (s.set .rsi (s.reg .rsp + BitVec.ofNat 64 o)).reg .rbp = s.reg .rbp by simp, slot_addr0]
    obtain ⟨w, hw⟩ := memcpy_copies F v.size (by omega) s1 (.inr (by
      simp only [s1, set_reg, if_true]
      simpa using outside_disj hc hp hn))
    refine ⟨[⟨.leaq, [MEM o .rsp, R8 .rsi]⟩, leaSlot v .rdi] ++ memcpy v.size, _, fun as => rfl,
      by rw [run_append_ok h1, hw], ?_, by simp [s1]⟩
    refine ⟨?_, rfl⟩
    intro r h1 h2 h3
    simp [s1, h1, h2, h3]
  | object p o n =>
    simp only [off, size, Clear, src] at *
    obtain ⟨hp8, hc1, hc2⟩ := hc
    obtain ⟨c, e, l⟩ := run_load F p .rdi (by rw [hp8]; simp [ScalarSize])
    let s1 := (s.set .rsi (s.reg .rsp + BitVec.ofNat 64 o)).set .rdi (BitVec.ofNat 64 (rd s.mem (slotAddr s p) 8))
    have h1 : run F (⟨.leaq, [MEM o .rsp, R8 .rsi]⟩ :: c) s = .ok s1 := by
      rw [run_cons, MEM, R8, exec_leaq, Out.bind_ok, l, addr_nat, hp8]
      rw [slotAddr_set _ _ _ _ (by decide)]
      rfl
    obtain ⟨w, hw⟩ := memcpy_copies F n (by omega) s1 (.inr (by
      simp only [s1, set_reg, if_true]
      simpa using outside_disj hc2 hp hn))
    refine ⟨⟨.leaq, [MEM o .rsp, R8 .rsi]⟩ :: c ++ memcpy n, _, fun as => ?_,
      by rw [run_append_ok h1, hw], ?_, by simp [s1]⟩
    · show (scalarToReg p .rdi).bind _ = _
      rw [e]
      show (stackStores as).bind _ = _
      congr 1
    refine ⟨?_, rfl⟩
    intro r h1 h2 h3
    simp [s1, h1, h2, h3]

/-- All stack arguments. -/
theorem run_stackStores (F : FP) (as : List StackArg) (s : State) (area : Nat) (hn : area ≤ 2 ^ 62)
    (hc : ∀ a ∈ as, Clear s (s.reg .rsp) area a) (hp : Placed area as) :
    ∃ c s', stackStores as = .ok c ∧ run F c s = .ok s' ∧ Scratch s s' ∧
      (∀ a ∈ as, ∀ i, i < size a →
        s'.mem (s.reg .rsp + BitVec.ofNat 64 (off a + i)) = s.mem (src s a + BitVec.ofNat 64 i)) ∧
      ∀ x : BitVec 64, (∀ a ∈ as, ¬ (off a ≤ (x - s.reg .rsp).toNat ∧ (x - s.reg .rsp).toNat < off a + size a)) →
        s'.mem x = s.mem x := by
  induction as generalizing s with
  | nil => exact ⟨[], s, rfl, rfl, ⟨fun _ _ _ _ => rfl, rfl⟩, by simp, fun _ _ => rfl⟩
  | cons a as ih =>
    have hpa := hp.1 a (by simp)
    obtain ⟨c1, s1, e1, r1, k1, m1⟩ := run_arg F a s area hn (hc a (by simp)) hpa
    have hrsp : s1.reg .rsp = s.reg .rsp := k1.1 _ (by decide) (by decide) (by decide)
    have hrbp : s1.reg .rbp = s.reg .rbp := k1.1 _ (by decide) (by decide) (by decide)
    have hsl : ∀ v : Slot, slotAddr s1 v = slotAddr s v := by intro v; simp [slotAddr, hrbp]
    have hout : ∀ x : BitVec 64, ¬ (off a ≤ (x - s.reg .rsp).toNat ∧ (x - s.reg .rsp).toNat < off a + size a) →
        s1.mem x = s.mem x := by
      intro x hx
      rw [m1, copied, if_neg]
      rwa [in_range _ _ _ _ (by omega)]
    have hrd : ∀ (b : BitVec 64) n, Outside (s.reg .rsp) area b n → rd s1.mem b n = rd s.mem b n := by
      intro b n h
      exact rd_congr fun i hi => hout _ (by have := h i hi; omega)
    have hsrc : ∀ b ∈ as, src s1 b = src s b := by
      intro b hb
      have := hc b (by simp [hb])
      cases b with
      | value v o => simp [src, hsl]
      | object p o n => simp only [src, hsl]; rw [hrd _ _ this.2.1]
    have hc' : ∀ b ∈ as, Clear s1 (s1.reg .rsp) area b := by
      intro b hb
      have h := hc b (by simp [hb])
      have h2 := hsrc b hb
      cases b with
      | value v o => simpa [Clear, hsl, hrsp] using h
      | object p o n => simp only [Clear, hsl, hrsp, h2] at h ⊢; exact h
    have hpw := List.pairwise_cons.1 hp.2
    obtain ⟨c2, s2, e2, r2, k2, st2, o2⟩ := ih s1 hc' ⟨fun b hb => hp.1 b (by simp [hb]), hpw.2⟩
    rw [hrsp] at st2 o2
    refine ⟨c1 ++ c2, s2, by rw [e1, e2]; rfl, by rw [run_append_ok r1, r2], ?_, ?_, ?_⟩
    · exact ⟨fun r h1 h2 h3 => by rw [k2.1 r h1 h2 h3, k1.1 r h1 h2 h3], by rw [k2.2, k1.2]⟩
    · intro b hb i hi
      rcases List.mem_cons.1 hb with rfl | hb
      · rw [o2, m1, copied, if_pos]
        · congr 1
          rw [← add_add_ofNat, BitVec.add_comm (s.reg .rsp + _)]
          congr 1
          exact BitVec.add_sub_cancel ..
        · rw [in_range _ _ _ _ (by omega), off_toNat _ _ (by omega)]
          omega
        · intro b' hb'
          rw [off_toNat _ _ (by omega)]
          have := hpw.1 b' hb'
          have := hp.1 b' (by simp [hb'])
          omega
      · rw [st2 b hb i hi, hsrc b hb]
        refine hout _ ?_
        have h := hc b (by simp [hb])
        have : Outside (s.reg .rsp) area (src s b) (size b) := by
          cases b with
          | value v o => exact h
          | object p o n => exact h.2.2
        have := this i hi
        omega
    · intro x hx
      rw [o2 x fun b hb => hx b (by simp [hb]), hout x (hx a (by simp))]

/-- All register arguments. -/
theorem run_setRegs (F : FP) (as : List (Dest × Slot)) (s : State)
    (hs : ∀ r v, (Dest.gpr r, v) ∈ as → ScalarSize v.size ∧ r ≠ .rbp) (hd : (as.map (·.1)).Nodup) :
    ∃ c s', setRegs as = .ok c ∧ run F c s = .ok s' ∧ s'.mem = s.mem ∧
      (∀ r, Dest.gpr r ∉ as.map (·.1) → s'.reg r = s.reg r) ∧
      (∀ i, Dest.sse i ∉ as.map (·.1) → s'.xmm i = s.xmm i) ∧ ∀ a ∈ as, Holds s s' a := by
  induction as generalizing s with
  | nil => exact ⟨[], s, rfl, rfl, rfl, fun _ _ => rfl, fun _ _ => rfl, by simp⟩
  | cons a as ih =>
    obtain ⟨d, v⟩ := a
    rw [List.map_cons, List.nodup_cons] at hd
    have hs' : ∀ r v, (Dest.gpr r, v) ∈ as → ScalarSize v.size ∧ r ≠ .rbp := fun r v h => hs r v (by simp [h])
    cases d with
    | sse i =>
      let s1 := s.setX i (BitVec.ofNat 64 (rd s.mem (slotAddr s v) 8))
      have h1 : exec F ⟨.movsd, [v.mem 0, XMM i]⟩ s = .ok s1 := by
        rw [Slot.mem, XMM, exec_movsd_1]
        rw [show s.addr (-(v.loc : Int) + (0 : Nat)) .rbp = slotAddr s v from slot_addr0 s v]
      obtain ⟨c, s', e, r, m, g, x, h⟩ := ih s1 hs' hd.2
      refine ⟨_, s', by rw [setRegs, e]; rfl, by rw [run_cons, h1, Out.bind_ok, r], by rw [m]; rfl, ?_, ?_, ?_⟩
      · intro r hr
        rw [g r (by simp at hr ⊢; exact hr)]; rfl
      · intro j hj
        simp only [List.map_cons, List.mem_cons, not_or] at hj
        rw [x j hj.2]
        simp only [s1, setX_xmm]
        rw [if_neg (by rintro rfl; exact hj.1 rfl)]
      · intro a ha
        rcases List.mem_cons.1 ha with rfl | ha
        · simp only [Holds]
          rw [x i hd.1]
          simp [s1]
        · have := h a ha
          obtain ⟨d, w⟩ := a
          cases d <;> simpa [Holds, s1, slotAddr] using this
    | gpr g =>
      obtain ⟨hsz, hbp⟩ := hs g v (by simp)
      obtain ⟨l, el, rl⟩ := run_load F v g hsz
      generalize hy : BitVec.ofNat 64 (rd s.mem (slotAddr s v) v.size) = y at rl
      have hrl : run F l s = .ok (s.set g y) := by rw [rl s, hy]
      obtain ⟨c, s', e, r, m, gg, x, h⟩ := ih (s.set g y) hs' hd.2
      refine ⟨l ++ c, s', by rw [setRegs, el, e]; rfl, by rw [run_append_ok hrl, r], by rw [m]; rfl, ?_, ?_, ?_⟩
      · intro r hr
        simp only [List.map_cons, List.mem_cons, not_or] at hr
        rw [gg r hr.2, set_reg, if_neg (by rintro rfl; exact hr.1 rfl)]
      · intro j hj
        simp only [List.map_cons, List.mem_cons, not_or] at hj
        rw [x j hj.2]
        rfl
      · intro a ha
        rcases List.mem_cons.1 ha with rfl | ha
        · simp only [Holds]
          rw [gg g hd.1, hy]
          simp
        · have := h a ha
          obtain ⟨d, w⟩ := a
          cases d <;> simpa [Holds, slotAddr_set _ _ _ _ hbp] using this

/-- The results. -/
theorem run_getRegs (F : FP) (as : List (Dest × Slot)) (s : State) (hs : ∀ r ∈ as, ResultOk r) :
    ∃ s', run F (getRegs as) s = .ok s' ∧ s'.reg = s.reg ∧
      (∀ x, (∀ r ∈ as, ∀ i, i < r.2.size → x ≠ slotAddr s r.2 + BitVec.ofNat 64 i) → s'.mem x = s.mem x) ∧
      ((as.Pairwise fun a b => Disj (slotAddr s a.2) a.2.size (slotAddr s b.2) b.2.size) →
        ∀ r ∈ as, rd s'.mem (slotAddr s r.2) r.2.size = regVal s r.1 % 256 ^ r.2.size) := by
  induction as generalizing s with
  | nil => exact ⟨s, rfl, rfl, fun _ _ => rfl, by simp⟩
  | cons a as ih =>
    obtain ⟨d, v⟩ := a
    have hs' := fun r hr => hs r (List.mem_cons_of_mem _ hr)
    have hv := hs (d, v) (by simp)
    -- one store of `v.size` bytes
    have key : ∃ (c : List Ins) (n : Nat), getRegs ((d, v) :: as) = c ++ getRegs as ∧
        run F c s = .ok (s.store (slotAddr s v) v.size n) ∧ n % 256 ^ v.size = regVal s d % 256 ^ v.size := by
      cases d with
      | gpr g => exact ⟨_, _, rfl, run_store F v g hv.2 s, rfl⟩
      | sse i =>
        have ea : s.addr (-(v.loc : Int) + (0 : Nat)) .rbp = slotAddr s v := slot_addr0 s v
        rcases hv with h4 | h8
        · refine ⟨[⟨.movss, [XMM i, v.mem 0]⟩], (s.x32 i).toNat, by simp [getRegs, h4], ?_, ?_⟩
          · rw [run_cons, Slot.mem, exec_movss, Out.bind_ok, run_nil, ea, h4]
          · simp [regVal, State.x32, h4]
        · refine ⟨[⟨.movsd, [XMM i, v.mem 0]⟩], (s.xmm i).toNat, by simp [getRegs, h8], ?_, rfl⟩
          rw [run_cons, Slot.mem, exec_movsd, Out.bind_ok, run_nil, ea, h8]
    obtain ⟨c, n, e1, r1, hnv⟩ := key
    have hv8 : v.size ≤ 8 := by
      cases d with
      | gpr g => rcases hv.2 with h | h | h | h <;> simp_all
      | sse i => rcases hv with h | h <;> simp_all
    obtain ⟨s', r2, g, o, h⟩ := ih (s.store (slotAddr s v) v.size n) hs'
    have hsl : ∀ w : Slot, slotAddr (s.store (slotAddr s v) v.size n) w = slotAddr s w := fun _ => rfl
    simp only [hsl] at o h
    refine ⟨s', by rw [e1, run_append_ok r1, r2], by rw [g]; rfl, ?_, ?_⟩
    · intro x hx
      rw [o x fun r hr => hx r (by simp [hr]), store_mem]
      exact wr_out _ _ _ _ _ (hx (d, v) (by simp))
    · intro hpw r hr
      rw [List.pairwise_cons] at hpw
      rcases List.mem_cons.1 hr with rfl | hr
      · simp only
        rw [rd_congr (m' := (s.store (slotAddr s v) v.size n).mem) fun i hi => o _ fun b hb j hj => hpw.1 b hb i hi j hj,
          store_mem, rd_wr_same _ _ _ _ (by omega), hnv]
      · rw [h hpw.2 r hr]
        have : regVal (s.store (slotAddr s v) v.size n) r.1 = regVal s r.1 := by
          cases r.1 <;> rfl
        rw [this]

end Verif.Call
