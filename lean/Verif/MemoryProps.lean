import Verif.MemoryLemmas
import Verif.CodegenProps
/-!
Properties of block copies, loads and stores in generated code (C36, C73).
-/
namespace Verif.Memory
open Verif Asm X86 Simple SimpleSpec Codegen CodegenSpec MemorySpec

/-- C36: a block copy of any length leaves the target equal to the source, every other byte
and every register but `%rax` unchanged. -/
theorem memcpy_copies (F : FP) (n : Nat) (hn : n ≤ 2 ^ 63) (s : State)
    (ho : NoPartialOverlap (s.reg .rdi) (s.reg .rsi) n) :
    ∃ v, run F (memcpy n) s = .ok { s.set .rax v with mem := copied s.mem (s.reg .rdi) (s.reg .rsi) n } :=
  run_memcpyFrom F s.mem _ _ n hn ho n 0 rfl (Nat.zero_le _) s rfl rfl (copied_zero ..).symm

/-- A copy of 15 bytes between disjoint ranges. -/
example : NoPartialOverlap 0x1000 0x2000 15 := by
  right
  intro i hi j hj
  rw [ne_eq, ← BitVec.toNat_inj]
  simp [BitVec.toNat_add]
  omega

/-- C36: clearing. -/
theorem memzero_clears (F : FP) (n : Nat) (hn : n ≤ 2 ^ 63) (s : State) :
    run F (memzero n) s = .ok { s with mem := cleared s.mem (s.reg .rdi) n } :=
  run_memzeroFrom F s.mem _ n hn n 0 rfl (Nat.zero_le _) s rfl (cleared_zero ..).symm

example : cleared (fun _ => 7) 0x1000 3 0x1002 = 0 ∧ cleared (fun _ => 7) 0x1000 3 0x1003 = 7 := by decide

/-- C36: the copy reads only the source and writes only the target. -/
theorem memcpy_within (n : Nat) : Within (memcpy n) .rdi n .rsi n := by
  have key : ∀ k i, n - i = k → Within (memcpyFrom i n) .rdi n .rsi n := by
    intro k
    induction k using Nat.strongRecOn with
    | _ k ih =>
      intro i hk
      rw [memcpyFrom]
      split
      · rename_i h
        have hp := chunk_pos i n
        have hc := chunk_le h
        have hm : moved (movN (chunk i n)) = some (chunk i n) := by
          rcases chunk_cases i n with h | h | h | h <;> rw [h] <;> rfl
        intro x hx
        simp only [List.mem_cons] at hx
        rcases hx with rfl | rfl | hx
        · refine ⟨_, _, _, hm, rfl, ?_, ?_⟩
          · rintro o b e; cases e; exact ⟨rfl, by omega, by omega⟩
          · rintro o b e; cases e
        · refine ⟨_, _, _, hm, rfl, ?_, ?_⟩
          · rintro o b e; cases e
          · rintro o b e; cases e; exact ⟨rfl, by omega, by omega⟩
        · exact ih _ (by omega) _ rfl x hx
      · intro x hx; cases hx
  exact key n 0 rfl

/-- C36: clearing writes only its bytes. -/
theorem memzero_within (n : Nat) : Within (memzero n) .rdi 0 .rdi n := by
  have key : ∀ k i, n - i = k → Within (memzeroFrom i n) .rdi 0 .rdi n := by
    intro k
    induction k using Nat.strongRecOn with
    | _ k ih =>
      intro i hk
      rw [memzeroFrom]
      split
      · rename_i h
        have hp := chunk_pos i n
        have hc := chunk_le h
        have hm : moved (movN (chunk i n)) = some (chunk i n) := by
          rcases chunk_cases i n with h | h | h | h <;> rw [h] <;> rfl
        intro x hx
        simp only [List.mem_cons] at hx
        rcases hx with rfl | hx
        · refine ⟨_, _, _, hm, rfl, ?_, ?_⟩
          · rintro o b e; cases e
          · rintro o b e; cases e; exact ⟨rfl, by omega, by omega⟩
        · exact ih _ (by omega) _ rfl x hx
      · intro x hx; cases hx
  exact key n 0 rfl

example : (memcpy 15).length = 8 := by decide +kernel

/-! ### The nodes that copy -/

/-- C36 for `IR_LOAD`: the slot of the node receives the object, nothing else changes. -/
theorem load_code (F : FP) (p v : Slot) (hp : p.size = 8) (hv : v.size ≤ 2 ^ 63) (s : State)
    (ho : NoPartialOverlap (target s p) (slotAddr s v) v.size) :
    ∃ c s', load p v = .ok c ∧ run F c s = .ok s' ∧
      s'.mem = copied s.mem (target s p) (slotAddr s v) v.size ∧ Scratch s s' := by
  obtain ⟨c, e, l⟩ := run_load F p .rdi (by rw [hp]; simp [ScalarSize])
  let s1 := (s.set .rdi (target s p)).set .rsi (slotAddr s v)
  have h1 : run F (c ++ [leaSlot v .rsi]) s = .ok s1 := by
    rw [run_append_ok (l s), hp, leaSlot, run_cons, Slot.mem, exec_leaq, Out.bind_ok, run_nil]
    congr 1
    show State.set _ _ (_ + _) = _
    rw [show (s.set .rdi (BitVec.ofNat 64 (rd s.mem (slotAddr s p) 8))).reg .rbp = s.reg .rbp by simp, slot_addr0]
    rfl
  obtain ⟨w, hw⟩ := memcpy_copies F v.size hv s1 (by simpa [s1] using ho)
  refine ⟨_, _, by rw [load, e]; rfl, by rw [run_append_ok h1, hw], ?_, ?_⟩
  · simp [s1]
  · refine ⟨?_, rfl⟩
    intro r h1 h2 h3
    simp [s1, h1, h2, h3]

/-- C36 for `IR_STORE`: the bytes of the value's slot are written at the address, nothing
else changes. -/
theorem store_code (F : FP) (p v : Slot) (hp : p.size = 8) (hv : v.size ≤ 2 ^ 63) (s : State)
    (ho : NoPartialOverlap (slotAddr s v) (target s p) v.size) :
    ∃ c s', store p v = .ok c ∧ run F c s = .ok s' ∧
      s'.mem = copied s.mem (slotAddr s v) (target s p) v.size ∧ Scratch s s' := by
  obtain ⟨c, e, l⟩ := run_load F p .rsi (by rw [hp]; simp [ScalarSize])
  let s1 := (s.set .rsi (target s p)).set .rdi (slotAddr s v)
  have h1 : run F (c ++ [leaSlot v .rdi]) s = .ok s1 := by
    rw [run_append_ok (l s), hp, leaSlot, run_cons, Slot.mem, exec_leaq, Out.bind_ok, run_nil]
    congr 1
    show State.set _ _ (_ + _) = _
    rw [show (s.set .rsi (BitVec.ofNat 64 (rd s.mem (slotAddr s p) 8))).reg .rbp = s.reg .rbp by simp, slot_addr0]
    rfl
  obtain ⟨w, hw⟩ := memcpy_copies F v.size hv s1 (by simpa [s1] using ho)
  refine ⟨_, _, by rw [store, e]; rfl, by rw [run_append_ok h1, hw], ?_, ?_⟩
  · simp [s1]
  · refine ⟨?_, rfl⟩
    intro r h1 h2 h3
    simp [s1, h1, h2, h3]

/-- C36 for `IR_SET_ZERO_PTR`. -/
theorem set_zero_code (F : FP) (p : Slot) (n : Nat) (hp : p.size = 8) (hn : n ≤ 2 ^ 63) (s : State) :
    ∃ c s', setZeroPtr p n = .ok c ∧ run F c s = .ok s' ∧
      s'.mem = cleared s.mem (target s p) n ∧ Scratch s s' := by
  obtain ⟨c, e, l⟩ := run_load F p .rdi (by rw [hp]; simp [ScalarSize])
  have h1 : run F c s = .ok (s.set .rdi (target s p)) := by rw [l s, hp]; rfl
  refine ⟨_, _, by rw [setZeroPtr, e]; rfl, by rw [run_append_ok h1, memzero_clears F n hn], ?_, ?_⟩
  · simp
  · refine ⟨?_, rfl⟩
    intro r h1 h2 h3
    simp [h3]

/-- C36 for `IR_COPY_MEMORY`: structure assignment. -/
theorem copy_memory_code (F : FP) (d p : Slot) (n : Nat) (hd : d.size = 8) (hp : p.size = 8) (hn : n ≤ 2 ^ 63)
    (s : State) (ho : NoPartialOverlap (target s p) (target s d) n) :
    ∃ c s', copyMemory d p n = .ok c ∧ run F c s = .ok s' ∧
      s'.mem = copied s.mem (target s p) (target s d) n ∧ Scratch s s' := by
  obtain ⟨c1, e1, l1⟩ := run_load F d .rsi (by rw [hd]; simp [ScalarSize])
  obtain ⟨c2, e2, l2⟩ := run_load F p .rdi (by rw [hp]; simp [ScalarSize])
  let s1 := (s.set .rsi (target s d)).set .rdi (target s p)
  have h1 : run F (c1 ++ c2) s = .ok s1 := by
    rw [run_append_ok (l1 s), l2, hd, hp]
    congr 1
  obtain ⟨w, hw⟩ := memcpy_copies F n hn s1 (by simpa [s1] using ho)
  refine ⟨_, _, by rw [copyMemory, e1, e2]; rfl, by rw [run_append_ok h1, hw], ?_, ?_⟩
  · simp [s1]
  · refine ⟨?_, rfl⟩
    intro r h1 h2 h3
    simp [s1, h1, h2, h3]

/-- A 24-byte object at 0x2000 whose address is in the slot at 0xff8. -/
example : target (twoSlots 0x2000 0) ⟨8, 8⟩ = 0x2000 ∧ slotAddr (twoSlots 0x2000 0) ⟨24, 100⟩ = 0xf9c := by
  decide +kernel

/-! ### C73 -/

/-- C73 for every operator but the comparisons of 8-byte operands (and unsigned division,
which C33 covers). -/
theorem assignment_exact_partial (abi : Abi) (F : FP) (t : ST) (op : Op) (a b : Slot) (loc : Nat) (p : Slot)
    (s : State) (v : Int) (ht : CodegenSpec.Promoted t) (hsa : a.size = bytes abi t) (hsb : b.size = bytes abi t)
    (hp : p.size = 8) (hv : opVal abi t op (slotVal abi t s a) (slotVal abi t s b) = some v)
    (hd1 : Disj (slotAddr s p) 8 (slotAddr s ⟨8, loc⟩) 8) (hd2 : Disj (target s p) 8 (slotAddr s ⟨8, loc⟩) 8)
    (hdiv : op ≠ .div ∨ signed t = true) (hcmp : bytes abi (opType t op) = bytes abi t) :
    ∃ c, assignBinary t op a b loc p = .ok c ∧
      Assigns abi F c s (target s p) (opType t op) v ⟨8, loc⟩ := by
  obtain ⟨c1, e1, s1, r1, f1, v1⟩ := selects_operator_partial abi F t op a b loc s v ht hsa hsb hdiv hv
  have hn : bytes abi t = 4 ∨ bytes abi t = 8 := (bytes_width ht).2
  have hslot : ∀ n, slotAddr s1 ⟨n, loc⟩ = slotAddr s ⟨8, loc⟩ := by
    intro n; simp only [slotAddr]; rw [f1.1]
  have hpa : slotAddr s1 p = slotAddr s p := by simp only [slotAddr]; rw [f1.1]
  have hpt : target s1 p = target s p := by
    unfold target
    rw [hpa]
    have hrd : rd s1.mem (slotAddr s p) 8 = rd s.mem (slotAddr s p) 8 :=
      rd_congr fun i hi => f1.2.2 _ fun j hj => hd1 i hi j (by simp only at hj; omega)
    rw [hrd]
  have hno : NoPartialOverlap (slotAddr s1 ⟨bytes abi t, loc⟩) (target s1 p) (bytes abi t) := by
    right
    rw [hslot, hpt]
    exact (hd2.symm).mono (by omega) (by omega)
  obtain ⟨c2, s2, e2, r2, m2, k2⟩ := store_code F p ⟨bytes abi t, loc⟩ hp (by simp only; omega) s1 hno
  refine ⟨c1 ++ c2, ?_, s2, by rw [run_append_ok r1, r2], ?_, ?_, ?_, ?_⟩
  · unfold assignBinary irBinarySize
    rw [e1, hsa, Res.bind_ok, e2]
    rfl
  · rw [← v1, slotVal, hcmp]
    congr 2
    rw [m2, hpt]
    have : rd (copied s1.mem (slotAddr s1 ⟨bytes abi t, loc⟩) (target s p) (bytes abi t)) (target s p) (bytes abi t)
        = rd s1.mem (slotAddr s1 ⟨bytes abi t, loc⟩) (bytes abi t) := by
      rw [← wr_rd, rd_wr_same _ _ _ _ (by omega), Nat.mod_eq_of_lt (rd_lt _ _ _)]
    exact this
  · rw [k2.1 .rbp (by decide) (by decide) (by decide), f1.1]
  · rw [k2.1 .rsp (by decide) (by decide) (by decide), f1.2.1]
  · intro x hx1 hx2
    rw [m2, ← wr_rd, wr_out _ _ _ _ _ (by rw [hpt, ← hcmp]; exact hx1), f1.2.2]
    intro i hi
    rw [show slotAddr s ⟨bytes abi t, loc⟩ = slotAddr s ⟨8, loc⟩ by rfl]
    exact hx2 i (by simp only at hi ⊢; omega)

/-- `x = a + b` with `long` operands at 0xff8, 0xff0, `x` at 0x2000. -/
example : bytes .sysv (opType .long .add) = bytes .sysv .long ∧
    opVal .sysv .long .add (slotVal .sysv .long (twoSlots 5 0x2000) ⟨8, 8⟩)
      (slotVal .sysv .long (twoSlots 5 0x2000) ⟨8, 16⟩) = some 0x2005 ∧
    target (twoSlots 5 0x2000) ⟨8, 16⟩ = 0x2000 := by decide +kernel

/-- A state with `long` operands 1 and 2, and the address 0x2000 in a third slot; the `int`
there is followed by four bytes `7`. -/
def threeSlots : State :=
  { twoSlots 1 2 with mem := wr (wr (twoSlots 1 2).mem 0xfe8 8 0x2000) 0x2004 4 0x07070707 }

/-- C73 fails: after `x = a < b` with `long` operands the four bytes behind `x` are zero. -/
theorem assignment_exact_violated : ¬ AssignmentExact assignBinary := by
  intro h
  have hd : ∀ a : BitVec 64, (∀ i : Fin 8, ∀ j : Fin 8, a + BitVec.ofNat 64 i ≠ 0xfd8 + BitVec.ofNat 64 j) →
      Disj a 8 0xfd8 8 := fun a h i hi j hj => h ⟨i, hi⟩ ⟨j, hj⟩
  obtain ⟨c, e, s', r, -, -, -, hm⟩ := h .sysv anyFP .long .less ⟨8, 8⟩ ⟨8, 16⟩ 40 ⟨8, 24⟩ threeSlots 1 (by decide) rfl rfl rfl
    (by decide +kernel) (hd _ (by decide +kernel)) (hd _ (by decide +kernel))
  have hc : c = (match assignBinary .long .less ⟨8, 8⟩ ⟨8, 16⟩ 40 ⟨8, 24⟩ with | .ok c => c | _ => []) := by rw [e]
  have hq : (match run anyFP (match assignBinary .long .less ⟨8, 8⟩ ⟨8, 16⟩ 40 ⟨8, 24⟩ with | .ok c => c | _ => []) threeSlots with
      | .ok s => some (s.mem 0x2004) | _ => none) = some 0 := by decide +kernel
  rw [← hc, r] at hq
  have := hm 0x2004 (by
      have : ∀ i : Fin 4, (0x2004 : BitVec 64) ≠ target threeSlots ⟨8, 24⟩ + BitVec.ofNat 64 i := by decide +kernel
      exact fun i hi => this ⟨i, hi⟩) (by
      have : ∀ i : Fin 8, (0x2004 : BitVec 64) ≠ slotAddr threeSlots ⟨8, 40⟩ + BitVec.ofNat 64 i := by decide +kernel
      exact fun i hi => this ⟨i, hi⟩)
  simp only [Option.some.injEq] at hq
  rw [hq] at this
  revert this
  decide +kernel

/-! ### C75 -/

/-- C75: a constant node of any scalar size leaves the low bytes of the constant in its slot
and changes nothing else. -/
theorem constant_code (F : FP) (v : BitVec 64) (out : Slot) (h : ScalarSize out.size) (s : State) :
    ∃ c s', constantCode v out = .ok c ∧ run F c s = .ok s' ∧
      rd s'.mem (slotAddr s out) out.size = v.toNat % 256 ^ out.size ∧ Frame s s' out ∧ Scratch s s' := by
  obtain ⟨size, loc⟩ := out
  have fin : ∀ (s1 : State) (k w : Nat), k ≤ 8 → s1.mem = s.mem → (∀ r, r ≠ .rax → r ≠ .rdi → s1.reg r = s.reg r) →
      s1.xmm = s.xmm → w % 256 ^ k = v.toNat % 256 ^ k →
      rd (s1.store (slotAddr s ⟨k, loc⟩) k w).mem (slotAddr s ⟨k, loc⟩) k = v.toNat % 256 ^ k ∧
      Frame s (s1.store (slotAddr s ⟨k, loc⟩) k w) ⟨k, loc⟩ ∧ Scratch s (s1.store (slotAddr s ⟨k, loc⟩) k w) := by
    intro s1 k w hk hm hr hx hw
    refine ⟨by rw [store_mem, rd_wr_same _ _ _ _ (by omega), hw], ⟨?_, ?_, ?_⟩, ?_, ?_⟩
    · rw [store_reg, hr _ (by decide) (by decide)]
    · rw [store_reg, hr _ (by decide) (by decide)]
    · intro x hx2
      rw [store_mem, wr_out _ _ _ _ _ hx2, hm]
    · intro r h1 _ h3
      rw [store_reg, hr _ h1 h3]
    · exact hx
  have e := fun n => slot_addr0 s ⟨n, loc⟩
  have lea : ∀ n rest, run F (leaSlot ⟨n, loc⟩ .rdi :: rest) s = run F rest (s.set .rdi (slotAddr s ⟨n, loc⟩)) := by
    intro n rest
    rw [run_cons, leaSlot, Slot.mem, exec_leaq, Out.bind_ok, State.addr, e]
  have z : ∀ q : State, q.addr 0 .rdi = q.reg .rdi := by intro q; simp [State.addr]
  rcases h with h | h | h | h <;> simp only at h <;> subst h
  · refine ⟨_, (s.set .rdi (slotAddr s ⟨1, loc⟩)).store (slotAddr s ⟨1, loc⟩) 1 (BitVec.ofInt 8 (v.toNat : Int)).toNat,
      rfl, ?_, fin _ 1 _ (by decide) rfl ?_ rfl ?_⟩
    · rw [lea, run_cons, exec_movb]
      simp [mov, legal, getOp, putOp, z]
    · intro r _ h; simp [h]
    · rw [BitVec.ofInt_natCast]; simp
  · refine ⟨_, (s.set .rdi (slotAddr s ⟨2, loc⟩)).store (slotAddr s ⟨2, loc⟩) 2 (BitVec.ofInt 16 (v.toNat : Int)).toNat,
      rfl, ?_, fin _ 2 _ (by decide) rfl ?_ rfl ?_⟩
    · rw [lea, run_cons, exec_movw]
      simp [mov, legal, getOp, putOp, z]
    · intro r _ h; simp [h]
    · rw [BitVec.ofInt_natCast]; simp
  · refine ⟨_, (s.set .rdi (slotAddr s ⟨4, loc⟩)).store (slotAddr s ⟨4, loc⟩) 4 (BitVec.ofInt 32 (v.toNat : Int)).toNat,
      rfl, ?_, fin _ 4 _ (by decide) rfl ?_ rfl ?_⟩
    · rw [lea, run_cons, exec_movl]
      simp [mov, legal, getOp, putOp, z]
    · intro r _ h; simp [h]
    · rw [BitVec.ofInt_natCast]; simp
  · refine ⟨_, ((s.set .rdi (slotAddr s ⟨8, loc⟩)).set .rax (BitVec.ofInt 64 (v.toNat : Int))).store (slotAddr s ⟨8, loc⟩) 8
      (BitVec.ofInt 64 (v.toNat : Int)).toNat, rfl, ?_, fin _ 8 _ (by decide) rfl ?_ rfl ?_⟩
    · rw [lea, run_cons, exec_movabsq, Out.bind_ok, run_cons, exec_movq_rm]
      simp [mov, legal, getOp, putOp, z]
    · intro r h1 h; simp [h, h1]
    · rw [BitVec.ofInt_natCast]; simp

example : constantCode 0xffffffffffffffff ⟨4, 8⟩
    = .ok [⟨.leaq, [MEM (-8) .rbp, R8 .rdi]⟩, ⟨.movl, [IMM 18446744073709551615, MEM 0 .rdi]⟩] := by decide +kernel

end Verif.Memory
