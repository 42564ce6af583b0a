import Verif.Cast
import Verif.CodegenLemmas
/-!
Lemmas about the code of conversions.
-/
namespace Verif.Cast
open Verif Asm X86 Simple SimpleSpec Codegen CodegenSpec

/-- Code that loads `%rax`, transforms it and stores it. -/
theorem run_through (F : FP) (a out : Slot) (mid : List Ins) (s : State) (ha : ScalarSize a.size)
    (ho : ScalarSize out.size) (y : BitVec 64)
    (hm : ∀ s', s'.reg .rax = BitVec.ofNat 64 (rd s.mem (slotAddr s a) a.size) → Kept s s' →
      ∃ s2, run F mid s' = .ok s2 ∧ (s2.reg .rax).setWidth (8 * out.size) = y.setWidth (8 * out.size) ∧ Kept s' s2) :
    ∃ c, scalarToReg a .rax = .ok c ∧ ∃ s', run F (c ++ mid ++ regToScalar .rax out) s = .ok s' ∧
      Frame s s' out ∧ rd s'.mem (slotAddr s' out) out.size = y.toNat % 256 ^ out.size := by
  obtain ⟨c, e, l⟩ := run_load F a .rax ha
  obtain ⟨s2, h1, h2, h3⟩ := hm (s.set .rax (BitVec.ofNat 64 (rd s.mem (slotAddr s a) a.size))) (by simp)
    (by simp [Kept])
  have hk : Kept s s2 := ⟨by rw [h3.1]; rfl, by rw [h3.2.1]; simp, by rw [h3.2.2]; simp⟩
  refine ⟨c, e, s2.store (slotAddr s2 out) out.size (s2.reg .rax).toNat, ?_, kept_store hk _ _ _ rfl, ?_⟩
  · rw [List.append_assoc, run_append_ok (l s), run_append_ok h1, run_store F out .rax ho]
  · have e : slotAddr (s2.store (slotAddr s2 out) out.size (s2.reg .rax).toNat) out = slotAddr s2 out := by
      simp [slotAddr]
    have h8 : out.size ≤ 2 ^ 64 := by rcases ho with h | h | h | h <;> rw [h] <;> decide
    have h2' := congrArg BitVec.toNat h2
    simp only [BitVec.toNat_setWidth] at h2'
    rw [e, store_mem, rd_wr_same _ _ _ _ h8, show (256 : Nat) = 2 ^ 8 by rfl, ← Nat.pow_mul, h2']

instance (n : Nat) : Decidable (ScalarSize n) := by unfold ScalarSize; infer_instance

theorem bytes_size {abi t} (h : IsInt t) : sizeOf abi t = bytes abi t ∧ ScalarSize (bytes abi t) := by
  revert h; cases abi <;> cases t <;> decide

/-- The low bytes of anything congruent to the value are its conversion. -/
theorem conversion_of {abi : Abi} {t : ST} (ht : IsInt t) (hb : t ≠ .bool) (v : Int) (X : Nat)
    (hd : (2 ^ width abi t : Int) ∣ (X : Int) - v) :
    IsConversion abi t v (bitsVal t (BitVec.ofNat (8 * bytes abi t) (X % 256 ^ bytes abi t))) := by
  have hw : 8 * bytes abi t = width abi t ∧ 0 < width abi t := by
    revert ht hb; cases abi <;> cases t <;> decide
  rw [show (256 : Nat) = 2 ^ 8 by rfl, ← Nat.pow_mul, hw.1]
  unfold IsConversion
  rw [if_neg hb]
  generalize hx : BitVec.ofNat (width abi t) (X % 2 ^ width abi t) = x
  have hxn : x.toNat = X % 2 ^ width abi t := by rw [← hx]; simp
  have hc : ((2 ^ width abi t : Nat) : Int) = 2 ^ width abi t := by simp
  have hd2 : (2 ^ width abi t : Int) ∣ (x.toNat : Int) - X := by
    rw [hxn, Int.natCast_emod, hc]
    have := Int.emod_add_mul_ediv (X : Int) (2 ^ width abi t)
    refine ⟨-(X / 2 ^ width abi t), ?_⟩
    rw [Int.mul_neg]; omega
  cases hs : signed t with
  | false =>
    rw [bitsVal_unsigned hs]
    refine ⟨?_, ?_⟩
    · simp only [InRange, inBits, hs, Bool.false_eq_true, if_false]
      have := x.isLt
      omega
    · exact (show (x.toNat : Int) - v = (x.toNat - X) + (X - v) by omega) ▸ Int.dvd_add hd2 hd
  | true =>
    rw [bitsVal_signed hs]
    have hb := toInt_bounds x hw.2
    refine ⟨?_, ?_⟩
    · simp only [InRange, inBits, hs, if_true]; exact hb
    · have h3 : (2 ^ width abi t : Int) ∣ x.toInt - x.toNat := by
        rw [BitVec.toInt_eq_toNat_cond]
        split
        · simp
        · refine ⟨-1, ?_⟩
          rw [hc]; omega
      exact (show x.toInt - v = (x.toInt - x.toNat) + (x.toNat - X) + (X - v) by omega) ▸
        Int.dvd_add (Int.dvd_add h3 hd2) hd

/-- The value of the operand, from the register it is loaded into. -/
theorem slotVal_int {abi : Abi} {t : ST} (ht : IsInt t) (s : State) (a : Slot) :
    ((rd s.mem (slotAddr s a) (bytes abi t) : Nat) : Int) - slotVal abi t s a = 0 ∨
    signed t = true ∧ ((rd s.mem (slotAddr s a) (bytes abi t) : Nat) : Int) - slotVal abi t s a
      = 2 ^ (8 * bytes abi t) := by
  have hl := rd_lt s.mem (slotAddr s a) (bytes abi t)
  rw [show (256 : Nat) = 2 ^ 8 by rfl, ← Nat.pow_mul] at hl
  rw [slotVal]
  generalize rd s.mem (slotAddr s a) (bytes abi t) = n at *
  have hn : (BitVec.ofNat (8 * bytes abi t) n).toNat = n := by
    rw [BitVec.toNat_ofNat, Nat.mod_eq_of_lt hl]
  cases hs : signed t with
  | false => left; rw [bitsVal_unsigned hs, hn]; omega
  | true =>
    rw [bitsVal_signed hs, BitVec.toInt_eq_toNat_cond, hn]
    split
    · left; omega
    · right
      have hc : ((2 ^ (8 * bytes abi t) : Nat) : Int) = 2 ^ (8 * bytes abi t) := by simp
      exact ⟨rfl, by omega⟩

/-- Sign extension of the loaded operand to 64 bits. -/
theorem signExtend_val {abi : Abi} {t : ST} (ht : IsInt t) (hs : signed t = true) (s : State) (a : Slot) :
    ((BitVec.ofNat (8 * bytes abi t) (rd s.mem (slotAddr s a) (bytes abi t))).signExtend 64).toInt
      = slotVal abi t s a := by
  have h8 : 8 * bytes abi t ≤ 64 := by
    obtain ⟨-, h⟩ := bytes_size (abi := abi) ht
    rcases h with h | h | h | h <;> omega
  rw [BitVec.toInt_signExtend_of_le h8, slotVal, bitsVal_signed hs]

theorem run_movsx (F : FP) (m : Mn) (n : Nat) (s : State)
    (hm : ∀ s, exec F ⟨m, [.reg .rax n, R8 .rax]⟩ s = Out.of (movx (8 * n) 64 (·.signExtend 64) (.reg .rax n) (R8 .rax) s)) :
    ∃ s2, run F [⟨m, [.reg .rax n, R8 .rax]⟩] s = .ok s2 ∧
      s2.reg .rax = ((s.reg .rax).setWidth (8 * n)).signExtend 64 ∧ Kept s s2 := by
  rw [run_cons, hm]
  simp [movx, getOp, putOp, merge64, Kept]

theorem run_movsx32 (F : FP) (m : Mn) (n : Nat) (s : State)
    (hm : ∀ s, exec F ⟨m, [.reg .rax n, R4 .rax]⟩ s = Out.of (movx (8 * n) 32 (·.signExtend 32) (.reg .rax n) (R4 .rax) s)) :
    ∃ s2, run F [⟨m, [.reg .rax n, R4 .rax]⟩] s = .ok s2 ∧
      s2.reg .rax = (((s.reg .rax).setWidth (8 * n)).signExtend 32).setWidth 64 ∧ Kept s s2 := by
  rw [run_cons, hm]
  simp [movx, getOp, putOp, merge32, Kept]

theorem run_movzx32 (F : FP) (m : Mn) (n : Nat) (s : State)
    (hm : ∀ s, exec F ⟨m, [.reg .rax n, R4 .rax]⟩ s = Out.of (movx (8 * n) 32 (·.setWidth 32) (.reg .rax n) (R4 .rax) s)) :
    ∃ s2, run F [⟨m, [.reg .rax n, R4 .rax]⟩] s = .ok s2 ∧
      s2.reg .rax = (((s.reg .rax).setWidth (8 * n)).setWidth 32).setWidth 64 ∧ Kept s s2 := by
  rw [run_cons, hm]
  simp [movx, getOp, putOp, merge32, Kept]

theorem kept_refl (s : State) : Kept s s := ⟨rfl, rfl, rfl⟩
theorem kept_trans {a b c : State} (h : Kept a b) (h' : Kept b c) : Kept a c :=
  ⟨h'.1.trans h.1, h'.2.1.trans h.2.1, h'.2.2.trans h.2.2⟩

/-- `signCast`, as an integer congruent to the value. -/
theorem sign_cast (F : FP) {abi : Abi} {t : ST} (ht : IsInt t) (hs : signed t = true) (a out : Slot) (s : State)
    (ha : a.size = bytes abi t) (ho : ScalarSize out.size) :
    ∃ c, signCast a out = .ok c ∧ ∃ s', run F c s = .ok s' ∧ Frame s s' out ∧ ∃ X : Nat,
      rd s'.mem (slotAddr s' out) out.size = X % 256 ^ out.size ∧
      (2 ^ (8 * out.size) : Int) ∣ (X : Int) - slotVal abi t s a := by
  obtain ⟨-, hsz⟩ := bytes_size (abi := abi) ht
  have h64 : ((2 ^ 64 : Nat) : Int) = 2 ^ 64 := by simp
  by_cases hgt : out.size > a.size
  · -- extended to 64 bits
    let y := (BitVec.ofNat (8 * bytes abi t) (rd s.mem (slotAddr s a) (bytes abi t))).signExtend 64
    have hy : y.toInt = slotVal abi t s a := signExtend_val ht hs s a
    have hcong : (2 ^ (8 * out.size) : Int) ∣ (y.toNat : Int) - slotVal abi t s a := by
      have h3 : (2 ^ 64 : Int) ∣ (y.toNat : Int) - y.toInt := by
        rw [BitVec.toInt_eq_toNat_cond]
        split
        · simp
        · refine ⟨1, ?_⟩; omega
      rw [← hy]
      refine Int.dvd_trans ?_ h3
      have : 8 * out.size ≤ 64 := by rcases ho with h | h | h | h <;> omega
      exact ⟨2 ^ (64 - 8 * out.size), by rw [← Int.pow_add]; congr 1; omega⟩
    have key : ∀ (m : Mn) (n : Nat), n = bytes abi t →
        (∀ s, exec F ⟨m, [.reg .rax n, R8 .rax]⟩ s = Out.of (movx (8 * n) 64 (·.signExtend 64) (.reg .rax n) (R8 .rax) s)) →
        ∃ c, scalarToReg a .rax = .ok c ∧ ∃ s', run F (c ++ [⟨m, [.reg .rax n, R8 .rax]⟩] ++ regToScalar .rax out) s = .ok s' ∧
          Frame s s' out ∧ rd s'.mem (slotAddr s' out) out.size = y.toNat % 256 ^ out.size := by
      intro m n hn hm
      refine run_through F a out _ s (by rw [ha]; exact hsz) ho y ?_
      intro s' hr hk
      obtain ⟨s2, h1, h2, h3⟩ := run_movsx F m n s' hm
      refine ⟨s2, h1, ?_, h3⟩
      rw [h2, hr, ha, hn, BitVec.setWidth_ofNat_of_le (by rcases hsz with h | h | h | h <;> omega)]
    unfold signCast
    rcases hsz with h | h | h | h
    · obtain ⟨c, e, s', h1, h2, h3⟩ := key .movsbq 1 h.symm (fun _ => rfl)
      have h1a : a.size = 1 := by omega
      rw [e]
      exact ⟨_, rfl, s', by simpa [h1a, show out.size > 1 by omega] using h1, h2, _, h3, hcong⟩
    · obtain ⟨c, e, s', h1, h2, h3⟩ := key .movswq 2 h.symm (fun _ => rfl)
      have h1a : a.size = 2 := by omega
      rw [e]
      exact ⟨_, rfl, s', by simpa [h1a, show out.size > 2 by omega] using h1, h2, _, h3, hcong⟩
    · obtain ⟨c, e, s', h1, h2, h3⟩ := key .movslq 4 h.symm (fun _ => rfl)
      have h1a : a.size = 4 := by omega
      rw [e]
      exact ⟨_, rfl, s', by simpa [h1a, show out.size > 4 by omega] using h1, h2, _, h3, hcong⟩
    · exfalso; rcases ho with h' | h' | h' | h' <;> omega
  · obtain ⟨c, e, s', h1, h2, h3⟩ := run_through F a out [] s (by rw [ha]; exact hsz) ho
      (BitVec.ofNat 64 (rd s.mem (slotAddr s a) a.size)) (by
        intro s' hr hk
        exact ⟨s', rfl, by rw [hr], kept_refl _⟩)
    unfold signCast
    rw [e]
    refine ⟨_, rfl, s', by simpa [hgt] using h1, h2, _, h3, ?_⟩
    have hl := rd_lt s.mem (slotAddr s a) a.size
    have hl64 : rd s.mem (slotAddr s a) a.size < 2 ^ 64 := by
      refine Nat.lt_of_lt_of_le hl ?_
      rw [ha]; rcases hsz with h | h | h | h <;> rw [h] <;> decide
    rw [BitVec.toNat_ofNat, Nat.mod_eq_of_lt hl64, ha]
    rcases slotVal_int (abi := abi) ht s a with h | ⟨-, h⟩ <;> rw [h]
    · exact Int.dvd_zero _
    · exact ⟨2 ^ (8 * bytes abi t - 8 * out.size), by rw [← Int.pow_add]; congr 1; omega⟩

/-- `zeroCast`. -/
theorem zero_cast (F : FP) (a out : Slot) (s : State) (ha : ScalarSize a.size) (ho : ScalarSize out.size) :
    ∃ c, zeroCast a out = .ok c ∧ ∃ s', run F c s = .ok s' ∧ Frame s s' out ∧
      rd s'.mem (slotAddr s' out) out.size = rd s.mem (slotAddr s a) a.size % 256 ^ out.size := by
  obtain ⟨c, e, s', h1, h2, h3⟩ := run_through F a out [] s ha ho
    (BitVec.ofNat 64 (rd s.mem (slotAddr s a) a.size)) (by
      intro s' hr hk
      exact ⟨s', rfl, by rw [hr], kept_refl _⟩)
  have hl := rd_lt s.mem (slotAddr s a) a.size
  have hl64 : rd s.mem (slotAddr s a) a.size < 2 ^ 64 := by
    refine Nat.lt_of_lt_of_le hl ?_
    rcases ha with h | h | h | h <;> rw [h] <;> decide
  unfold zeroCast
  rw [e]
  rw [BitVec.toNat_ofNat, Nat.mod_eq_of_lt hl64] at h3
  exact ⟨_, rfl, s', by simpa using h1, h2, h3⟩

/-- `boolCast`. -/
theorem bool_cast (F : FP) (a out : Slot) (s : State) (ha : ScalarSize a.size) (ho : out.size = 1) :
    ∃ c, boolCast a out = .ok c ∧ ∃ s', run F c s = .ok s' ∧ Frame s s' out ∧
      rd s'.mem (slotAddr s' out) 1 = if rd s.mem (slotAddr s a) a.size = 0 then 0 else 1 := by
  have hl := rd_lt s.mem (slotAddr s a) a.size
  have hl64 : rd s.mem (slotAddr s a) a.size < 2 ^ 64 := by
    refine Nat.lt_of_lt_of_le hl ?_
    rcases ha with h | h | h | h <;> rw [h] <;> decide
  have hz : (BitVec.ofNat 64 (rd s.mem (slotAddr s a) a.size) = 0) ↔ rd s.mem (slotAddr s a) a.size = 0 := by
    rw [← BitVec.toNat_inj, BitVec.toNat_ofNat, Nat.mod_eq_of_lt hl64]; simp
  obtain ⟨c, e, s', h1, h2, h3⟩ := run_through F a out [⟨.testq, [R8 .rax, R8 .rax]⟩, ⟨.setne, [R1 .rax]⟩] s ha
    (by rw [ho]; decide) (if rd s.mem (slotAddr s a) a.size = 0 then 0 else 1) (by
      intro s' hr hk
      have ht : exec F ⟨.testq, [R8 .rax, R8 .rax]⟩ s' = .ok { s' with fl := some (testFlags (s'.reg .rax) (s'.reg .rax)) } := by
        simp [cmpIns, legal, getOp]
      rw [run_cons, ht, Out.bind_ok, run_cons, exec_setne]
      simp only [setcc, putOp]
      have hzf : (testFlags (s'.reg .rax) (s'.reg .rax)).zf = decide (rd s.mem (slotAddr s a) a.size = 0) := by
        simp only [testFlags, BitVec.and_self, hr]
        rw [Bool.eq_iff_iff]; simp only [beq_iff_eq, decide_eq_true_eq]; exact hz
      refine ⟨_, rfl, ?_, by simp [Kept]⟩
      have ho8 : 8 * out.size = 8 := by rw [ho]
      have : ∀ b c : BitVec 64, b.setWidth 8 = c.setWidth 8 → b.setWidth (8 * out.size) = c.setWidth (8 * out.size) := by
        rw [ho8]; exact fun _ _ h => h
      apply this
      simp only [set_reg, if_true, merge8_low, hzf]
      by_cases h0 : rd s.mem (slotAddr s a) a.size = 0 <;> simp [h0])
  unfold boolCast
  rw [e]
  refine ⟨_, rfl, s', h1, h2, ?_⟩
  rw [ho] at h3
  rw [h3]
  by_cases h0 : rd s.mem (slotAddr s a) a.size = 0 <;> simp [h0]

/-! ### Floating -/

theorem ofInt_lt (mb eb : Nat) (v : Int) (hv : v.natAbs < 2 ^ 64)
    (hb : (65 + Float.bias ⟨mb, eb⟩) * 2 ^ mb ≤ 2 ^ (mb + eb)) :
    Float.ofInt ⟨mb, eb⟩ v < 2 ^ (mb + eb + 1) := by
  unfold Float.ofInt
  simp only
  generalize v.natAbs = n at hv
  have hp : 0 < 2 ^ (mb + eb) := Nat.pow_pos (by decide)
  have hpm : 0 < 2 ^ mb := Nat.pow_pos (by decide)
  have hp2 : 2 ^ (mb + eb + 1) = 2 * 2 ^ (mb + eb) := by rw [Nat.pow_succ]; omega
  split
  · omega
  rename_i hn
  have h1 : 2 ^ n.log2 ≤ n := Nat.log2_self_le hn
  have h2 : n < 2 ^ (n.log2 + 1) := Nat.lt_log2_self
  have hl : n.log2 ≤ 63 := by
    by_cases hle : n.log2 ≤ 63
    · exact hle
    · have := Nat.pow_le_pow_right (n := 2) (by decide) (show 64 ≤ n.log2 by omega); omega
  generalize n.log2 = l at *
  generalize Float.bias ⟨mb, eb⟩ = bi at *
  have fin : ∀ x, x ≤ 2 ^ mb → (l + bi) * 2 ^ mb + x + (if v < 0 then 2 ^ (mb + eb) else 0) < 2 ^ (mb + eb + 1) := by
    intro x hx
    have : (l + bi + 2) * 2 ^ mb ≤ (65 + bi) * 2 ^ mb := Nat.mul_le_mul_right _ (by omega)
    rw [Nat.add_mul _ 2] at this
    split <;> omega
  split
  · rename_i hle
    apply fin
    have : (n - 2 ^ l) * 2 ^ (mb - l) ≤ 2 ^ l * 2 ^ (mb - l) :=
      Nat.mul_le_mul_right _ (by rw [Nat.pow_succ] at h2; omega)
    rw [← Nat.pow_add] at this
    rwa [show l + (mb - l) = mb by omega] at this
  · rename_i hgt
    apply fin
    have hq : n / 2 ^ (l - mb) < 2 ^ (mb + 1) := by
      rw [Nat.div_lt_iff_lt_mul (Nat.pow_pos (by decide)), ← Nat.pow_add]
      rwa [show mb + 1 + (l - mb) = l + 1 by omega]
    rw [Nat.pow_succ] at hq
    split <;> omega

theorem ofInt_lt32 (v : Int) (hv : v.natAbs < 2 ^ 64) : Float.ofInt Float.f32 v < 2 ^ 32 :=
  ofInt_lt 23 8 v hv (by decide)
theorem ofInt_lt64 (v : Int) (hv : v.natAbs < 2 ^ 64) : Float.ofInt Float.f64 v < 2 ^ 64 :=
  ofInt_lt 52 11 v hv (by decide)

@[simp] theorem x32_setX32 (s : State) (i : Nat) (v : BitVec 32) : (s.setX32 i v).x32 i = v := by
  simp only [State.x32, State.setX32, setX_xmm, if_true]
  ext j hj
  simp [show j < 64 by omega, hj]

/-- `toFloat` converts the signed value of `%rax`. -/
theorem run_toFloat (F : FP) {t : ST} {f : Float.Fmt} {n : Nat} (h : fmtOf t = some (f, n)) (s : State) :
    ∃ c, toFloat n = .ok c ∧ ∃ s2, run F c s = .ok s2 ∧
      s2.reg .rax = BitVec.ofNat 64 (Float.ofInt f (s.reg .rax).toInt) ∧ Kept s s2 := by
  have hr : (s.reg .rax).toInt.natAbs < 2 ^ 64 := by
    have := toInt_bounds (s.reg .rax) (by decide)
    omega
  cases t <;> simp only [fmtOf, reduceCtorEq, Option.some.injEq, Prod.mk.injEq] at h
  · obtain ⟨rfl, rfl⟩ := h
    have := ofInt_lt32 _ hr
    refine ⟨_, rfl, (s.setX32 0 (BitVec.ofNat 32 (Float.ofInt Float.f32 (s.reg .rax).toInt))).set .rax
        (((s.setX32 0 (BitVec.ofNat 32 (Float.ofInt Float.f32 (s.reg .rax).toInt))).x32 0).setWidth 64), ?_, ?_, ?_⟩
    · rw [run_cons, exec_cvtsi2ss, Out.bind_ok, run_cons, exec_movd_2, Out.bind_ok, run_nil]
    · generalize Float.ofInt Float.f32 (s.reg .rax).toInt = k at *
      simp only [set_reg, if_true, x32_setX32]
      apply BitVec.eq_of_toNat_eq
      simp only [BitVec.toNat_setWidth, BitVec.toNat_ofNat]
      omega
    · simp [Kept, State.setX32]
  · obtain ⟨rfl, rfl⟩ := h
    refine ⟨_, rfl, (s.setX 0 (BitVec.ofNat 64 (Float.ofInt Float.f64 (s.reg .rax).toInt))).set .rax
        (BitVec.ofNat 64 (Float.ofInt Float.f64 (s.reg .rax).toInt)), ?_, ?_, ?_⟩
    · rw [run_cons, exec_cvtsi2sd, Out.bind_ok, run_cons, exec_movq_1, Out.bind_ok, run_nil]
      simp only [setX_xmm, if_true]
    · simp
    · simp [Kept]

theorem fmt_size {t f n} (h : fmtOf t = some (f, n)) : (n = 4 ∨ n = 8) ∧
    ∀ v : Int, v.natAbs < 2 ^ 64 → Float.ofInt f v < 256 ^ n := by
  cases t <;> simp only [fmtOf, reduceCtorEq, Option.some.injEq, Prod.mk.injEq] at h
  · obtain ⟨rfl, rfl⟩ := h
    exact ⟨by decide, fun v hv => ofInt_lt32 v hv⟩
  · obtain ⟨rfl, rfl⟩ := h
    exact ⟨by decide, fun v hv => ofInt_lt64 v hv⟩

/-- Code that brings the value of the operand into `%rax` and converts it. -/
theorem float_through (F : FP) {t : ST} {f : Float.Fmt} {n : Nat} (h : fmtOf t = some (f, n)) (a : Slot) (loc : Nat)
    (ext : List Ins) (s : State) (ha : ScalarSize a.size) (v : Int)
    (hm : ∀ s', s'.reg .rax = BitVec.ofNat 64 (rd s.mem (slotAddr s a) a.size) → Kept s s' →
      ∃ s2, run F ext s' = .ok s2 ∧ (s2.reg .rax).toInt = v ∧ Kept s' s2) :
    ∃ c cf, scalarToReg a .rax = .ok c ∧ toFloat n = .ok cf ∧
      ∃ s', run F (c ++ ext ++ cf ++ regToScalar .rax ⟨n, loc⟩) s = .ok s' ∧
      Frame s s' ⟨n, loc⟩ ∧ rd s'.mem (slotAddr s' ⟨n, loc⟩) n = Float.ofInt f v := by
  obtain ⟨hn, hlt⟩ := fmt_size h
  have hv : v.natAbs < 2 ^ 64 := by
    obtain ⟨s2, -, h1, -⟩ := hm (s.set .rax (BitVec.ofNat 64 (rd s.mem (slotAddr s a) a.size))) (by simp)
      (by simp [Kept])
    have := toInt_bounds (s2.reg .rax) (by decide)
    omega
  obtain ⟨cf, hcf, -⟩ := run_toFloat F h s
  obtain ⟨c, hc, s', h1, h2, h3⟩ := run_through F a ⟨n, loc⟩ (ext ++ cf) s ha
    (by rcases hn with h | h <;> rw [h] <;> simp [ScalarSize]) (BitVec.ofNat 64 (Float.ofInt f v)) (by
      intro s' hr hk
      obtain ⟨s2, r1, r2, r3⟩ := hm s' hr hk
      obtain ⟨cf', hcf', s3, q1, q2, q3⟩ := run_toFloat F h s2
      rw [hcf] at hcf'; cases hcf'
      refine ⟨s3, by rw [run_append_ok r1, q1], by rw [q2, r2], kept_trans r3 q3⟩)
  refine ⟨c, cf, hc, hcf, s', by simpa using h1, h2, ?_⟩
  have := hlt v hv
  simp only at h3
  rw [h3, BitVec.toNat_ofNat]
  have h64 : Float.ofInt f v < 2 ^ 64 := Nat.lt_of_lt_of_le this (by rcases hn with h | h <;> rw [h] <;> decide)
  rw [Nat.mod_eq_of_lt h64, Nat.mod_eq_of_lt this]

/-- Signed integer to floating. -/
theorem int_float_cast (F : FP) {abi : Abi} {src t : ST} {f : Float.Fmt} {n : Nat} (h : fmtOf t = some (f, n))
    (hi : IsInt src) (hs : signed src = true) (a : Slot) (loc : Nat) (s : State) (ha : a.size = bytes abi src)
    (hc : 4 ≤ a.size ∨ 0 ≤ slotVal abi src s a) :
    ∃ c, intFloatCast a ⟨n, loc⟩ = .ok c ∧ ∃ s', run F c s = .ok s' ∧ Frame s s' ⟨n, loc⟩ ∧
      rd s'.mem (slotAddr s' ⟨n, loc⟩) n = Float.ofInt f (slotVal abi src s a) := by
  obtain ⟨-, hsz⟩ := bytes_size (abi := abi) hi
  have hsa : ScalarSize a.size := by rw [ha]; exact hsz
  have hse := signExtend_val (abi := abi) hi hs s a
  have small : ∀ (m : Mn) (k : Nat), k = bytes abi src → k < 4 →
      (∀ s, exec F ⟨m, [.reg .rax k, R4 .rax]⟩ s = Out.of (movx (8 * k) 32 (·.signExtend 32) (.reg .rax k) (R4 .rax) s)) →
      ∀ s', s'.reg .rax = BitVec.ofNat 64 (rd s.mem (slotAddr s a) a.size) → Kept s s' →
      ∃ s2, run F [⟨m, [.reg .rax k, R4 .rax]⟩] s' = .ok s2 ∧ (s2.reg .rax).toInt = slotVal abi src s a ∧ Kept s' s2 := by
    intro m k hk hk4 hm s' hr _
    obtain ⟨s2, h1, h2, h3⟩ := run_movsx32 F m k s' hm
    refine ⟨s2, h1, ?_, h3⟩
    have hv : 0 ≤ slotVal abi src s a := by omega
    rw [h2, hr, ha, hk, BitVec.setWidth_ofNat_of_le (by omega)]
    rw [← hse] at hv ⊢
    generalize BitVec.ofNat (8 * bytes abi src) (rd s.mem (slotAddr s a) (bytes abi src)) = x at *
    rw [BitVec.toInt_signExtend_of_le (by omega)] at hv ⊢
    have e1 : (x.signExtend 32).toInt = x.toInt := BitVec.toInt_signExtend_of_le (by omega)
    have hb := (x.signExtend 32).isLt
    generalize hz : x.signExtend 32 = z at *
    have e2 : (z.toNat : Int) = z.toInt := by
      rw [BitVec.toInt_eq_toNat_cond] at e1 ⊢
      split at e1 <;> split <;> omega
    rw [BitVec.toInt_eq_toNat_cond, BitVec.toNat_setWidth, Nat.mod_eq_of_lt (by omega), if_pos (by omega)]
    omega
  unfold intFloatCast
  rcases hsz with hz | hz | hz | hz
  · have hz' : a.size = 1 := by omega
    obtain ⟨c, cf, e1, e2, s', h1, h2, h3⟩ := float_through F h a loc [⟨.movsbl, [R1 .rax, R4 .rax]⟩] s hsa _
      (small .movsbl 1 hz.symm (by decide) (fun _ => rfl))
    refine ⟨_, by rw [e1, if_pos hz', show toFloat (⟨n, loc⟩ : Slot).size = _ from e2]; rfl, s', h1, h2, h3⟩
  · have hz' : a.size = 2 := by omega
    obtain ⟨c, cf, e1, e2, s', h1, h2, h3⟩ := float_through F h a loc [⟨.movswl, [.reg .rax 2, R4 .rax]⟩] s hsa _
      (small .movswl 2 hz.symm (by decide) (fun _ => rfl))
    refine ⟨_, by rw [e1, if_neg (by omega), if_pos hz', show toFloat (⟨n, loc⟩ : Slot).size = _ from e2]; rfl, s', h1, h2, h3⟩
  · have hz' : a.size = 4 := by omega
    obtain ⟨c, cf, e1, e2, s', h1, h2, h3⟩ := float_through F h a loc [⟨.movslq, [R4 .rax, R8 .rax]⟩] s hsa
      (slotVal abi src s a) (by
        intro s' hr hk
        obtain ⟨s2, h1, h2, h3⟩ := run_movsx F .movslq 4 s' (fun _ => rfl)
        refine ⟨s2, h1, ?_, h3⟩
        rw [h2, hr, ha, BitVec.setWidth_ofNat_of_le (by decide)]
        rw [hz] at hse
        rw [hz, ← hse])
    refine ⟨_, by rw [e1, if_neg (by omega), if_neg (by omega), if_pos hz', show toFloat (⟨n, loc⟩ : Slot).size = _ from e2]; rfl, s', h1, h2, h3⟩
  · have hz' : a.size = 8 := by omega
    obtain ⟨c, cf, e1, e2, s', h1, h2, h3⟩ := float_through F h a loc [] s hsa
      (slotVal abi src s a) (by
        intro s' hr hk
        refine ⟨s', rfl, ?_, kept_refl _⟩
        rw [hr, ha]
        rw [hz] at hse
        rw [hz, ← hse, BitVec.signExtend_eq])
    refine ⟨_, by rw [e1, if_neg (by omega), if_neg (by omega), if_neg (by omega), show toFloat (⟨n, loc⟩ : Slot).size = _ from e2]; rfl, s', h1, h2, h3⟩

/-- Unsigned integer (or the bytes of a `_Bool`) to floating. -/
theorem uint_float_cast (F : FP) {abi : Abi} {src t : ST} {f : Float.Fmt} {n : Nat} (h : fmtOf t = some (f, n))
    (hi : IsInt src) (hs : signed src = false) (a : Slot) (loc : Nat) (s : State) (ha : a.size = bytes abi src)
    (hc : slotVal abi src s a < 2 ^ 63) :
    ∃ c, uintFloatCast a ⟨n, loc⟩ = .ok c ∧ ∃ s', run F c s = .ok s' ∧ Frame s s' ⟨n, loc⟩ ∧
      rd s'.mem (slotAddr s' ⟨n, loc⟩) n = Float.ofInt f (slotVal abi src s a) := by
  obtain ⟨-, hsz⟩ := bytes_size (abi := abi) hi
  have hsa : ScalarSize a.size := by rw [ha]; exact hsz
  have hsv : slotVal abi src s a = (rd s.mem (slotAddr s a) (bytes abi src) : Nat) := by
    rcases slotVal_int (abi := abi) hi s a with h | ⟨h, -⟩
    · omega
    · rw [hs] at h; cases h
  have hlt := rd_lt s.mem (slotAddr s a) (bytes abi src)
  rw [hsv] at hc ⊢
  have direct : ∀ s', s'.reg .rax = BitVec.ofNat 64 (rd s.mem (slotAddr s a) a.size) → Kept s s' →
      ∃ s2, run F [] s' = .ok s2 ∧ (s2.reg .rax).toInt = (rd s.mem (slotAddr s a) (bytes abi src) : Nat) ∧ Kept s' s2 := by
    intro s' hr hk
    refine ⟨s', rfl, ?_, kept_refl _⟩
    rw [hr, ha, BitVec.toInt_eq_toNat_cond, BitVec.toNat_ofNat, Nat.mod_eq_of_lt (by omega), if_pos (by omega)]
  have small : ∀ (m : Mn) (k : Nat), k = bytes abi src → k < 4 →
      (∀ s, exec F ⟨m, [.reg .rax k, R4 .rax]⟩ s = Out.of (movx (8 * k) 32 (·.setWidth 32) (.reg .rax k) (R4 .rax) s)) →
      ∀ s', s'.reg .rax = BitVec.ofNat 64 (rd s.mem (slotAddr s a) a.size) → Kept s s' →
      ∃ s2, run F [⟨m, [.reg .rax k, R4 .rax]⟩] s' = .ok s2 ∧
        (s2.reg .rax).toInt = (rd s.mem (slotAddr s a) (bytes abi src) : Nat) ∧ Kept s' s2 := by
    intro m k hk hk4 hm s' hr _
    obtain ⟨s2, h1, h2, h3⟩ := run_movzx32 F m k s' hm
    refine ⟨s2, h1, ?_, h3⟩
    rw [← hk] at hlt
    have h32 : (256 : Nat) ^ k = 2 ^ (8 * k) := by rw [show (256 : Nat) = 2 ^ 8 by rfl, ← Nat.pow_mul]
    have hk2 : 2 ^ (8 * k) ≤ 2 ^ 32 := Nat.pow_le_pow_right (by decide) (by omega)
    rw [h2, hr, ha, ← hk]
    generalize rd s.mem (slotAddr s a) k = q at *
    rw [BitVec.toInt_eq_toNat_cond]
    simp only [BitVec.toNat_setWidth, BitVec.toNat_ofNat]
    rw [Nat.mod_eq_of_lt (a := q) (by omega), Nat.mod_eq_of_lt (a := q) (by omega), Nat.mod_eq_of_lt (a := q) (by omega), Nat.mod_eq_of_lt (a := q) (by omega), if_pos (by omega)]
  unfold uintFloatCast
  rcases hsz with hz | hz | hz | hz
  · have hz' : a.size = 1 := by omega
    obtain ⟨c, cf, e1, e2, s', h1, h2, h3⟩ := float_through F h a loc [⟨.movzbl, [R1 .rax, R4 .rax]⟩] s hsa _
      (small .movzbl 1 hz.symm (by decide) (fun _ => rfl))
    refine ⟨_, by rw [e1, if_pos hz', show toFloat (⟨n, loc⟩ : Slot).size = _ from e2]; rfl, s', h1, h2, h3⟩
  · have hz' : a.size = 2 := by omega
    obtain ⟨c, cf, e1, e2, s', h1, h2, h3⟩ := float_through F h a loc [⟨.movzwl, [.reg .rax 2, R4 .rax]⟩] s hsa _
      (small .movzwl 2 hz.symm (by decide) (fun _ => rfl))
    refine ⟨_, by rw [e1, if_neg (by omega), if_pos hz', show toFloat (⟨n, loc⟩ : Slot).size = _ from e2]; rfl, s', h1, h2, h3⟩
  all_goals
    obtain ⟨c, cf, e1, e2, s', h1, h2, h3⟩ := float_through F h a loc [] s hsa _ direct
    refine ⟨_, by rw [e1, if_neg (by omega), if_neg (by omega), show toFloat (⟨n, loc⟩ : Slot).size = _ from e2]; rfl, s', h1, h2, h3⟩

/-- Floating to integer: `%rax` holds the truncated value. -/
theorem float_int_cast (F : FP) {src : ST} {f : Float.Fmt} {n : Nat} (h : fmtOf src = some (f, n))
    (a out : Slot) (s : State) (ha : a.size = n) (ho : ScalarSize out.size) :
    ∃ c, floatIntCast a out = .ok c ∧ ∃ s', run F c s = .ok s' ∧ Frame s s' out ∧
      rd s'.mem (slotAddr s' out) out.size
        = (cvtt (Float.trunc f (rd s.mem (slotAddr s a) n))).toNat % 256 ^ out.size := by
  have hlt := rd_lt s.mem (slotAddr s a) n
  cases src <;> simp only [fmtOf, reduceCtorEq, Option.some.injEq, Prod.mk.injEq] at h
  · obtain ⟨rfl, rfl⟩ := h
    obtain ⟨c, e, s', h1, h2, h3⟩ := run_through F a out
      [⟨Mn.movd, [R4 .rax, XMM 0]⟩, ⟨Mn.cvttss2si, [XMM 0, R8 .rax]⟩] s (by rw [ha]; decide) ho
      (cvtt (Float.trunc Float.f32 (rd s.mem (slotAddr s a) 4))) (by
        intro s' hr hk
        refine ⟨(s'.setX 0 (((s'.reg .rax).setWidth 32).setWidth 64)).set .rax
          (cvtt (Float.trunc Float.f32 ((s'.setX 0 (((s'.reg .rax).setWidth 32).setWidth 64)).x32 0).toNat)), ?_, ?_, ?_⟩
        · rw [run_cons, exec_movd, Out.bind_ok, run_cons, exec_cvttss2si, Out.bind_ok, run_nil]
        · simp only [set_reg, if_true]
          congr 4
          rw [ha] at hr
          simp only [State.x32, setX_xmm, if_true, hr]
          simp only [BitVec.toNat_setWidth, BitVec.toNat_ofNat]
          omega
        · simp [Kept])
    unfold floatIntCast
    exact ⟨_, by rw [e, if_pos ha]; rfl, s', h1, h2, h3⟩
  · obtain ⟨rfl, rfl⟩ := h
    obtain ⟨c, e, s', h1, h2, h3⟩ := run_through F a out
      [⟨Mn.movd, [R8 .rax, XMM 0]⟩, ⟨Mn.cvttsd2si, [XMM 0, R8 .rax]⟩] s (by rw [ha]; decide) ho
      (cvtt (Float.trunc Float.f64 (rd s.mem (slotAddr s a) 8))) (by
        intro s' hr hk
        refine ⟨(s'.setX 0 (s'.reg .rax)).set .rax
          (cvtt (Float.trunc Float.f64 ((s'.setX 0 (s'.reg .rax)).xmm 0).toNat)), ?_, ?_, ?_⟩
        · rw [run_cons, exec_movd_1, Out.bind_ok, run_cons, exec_cvttsd2si, Out.bind_ok, run_nil]
        · simp only [set_reg, if_true]
          congr 4
          rw [ha] at hr
          simp only [setX_xmm, if_true, hr]
          simp only [BitVec.toNat_ofNat]
          omega
        · simp [Kept])
    unfold floatIntCast
    exact ⟨_, by rw [e, if_neg (by omega), if_pos ha]; rfl, s', h1, h2, h3⟩

/-- What the machine makes of the encoding of a floating number in another format. -/
def refloat (F : FP) : ST → ST → Nat → Nat
  | .float, .double, x => (F.widen (BitVec.ofNat 32 x)).toNat
  | .double, .float, x => (F.narrow (BitVec.ofNat 64 x)).toNat
  | _, _, x => x

/-- Floating to floating. -/
theorem float_cast (F : FP) {src dst : ST} {f g : Float.Fmt} {n m : Nat} (h : fmtOf src = some (f, n))
    (h' : fmtOf dst = some (g, m)) (hne : src ≠ dst)
    (a out : Slot) (s : State) (ha : a.size = n) (ho : out.size = m) :
    ∃ c, floatCast a out = .ok c ∧ ∃ s', run F c s = .ok s' ∧ Frame s s' out ∧
      rd s'.mem (slotAddr s' out) m = refloat F src dst (rd s.mem (slotAddr s a) n) := by
  have hlt := rd_lt s.mem (slotAddr s a) n
  cases src <;> simp only [fmtOf, reduceCtorEq, Option.some.injEq, Prod.mk.injEq] at h <;>
    cases dst <;> simp only [fmtOf, reduceCtorEq, Option.some.injEq, Prod.mk.injEq] at h' <;>
    simp only [ne_eq, not_true_eq_false, reduceCtorEq, not_false_eq_true] at hne
  · obtain ⟨rfl, rfl⟩ := h
    obtain ⟨rfl, rfl⟩ := h'
    obtain ⟨c, e, s', h1, h2, h3⟩ := run_through F a out
      [⟨.movd, [R4 .rax, XMM 0]⟩, ⟨.cvtss2sd, [XMM 0, XMM 0]⟩, ⟨.movq, [XMM 0, R8 .rax]⟩] s (by rw [ha]; decide)
      (by rw [ho]; decide) (F.widen (BitVec.ofNat 32 (rd s.mem (slotAddr s a) 4))) (by
        intro s' hr hk
        let s1 := s'.setX 0 (((s'.reg .rax).setWidth 32).setWidth 64)
        let s2 := s1.setX 0 (F.widen (s1.x32 0))
        refine ⟨s2.set .rax (s2.xmm 0), ?_, ?_, ?_⟩
        · rw [run_cons, exec_movd, Out.bind_ok, run_cons, exec_cvtss2sd, Out.bind_ok, run_cons, exec_movq_1, Out.bind_ok, run_nil]
        · rw [ha] at hr
          simp only [set_reg, if_true, s2, s1, State.x32, setX_xmm, hr]
          congr 2
          apply BitVec.eq_of_toNat_eq
          simp only [BitVec.toNat_setWidth, BitVec.toNat_ofNat]
          omega
        · simp [Kept, s1, s2])
    unfold floatCast
    refine ⟨_, by rw [e]; simp only [Res.bind_ok]; rw [if_pos ⟨ha, ho⟩]; rfl, s', h1, h2, ?_⟩
    rw [ho] at h3
    rw [h3, refloat]
    exact Nat.mod_eq_of_lt (F.widen _).isLt
  · obtain ⟨rfl, rfl⟩ := h
    obtain ⟨rfl, rfl⟩ := h'
    obtain ⟨c, e, s', h1, h2, h3⟩ := run_through F a out
      [⟨.movq, [R8 .rax, XMM 0]⟩, ⟨.cvtsd2ss, [XMM 0, XMM 0]⟩, ⟨.movd, [XMM 0, R4 .rax]⟩] s (by rw [ha]; decide)
      (by rw [ho]; decide) ((F.narrow (BitVec.ofNat 64 (rd s.mem (slotAddr s a) 8))).setWidth 64) (by
        intro s' hr hk
        let s1 := s'.setX 0 (s'.reg .rax)
        let s2 := s1.setX32 0 (F.narrow (s1.xmm 0))
        refine ⟨s2.set .rax ((s2.x32 0).setWidth 64), ?_, ?_, ?_⟩
        · rw [run_cons, exec_movq, Out.bind_ok, run_cons, exec_cvtsd2ss, Out.bind_ok, run_cons, exec_movd_2, Out.bind_ok, run_nil]
        · rw [ha] at hr
          simp only [set_reg, if_true, s2, x32_setX32, s1, setX_xmm, hr]
        · simp [Kept, s1, s2, State.setX32])
    unfold floatCast
    refine ⟨_, by rw [e]; simp only [Res.bind_ok]; rw [if_neg (by omega), if_pos ⟨ha, ho⟩]; rfl, s', h1, h2, ?_⟩
    rw [ho] at h3
    rw [h3, refloat, BitVec.toNat_setWidth]
    have := (F.narrow (BitVec.ofNat 64 (rd s.mem (slotAddr s a) 8))).isLt
    omega

end Verif.Cast
