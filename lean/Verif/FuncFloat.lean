import Verif.FuncSpec
import Verif.FloatArithProps
import Verif.CodegenProps
import Verif.CastLemmas
/-!
Lemmas about the code of functions: instructions on floating values.
-/
namespace Verif.FuncCode
open Verif Asm X86 Simple SimpleSpec Codegen CodegenSpec FuncSpec

/-- Binary operators. -/
theorem flt_code (F : FP) (op : IrOp) (a b out : Slot) (s : State) (n : Nat) (hn : Flt n) (ha : a.size = n)
    (hb : b.size = n) (ho : out.size = n) {z : Nat}
    (hz : fltOp F n op (rd s.mem (slotAddr s a) n) (rd s.mem (slotAddr s b) n) = some z) :
    ∃ c, codegenBinary op a b out = .ok c ∧ ∃ s', run F c s = .ok s' ∧ CodegenSpec.Frame s s' out ∧
      rd s'.mem (slotAddr s' out) n = z := by
  obtain ⟨osz, loc⟩ := out
  have ho := ho.symm
  simp only at ho
  subst ho
  have hs : ScalarSize n := by rcases hn with h | h <;> simp [ScalarSize, h]
  have arithmetic : ∀ (t : ST) (f : Float.Fmt) (o : Op) (g : Nat → Nat → Nat), fmtOf t = some (f, n) →
      arith F t o = some g → binaryExpr (some t) o a b loc = codegenBinary op a b ⟨n, loc⟩ →
      g (rd s.mem (slotAddr s a) n) (rd s.mem (slotAddr s b) n) = z →
      ∃ c, codegenBinary op a b ⟨n, loc⟩ = .ok c ∧ ∃ s', run F c s = .ok s' ∧
        CodegenSpec.Frame s s' ⟨n, loc⟩ ∧ rd s'.mem (slotAddr s' ⟨n, loc⟩) n = z := by
    intro t f o g h1 h2 h3 h4
    obtain ⟨c, s', e, r, hf, hv⟩ := float_arithmetic_code F t f n o g a b loc s h1 h2 ha hb
    refine ⟨c, by rw [← h3, e], s', r, hf, ?_⟩
    have : slotAddr s' ⟨n, loc⟩ = slotAddr s ⟨n, loc⟩ := by unfold slotAddr; rw [hf.1]
    rw [this, hv, h4]
  have compare : ∀ (m : Mn) (cc : Flags → Bool), (∀ w, asmTable w op = binaryCompFlt w m) →
      (∀ s, exec F ⟨m, [R1 .rax]⟩ s = Out.of (setcc cc (R1 .rax) s)) →
      (cc (ucomFlags (Float.cmp (fmt n) (rd s.mem (slotAddr s a) n) (rd s.mem (slotAddr s b) n)))).toNat = z →
      ∃ c, codegenBinary op a b ⟨n, loc⟩ = .ok c ∧ ∃ s', run F c s = .ok s' ∧
        CodegenSpec.Frame s s' ⟨n, loc⟩ ∧ rd s'.mem (slotAddr s' ⟨n, loc⟩) n = z := by
    intro m cc htab hm hcc
    obtain ⟨c1, e1, l1⟩ := run_load F a .rax (by rw [ha]; exact hs)
    obtain ⟨c2, e2, l2⟩ := run_load F b .rcx (by rw [hb]; exact hs)
    let s1 := (s.set .rax (BitVec.ofNat 64 (rd s.mem (slotAddr s a) n))).set .rcx
          (BitVec.ofNat 64 (rd s.mem (slotAddr s b) n))
    have hrun : run F (c1 ++ c2) s = .ok s1 := by
      rw [run_append_ok (l1 s), l2]; simp [s1, ha, hb]
    have key : ∃ s2, run F (binaryCompFlt (n == 8) m) s1 = .ok s2 ∧ (s2.reg .rax).toNat = z ∧ Kept s s2 := by
      have hla := rd_lt s.mem (slotAddr s a) n
      have hlb := rd_lt s.mem (slotAddr s b) n
      rcases hn with rfl | rfl
      · obtain ⟨s2, h1, h2, h3⟩ := run_flt32 F m cc s1 hm
        refine ⟨s2, h1, ?_, ⟨by rw [h3.1]; rfl, by rw [h3.2.1]; rfl, by rw [h3.2.2]; rfl⟩⟩
        have ea : ((s1.reg .rax).setWidth 32).toNat = rd s.mem (slotAddr s a) 4 := by
          simp [s1]; omega
        have eb : ((s1.reg .rcx).setWidth 32).toNat = rd s.mem (slotAddr s b) 4 := by
          simp [s1]; omega
        rw [h2, ea, eb, ← hcc]
        show BitVec.toNat (if cc (ucomFlags (Float.cmp (fmt 4) _ _)) = true then _ else _) = _
        cases cc (ucomFlags (Float.cmp (fmt 4) (rd s.mem (slotAddr s a) 4) (rd s.mem (slotAddr s b) 4))) <;> rfl
      · obtain ⟨s2, h1, h2, h3⟩ := run_flt64 F m cc s1 hm
        refine ⟨s2, h1, ?_, ⟨by rw [h3.1]; rfl, by rw [h3.2.1]; rfl, by rw [h3.2.2]; rfl⟩⟩
        have ea : (s1.reg .rax).toNat = rd s.mem (slotAddr s a) 8 := by
          simp [s1]; omega
        have eb : (s1.reg .rcx).toNat = rd s.mem (slotAddr s b) 8 := by
          simp [s1]; omega
        rw [h2, ea, eb, ← hcc]
        show BitVec.toNat (if cc (ucomFlags (Float.cmp (fmt 8) _ _)) = true then _ else _) = _
        cases cc (ucomFlags (Float.cmp (fmt 8) (rd s.mem (slotAddr s a) 8) (rd s.mem (slotAddr s b) 8))) <;> rfl
    obtain ⟨s2, hr2, hz, hk⟩ := key
    refine ⟨c1 ++ c2 ++ asmTable (n == 8) op ++ regToScalar .rax ⟨n, loc⟩, ?_,
      s2.store (slotAddr s2 ⟨n, loc⟩) n (s2.reg .rax).toNat, ?_, kept_store hk _ _ _ rfl, ?_⟩
    · unfold codegenBinary
      rw [e1, e2]
      show (if a.size = 4 ∨ a.size = 8 then _ else _) = _
      rw [if_pos (by rw [ha]; exact hn), ha]; rfl
    · rw [List.append_assoc, run_append_ok hrun, htab, run_append_ok hr2, run_store F _ .rax hs]
    · have e : slotAddr (s2.store (slotAddr s2 ⟨n, loc⟩) n (s2.reg .rax).toNat) ⟨n, loc⟩ = slotAddr s2 ⟨n, loc⟩ := by
        simp [slotAddr]
      have hz1 : z ≤ 1 := by rw [← hcc]; exact Bool.toNat_le _
      rw [e, store_mem, rd_wr_same _ _ _ _ (by rcases hn with h | h <;> omega), hz]
      exact Nat.mod_eq_of_lt (by rcases hn with h | h <;> rw [h] <;> omega)
  have hbin : ∀ (t : ST) (o : Op), irFromTypeAndOp (some t) o = .ok op → irBinaryOp op = op →
      binaryExpr (some t) o a b loc = codegenBinary op a b ⟨n, loc⟩ := by
    intro t o h1 h2
    unfold binaryExpr
    rw [h1, Res.bind_ok, h2, irBinarySize, ha]
  have hff : (n = 4 → fmtOf .float = some (Float.f32, n)) ∧ (n = 8 → fmtOf .double = some (Float.f64, n)) :=
    ⟨by rintro rfl; rfl, by rintro rfl; rfl⟩
  have ari : ∀ (o : Op) (f : BitVec 32 → BitVec 32 → BitVec 32) (d : BitVec 64 → BitVec 64 → BitVec 64),
      irFromTypeAndOp (some .float) o = .ok op → irFromTypeAndOp (some .double) o = .ok op → irBinaryOp op = op →
      arith F .float o = some (fun x y => (f (BitVec.ofNat 32 x) (BitVec.ofNat 32 y)).toNat) →
      arith F .double o = some (fun x y => (d (BitVec.ofNat 64 x) (BitVec.ofNat 64 y)).toNat) →
      (if n = 4 then (f (BitVec.ofNat 32 (rd s.mem (slotAddr s a) n)) (BitVec.ofNat 32 (rd s.mem (slotAddr s b) n))).toNat
      else (d (BitVec.ofNat 64 (rd s.mem (slotAddr s a) n)) (BitVec.ofNat 64 (rd s.mem (slotAddr s b) n))).toNat) = z →
      ∃ c, codegenBinary op a b ⟨n, loc⟩ = .ok c ∧ ∃ s', run F c s = .ok s' ∧
        CodegenSpec.Frame s s' ⟨n, loc⟩ ∧ rd s'.mem (slotAddr s' ⟨n, loc⟩) n = z := by
    intro o f d h1 h2 h3 h4 h5 h6
    rcases hn with h | h
    · rw [if_pos h] at h6
      exact arithmetic .float _ o _ (hff.1 h) h4 (hbin _ _ h1 h3) h6
    · rw [if_neg (by omega)] at h6
      exact arithmetic .double _ o _ (hff.2 h) h5 (hbin _ _ h2 h3) h6
  generalize hc : Float.cmp (fmt n) (rd s.mem (slotAddr s a) n) (rd s.mem (slotAddr s b) n) = c at *
  cases op <;> simp only [fltOp, hc, reduceCtorEq] at hz
  case fltAdd => exact ari .add _ _ rfl rfl rfl rfl rfl (Option.some.inj hz)
  case fltSub => exact ari .sub _ _ rfl rfl rfl rfl rfl (Option.some.inj hz)
  case fltMul => exact ari .mul _ _ rfl rfl rfl rfl rfl (Option.some.inj hz)
  case fltDiv => exact ari .div _ _ rfl rfl rfl rfl rfl (Option.some.inj hz)
  all_goals
    refine compare _ _ (fun _ => rfl) (fun _ => rfl) ?_
    revert hz
    cases c <;> simp <;> intro h <;> rw [← h] <;> rfl

theorem topBit32 (x : Nat) : (BitVec.ofNat (8 * 4) x ^^^ BitVec.intMin (8 * 4)).toNat = (x + 2 ^ (8 * 4 - 1)) % 256 ^ 4 := by
  have h2 : (BitVec.intMin 32).toNat = 2 ^ 31 := by decide
  have hx := (BitVec.ofNat 32 x).isLt
  show (BitVec.ofNat 32 x ^^^ BitVec.intMin 32).toNat = _
  rw [BitVec.toNat_xor, h2]
  have hd : ((BitVec.ofNat 32 x).toNat ^^^ 2 ^ 31) / 2 ^ 31 = (BitVec.ofNat 32 x).toNat / 2 ^ 31 ^^^ 1 := by
    rw [Nat.xor_div_two_pow]
  have hm : ((BitVec.ofNat 32 x).toNat ^^^ 2 ^ 31) % 2 ^ 31 = (BitVec.ofNat 32 x).toNat % 2 ^ 31 := by
    rw [Nat.xor_mod_two_pow, Nat.mod_self, Nat.xor_zero]
  have hc := Nat.div_add_mod ((BitVec.ofNat 32 x).toNat ^^^ 2 ^ 31) (2 ^ 31)
  rw [hd, hm] at hc
  rw [← hc]
  rw [BitVec.toNat_ofNat] at hx ⊢
  have h01 : x % 2 ^ 32 / 2 ^ 31 = 0 ∨ x % 2 ^ 32 / 2 ^ 31 = 1 := by omega
  rcases h01 with h0 | h0
  · rw [h0, show (0 ^^^ 1 : Nat) = 1 from rfl]; omega
  · rw [h0, show (1 ^^^ 1 : Nat) = 0 from rfl]; omega

theorem topBit64 (x : Nat) : (BitVec.ofNat (8 * 8) x ^^^ BitVec.intMin (8 * 8)).toNat = (x + 2 ^ (8 * 8 - 1)) % 256 ^ 8 := by
  rw [← flip64, show 1#64 <<< ((BitVec.ofInt 64 63).toNat % 64) = BitVec.intMin 64 by decide]
  exact (Nat.mod_eq_of_lt (BitVec.isLt (BitVec.ofNat 64 x ^^^ BitVec.intMin 64))).symm

/-- Negation. -/
theorem neg_float_code (F : FP) (a out : Slot) (s : State) (n : Nat) (hn : Flt n) (ha : a.size = n)
    (ho : out.size = n) :
    ∃ c, codegenNegFloat a out = .ok c ∧ ∃ s', run F c s = .ok s' ∧ CodegenSpec.Frame s s' out ∧
      rd s'.mem (slotAddr s' out) n =
        (BitVec.ofNat (8 * n) (rd s.mem (slotAddr s a) n) ^^^ BitVec.intMin (8 * n)).toNat := by
  obtain ⟨osz, loc⟩ := out
  have ho := ho.symm
  simp only at ho
  subst ho
  have hs : ScalarSize n := by rcases hn with h | h <;> simp [ScalarSize, h]
  obtain ⟨c1, e1, l1⟩ := run_load F a .rax (by rw [ha]; exact hs)
  let s1 := s.set .rax (BitVec.ofNat 64 (rd s.mem (slotAddr s a) n))
  have hrun : run F c1 s = .ok s1 := by rw [l1]; simp [s1, ha]
  have key : ∃ i s2, codegenNegFloat a ⟨n, loc⟩ = .ok (c1 ++ [i] ++ regToScalar .rax ⟨n, loc⟩) ∧
      exec F i s1 = .ok s2 ∧ (s2.reg .rax).toNat % 256 ^ n =
        (BitVec.ofNat (8 * n) (rd s.mem (slotAddr s a) n) ^^^ BitVec.intMin (8 * n)).toNat ∧ Kept s s2 := by
    rcases hn with h4 | h8
    · subst h4
      refine ⟨⟨.leal, [MEM (-2147483648) .rax, R4 .rax]⟩,
        _, ?_, Codegen.exec_leal F _ _ _ _, ?_, by simp [Kept, s1, State.set]⟩
      · unfold codegenNegFloat; rw [e1]; simp
      · have : s1.reg .rax = BitVec.ofNat 64 (rd s.mem (slotAddr s a) 4) := by simp [s1]
        rw [topBit32]
        have := flip32 (rd s.mem (slotAddr s a) 4)
        simp only [State.set, State.addr, if_true, s1]
        exact this
    · subst h8
      refine ⟨⟨.btcq, [IMM 63, R8 .rax]⟩,
        _, ?_, Codegen.exec_btcq F _ _ _, ?_, by simp [Kept, s1, State.set]⟩
      · unfold codegenNegFloat; rw [e1]; simp
      · rw [topBit64]
        have := flip64 (rd s.mem (slotAddr s a) 8)
        simp only [State.set, if_true, s1]
        exact this
  obtain ⟨i, s2, hc, hx, hz, hk⟩ := key
  refine ⟨c1 ++ [i] ++ regToScalar .rax ⟨n, loc⟩, hc, s2.store (slotAddr s2 ⟨n, loc⟩) n (s2.reg .rax).toNat, ?_,
    kept_store hk _ _ _ rfl, ?_⟩
  · rw [List.append_assoc, run_append_ok hrun, List.singleton_append, run_cons, hx, Out.bind_ok, run_store F _ .rax hs]
  · have e : slotAddr (s2.store (slotAddr s2 ⟨n, loc⟩) n (s2.reg .rax).toNat) ⟨n, loc⟩ = slotAddr s2 ⟨n, loc⟩ := by
      simp [slotAddr]
    rw [e, store_mem, rd_wr_same _ _ _ _ (by rcases hn with h | h <;> omega), hz]

/-- Conversions between floating types. -/
theorem cast_float_code (F : FP) (a out : Slot) (s : State) (n m : Nat) (hn : Flt n) (hm : Flt m) (ha : a.size = n)
    (ho : out.size = m) :
    ∃ c, Cast.floatCast a out = .ok c ∧ ∃ s', run F c s = .ok s' ∧ CodegenSpec.Frame s s' out ∧
      rd s'.mem (slotAddr s' out) m = refloat F n m (rd s.mem (slotAddr s a) n) := by
  rcases hn with rfl | rfl <;> rcases hm with rfl | rfl
  · obtain ⟨c, e, s', r, hf, hv⟩ := Cast.zero_cast F a out s (by rw [ha]; simp [ScalarSize]) (by rw [ho]; simp [ScalarSize])
    refine ⟨c, ?_, s', r, hf, ?_⟩
    · rw [← e]
      unfold Cast.floatCast Cast.zeroCast
      cases scalarToReg a .rax <;> simp [ha, ho]
    · rw [ho, ha] at hv
      rw [hv, refloat, if_neg (by decide), if_neg (by decide)]
      exact Nat.mod_eq_of_lt (rd_lt _ _ _)
  · obtain ⟨c, e, s', r, hf, hv⟩ := Cast.float_cast F (src := .float) (dst := .double) rfl rfl (by decide) a out s ha ho
    exact ⟨c, e, s', r, hf, hv⟩
  · obtain ⟨c, e, s', r, hf, hv⟩ := Cast.float_cast F (src := .double) (dst := .float) rfl rfl (by decide) a out s ha ho
    exact ⟨c, e, s', r, hf, hv⟩
  · obtain ⟨c, e, s', r, hf, hv⟩ := Cast.zero_cast F a out s (by rw [ha]; simp [ScalarSize]) (by rw [ho]; simp [ScalarSize])
    refine ⟨c, ?_, s', r, hf, ?_⟩
    · rw [← e]
      unfold Cast.floatCast Cast.zeroCast
      cases scalarToReg a .rax <;> simp [ha, ho]
    · rw [ho, ha] at hv
      rw [hv, refloat, if_neg (by decide), if_neg (by decide)]
      exact Nat.mod_eq_of_lt (rd_lt _ _ _)

/-- The floating type of a size. -/
theorem fmt_type {n : Nat} (hn : Flt n) : ∃ t, fmtOf t = some (fmt n, n) := by
  rcases hn with rfl | rfl
  · exact ⟨.float, rfl⟩
  · exact ⟨.double, rfl⟩

/-- Conversions from signed integers. -/
theorem int_float_code (F : FP) (a out : Slot) (s : State) (n : Nat) (hn : Flt n) (ha : Scalar a.size)
    (ho : out.size = n) (hv : 4 ≤ a.size ∨ 0 ≤ (BitVec.ofNat (8 * a.size) (rd s.mem (slotAddr s a) a.size)).toInt) :
    ∃ c, Cast.intFloatCast a out = .ok c ∧ ∃ s', run F c s = .ok s' ∧ CodegenSpec.Frame s s' out ∧
      rd s'.mem (slotAddr s' out) n =
        Float.ofInt (fmt n) (BitVec.ofNat (8 * a.size) (rd s.mem (slotAddr s a) a.size)).toInt := by
  obtain ⟨osz, loc⟩ := out
  have ho := ho.symm
  simp only at ho
  subst ho
  obtain ⟨t, ht⟩ := fmt_type hn
  have go : ∀ src : ST, IsInt src → signed src = true → src ≠ .bool → a.size = bytes .sysv src →
      ∃ c, Cast.intFloatCast a ⟨n, loc⟩ = .ok c ∧ ∃ s', run F c s = .ok s' ∧ CodegenSpec.Frame s s' ⟨n, loc⟩ ∧
      rd s'.mem (slotAddr s' ⟨n, loc⟩) n =
        Float.ofInt (fmt n) (BitVec.ofNat (8 * a.size) (rd s.mem (slotAddr s a) a.size)).toInt := by
    intro src h1 h2 h3 h4
    have e : slotVal .sysv src s a = (BitVec.ofNat (8 * a.size) (rd s.mem (slotAddr s a) a.size)).toInt := by
      unfold slotVal bitsVal
      rw [h4]
      simp [h2, h3]
    obtain ⟨c, e1, s', r, hf, hv⟩ := Cast.int_float_cast F (abi := .sysv) ht h1 h2 a loc s h4 (by rw [e]; exact hv)
    exact ⟨c, e1, s', r, hf, by rw [hv, e]⟩
  rcases ha with h | h | h | h
  · exact go .schar (by decide) rfl (by decide) h
  · exact go .short (by decide) rfl (by decide) h
  · exact go .int (by decide) rfl (by decide) h
  · exact go .long (by decide) rfl (by decide) h

/-- Conversions from unsigned integers. -/
theorem uint_float_code (F : FP) (a out : Slot) (s : State) (n : Nat) (hn : Flt n) (ha : Scalar a.size)
    (ho : out.size = n) (hv : rd s.mem (slotAddr s a) a.size < 2 ^ 63) :
    ∃ c, Cast.uintFloatCast a out = .ok c ∧ ∃ s', run F c s = .ok s' ∧ CodegenSpec.Frame s s' out ∧
      rd s'.mem (slotAddr s' out) n = Float.ofInt (fmt n) (rd s.mem (slotAddr s a) a.size : Nat) := by
  obtain ⟨osz, loc⟩ := out
  have ho := ho.symm
  simp only at ho
  subst ho
  obtain ⟨t, ht⟩ := fmt_type hn
  have go : ∀ src : ST, IsInt src → signed src = false → src ≠ .bool → a.size = bytes .sysv src →
      ∃ c, Cast.uintFloatCast a ⟨n, loc⟩ = .ok c ∧ ∃ s', run F c s = .ok s' ∧ CodegenSpec.Frame s s' ⟨n, loc⟩ ∧
      rd s'.mem (slotAddr s' ⟨n, loc⟩) n = Float.ofInt (fmt n) (rd s.mem (slotAddr s a) a.size : Nat) := by
    intro src h1 h2 h3 h4
    have e : slotVal .sysv src s a = (rd s.mem (slotAddr s a) a.size : Nat) := by
      have hl := rd_lt s.mem (slotAddr s a) a.size
      have : (256 : Nat) ^ a.size = 2 ^ (8 * a.size) := by rw [show (256 : Nat) = 2 ^ 8 by rfl, ← Nat.pow_mul]
      unfold slotVal bitsVal
      rw [← h4]
      simp only [h2, h3, BitVec.toNat_ofNat]
      simp
      exact_mod_cast Nat.mod_eq_of_lt (by omega)
    obtain ⟨c, e1, s', r, hf, hv⟩ := Cast.uint_float_cast F (abi := .sysv) ht h1 h2 a loc s h4 (by rw [e]; omega)
    exact ⟨c, e1, s', r, hf, by rw [hv, e]⟩
  rcases ha with h | h | h | h
  · exact go .uchar (by decide) rfl (by decide) h
  · exact go .ushort (by decide) rfl (by decide) h
  · exact go .uint (by decide) rfl (by decide) h
  · exact go .ulong (by decide) rfl (by decide) h

/-- Conversions to integers. -/
theorem float_int_code (F : FP) (a out : Slot) (s : State) (n : Nat) (hn : Flt n) (ha : a.size = n)
    (ho : Scalar out.size) {v : Int} (hv : Float.trunc (fmt n) (rd s.mem (slotAddr s a) n) = some v)
    (h1 : -(2 ^ 63) ≤ v) (h2 : v < 2 ^ 63) :
    ∃ c, Cast.floatIntCast a out = .ok c ∧ ∃ s', run F c s = .ok s' ∧ CodegenSpec.Frame s s' out ∧
      rd s'.mem (slotAddr s' out) out.size = (BitVec.ofInt (8 * out.size) v).toNat := by
  obtain ⟨t, ht⟩ := fmt_type hn
  obtain ⟨c, e, s', r, hf, hx⟩ := Cast.float_int_cast F ht a out s ha ho
  refine ⟨c, e, s', r, hf, ?_⟩
  rw [hx, hv]
  have hc : cvtt (some v) = BitVec.ofInt 64 v := by
    unfold cvtt
    exact if_pos ⟨h1, h2⟩
  have h8 : 8 * out.size ≤ 64 := by rcases ho with h | h | h | h <;> omega
  have e256 : (256 : Nat) ^ out.size = 2 ^ (8 * out.size) := by rw [show (256 : Nat) = 2 ^ 8 by rfl, ← Nat.pow_mul]
  rw [hc, e256, ← BitVec.toNat_setWidth]
  congr 1
  apply BitVec.eq_of_toInt_eq
  have hd : (((2 ^ (8 * out.size) : Nat)) : Int) ∣ ((2 ^ 64 : Nat) : Int) :=
    Int.natCast_dvd_natCast.2 (Nat.pow_dvd_pow 2 h8)
  rw [BitVec.toInt_setWidth, BitVec.toInt_ofInt, BitVec.toNat_ofInt, Int.toNat_of_nonneg (Int.emod_nonneg _ (by decide)),
    ← Int.emod_bmod, Int.emod_emod_of_dvd _ hd, Int.emod_bmod]

end Verif.FuncCode
