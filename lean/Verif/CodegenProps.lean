import Verif.CodegenLemmas
/-!
Properties of the code generated for scalar operators (C32, C33, C35).
-/
namespace Verif.Codegen
open Verif Asm X86 Simple SimpleSpec CodegenSpec

/-- C32: the code of every integer operator node, run on any machine state, ends normally
whenever C defines the result, leaves that result in the slot of the node and changes no
other memory nor the stack and frame pointers. -/
theorem operator_code (abi : Abi) (F : FP) (t : ST) (ht : CodegenSpec.Promoted t) (op : Op) (o : IrOp)
    (ho : Means o op (signed t)) (a b out : Slot) (s : State) (hsa : a.size = bytes abi t)
    (hsb : b.size = bytes abi t) (hso : out.size = bytes abi t) (v : Int)
    (h : opVal abi t op (slotVal abi t s a) (slotVal abi t s b) = some v) :
    ∃ c, codegenBinary o a b out = .ok c ∧ Computes abi F c s out (opType t op) v := by
  have hm := means_intOp o op _ ho
  rw [slotVal_eq ht, slotVal_eq ht] at h
  cases hs : signed t with
  | true =>
    rw [bitsVal_signed hs, bitsVal_signed hs] at h
    obtain ⟨o', z, h1, -, h2, h3⟩ := bv_signed ht hs op _ _ v h
    rw [hs, h1] at hm; cases hm
    exact computes_of ht F op o a b out s hsa hsb hso v z h2 (by rw [bitsVal_signed hs]; exact h3)
  | false =>
    rw [bitsVal_unsigned hs, bitsVal_unsigned hs] at h
    obtain ⟨o', z, h1, -, -, h2, h3⟩ := bv_unsigned ht hs op _ _ v h
    rw [hs, h1] at hm; cases hm
    exact computes_of ht F op o a b out s hsa hsb hso v z h2 (by rw [bitsVal_unsigned hs]; exact h3)

/-- `-7 / 2`, `7u % 4u`, `-1 < 0` meet the hypotheses. -/
example : Means .idiv .div (signed .int) ∧ Means .mod .mod (signed .uint) ∧
    opVal .sysv .int .div (slotVal .sysv .int (twoSlots 0xfffffff9 2) ⟨4, 8⟩)
      (slotVal .sysv .int (twoSlots 0xfffffff9 2) ⟨4, 16⟩) = some (-3) ∧
    opVal .sysv .uint .mod (slotVal .sysv .uint (twoSlots 7 4) ⟨4, 8⟩)
      (slotVal .sysv .uint (twoSlots 7 4) ⟨4, 16⟩) = some 3 ∧
    opVal .sysv .long .less (slotVal .sysv .long (twoSlots (2 ^ 64 - 1) 0) ⟨8, 8⟩)
      (slotVal .sysv .long (twoSlots (2 ^ 64 - 1) 0) ⟨8, 16⟩) = some 1 := by
  decide +kernel

/-- C32, unary operators: `~` and `-`.  (`+` is the operand itself.) -/
theorem unary_code (abi : Abi) (F : FP) (t : ST) (ht : CodegenSpec.Promoted t) (op : UOp) (hp : op ≠ .plus)
    (a : Slot) (loc : Nat) (s : State) (hsa : a.size = bytes abi t) (v : Int)
    (h : uopVal abi t op (slotVal abi t s a) = some v) :
    ∃ c, unaryExpr t op a loc = .ok (some c) ∧ Computes abi F c s ⟨bytes abi t, loc⟩ t v := by
  obtain ⟨hw, hn⟩ := bytes_width (abi := abi) ht
  have hs : ScalarSize a.size := by rw [hsa]; rcases hn with h | h <;> simp [ScalarSize, h]
  obtain ⟨c1, e1, l1⟩ := run_load F a .rax hs
  have hint : isInteger t = true := by revert ht; cases t <;> decide
  have hwp : width abi t ≤ 64 := by omega
  have hlt := rd_lt s.mem (slotAddr s a) a.size
  -- both cases end in a store of `%rax`
  have fin : ∀ (m : Mn) (f : BitVec 64 → BitVec 64) (z : BitVec (width abi t)),
      (∀ s, exec F ⟨m, [R8 .rax]⟩ s = .ok { s.set .rax (f (s.reg .rax)) with fl := none }) →
      (f (BitVec.ofNat 64 (rd s.mem (slotAddr s a) a.size))).setWidth (width abi t) = z →
      bitsVal t z = v →
      ∃ c, (do let c ← scalarToReg a .rax
               pure (c ++ [⟨m, [R8 .rax]⟩] ++ regToScalar .rax ⟨a.size, loc⟩) : Res (List Ins)) = .ok c ∧
        Computes abi F c s ⟨bytes abi t, loc⟩ t v := by
    intro m f z hm hf hz
    refine ⟨_, by rw [e1]; rfl, ?_⟩
    have hso : ScalarSize (⟨a.size, loc⟩ : Slot).size := hs
    let s1 := s.set .rax (BitVec.ofNat 64 (rd s.mem (slotAddr s a) a.size))
    let s2 : State := { s1.set .rax (f (s1.reg .rax)) with fl := none }
    have hr : run F (c1 ++ [⟨m, [R8 .rax]⟩] ++ regToScalar .rax ⟨a.size, loc⟩) s
        = .ok (s2.store (slotAddr s2 ⟨a.size, loc⟩) a.size (s2.reg .rax).toNat) := by
      rw [List.append_assoc, run_append_ok (l1 s), List.singleton_append, run_cons, hm, Out.bind_ok, run_store F _ .rax hso]
    refine ⟨_, hr, ?_, ?_⟩
    · rw [← hsa]
      exact kept_store (by simp [Kept, s1, s2]) _ _ _ rfl
    · rw [slotVal_eq ht]
      have e : ∀ (s2 : State) x y, slotAddr (s2.store x (bytes abi t) y) ⟨bytes abi t, loc⟩ = slotAddr s2 ⟨bytes abi t, loc⟩ := by
        intros; simp [slotAddr]
      have e2 : s2.reg .rax = f (BitVec.ofNat 64 (rd s.mem (slotAddr s a) a.size)) := by simp [s1, s2]
      rw [← e2] at hf
      generalize s2 = s3 at *
      simp only [hsa]
      rw [e, store_mem, rd_wr_same _ _ _ _ (by omega), ← hz, ← hf]
      congr 1
      apply BitVec.eq_of_toNat_eq
      rw [show (256 : Nat) = 2 ^ 8 by rfl, ← Nat.pow_mul, hw]
      simp
  cases op with
  | plus => exact absurd rfl hp
  | bnot =>
    obtain ⟨c, hc, hr⟩ := fin .notq (~~~ ·) _ (by intro s; simp [unary, getOp, putOp, merge64]) rfl (by
      rw [slotVal_eq ht, ← hsa] at h
      simp only [uopVal, Option.some.injEq] at h
      rw [← h, BitVec.setWidth_not hwp, BitVec.setWidth_ofNat_of_le hwp]
      generalize BitVec.ofNat (width abi t) (rd s.mem (slotAddr s a) a.size) = x
      have hx := x.isLt
      have hc : ((2 ^ width abi t : Nat) : Int) = 2 ^ width abi t := by simp
      cases hs : signed t
      · simp only [bitsVal_unsigned hs, BitVec.toNat_not, Bool.false_eq_true, if_false]
        omega
      · simp only [bitsVal_signed hs, BitVec.toInt_not, if_true]
        have hb := toInt_bounds x (by omega)
        have hr : inBits true (width abi t) (-x.toInt - 1) := by
          simp only [inBits, if_true]; omega
        rw [← bmod_inRange (by omega) hr, BitVec.toInt_eq_toNat_bmod,
          show -(x.toNat : Int).bmod (2 ^ width abi t) - 1 = -1 - (x.toNat : Int).bmod (2 ^ width abi t) by omega,
          Int.sub_bmod_bmod,
          show (2 : Int) ^ width abi t - 1 - (x.toNat : Int) = -1 - (x.toNat : Int) + ((2 ^ width abi t : Nat) : Int) by
            rw [hc]; omega, Int.add_bmod_right])
    exact ⟨c, by simp only [unaryExpr, hint, if_true, codegenUnaryInt]; rw [hc]; rfl, hr⟩
  | neg =>
    obtain ⟨c, hc, hr⟩ := fin .negq (- ·) _ (by intro s; simp [unary, getOp, putOp, merge64]) rfl (by
      rw [slotVal_eq ht, ← hsa] at h
      simp only [uopVal, arith] at h
      rw [BitVec.setWidth_neg_of_le hwp, BitVec.setWidth_ofNat_of_le hwp]
      generalize BitVec.ofNat (width abi t) (rd s.mem (slotAddr s a) a.size) = x at *
      have hx := x.isLt
      have hc : ((2 ^ width abi t : Nat) : Int) = 2 ^ width abi t := by simp
      cases hs : signed t
      · simp only [bitsVal_unsigned hs, hs, Bool.false_eq_true, if_false, Option.some.injEq, wrap] at h ⊢
        rw [← h, BitVec.toNat_neg, Int.natCast_emod, Int.ofNat_sub (by omega), hc,
          show (2 : Int) ^ width abi t - (x.toNat : Int) = -(x.toNat : Int) + 2 ^ width abi t by omega,
          Int.add_emod_right]
      · simp only [bitsVal_signed hs, hs, if_true, InRange] at h ⊢
        split at h
        case isFalse => cases h
        rename_i hr
        cases h
        rw [BitVec.toInt_neg, bmod_inRange (by omega) hr])
    exact ⟨c, by simp only [unaryExpr, hint, if_true, codegenUnaryInt]; rw [hc]; rfl, hr⟩

example : uopVal .sysv .int .neg (slotVal .sysv .int (twoSlots 5 0) ⟨4, 8⟩) = some (-5) ∧
    uopVal .sysv .uint .bnot (slotVal .sysv .uint (twoSlots 5 0) ⟨4, 8⟩) = some 4294967290 := by
  decide +kernel

/-! ### C33 -/

/-- C33 in full: the node built for `a op b` computes `op` on the operands' type. -/
def SelectsOperator : Prop :=
  ∀ (abi : Abi) (F : FP) (t : ST) (op : Op) (a b : Slot) (loc : Nat) (s : State) (v : Int),
    CodegenSpec.Promoted t → a.size = bytes abi t → b.size = bytes abi t →
    opVal abi t op (slotVal abi t s a) (slotVal abi t s b) = some v →
    ∃ c, binaryExpr (some t) op a b loc = .ok c ∧
      Computes abi F c s ⟨bytes abi t, loc⟩ (opType t op) v

/-- C33 for every operator and type but unsigned division. -/
theorem selects_operator_partial (abi : Abi) (F : FP) (t : ST) (op : Op) (a b : Slot) (loc : Nat)
    (s : State) (v : Int) (ht : CodegenSpec.Promoted t) (hsa : a.size = bytes abi t)
    (hsb : b.size = bytes abi t) (hd : op ≠ .div ∨ signed t = true)
    (h : opVal abi t op (slotVal abi t s a) (slotVal abi t s b) = some v) :
    ∃ c, binaryExpr (some t) op a b loc = .ok c ∧
      Computes abi F c s ⟨bytes abi t, loc⟩ (opType t op) v := by
  have hf : isFloating t = false := by revert ht; cases t <;> decide
  have hsg : isSigned t = .ok (signed t) := by revert ht; cases t <;> decide
  rw [slotVal_eq ht, slotVal_eq ht] at h
  have hx : ∀ o, irFromTypeAndOp.intOp (signed t) op = .ok o →
      binaryExpr (some t) op a b loc = codegenBinary (irBinaryOp o) a b ⟨bytes abi t, loc⟩ := by
    intro o ho
    unfold binaryExpr irFromTypeAndOp
    simp only [hf, Bool.false_eq_true, if_false, hsg]
    show (irFromTypeAndOp.intOp (signed t) op).bind _ = _
    rw [ho, irBinarySize, hsa]; rfl
  cases hs : signed t with
  | true =>
    rw [bitsVal_signed hs, bitsVal_signed hs] at h
    obtain ⟨o, z, h1, h4, h2, h3⟩ := bv_signed ht hs op _ _ v h
    rw [hx o (by rw [hs]; exact h1), h4]
    exact computes_of ht F op o a b _ s hsa hsb rfl v z h2 (by rw [bitsVal_signed hs]; exact h3)
  | false =>
    rw [bitsVal_unsigned hs, bitsVal_unsigned hs] at h
    obtain ⟨o, z, h1, h4, -, h2, h3⟩ := bv_unsigned ht hs op _ _ v h
    rw [hx o (by rw [hs]; exact h1), h4 (by rw [hs] at hd; simpa using hd)]
    exact computes_of ht F op o a b _ s hsa hsb rfl v z h2 (by rw [bitsVal_unsigned hs]; exact h3)

example : opVal .sysv .uint .rshift (slotVal .sysv .uint (twoSlots 0x80000000 4) ⟨4, 8⟩)
    (slotVal .sysv .uint (twoSlots 0x80000000 4) ⟨4, 16⟩) = some 0x08000000 := by decide +kernel

/-- C33 fails: unsigned division is built as signed division (src/ir/ir.c:559).
`0xffffffffu / 2u` is 0 instead of 0x7fffffff, and `0x80000000u / 0xffffffffu` traps. -/
theorem selects_operator_violated : ¬ SelectsOperator ∧
    (∃ c, binaryExpr (some .uint) .div ⟨4, 8⟩ ⟨4, 16⟩ 24 = .ok c ∧
      run anyFP c (twoSlots 0x80000000 0xffffffff) = .trap) := by
  constructor
  · intro h
    obtain ⟨c, hc, s', hr, -, hv⟩ := h .sysv anyFP .uint .div ⟨4, 8⟩ ⟨4, 16⟩ 24 (twoSlots 0xffffffff 2) 0x7fffffff
      (by decide) (by decide) (by decide) (by decide +kernel)
    have h0 : (match binaryExpr (some .uint) .div ⟨4, 8⟩ ⟨4, 16⟩ 24 with
      | .ok c => match run anyFP c (twoSlots 0xffffffff 2) with
        | .ok s' => slotVal .sysv .uint s' ⟨4, 24⟩
        | _ => 1
      | _ => 1) = 0 := by decide +kernel
    rw [hc] at h0
    simp only [hr] at h0
    have hb : bytes .sysv .uint = 4 := by decide
    have ho : opType .uint .div = .uint := by decide
    rw [hb, ho, h0] at hv
    exact absurd hv (by decide)
  · refine ⟨_, rfl, ?_⟩
    have h0 : (match binaryExpr (some .uint) .div ⟨4, 8⟩ ⟨4, 16⟩ 24 with
      | .ok c => match run anyFP c (twoSlots 0x80000000 0xffffffff) with
        | .trap => true
        | _ => false
      | _ => false) = true := by decide +kernel
    revert h0
    generalize hbe : binaryExpr (some .uint) .div ⟨4, 8⟩ ⟨4, 16⟩ 24 = r
    cases hbe
    intro h0
    split at h0
    · rename_i c hc
      cases hc
      split at h0
      · assumption
      · cases h0
    · cases h0

/-- C33 for pointers: comparisons are those of the unsigned addresses. -/
theorem pointer_comparison (F : FP) (op : Op) (hop : IsRel op) (a b : Slot) (loc : Nat) (s : State)
    (ha : a.size = 8) (hb : b.size = 8) :
    ∃ c, binaryExpr none op a b loc = .ok c ∧
      Computes .sysv F c s ⟨8, loc⟩ .int
        (if fltRel op (if rd s.mem (slotAddr s a) 8 < rd s.mem (slotAddr s b) 8 then .lt
          else if rd s.mem (slotAddr s a) 8 = rd s.mem (slotAddr s b) 8 then .eq else .gt) then 1 else 0) := by
  have e : binaryExpr none op a b loc = binaryExpr (some .ulong) op a b loc := by cases op <;> rfl
  have hot : opType .ulong op = .int := by unfold opType; exact if_pos hop
  have hv : ∀ x, slotVal .sysv .ulong s x = rd s.mem (slotAddr s x) 8 := by
    intro x
    have := rd_lt s.mem (slotAddr s x) 8
    rw [slotVal, bitsVal_unsigned (by decide), show bytes .sysv .ulong = 8 by decide, BitVec.toNat_ofNat,
      Nat.mod_eq_of_lt (by omega)]
  have hd : op ≠ .div := by intro c; subst c; revert hop; decide
  have h8 : bytes .sysv .ulong = 8 := by decide
  rw [e]
  have := selects_operator_partial .sysv F .ulong op a b loc s
    (if fltRel op (if rd s.mem (slotAddr s a) 8 < rd s.mem (slotAddr s b) 8 then .lt
          else if rd s.mem (slotAddr s a) 8 = rd s.mem (slotAddr s b) 8 then .eq else .gt) then 1 else 0)
    (by decide) ha hb (Or.inl hd) (by
      rw [hv, hv]
      generalize rd s.mem (slotAddr s a) 8 = x
      generalize rd s.mem (slotAddr s b) 8 = y
      by_cases h1 : x < y
      · have : ¬ x = y := by omega
        have : ¬ y < x := by omega
        cases op <;> first | exact absurd hop (by decide) | skip
        all_goals simp [opVal, fltRel, h1, *]
        all_goals omega
      · by_cases h2 : x = y
        · subst h2
          cases op <;> first | exact absurd hop (by decide) | simp [opVal, fltRel]
        · have : y < x := by omega
          cases op <;> first | exact absurd hop (by decide) | skip
          all_goals simp [opVal, fltRel, h1, h2, this]
          all_goals omega)
  rw [hot, h8] at this
  exact this

example : IsRel .less ∧ IsRel .notEqual := by decide

/-! ### C35 -/

/-- The outcome class of comparing the floating values in two slots. -/
def slotCmp (f : Float.Fmt) (n : Nat) (s : State) (a b : Slot) : Float.Cmp :=
  Float.cmp f (rd s.mem (slotAddr s a) n) (rd s.mem (slotAddr s b) n)

/-- C35 in full. -/
def FloatComparisons : Prop :=
  ∀ (abi : Abi) (F : FP) (t : ST) (f : Float.Fmt) (n : Nat) (op : Op) (a b : Slot) (loc : Nat) (s : State),
    fmtOf t = some (f, n) → IsRel op → a.size = n → b.size = n →
    ∃ c, binaryExpr (some t) op a b loc = .ok c ∧
      Computes abi F c s ⟨n, loc⟩ .int (if fltRel op (slotCmp f n s a b) then 1 else 0)

/-- What the emitted code really computes for each outcome class. -/
def emitted : Op → Float.Cmp → Bool
  | .less, c => c = .lt ∨ c = .un
  | .greater, c => c = .gt
  | .lessEq, c => c ≠ .gt
  | .greaterEq, c => c = .gt ∨ c = .eq
  | .equal, c => c = .eq ∨ c = .un
  | .notEqual, c => c = .lt ∨ c = .gt
  | _, _ => false

/-- The value of every floating comparison, for all operands. -/
theorem float_comparison_code (abi : Abi) (F : FP) (t : ST) (f : Float.Fmt) (n : Nat) (op : Op)
    (a b : Slot) (loc : Nat) (s : State) (ht : fmtOf t = some (f, n)) (hop : IsRel op)
    (ha : a.size = n) (hb : b.size = n) :
    ∃ c, binaryExpr (some t) op a b loc = .ok c ∧
      Computes abi F c s ⟨n, loc⟩ .int (if emitted op (slotCmp f n s a b) then 1 else 0) := by
  have hn : n = 4 ∨ n = 8 := by
    cases t <;> simp only [fmtOf, reduceCtorEq, Option.some.injEq, Prod.mk.injEq] at ht
    · exact Or.inl ht.2.symm
    · exact Or.inr ht.2.symm
  have hs : ScalarSize n := by rcases hn with h | h <;> simp [ScalarSize, h]
  obtain ⟨c1, e1, l1⟩ := run_load F a .rax (by rw [ha]; exact hs)
  obtain ⟨c2, e2, l2⟩ := run_load F b .rcx (by rw [hb]; exact hs)
  let s1 := (s.set .rax (BitVec.ofNat 64 (rd s.mem (slotAddr s a) n))).set .rcx
        (BitVec.ofNat 64 (rd s.mem (slotAddr s b) n))
  have hrun : run F (c1 ++ c2) s = .ok s1 := by
    rw [run_append_ok (l1 s), l2]; simp [s1, ha, hb]
  -- node type and condition
  obtain ⟨o, m, cc, ho, ho2, htab, hm, hcc⟩ : ∃ o m cc, irFromTypeAndOp (some t) op = .ok o ∧ irBinaryOp o = o ∧
      (∀ w, asmTable w o = binaryCompFlt w m) ∧
      (∀ s, exec F ⟨m, [R1 .rax]⟩ s = Out.of (setcc cc (R1 .rax) s)) ∧
      ∀ c, cc (ucomFlags c) = emitted op c := by
    obtain ⟨hf, hnn⟩ : isFloating t = true ∧ True := by
      cases t <;> simp only [fmtOf, reduceCtorEq] at ht <;> exact ⟨rfl, trivial⟩
    cases op <;> first | exact absurd hop (by decide) | skip
    all_goals
      refine ⟨_, _, _, by unfold irFromTypeAndOp; simp only [hf, if_true]; rfl, rfl, fun _ => rfl, fun _ => rfl, ?_⟩
      intro c; cases c <;> rfl
  have key : ∃ s2, run F (binaryCompFlt (n == 8) m) s1 = .ok s2 ∧
      s2.reg .rax = (if emitted op (slotCmp f n s a b) then 1 else 0) ∧ Kept s s2 := by
    have hla := rd_lt s.mem (slotAddr s a) n
    have hlb := rd_lt s.mem (slotAddr s b) n
    rcases hn with rfl | rfl
    · cases t <;> simp only [fmtOf, reduceCtorEq, Option.some.injEq, Prod.mk.injEq] at ht
      case double => exact absurd ht.2 (by decide)
      obtain ⟨rfl, -⟩ := ht
      obtain ⟨s2, h1, h2, h3⟩ := run_flt32 F m cc s1 hm
      refine ⟨s2, h1, ?_, ⟨by rw [h3.1]; rfl, by rw [h3.2.1]; rfl, by rw [h3.2.2]; rfl⟩⟩
      have ea : ((s1.reg .rax).setWidth 32).toNat = rd s.mem (slotAddr s a) 4 := by
        simp [s1]; omega
      have eb : ((s1.reg .rcx).setWidth 32).toNat = rd s.mem (slotAddr s b) 4 := by
        simp [s1]; omega
      rw [h2, ea, eb, hcc]; rfl
    · cases t <;> simp only [fmtOf, reduceCtorEq, Option.some.injEq, Prod.mk.injEq] at ht
      case float => exact absurd ht.2 (by decide)
      obtain ⟨rfl, -⟩ := ht
      obtain ⟨s2, h1, h2, h3⟩ := run_flt64 F m cc s1 hm
      refine ⟨s2, h1, ?_, ⟨by rw [h3.1]; rfl, by rw [h3.2.1]; rfl, by rw [h3.2.2]; rfl⟩⟩
      have ea : (s1.reg .rax).toNat = rd s.mem (slotAddr s a) 8 := by
        simp [s1]; omega
      have eb : (s1.reg .rcx).toNat = rd s.mem (slotAddr s b) 8 := by
        simp [s1]; omega
      rw [h2, ea, eb, hcc]; rfl
  obtain ⟨s2, hr2, hz, hk⟩ := key
  refine ⟨c1 ++ c2 ++ asmTable (n == 8) o ++ regToScalar .rax ⟨n, loc⟩, ?_,
    s2.store (slotAddr s2 ⟨n, loc⟩) n (s2.reg .rax).toNat, ?_, kept_store hk _ _ _ rfl, ?_⟩
  · unfold binaryExpr codegenBinary
    rw [ho, e1, e2]
    show (if a.size = 4 ∨ a.size = 8 then _ else _) = _
    rw [if_pos (by rw [ha]; exact hn), irBinarySize, ha, ho2]; rfl
  · rw [List.append_assoc, run_append_ok hrun, htab, run_append_ok hr2, run_store F _ .rax hs]
  · have e : slotAddr (s2.store (slotAddr s2 ⟨n, loc⟩) n (s2.reg .rax).toNat) ⟨n, loc⟩ = slotAddr s2 ⟨n, loc⟩ := by
      simp [slotAddr]
    have h4 : bytes abi .int = 4 := by cases abi <;> rfl
    rw [slotVal, h4, e, store_mem, rd_wr_prefix _ _ _ _ _ (by omega) (by omega), hz]
    cases emitted op (slotCmp f n s a b) <;> decide

/-- C35 for ordered operands (all six operators), and for NaN operands of `>` and `>=`. -/
theorem float_comparison_partial (abi : Abi) (F : FP) (t : ST) (f : Float.Fmt) (n : Nat) (op : Op)
    (a b : Slot) (loc : Nat) (s : State) (ht : fmtOf t = some (f, n)) (hop : IsRel op)
    (ha : a.size = n) (hb : b.size = n)
    (hc : slotCmp f n s a b ≠ .un ∨ op = .greater ∨ op = .greaterEq) :
    ∃ c, binaryExpr (some t) op a b loc = .ok c ∧
      Computes abi F c s ⟨n, loc⟩ .int (if fltRel op (slotCmp f n s a b) then 1 else 0) := by
  have e : emitted op (slotCmp f n s a b) = fltRel op (slotCmp f n s a b) := by
    revert hc
    generalize slotCmp f n s a b = c
    cases op <;> cases c <;> decide
  rw [← e]
  exact float_comparison_code abi F t f n op a b loc s ht hop ha hb

/-- The four other comparisons are wrong for every pair of operands of which one is a NaN:
the emitted code does not look at the parity flag. -/
theorem nan_comparison_violated (abi : Abi) (F : FP) (t : ST) (f : Float.Fmt) (n : Nat) (op : Op)
    (a b : Slot) (loc : Nat) (s : State) (ht : fmtOf t = some (f, n)) (hop : IsRel op)
    (ha : a.size = n) (hb : b.size = n) (hu : slotCmp f n s a b = .un)
    (ho : op ≠ .greater ∧ op ≠ .greaterEq) :
    ∃ c, binaryExpr (some t) op a b loc = .ok c ∧
      Computes abi F c s ⟨n, loc⟩ .int (if fltRel op .un then 0 else 1) := by
  have := float_comparison_code abi F t f n op a b loc s ht hop ha hb
  rw [hu] at this
  have e : emitted op .un = !fltRel op .un := by
    revert ho hop; cases op <;> decide
  rw [e] at this
  cases hb : fltRel op .un <;> rw [hb] at this <;> exact this

theorem float_comparison_violated : ¬ FloatComparisons := by
  intro h
  have hc : slotCmp Float.f64 8 (twoSlots 0x7ff8000000000000 0) ⟨8, 8⟩ ⟨8, 16⟩ = .un := by decide +kernel
  obtain ⟨c, e1, s1, r1, -, v1⟩ := h .sysv anyFP .double Float.f64 8 .less ⟨8, 8⟩ ⟨8, 16⟩ 24
    (twoSlots 0x7ff8000000000000 0) rfl (by decide) rfl rfl
  obtain ⟨c', e2, s2, r2, -, v2⟩ := nan_comparison_violated .sysv anyFP .double Float.f64 8 .less ⟨8, 8⟩ ⟨8, 16⟩ 24
    (twoSlots 0x7ff8000000000000 0) rfl (by decide) rfl rfl hc (by decide)
  rw [e1] at e2; cases e2
  rw [r1] at r2; cases r2
  rw [v1, hc] at v2
  exact absurd v2 (by decide)

/-- `1.0 < 2.0` is ordered; `NaN < 0.0` is not. -/
example : slotCmp Float.f64 8 (twoSlots 0x3ff0000000000000 0x4000000000000000) ⟨8, 8⟩ ⟨8, 16⟩ = .lt ∧
    slotCmp Float.f32 4 (twoSlots 0x7fc00000 0) ⟨4, 8⟩ ⟨4, 16⟩ = .un := by decide +kernel

end Verif.Codegen
