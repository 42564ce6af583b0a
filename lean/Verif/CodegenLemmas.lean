import Verif.X86Lemmas
import Verif.CodegenSpec
/-!
Lemmas about the generated code: loads, stores, the instruction table.
-/
namespace Verif.Codegen
open Verif Asm X86 Simple SimpleSpec CodegenSpec

theorem slot_addr (s : State) (v : Slot) (i : Nat) :
    s.reg .rbp + BitVec.ofInt 64 (-(v.loc : Int) + i) = slotAddr s v + BitVec.ofNat 64 i := by
  rw [slotAddr, BitVec.ofInt_add, BitVec.ofInt_neg, BitVec.ofInt_natCast, BitVec.ofInt_natCast,
    ← BitVec.add_assoc, BitVec.sub_eq_add_neg]

theorem slot_addr0 (s : State) (v : Slot) :
    s.reg .rbp + BitVec.ofInt 64 (-(v.loc : Int) + (0 : Nat)) = slotAddr s v := by
  rw [slot_addr]; simp

@[simp] theorem slotAddr_set (s : State) (r : Reg) (v : BitVec 64) (o : Slot) (h : r ≠ .rbp) :
    slotAddr (s.set r v) o = slotAddr s o := by
  simp [slotAddr, h.symm]

theorem ofNat_setWidth_rd {m : BitVec 64 → BitVec 8} {a : BitVec 64} {n w : Nat} (hw : w = 8 * n) : (BitVec.ofNat w (rd m a n)).setWidth 64 = BitVec.ofNat 64 (rd m a n) := by
  have h := rd_lt m a n
  have e : (256 : Nat) ^ n = 2 ^ w := by
    rw [hw, show (256 : Nat) = 2 ^ 8 by rfl, ← Nat.pow_mul]
  rw [e] at h
  apply BitVec.eq_of_toNat_eq
  simp only [BitVec.toNat_setWidth, BitVec.toNat_ofNat]
  rw [Nat.mod_eq_of_lt h]

/-- Sizes a scalar can have. -/
def ScalarSize (n : Nat) : Prop := n = 1 ∨ n = 2 ∨ n = 4 ∨ n = 8

/-- `scalar_to_reg` zero-extends the value into the register. -/
theorem run_load (F : FP) (v : Slot) (r : Reg) (h : ScalarSize v.size) :
    ∃ c, scalarToReg v r = .ok c ∧
      ∀ s, run F c s = .ok (s.set r (BitVec.ofNat 64 (rd s.mem (slotAddr s v) v.size))) := by
  obtain ⟨size, loc⟩ := v
  rcases h with h | h | h | h <;> simp only at h <;> subst h
  · refine ⟨_, rfl, fun s => ?_⟩
    have e := slot_addr0 s ⟨1, loc⟩
    simp only [run_cons, exec_movzbl, exec_movzwl, movx, getOp, putOp, Slot.mem, State.addr, e, R4, merge32]
    simp [ofNat_setWidth_rd (n := 1) (w := 8)]
  · refine ⟨_, rfl, fun s => ?_⟩
    have e := slot_addr0 s ⟨2, loc⟩
    simp only [run_cons, exec_movzbl, exec_movzwl, movx, getOp, putOp, Slot.mem, State.addr, e, R4, merge32]
    simp [ofNat_setWidth_rd (n := 2) (w := 16)]
  · refine ⟨_, rfl, fun s => ?_⟩
    have e := slot_addr0 s ⟨4, loc⟩
    simp only [run_cons, exec_movl, exec_movq_mr, mov, legal, getOp, putOp, Slot.mem, State.addr, e, R4, merge32]
    simp [ofNat_setWidth_rd (n := 4) (w := 32)]
  · refine ⟨_, rfl, fun s => ?_⟩
    have e := slot_addr0 s ⟨8, loc⟩
    simp only [run_cons, exec_movl, exec_movq_mr, mov, legal, getOp, putOp, Slot.mem, State.addr, e, R8, merge64]
    simp

theorem wr_setWidth (m : BitVec 64 → BitVec 8) (a : BitVec 64) (x : BitVec 64) (n w : Nat)
    (hw : w = 8 * n) : wr m a n (x.setWidth w).toNat = wr m a n x.toNat := by
  have e : (256 : Nat) ^ n = 2 ^ w := by
    rw [hw, show (256 : Nat) = 2 ^ 8 by rfl, ← Nat.pow_mul]
  rw [BitVec.toNat_setWidth, ← e, wr_mod]

/-- `reg_to_scalar` for the sizes that need one store. -/
theorem run_store (F : FP) (v : Slot) (r : Reg) (h : ScalarSize v.size) (s : State) :
    run F (regToScalar r v) s = .ok (s.store (slotAddr s v) v.size (s.reg r).toNat) := by
  obtain ⟨size, loc⟩ := v
  rcases h with h | h | h | h <;> simp only at h <;> subst h
  · have e := slot_addr0 s ⟨1, loc⟩
    rw [regToScalar, storeLoop, storeLoop]
    simp [chunk, run_cons, mov, legal, getOp, putOp, Slot.mem, State.addr, movN]
    rw [show -(loc : Int) = -(loc : Int) + (0 : Nat) by simp, e, State.store, State.store,
      show (256 : Nat) = 256 ^ 1 by rfl, wr_mod]
  · have e := slot_addr0 s ⟨2, loc⟩
    rw [regToScalar, storeLoop, storeLoop]
    simp [chunk, run_cons, mov, legal, getOp, putOp, Slot.mem, State.addr, movN]
    rw [show -(loc : Int) = -(loc : Int) + (0 : Nat) by simp, e, State.store, State.store,
      show (65536 : Nat) = 256 ^ 2 by rfl, wr_mod]
  · have e := slot_addr0 s ⟨4, loc⟩
    rw [regToScalar, storeLoop, storeLoop]
    simp [chunk, run_cons, mov, legal, getOp, putOp, Slot.mem, State.addr, movN]
    rw [show -(loc : Int) = -(loc : Int) + (0 : Nat) by simp, e, State.store, State.store,
      show (4294967296 : Nat) = 256 ^ 4 by rfl, wr_mod]
  · have e := slot_addr0 s ⟨8, loc⟩
    rw [regToScalar, storeLoop, storeLoop]
    simp [chunk, run_cons, mov, legal, getOp, putOp, Slot.mem, State.addr, movN]
    rw [show -(loc : Int) = -(loc : Int) + (0 : Nat) by simp, e]


/-- What the table code may change: only registers other than `%rbp` and `%rsp`. -/
def Kept (s s' : State) : Prop :=
  s'.mem = s.mem ∧ s'.reg .rbp = s.reg .rbp ∧ s'.reg .rsp = s.reg .rsp

/-- The operation of an integer table entry on `w`-bit patterns. -/
def bvOp {w : Nat} (op : IrOp) (a b : BitVec w) : Option (BitVec w) :=
  match op with
  | .add => some (a + b)
  | .sub => some (a - b)
  | .mul | .imul => some (a * b)
  | .div => if b.toNat = 0 then none else some (BitVec.ofNat w (a.toNat / b.toNat))
  | .mod => if b.toNat = 0 then none else some (BitVec.ofNat w (a.toNat % b.toNat))
  | .idiv =>
    if b.toInt = 0 then none
    else if -(2 ^ (w - 1)) ≤ a.toInt.tdiv b.toInt ∧ a.toInt.tdiv b.toInt < 2 ^ (w - 1) then
      some (BitVec.ofInt w (a.toInt.tdiv b.toInt))
    else none
  | .imod =>
    if b.toInt = 0 then none
    else if -(2 ^ (w - 1)) ≤ a.toInt.tdiv b.toInt ∧ a.toInt.tdiv b.toInt < 2 ^ (w - 1) then
      some (BitVec.ofInt w (a.toInt.tmod b.toInt))
    else none
  | .lshift => if b.toNat < w then some (a <<< b.toNat) else none
  | .rshift => if b.toNat < w then some (a >>> b.toNat) else none
  | .irshift => if b.toNat < w then some (a.sshiftRight b.toNat) else none
  | .bxor => some (a ^^^ b)
  | .bor => some (a ||| b)
  | .band => some (a &&& b)
  | .less => some (if a.toNat < b.toNat then 1 else 0)
  | .iless => some (if a.toInt < b.toInt then 1 else 0)
  | .greater => some (if b.toNat < a.toNat then 1 else 0)
  | .igreater => some (if b.toInt < a.toInt then 1 else 0)
  | .lessEq => some (if a.toNat ≤ b.toNat then 1 else 0)
  | .ilessEq => some (if a.toInt ≤ b.toInt then 1 else 0)
  | .greaterEq => some (if b.toNat ≤ a.toNat then 1 else 0)
  | .igreaterEq => some (if b.toInt ≤ a.toInt then 1 else 0)
  | .equal => some (if a = b then 1 else 0)
  | .notEqual => some (if a ≠ b then 1 else 0)
  | _ => none

/-- `cltd`, `cqto`: the double-width dividend is the signed value. -/
theorem sext_dividend {w : Nat} (hw : 0 < w) (a : BitVec w) :
    (if a.msb then (-1 : BitVec w) else 0).toInt * 2 ^ w + a.toNat = a.toInt := by
  have hm := BitVec.msb_eq_decide a
  have ht := BitVec.toInt_eq_msb_cond a
  have h1 : (-1 : BitVec w).toInt = -1 := by
    have : (-1 : BitVec w) = BitVec.allOnes w := BitVec.neg_one_eq_allOnes
    rw [this, BitVec.toInt_allOnes]; simp [hw]
  cases h : a.msb
  · simp [ht, h]
  · have h2 : ((2 ^ w : Nat) : Int) = 2 ^ w := by simp
    simp only [ht, h, if_true, h1, h2]; omega

theorem kept_store {s s' : State} (h : Kept s s') (out : Slot) (n v : Nat) (hn : out.size = n) :
    Frame s (s'.store (slotAddr s' out) n v) out := by
  obtain ⟨h1, h2, h3⟩ := h
  refine ⟨by simpa using h2, by simpa using h3, fun x hx => ?_⟩
  have e : slotAddr s' out = slotAddr s out := by simp [slotAddr, h2]
  rw [store_mem, e, h1, wr_out]
  intro i hi
  exact hx i (by omega)

/-- Shifts of 32 bits by `%cl`. -/
theorem run_shift32 (f : BitVec 32 → Nat → BitVec 32) (s : State)
    (hb : (((s.reg .rcx).setWidth 32)).toNat < 32) :
    shift 32 f (R1 .rcx) (R4 .rax) s
      = some { s.set .rax ((f ((s.reg .rax).setWidth 32) (((s.reg .rcx).setWidth 32)).toNat).setWidth 64) with fl := none } := by
  have hc : ((s.reg .rcx).setWidth 8).toNat % 32 = (((s.reg .rcx).setWidth 32)).toNat := by
    simp only [BitVec.toNat_setWidth] at hb ⊢; omega
  have e : ((32 : Nat) = 64) = False := by simp
  simp only [shift, getOp, putOp, R1, R4, merge32, e, if_true, if_false, Nat.reduceMul, Option.bind_eq_bind,
    Option.bind_some, hc, BitVec.setWidth_eq]
  rfl

/-- Comparisons of 32 bits. -/
theorem run_comp32 (F : FP) (m : Mn) (c : Flags → Bool) (s : State)
    (hm : ∀ s, exec F ⟨m, [R1 .rax]⟩ s = Out.of (setcc c (R1 .rax) s)) :
    ∃ s', run F (binaryComp false m) s = .ok s' ∧
      (s'.reg .rax).setWidth 32 = (if c (cmpFlags ((s.reg .rax).setWidth 32) ((s.reg .rcx).setWidth 32)) then 1 else 0) ∧
      Kept s s' := by
  have h1 : exec F ⟨.cmpl, [R4 .rcx, R4 .rax]⟩ s
      = .ok { s with fl := some (cmpFlags ((s.reg .rax).setWidth 32) ((s.reg .rcx).setWidth 32)) } := by
    simp [cmpIns, legal, getOp]
  simp only [binaryComp, Bool.false_eq_true, if_false]
  generalize cmpFlags _ _ = fl at *
  rw [run_cons, h1, Out.bind_ok, run_cons, hm]
  simp only [setcc, putOp, run_cons, exec_movzbl]
  cases hc : c fl <;> simp [hc, run_cons, movx, getOp, putOp, merge8_low, merge32, Kept]

/-- Unsigned division of 32 bits. -/
theorem run_div32 (F : FP) (s : State) (hb : (((s.reg .rcx).setWidth 32)).toNat ≠ 0) :
    run F [⟨.xorq, [R8 .rdx, R8 .rdx]⟩, ⟨.divl, [R4 .rcx]⟩] s
      = .ok { (s.set .rax ((BitVec.ofNat 32 ((((s.reg .rax).setWidth 32)).toNat / (((s.reg .rcx).setWidth 32)).toNat)).setWidth 64)).set .rdx
              ((BitVec.ofNat 32 ((((s.reg .rax).setWidth 32)).toNat % (((s.reg .rcx).setWidth 32)).toNat)).setWidth 64) with fl := none } := by
  have hq : (((s.reg .rax).setWidth 32)).toNat / (((s.reg .rcx).setWidth 32)).toNat < 2 ^ 32 :=
    Nat.lt_of_le_of_lt (Nat.div_le_self _ _) (((s.reg .rax).setWidth 32)).isLt
  have hx : exec F ⟨.xorq, [R8 .rdx, R8 .rdx]⟩ s = .ok { s.set .rdx 0 with fl := none } := by
    simp [alu, legal, getOp, putOp, merge64]
  rw [run_cons, hx, Out.bind_ok, run_cons, exec_divl]
  simp only [div, getOp, R4, R8, Nat.reduceMul, Out.bind_ok, Out.of_some, if_true, set_reg, reduceCtorEq,
    if_false, merge32, BitVec.setWidth_zero, BitVec.toNat_zero, Nat.zero_mul, Nat.zero_add, BitVec.setWidth_eq,
    BitVec.ofNat_eq_ofNat, BitVec.toNat_ofNat, Nat.zero_mod, BitVec.zero_eq]
  try rw [show (BitVec.setWidth 32 (0#64)) = 0#32 from rfl]
  simp only [BitVec.toNat_ofNat, Nat.zero_mod, Nat.zero_mul, Nat.zero_add, if_neg hb, if_pos hq, run_nil, Out.bind_ok]
  congr 1
  simp only [State.set]
  congr 1
  funext r
  by_cases h1 : r = Reg.rdx <;> by_cases h2 : r = Reg.rax <;> simp [h1, h2]

/-- Signed division of 32 bits. -/
theorem run_idiv32 (F : FP) (s : State) (hb : (((s.reg .rcx).setWidth 32)).toInt ≠ 0)
    (hq : -(2 ^ (32 - 1)) ≤ (((s.reg .rax).setWidth 32)).toInt.tdiv (((s.reg .rcx).setWidth 32)).toInt ∧
      (((s.reg .rax).setWidth 32)).toInt.tdiv (((s.reg .rcx).setWidth 32)).toInt < 2 ^ (32 - 1)) :
    run F [⟨.cltd, []⟩, ⟨.idivl, [R4 .rcx]⟩] s
      = .ok { (s.set .rax ((BitVec.ofInt 32 ((((s.reg .rax).setWidth 32)).toInt.tdiv (((s.reg .rcx).setWidth 32)).toInt)).setWidth 64)).set .rdx
              ((BitVec.ofInt 32 ((((s.reg .rax).setWidth 32)).toInt.tmod (((s.reg .rcx).setWidth 32)).toInt)).setWidth 64) with fl := none } := by
  have hd := sext_dividend (w := 32) (by decide) ((s.reg .rax).setWidth 32)
  have e : ((if (((s.reg .rax).setWidth 32)).msb then (-1 : BitVec 32) else 0).setWidth 64).setWidth 32
      = (if (((s.reg .rax).setWidth 32)).msb then (-1 : BitVec 32) else 0) := by split <;> rfl
  rw [run_cons, exec_cltd, Out.bind_ok, run_cons, exec_idivl]
  simp only [idiv, getOp, R4, Nat.reduceMul, Out.bind_ok, Out.of_some, if_true, set_reg, reduceCtorEq, if_false,
    merge32, e, hd, BitVec.setWidth_eq, if_neg hb, if_pos hq, run_nil]
  congr 1
  simp only [State.set]
  congr 1
  funext r
  by_cases h1 : r = Reg.rdx <;> by_cases h2 : r = Reg.rax <;> simp [h1, h2]

/-- The 32-bit row of the table. -/
theorem run_table32 (F : FP) (op : IrOp) (s : State) (z : BitVec 32)
    (h : bvOp op ((s.reg .rax).setWidth 32) ((s.reg .rcx).setWidth 32) = some z) :
    ∃ s', run F (asmTable false op) s = .ok s' ∧ (s'.reg .rax).setWidth 32 = z ∧ Kept s s' := by
  have hw : 0 < 32 := by decide
  have sw : ∀ x : BitVec 32, (x.setWidth 64).setWidth 32 = x := fun x => by simp
  cases op
  case add | sub | mul | imul | bxor | bor | band =>
    cases h
    simp [asmTable, binaryIns, run_cons, alu, legal, getOp, putOp, merge32, Kept]
  case lshift | rshift | irshift =>
    simp only [bvOp] at h
    by_cases hb : (((s.reg .rcx).setWidth 32)).toNat < 32
    · rw [if_pos hb] at h
      cases h
      simp only [asmTable, Bool.false_eq_true, if_false, run_cons, exec_sall, exec_sarl, exec_shrl, run_shift32 _ s hb,
        Out.of_some, Out.bind_ok, run_nil]
      exact ⟨_, rfl, by simp only [set_reg, if_true, sw, BitVec.setWidth_eq], by simp [Kept]⟩
    · rw [if_neg hb] at h; cases h
  case div =>
    simp only [bvOp] at h
    by_cases hb : (((s.reg .rcx).setWidth 32)).toNat = 0
    · rw [if_pos hb] at h; cases h
    · rw [if_neg hb] at h; cases h
      simp only [asmTable, Bool.false_eq_true, if_false, run_div32 F s hb]
      exact ⟨_, rfl, by simp only [set_reg, if_true, reduceCtorEq, if_false, sw, BitVec.setWidth_eq], by simp [Kept]⟩
  case mod =>
    simp only [bvOp] at h
    by_cases hb : (((s.reg .rcx).setWidth 32)).toNat = 0
    · rw [if_pos hb] at h; cases h
    · rw [if_neg hb] at h; cases h
      simp only [asmTable, Bool.false_eq_true, if_false]
      rw [show ∀ a b c : Ins, [a, b, c] = [a, b] ++ [c] from fun _ _ _ => rfl,
        run_append_ok (run_div32 F s hb)]
      simp only [run_cons, exec_movl, exec_movq_rr, mov, legal, getOp, putOp, R4, R8, merge32, Nat.reduceMul]
      exact ⟨_, rfl, by simp only [set_reg, if_true, reduceCtorEq, if_false, sw, BitVec.setWidth_eq], by simp [Kept]⟩
  case idiv | imod =>
    simp only [bvOp] at h
    by_cases hb : (((s.reg .rcx).setWidth 32)).toInt = 0
    · rw [if_pos hb] at h; cases h
    rw [if_neg hb] at h
    split at h
    case isFalse => cases h
    rename_i hq
    cases h
    simp only [asmTable, Bool.false_eq_true, if_false]
    first
      | rw [run_idiv32 F s hb hq]
        exact ⟨_, rfl, by simp only [set_reg, if_true, reduceCtorEq, if_false, sw, BitVec.setWidth_eq], by simp [Kept]⟩
      | rw [show ∀ a b c : Ins, [a, b, c] = [a, b] ++ [c] from fun _ _ _ => rfl,
          run_append_ok (run_idiv32 F s hb hq)]
        simp only [run_cons, exec_movl, exec_movq_rr, mov, legal, getOp, putOp, R4, R8, merge32, Nat.reduceMul]
        exact ⟨_, rfl, by simp only [set_reg, if_true, reduceCtorEq, if_false, sw, BitVec.setWidth_eq], by simp [Kept]⟩
  case less =>
    cases h
    obtain ⟨s', h1, h2, h3⟩ := run_comp32 F .setb _ s (fun _ => rfl)
    refine ⟨s', h1, ?_, h3⟩
    rw [h2]
    simp only [cmp_cf, decide_eq_true_eq]
  case greater =>
    cases h
    obtain ⟨s', h1, h2, h3⟩ := run_comp32 F .seta _ s (fun _ => rfl)
    refine ⟨s', h1, ?_, h3⟩
    rw [h2]
    simp only [cc_a, decide_eq_true_eq]
  case lessEq =>
    cases h
    obtain ⟨s', h1, h2, h3⟩ := run_comp32 F .setbe _ s (fun _ => rfl)
    refine ⟨s', h1, ?_, h3⟩
    rw [h2]
    simp only [cc_be, decide_eq_true_eq]
  case greaterEq =>
    cases h
    obtain ⟨s', h1, h2, h3⟩ := run_comp32 F .setnb _ s (fun _ => rfl)
    refine ⟨s', h1, ?_, h3⟩
    rw [h2]
    simp only [cc_nb, decide_eq_true_eq]
  case iless =>
    cases h
    obtain ⟨s', h1, h2, h3⟩ := run_comp32 F .setl _ s (fun _ => rfl)
    refine ⟨s', h1, ?_, h3⟩
    rw [h2]
    simp only [cmp_lt hw, decide_eq_true_eq]
  case igreater =>
    cases h
    obtain ⟨s', h1, h2, h3⟩ := run_comp32 F .setg _ s (fun _ => rfl)
    refine ⟨s', h1, ?_, h3⟩
    rw [h2]
    simp only [cc_g hw, decide_eq_true_eq]
  case ilessEq =>
    cases h
    obtain ⟨s', h1, h2, h3⟩ := run_comp32 F .setle _ s (fun _ => rfl)
    refine ⟨s', h1, ?_, h3⟩
    rw [h2]
    simp only [cc_le hw, decide_eq_true_eq]
  case igreaterEq =>
    cases h
    obtain ⟨s', h1, h2, h3⟩ := run_comp32 F .setge _ s (fun _ => rfl)
    refine ⟨s', h1, ?_, h3⟩
    rw [h2]
    simp only [cmp_ge hw, decide_eq_true_eq]
  case equal =>
    cases h
    obtain ⟨s', h1, h2, h3⟩ := run_comp32 F .sete _ s (fun _ => rfl)
    refine ⟨s', h1, ?_, h3⟩
    rw [h2]
    simp only [cmp_zf, decide_eq_true_eq]
  case notEqual =>
    cases h
    obtain ⟨s', h1, h2, h3⟩ := run_comp32 F .setne _ s (fun _ => rfl)
    refine ⟨s', h1, ?_, h3⟩
    rw [h2]
    simp only [cc_ne, decide_eq_true_eq]
  all_goals cases h

/-- Shifts of 64 bits by `%cl`. -/
theorem run_shift64 (f : BitVec 64 → Nat → BitVec 64) (s : State)
    (hb : ((s.reg .rcx)).toNat < 64) :
    shift 64 f (R1 .rcx) (R8 .rax) s
      = some { s.set .rax (f (s.reg .rax) ((s.reg .rcx)).toNat) with fl := none } := by
  have hc : ((s.reg .rcx).setWidth 8).toNat % 64 = ((s.reg .rcx)).toNat := by
    simp only [BitVec.toNat_setWidth]; omega
  have e : ((64 : Nat) = 64) = True := by simp
  simp only [shift, getOp, putOp, R1, R8, merge64, e, if_true, if_false, Nat.reduceMul, Option.bind_eq_bind,
    Option.bind_some, hc, BitVec.setWidth_eq]
  rfl

/-- Comparisons of 64 bits. -/
theorem run_comp64 (F : FP) (m : Mn) (c : Flags → Bool) (s : State)
    (hm : ∀ s, exec F ⟨m, [R1 .rax]⟩ s = Out.of (setcc c (R1 .rax) s)) :
    ∃ s', run F (binaryComp true m) s = .ok s' ∧
      (s'.reg .rax).setWidth 64 = (if c (cmpFlags (s.reg .rax) (s.reg .rcx)) then 1 else 0) ∧
      Kept s s' := by
  have h1 : exec F ⟨.cmpq, [R8 .rcx, R8 .rax]⟩ s
      = .ok { s with fl := some (cmpFlags (s.reg .rax) (s.reg .rcx)) } := by
    simp [cmpIns, legal, getOp]
  simp only [binaryComp, if_true]
  generalize cmpFlags _ _ = fl at *
  rw [run_cons, h1, Out.bind_ok, run_cons, hm]
  simp only [setcc, putOp, run_cons, exec_movzbl]
  cases hc : c fl <;> simp [hc, run_cons, movx, getOp, putOp, merge8_low, merge32, Kept]

/-- Unsigned division of 64 bits. -/
theorem run_div64 (F : FP) (s : State) (hb : ((s.reg .rcx)).toNat ≠ 0) :
    run F [⟨.xorq, [R8 .rdx, R8 .rdx]⟩, ⟨.divq, [R8 .rcx]⟩] s
      = .ok { (s.set .rax (BitVec.ofNat 64 (((s.reg .rax)).toNat / ((s.reg .rcx)).toNat))).set .rdx
              (BitVec.ofNat 64 (((s.reg .rax)).toNat % ((s.reg .rcx)).toNat)) with fl := none } := by
  have hq : ((s.reg .rax)).toNat / ((s.reg .rcx)).toNat < 2 ^ 64 :=
    Nat.lt_of_le_of_lt (Nat.div_le_self _ _) ((s.reg .rax)).isLt
  have hx : exec F ⟨.xorq, [R8 .rdx, R8 .rdx]⟩ s = .ok { s.set .rdx 0 with fl := none } := by
    simp [alu, legal, getOp, putOp, merge64]
  rw [run_cons, hx, Out.bind_ok, run_cons, exec_divq]
  simp only [div, getOp, R4, R8, Nat.reduceMul, Out.bind_ok, Out.of_some, if_true, set_reg, reduceCtorEq,
    if_false, merge64, BitVec.setWidth_zero, BitVec.toNat_zero, Nat.zero_mul, Nat.zero_add, BitVec.setWidth_eq,
    BitVec.ofNat_eq_ofNat, BitVec.toNat_ofNat, Nat.zero_mod, BitVec.zero_eq]
  try rw [show (BitVec.setWidth 64 (0#64)) = 0#64 from rfl]
  simp only [BitVec.toNat_ofNat, Nat.zero_mod, Nat.zero_mul, Nat.zero_add, if_neg hb, if_pos hq, run_nil, Out.bind_ok]
  congr 1
  simp only [State.set]
  congr 1
  funext r
  by_cases h1 : r = Reg.rdx <;> by_cases h2 : r = Reg.rax <;> simp [h1, h2]

/-- Signed division of 64 bits. -/
theorem run_idiv64 (F : FP) (s : State) (hb : ((s.reg .rcx)).toInt ≠ 0)
    (hq : -(2 ^ (64 - 1)) ≤ ((s.reg .rax)).toInt.tdiv ((s.reg .rcx)).toInt ∧
      ((s.reg .rax)).toInt.tdiv ((s.reg .rcx)).toInt < 2 ^ (64 - 1)) :
    run F [⟨.cqto, []⟩, ⟨.idivq, [R8 .rcx]⟩] s
      = .ok { (s.set .rax (BitVec.ofInt 64 (((s.reg .rax)).toInt.tdiv ((s.reg .rcx)).toInt))).set .rdx
              (BitVec.ofInt 64 (((s.reg .rax)).toInt.tmod ((s.reg .rcx)).toInt)) with fl := none } := by
  have hd := sext_dividend (w := 64) (by decide) (s.reg .rax)
  have e : ((if ((s.reg .rax)).msb then (-1 : BitVec 64) else 0).setWidth 64).setWidth 64
      = (if ((s.reg .rax)).msb then (-1 : BitVec 64) else 0) := by split <;> rfl
  rw [run_cons, exec_cqto, Out.bind_ok, run_cons, exec_idivq]
  simp only [idiv, getOp, R8, Nat.reduceMul, Out.bind_ok, Out.of_some, if_true, set_reg, reduceCtorEq, if_false,
    merge64, e, hd, BitVec.setWidth_eq, if_neg hb, if_pos hq, run_nil]
  congr 1
  simp only [State.set]
  congr 1
  funext r
  by_cases h1 : r = Reg.rdx <;> by_cases h2 : r = Reg.rax <;> simp [h1, h2]

/-- The 64-bit row of the table. -/
theorem run_table64 (F : FP) (op : IrOp) (s : State) (z : BitVec 64)
    (h : bvOp op (s.reg .rax) (s.reg .rcx) = some z) :
    ∃ s', run F (asmTable true op) s = .ok s' ∧ (s'.reg .rax).setWidth 64 = z ∧ Kept s s' := by
  have hw : 0 < 64 := by decide
  have sw : ∀ x : BitVec 64, (x.setWidth 64).setWidth 64 = x := fun x => by simp
  cases op
  case add | sub | mul | imul | bxor | bor | band =>
    cases h
    simp [asmTable, binaryIns, run_cons, alu, legal, getOp, putOp, merge64, Kept]
  case lshift | rshift | irshift =>
    simp only [bvOp] at h
    by_cases hb : ((s.reg .rcx)).toNat < 64
    · rw [if_pos hb] at h
      cases h
      simp only [asmTable, if_true, run_cons, exec_salq, exec_sarq, exec_shrq, run_shift64 _ s hb,
        Out.of_some, Out.bind_ok, run_nil]
      exact ⟨_, rfl, by simp only [set_reg, if_true, sw, BitVec.setWidth_eq], by simp [Kept]⟩
    · rw [if_neg hb] at h; cases h
  case div =>
    simp only [bvOp] at h
    by_cases hb : ((s.reg .rcx)).toNat = 0
    · rw [if_pos hb] at h; cases h
    · rw [if_neg hb] at h; cases h
      simp only [asmTable, if_true, run_div64 F s hb]
      exact ⟨_, rfl, by simp only [set_reg, if_true, reduceCtorEq, if_false, sw, BitVec.setWidth_eq], by simp [Kept]⟩
  case mod =>
    simp only [bvOp] at h
    by_cases hb : ((s.reg .rcx)).toNat = 0
    · rw [if_pos hb] at h; cases h
    · rw [if_neg hb] at h; cases h
      simp only [asmTable, if_true]
      rw [show ∀ a b c : Ins, [a, b, c] = [a, b] ++ [c] from fun _ _ _ => rfl,
        run_append_ok (run_div64 F s hb)]
      simp only [run_cons, exec_movl, exec_movq_rr, mov, legal, getOp, putOp, R4, R8, merge64, Nat.reduceMul]
      exact ⟨_, rfl, by simp only [set_reg, if_true, reduceCtorEq, if_false, sw, BitVec.setWidth_eq], by simp [Kept]⟩
  case idiv | imod =>
    simp only [bvOp] at h
    by_cases hb : ((s.reg .rcx)).toInt = 0
    · rw [if_pos hb] at h; cases h
    rw [if_neg hb] at h
    split at h
    case isFalse => cases h
    rename_i hq
    cases h
    simp only [asmTable, if_true]
    first
      | rw [run_idiv64 F s hb hq]
        exact ⟨_, rfl, by simp only [set_reg, if_true, reduceCtorEq, if_false, sw, BitVec.setWidth_eq], by simp [Kept]⟩
      | rw [show ∀ a b c : Ins, [a, b, c] = [a, b] ++ [c] from fun _ _ _ => rfl,
          run_append_ok (run_idiv64 F s hb hq)]
        simp only [run_cons, exec_movl, exec_movq_rr, mov, legal, getOp, putOp, R4, R8, merge64, Nat.reduceMul]
        exact ⟨_, rfl, by simp only [set_reg, if_true, reduceCtorEq, if_false, sw, BitVec.setWidth_eq], by simp [Kept]⟩
  case less =>
    cases h
    obtain ⟨s', h1, h2, h3⟩ := run_comp64 F .setb _ s (fun _ => rfl)
    refine ⟨s', h1, ?_, h3⟩
    rw [h2]
    simp only [cmp_cf, decide_eq_true_eq]
  case greater =>
    cases h
    obtain ⟨s', h1, h2, h3⟩ := run_comp64 F .seta _ s (fun _ => rfl)
    refine ⟨s', h1, ?_, h3⟩
    rw [h2]
    simp only [cc_a, decide_eq_true_eq]
  case lessEq =>
    cases h
    obtain ⟨s', h1, h2, h3⟩ := run_comp64 F .setbe _ s (fun _ => rfl)
    refine ⟨s', h1, ?_, h3⟩
    rw [h2]
    simp only [cc_be, decide_eq_true_eq]
  case greaterEq =>
    cases h
    obtain ⟨s', h1, h2, h3⟩ := run_comp64 F .setnb _ s (fun _ => rfl)
    refine ⟨s', h1, ?_, h3⟩
    rw [h2]
    simp only [cc_nb, decide_eq_true_eq]
  case iless =>
    cases h
    obtain ⟨s', h1, h2, h3⟩ := run_comp64 F .setl _ s (fun _ => rfl)
    refine ⟨s', h1, ?_, h3⟩
    rw [h2]
    simp only [cmp_lt hw, decide_eq_true_eq]
  case igreater =>
    cases h
    obtain ⟨s', h1, h2, h3⟩ := run_comp64 F .setg _ s (fun _ => rfl)
    refine ⟨s', h1, ?_, h3⟩
    rw [h2]
    simp only [cc_g hw, decide_eq_true_eq]
  case ilessEq =>
    cases h
    obtain ⟨s', h1, h2, h3⟩ := run_comp64 F .setle _ s (fun _ => rfl)
    refine ⟨s', h1, ?_, h3⟩
    rw [h2]
    simp only [cc_le hw, decide_eq_true_eq]
  case igreaterEq =>
    cases h
    obtain ⟨s', h1, h2, h3⟩ := run_comp64 F .setge _ s (fun _ => rfl)
    refine ⟨s', h1, ?_, h3⟩
    rw [h2]
    simp only [cmp_ge hw, decide_eq_true_eq]
  case equal =>
    cases h
    obtain ⟨s', h1, h2, h3⟩ := run_comp64 F .sete _ s (fun _ => rfl)
    refine ⟨s', h1, ?_, h3⟩
    rw [h2]
    simp only [cmp_zf, decide_eq_true_eq]
  case notEqual =>
    cases h
    obtain ⟨s', h1, h2, h3⟩ := run_comp64 F .setne _ s (fun _ => rfl)
    refine ⟨s', h1, ?_, h3⟩
    rw [h2]
    simp only [cc_ne, decide_eq_true_eq]
  all_goals cases h

/-- The whole code of a table node. -/
theorem run_binary (F : FP) (op : IrOp) (a b out : Slot) (s : State) (ha : a.size = 4 ∨ a.size = 8)
    (hb : ScalarSize b.size) (ho : out.size = a.size) (z : BitVec (8 * a.size))
    (h : bvOp op (BitVec.ofNat (8 * a.size) (rd s.mem (slotAddr s a) a.size))
      (BitVec.ofNat (8 * a.size) (rd s.mem (slotAddr s b) b.size)) = some z) :
    ∃ c, codegenBinary op a b out = .ok c ∧ ∃ s', run F c s = .ok s' ∧ Frame s s' out ∧
      rd s'.mem (slotAddr s' out) out.size = z.toNat := by
  have hsa : ScalarSize a.size := by rcases ha with h | h <;> simp [ScalarSize, h]
  obtain ⟨c1, e1, l1⟩ := run_load F a .rax hsa
  obtain ⟨c2, e2, l2⟩ := run_load F b .rcx hb
  have hload : ∀ t, run F (c1 ++ c2) s = .ok t → t =
      (s.set .rax (BitVec.ofNat 64 (rd s.mem (slotAddr s a) a.size))).set .rcx
        (BitVec.ofNat 64 (rd s.mem (slotAddr s b) b.size)) := by
    intro t ht
    rw [run_append_ok (l1 s), l2] at ht
    simp only [Out.ok.injEq] at ht
    rw [← ht]; simp
  have hrun : run F (c1 ++ c2) s = .ok
      ((s.set .rax (BitVec.ofNat 64 (rd s.mem (slotAddr s a) a.size))).set .rcx
        (BitVec.ofNat 64 (rd s.mem (slotAddr s b) b.size))) := by
    rw [run_append_ok (l1 s), l2]; simp
  refine ⟨c1 ++ c2 ++ asmTable (a.size == 8) op ++ regToScalar .rax out, ?_, ?_⟩
  · unfold codegenBinary
    rw [e1, e2]
    show (if a.size = 4 ∨ a.size = 8 then _ else _) = _
    rw [if_pos ha]; rfl
  generalize hs1 : (s.set .rax (BitVec.ofNat 64 (rd s.mem (slotAddr s a) a.size))).set .rcx
        (BitVec.ofNat 64 (rd s.mem (slotAddr s b) b.size)) = s1 at *
  have hk1 : Kept s s1 := by subst hs1; simp [Kept]
  have hrax : s1.reg .rax = BitVec.ofNat 64 (rd s.mem (slotAddr s a) a.size) := by subst hs1; simp
  have hrcx : s1.reg .rcx = BitVec.ofNat 64 (rd s.mem (slotAddr s b) b.size) := by subst hs1; simp
  have key : ∃ s2, run F (asmTable (a.size == 8) op) s1 = .ok s2 ∧
      (s2.reg .rax).setWidth (8 * a.size) = z ∧ Kept s1 s2 := by
    obtain ⟨n, loc⟩ := a
    rcases ha with h4 | h4 <;> simp only at h4 <;> subst h4
    · refine run_table32 F op s1 z ?_
      rw [hrax, hrcx, BitVec.setWidth_ofNat_of_le (by decide), BitVec.setWidth_ofNat_of_le (by decide)]
      exact h
    · have := run_table64 F op s1 z ?_
      · exact this
      · rw [hrax, hrcx]; exact h
  obtain ⟨s2, hr2, hz, hk2⟩ := key
  have hso : ScalarSize out.size := by rw [ho]; exact hsa
  have hk : Kept s s2 := ⟨hk2.1.trans hk1.1, hk2.2.1.trans hk1.2.1, hk2.2.2.trans hk1.2.2⟩
  refine ⟨s2.store (slotAddr s2 out) out.size (s2.reg .rax).toNat, ?_, kept_store hk out _ _ rfl, ?_⟩
  · rw [List.append_assoc, run_append_ok hrun, run_append_ok hr2, run_store F out .rax hso]
  · have e : slotAddr (s2.store (slotAddr s2 out) out.size (s2.reg .rax).toNat) out = slotAddr s2 out := by
      simp [slotAddr]
    rw [e, store_mem, rd_wr_same _ _ _ _ (by rcases ha with h | h <;> rw [ho, h] <;> decide), ← hz,
      BitVec.toNat_setWidth, ho]
    rw [show (256 : Nat) = 2 ^ 8 by rfl, ← Nat.pow_mul]

/-! ### Floating comparisons -/

theorem merge_bool (p : Bool) : merge 0 8 (if p then 1 else 0) = (if p then 1 else 0) := by
  cases p <;> decide

/-- The condition of the flags, in `%rax`. -/
theorem run_setcc_zx (F : FP) (m : Mn) (cc : Flags → Bool) (s : State) (fl : Flags) (hs : s.fl = some fl)
    (hm : ∀ s, exec F ⟨m, [R1 .rax]⟩ s = Out.of (setcc cc (R1 .rax) s)) :
    ∃ s', run F [⟨m, [R1 .rax]⟩, ⟨.movzbl, [R1 .rax, R4 .rax]⟩] s = .ok s' ∧
      s'.reg .rax = (if cc fl then 1 else 0) ∧ Kept s s' := by
  rw [run_cons, hm]
  simp only [setcc, hs]
  cases hc : cc fl <;> simp [hc, putOp, run_cons, movx, getOp, merge8_low, merge32, Kept]

theorem run_setcc_low (F : FP) (m : Mn) (cc : Flags → Bool) (s : State) (fl : Flags) (hs : s.fl = some fl)
    (hz : s.reg .rax = 0)
    (hm : ∀ s, exec F ⟨m, [R1 .rax]⟩ s = Out.of (setcc cc (R1 .rax) s)) :
    ∃ s', run F [⟨m, [R1 .rax]⟩] s = .ok s' ∧
      s'.reg .rax = (if cc fl then 1 else 0) ∧ Kept s s' := by
  rw [run_cons, hm]
  simp only [setcc, hs]
  cases hc : cc fl <;> simp [hc, putOp, hz, Kept] <;> decide

theorem run_flt64 (F : FP) (m : Mn) (cc : Flags → Bool) (s : State)
    (hm : ∀ s, exec F ⟨m, [R1 .rax]⟩ s = Out.of (setcc cc (R1 .rax) s)) :
    ∃ s', run F (binaryCompFlt true m) s = .ok s' ∧
      s'.reg .rax
        = (if cc (ucomFlags (Float.cmp Float.f64 (s.reg .rax).toNat (s.reg .rcx).toNat)) then 1 else 0) ∧
      Kept s s' := by
  obtain ⟨s', h1, h2, h3⟩ := run_setcc_zx F m cc
    { (s.setX 0 (s.reg .rax)).setX 1 (s.reg .rcx) with
        fl := some (ucomFlags (Float.cmp Float.f64 (s.reg .rax).toNat (s.reg .rcx).toNat)) } _ rfl hm
  refine ⟨s', ?_, h2, h3⟩
  rw [← h1, binaryCompFlt, if_pos rfl, run_cons, exec_movq, Out.bind_ok, run_cons, exec_movq, Out.bind_ok,
    run_cons, exec_ucomisd, Out.bind_ok]
  simp only [setX_xmm, setX_reg, if_true, Nat.zero_ne_one, Nat.one_ne_zero, if_false]

theorem run_flt32 (F : FP) (m : Mn) (cc : Flags → Bool) (s : State)
    (hm : ∀ s, exec F ⟨m, [R1 .rax]⟩ s = Out.of (setcc cc (R1 .rax) s)) :
    ∃ s', run F (binaryCompFlt false m) s = .ok s' ∧
      s'.reg .rax
        = (if cc (ucomFlags (Float.cmp Float.f32 ((s.reg .rax).setWidth 32).toNat ((s.reg .rcx).setWidth 32).toNat))
            then 1 else 0) ∧
      Kept s s' := by
  have hx : ∀ s, exec F ⟨.xorq, [R8 .rax, R8 .rax]⟩ s = .ok { s.set .rax 0 with fl := none } := by
    intro s; simp [alu, legal, getOp, putOp, merge64]
  obtain ⟨s', h1, h2, h3⟩ := run_setcc_low F m cc
    { ((s.setX 0 (((s.reg .rax).setWidth 32).setWidth 64)).setX 1 (((s.reg .rcx).setWidth 32).setWidth 64)).set .rax 0
      with
        fl := some (ucomFlags (Float.cmp Float.f32 ((s.reg .rax).setWidth 32).toNat
          ((s.reg .rcx).setWidth 32).toNat)) } _ rfl (by simp) hm
  refine ⟨s', ?_, h2, by simpa [Kept] using h3⟩
  rw [← h1, binaryCompFlt, if_neg (by decide), run_cons, exec_movd, Out.bind_ok, run_cons, exec_movd, Out.bind_ok,
    run_cons, hx, Out.bind_ok, run_cons, exec_ucomiss, Out.bind_ok]
  simp only [State.x32, set_xmm, setX_xmm, setX_reg, if_true, Nat.zero_ne_one, Nat.one_ne_zero, if_false]
  simp only [BitVec.setWidth_setWidth_of_le, Nat.reduceLeDiff, BitVec.setWidth_eq]

/-! ### The bit-vector operations compute the C operators -/

theorem promoted_width {abi t} (h : CodegenSpec.Promoted t) : width abi t = 32 ∨ width abi t = 64 := by
  revert h; cases abi <;> cases t <;> decide

theorem bitsVal_signed {t : ST} (h : signed t = true) {n : Nat} (x : BitVec n) : bitsVal t x = x.toInt := by
  simp [bitsVal, h]
theorem bitsVal_unsigned {t : ST} (h : signed t = false) {n : Nat} (x : BitVec n) :
    bitsVal t x = x.toNat := by simp [bitsVal, h]

theorem bmod_inRange {w : Nat} (hw : w = 32 ∨ w = 64) {v : Int} (h : inBits true w v) :
    v.bmod (2 ^ w) = v := by
  simp only [inBits, if_true] at h
  rcases hw with rfl | rfl <;> (rw [Int.bmod_def]; omega)

theorem ofInt_toInt_range {w : Nat} (hw : w = 32 ∨ w = 64) {v : Int} (h : inBits true w v) :
    (BitVec.ofInt w v).toInt = v := by
  rw [BitVec.toInt_ofInt, bmod_inRange hw h]

/-- `0` or `1`, whichever the relation says. -/
def IsTruth (v : Int) (n : Nat) : Prop := (v = 0 ∧ n = 0) ∨ (v = 1 ∧ n = 1)

theorem truth_ite {w : Nat} (hw : w = 32 ∨ w = 64) (p q : Prop) [Decidable p] [Decidable q] (h : p ↔ q) :
    IsTruth (if p then 1 else 0) (if q then (1 : BitVec w) else 0).toNat := by
  by_cases hp : p
  · rw [if_pos hp, if_pos (h.mp hp)]
    right; rcases hw with rfl | rfl <;> simp
  · rw [if_neg hp, if_neg (fun c => hp (h.mpr c))]
    left; simp

theorem toInt_nonneg {w : Nat} (y : BitVec w) (h : 0 ≤ y.toInt) : y.toInt = y.toNat := by
  rw [BitVec.toInt_eq_toNat_cond] at h ⊢
  split
  · rfl
  · rename_i hh; rw [if_neg hh] at h; have := y.isLt; omega

/-- Signed operators. -/
theorem bv_signed {abi : Abi} {t : ST} (ht : CodegenSpec.Promoted t) (hs : signed t = true) (op : Op)
    (x y : BitVec (width abi t)) (v : Int) (h : opVal abi t op x.toInt y.toInt = some v) :
    ∃ o z, irFromTypeAndOp.intOp true op = .ok o ∧ irBinaryOp o = o ∧ bvOp o x y = some z ∧
      (if IsRel op then IsTruth v z.toNat else z.toInt = v) := by
  have hw := promoted_width (abi := abi) ht
  have hxr := toInt_bounds x (by omega)
  have hyr := toInt_bounds y (by omega)
  have har : ∀ u, arith abi t u = some v → u = v ∧ inBits true (width abi t) v := by
    intro u hu
    simp only [arith, hs, if_true, InRange] at hu
    split at hu
    · cases hu; exact ⟨rfl, by assumption⟩
    · cases hu
  cases op
  case add =>
    obtain ⟨rfl, hr⟩ := har _ h
    exact ⟨_, _, rfl, rfl, rfl, by rw [if_neg (by decide), BitVec.toInt_add, bmod_inRange hw hr]⟩
  case sub =>
    obtain ⟨rfl, hr⟩ := har _ h
    exact ⟨_, _, rfl, rfl, rfl, by rw [if_neg (by decide), BitVec.toInt_sub, bmod_inRange hw hr]⟩
  case mul =>
    obtain ⟨rfl, hr⟩ := har _ h
    exact ⟨_, _, rfl, rfl, rfl, by rw [if_neg (by decide), BitVec.toInt_mul, bmod_inRange hw hr]⟩
  case div =>
    simp only [opVal] at h
    split at h
    · cases h
    rename_i hb
    obtain ⟨rfl, hr⟩ := har _ h
    have hr' := hr
    simp only [inBits, if_true] at hr'
    exact ⟨.idiv, _, rfl, rfl, by simp only [bvOp]; rw [if_neg hb, if_pos hr'],
      by rw [if_neg (by decide), ofInt_toInt_range hw hr]⟩
  case mod =>
    simp only [opVal] at h
    split at h
    · cases h
    rename_i hb
    cases hu : arith abi t (x.toInt.tdiv y.toInt) with
    | none => rw [hu] at h; cases h
    | some u =>
      rw [hu] at h
      simp only [Option.bind_some, Option.some.injEq] at h
      subst h
      simp only [arith, hs, if_true, InRange] at hu
      split at hu
      case isFalse => cases hu
      rename_i hr
      have hr' := hr
      simp only [inBits, if_true] at hr'
      refine ⟨.imod, _, rfl, rfl, by simp only [bvOp]; rw [if_neg hb, if_pos hr'], ?_⟩
      rw [if_neg (by decide), ofInt_toInt_range hw]
      simp only [inBits, if_true]
      have h1 := Int.natAbs_tmod x.toInt y.toInt
      have h2 : x.toInt.natAbs % y.toInt.natAbs < y.toInt.natAbs := Nat.mod_lt _ (by omega)
      have h3 : (x.toInt.tmod y.toInt).natAbs < y.toInt.natAbs := by
        rw [h1]; exact h2
      omega
  case bxor | bor | band =>
    cases h
    refine ⟨_, _, rfl, rfl, rfl, ?_⟩
    rw [if_neg (by decide), bitsVal_signed hs]; simp
  case lshift =>
    simp only [opVal] at h
    split at h
    case isFalse => cases h
    rename_i hc
    obtain ⟨h1, h2, h3⟩ := hc
    obtain ⟨rfl, hr⟩ := har _ h
    have hyn := toInt_nonneg y h1
    have hyw : y.toNat < width abi t := by omega
    refine ⟨.lshift, _, rfl, rfl, by simp only [bvOp]; rw [if_pos hyw], ?_⟩
    rw [if_neg (by decide)]
    have hyt : y.toInt.toNat = y.toNat := by omega
    rw [hyt] at hr ⊢
    rw [BitVec.shiftLeft_eq_mul_twoPow, BitVec.toInt_mul]
    have : ((x.toInt * (BitVec.twoPow (width abi t) y.toNat).toInt).bmod (2 ^ width abi t))
      = (x.toInt * 2 ^ y.toNat).bmod (2 ^ width abi t) := by
      rw [BitVec.toInt_eq_toNat_bmod (BitVec.twoPow _ _), Int.mul_bmod_bmod]
      rw [BitVec.toNat_twoPow, Nat.mod_eq_of_lt (Nat.pow_lt_pow_right (by decide) hyw)]
      simp
    rw [this, bmod_inRange hw hr]
  case rshift =>
    simp only [opVal] at h
    split at h
    case isFalse => cases h
    rename_i hc
    obtain ⟨h1, h2⟩ := hc
    cases h
    have hyn := toInt_nonneg y h1
    have hyw : y.toNat < width abi t := by omega
    refine ⟨.irshift, _, rfl, rfl, by simp only [bvOp]; rw [if_pos hyw], ?_⟩
    have hyt : y.toInt.toNat = y.toNat := by omega
    rw [if_neg (by decide), BitVec.toInt_sshiftRight, hyt, Int.shiftRight_eq_div_pow]
    simp
  case less | greater | lessEq | greaterEq =>
    cases h
    refine ⟨_, _, rfl, rfl, rfl, ?_⟩
    rw [if_pos (by decide)]
    exact truth_ite hw _ _ (Iff.rfl)
  case equal =>
    cases h
    refine ⟨_, _, rfl, rfl, rfl, ?_⟩
    rw [if_pos (by decide)]
    exact truth_ite hw _ _ BitVec.toInt_inj
  case notEqual =>
    cases h
    refine ⟨_, _, rfl, rfl, rfl, ?_⟩
    rw [if_pos (by decide)]
    exact truth_ite hw _ _ (not_congr BitVec.toInt_inj)

/-- Unsigned operators, before `ir_binary_op` rebuilds the division. -/
theorem bv_unsigned {abi : Abi} {t : ST} (ht : CodegenSpec.Promoted t) (hs : signed t = false) (op : Op)
    (x y : BitVec (width abi t)) (v : Int) (h : opVal abi t op x.toNat y.toNat = some v) :
    ∃ o z, irFromTypeAndOp.intOp false op = .ok o ∧ (op ≠ .div → irBinaryOp o = o) ∧
      (op = .div → o = .div) ∧ bvOp o x y = some z ∧
      (if IsRel op then IsTruth v z.toNat else (z.toNat : Int) = v) := by
  have hw := promoted_width (abi := abi) ht
  have har : ∀ u, arith abi t u = some v → v = u % 2 ^ width abi t := by
    intro u hu
    simp only [arith, hs, wrap] at hu
    simpa using hu.symm
  have hc2 : ((2 ^ width abi t : Nat) : Int) = 2 ^ width abi t := by simp
  cases op
  case add =>
    obtain rfl := har _ h
    exact ⟨_, _, rfl, fun _ => rfl, by simp, rfl, by rw [if_neg (by decide), BitVec.toNat_add]; simp⟩
  case sub =>
    obtain rfl := har _ h
    refine ⟨_, _, rfl, fun _ => rfl, by simp, rfl, ?_⟩
    rw [if_neg (by decide), BitVec.toNat_sub]
    have := y.isLt
    rw [Int.natCast_emod, Int.natCast_add, Int.ofNat_sub (by omega), hc2]
    rw [show (2 : Int) ^ width abi t - (y.toNat : Int) + x.toNat = (x.toNat - y.toNat : Int) + 2 ^ width abi t by omega,
      Int.add_emod_right]
  case mul =>
    obtain rfl := har _ h
    exact ⟨_, _, rfl, fun _ => rfl, by simp, rfl, by rw [if_neg (by decide), BitVec.toNat_mul]; simp⟩
  case div =>
    simp only [opVal] at h
    split at h
    · cases h
    rename_i hb
    obtain rfl := har _ h
    have hb' : y.toNat ≠ 0 := by omega
    refine ⟨.div, _, rfl, by simp, by simp, by simp only [bvOp]; rw [if_neg hb'], ?_⟩
    rw [if_neg (by decide)]
    simp
  case mod =>
    simp only [opVal] at h
    split at h
    · cases h
    rename_i hb
    have hb' : y.toNat ≠ 0 := by omega
    simp only [arith, hs, Bool.false_eq_true, if_false, Option.bind_some, Option.some.injEq] at h
    subst h
    refine ⟨.mod, _, rfl, fun _ => rfl, by simp, by simp only [bvOp]; rw [if_neg hb'], ?_⟩
    have h1 : x.toNat % y.toNat < 2 ^ width abi t :=
      Nat.lt_of_le_of_lt (Nat.mod_le _ _) x.isLt
    rw [if_neg (by decide), BitVec.toNat_ofNat, Nat.mod_eq_of_lt h1]
    simp [Int.tmod_eq_emod_of_nonneg]
  case bxor | bor | band =>
    cases h
    refine ⟨_, _, rfl, fun _ => rfl, by simp, rfl, ?_⟩
    rw [if_neg (by decide), bitsVal_unsigned hs]; simp
  case lshift =>
    simp only [opVal] at h
    split at h
    case isFalse => cases h
    rename_i hc
    obtain ⟨h1, h2, h3⟩ := hc
    obtain rfl := har _ h
    have hyw : y.toNat < width abi t := by omega
    refine ⟨.lshift, _, rfl, fun _ => rfl, by simp, by simp only [bvOp]; rw [if_pos hyw], ?_⟩
    rw [if_neg (by decide), BitVec.toNat_shiftLeft, Nat.shiftLeft_eq]
    simp
  case rshift =>
    simp only [opVal] at h
    split at h
    case isFalse => cases h
    rename_i hc
    obtain ⟨h1, h2⟩ := hc
    cases h
    have hyw : y.toNat < width abi t := by omega
    refine ⟨.rshift, _, rfl, fun _ => rfl, by simp, by simp only [bvOp]; rw [if_pos hyw], ?_⟩
    rw [if_neg (by decide), BitVec.toNat_ushiftRight, Nat.shiftRight_eq_div_pow]
    simp
  case less | greater | lessEq | greaterEq =>
    cases h
    refine ⟨_, _, rfl, fun _ => rfl, by simp, rfl, ?_⟩
    rw [if_pos (by decide)]
    exact truth_ite hw _ _ (by omega)
  case equal =>
    cases h
    refine ⟨_, _, rfl, fun _ => rfl, by simp, rfl, ?_⟩
    rw [if_pos (by decide)]
    exact truth_ite hw _ _ (by rw [← BitVec.toNat_inj]; omega)
  case notEqual =>
    cases h
    refine ⟨_, _, rfl, fun _ => rfl, by simp, rfl, ?_⟩
    rw [if_pos (by decide)]
    exact truth_ite hw _ _ (by rw [ne_eq, ne_eq, ← BitVec.toNat_inj]; omega)

theorem means_intOp (o : IrOp) (op : Op) (sgn : Bool) (h : Means o op sgn) :
    irFromTypeAndOp.intOp sgn op = .ok o := by
  obtain ⟨g, h1, h2⟩ := h
  cases o <;> simp only [meaning, reduceCtorEq, Option.some.injEq, Prod.mk.injEq] at h1 <;>
    (obtain ⟨rfl, rfl⟩ := h1; rcases h2 with h2 | h2 <;>
      first | (cases h2; rfl) | (cases h2) | (cases sgn <;> rfl))

theorem bytes_width {abi t} (h : CodegenSpec.Promoted t) :
    8 * bytes abi t = width abi t ∧ (bytes abi t = 4 ∨ bytes abi t = 8) := by
  revert h; cases abi <;> cases t <;> decide

theorem slotVal_eq {abi t} (h : CodegenSpec.Promoted t) (s : State) (a : Slot) :
    slotVal abi t s a
      = bitsVal t (BitVec.ofNat (width abi t) (rd s.mem (slotAddr s a) (bytes abi t))) := by
  rw [slotVal, (bytes_width (abi := abi) h).1]

theorem rd_low (m : BitVec 64 → BitVec 8) (a : BitVec 64) (n k : Nat) (h : k ≤ n) :
    rd m a k = rd m a n % 256 ^ k := by
  induction k generalizing a n with
  | zero => simp [rd, Nat.mod_one]
  | succ k ih =>
    obtain ⟨n, rfl⟩ : ∃ j, n = j + 1 := ⟨n - 1, by omega⟩
    rw [rd, rd, ih (a + 1) n (by omega), Nat.pow_succ, Nat.mul_comm (256 ^ k) 256, Nat.mod_mul]
    have := (m a).isLt
    have e1 : ((m a).toNat + 256 * rd m (a + 1) n) / 256 = rd m (a + 1) n := by omega
    have e2 : ((m a).toNat + 256 * rd m (a + 1) n) % 256 = (m a).toNat := by omega
    rw [e1, e2]

theorem bvOp_cast {w w' : Nat} (h : w = w') (o : IrOp) (m n : Nat) (z : BitVec w)
    (hz : bvOp o (BitVec.ofNat w m) (BitVec.ofNat w n) = some z) :
    bvOp o (BitVec.ofNat w' m) (BitVec.ofNat w' n) = some (z.cast h) := by
  subst h; simpa using hz

/-- From bits to the stored value. -/
theorem computes_of {abi : Abi} {t : ST} (ht : CodegenSpec.Promoted t) (F : FP) (op : Op) (o : IrOp)
    (a b out : Slot) (s : State) (ha : a.size = bytes abi t) (hb : b.size = bytes abi t)
    (ho : out.size = bytes abi t) (v : Int) (z : BitVec (width abi t))
    (hz : bvOp o (BitVec.ofNat (width abi t) (rd s.mem (slotAddr s a) (bytes abi t)))
      (BitVec.ofNat (width abi t) (rd s.mem (slotAddr s b) (bytes abi t))) = some z)
    (hv : if IsRel op then IsTruth v z.toNat else bitsVal t z = v) :
    ∃ c, codegenBinary o a b out = .ok c ∧ Computes abi F c s out (opType t op) v := by
  obtain ⟨hw, hn⟩ := bytes_width (abi := abi) ht
  have hs : ScalarSize (bytes abi t) := by rcases hn with h | h <;> simp [ScalarSize, h]
  have hz' : bvOp o (BitVec.ofNat (8 * a.size) (rd s.mem (slotAddr s a) a.size))
      (BitVec.ofNat (8 * a.size) (rd s.mem (slotAddr s b) b.size)) = some (z.cast (by rw [ha, hw])) := by
    have ea : rd s.mem (slotAddr s a) (bytes abi t) = rd s.mem (slotAddr s a) a.size := by rw [ha]
    have eb : rd s.mem (slotAddr s b) (bytes abi t) = rd s.mem (slotAddr s b) b.size := by rw [hb]
    rw [ea, eb] at hz
    exact bvOp_cast (by rw [ha, hw]) o _ _ z hz
  obtain ⟨c, hc, s', hr, hf, hrd⟩ := run_binary F o a b out s (by rw [ha]; exact hn) (by rw [hb]; exact hs)
    (by rw [ho, ha]) _ hz'
  refine ⟨c, hc, s', hr, hf, ?_⟩
  rw [BitVec.toNat_cast, ho] at hrd
  by_cases hrel : IsRel op
  · rw [if_pos hrel] at hv
    have hot : opType t op = .int := by unfold opType; exact if_pos hrel
    have h4 : bytes abi .int = 4 := by cases abi <;> rfl
    rw [hot, slotVal, h4, rd_low _ _ (bytes abi t) 4 (by omega), hrd]
    rcases hv with ⟨rfl, h1⟩ | ⟨rfl, h1⟩ <;> rw [h1] <;> decide
  · rw [if_neg hrel] at hv
    have hot : opType t op = t := by unfold opType; exact if_neg hrel
    rw [hot, slotVal_eq ht, hrd, BitVec.ofNat_toNat, BitVec.setWidth_eq, hv]

/-- Memory holding `x` at `-8(%rbp)` and `y` at `-16(%rbp)`, `%rbp = 0x1000`. -/
def twoSlots (x y : Nat) : State where
  reg r := if r = .rbp then 0x1000 else 0
  xmm _ := 0
  fl := none
  mem := wr (wr (fun _ => 0) 0xff8 8 x) 0xff0 8 y

/-- Some machine. -/
def anyFP : FP where
  add32 _ _ := 0
  sub32 _ _ := 0
  mul32 _ _ := 0
  div32 _ _ := 0
  add64 _ _ := 0
  sub64 _ _ := 0
  mul64 _ _ := 0
  div64 _ _ := 0
  widen _ := 0
  narrow _ := 0

end Verif.Codegen
