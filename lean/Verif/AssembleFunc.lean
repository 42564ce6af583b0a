import Verif.AssembleRows
import Verif.FuncFrame
/-! Lemmas for C97: the code of a function within the limits of the machine has the forms that are encoded. -/
namespace Verif.Assemble
open Verif Asm AssembleSpec Codegen Memory
open Verif.EncodeSpec (regNumber)
open Verif.FuncCode (Func Node Item)

instance (s : Shape) (o : Opd) : Decidable (Fits s o) := by
  cases s <;> cases o <;> unfold Fits <;> (try exact inferInstance) <;> rename_i lb _ <;> cases lb <;> exact inferInstance

instance decFitsAll : ∀ (ss : List Shape) (os : List Opd), Decidable (FitsAll ss os)
  | [], [] => .isTrue trivial
  | [], _ :: _ => .isFalse id
  | _ :: _, [] => .isFalse id
  | s :: ss, o :: os => by
    have := decFitsAll ss os
    unfold FitsAll
    exact inferInstance

instance (i : Ins) : Decidable (Emitted i) := by unfold Emitted; exact inferInstance

/-- All instructions have one of the forms. -/
def All (c : List Ins) : Prop := ∀ i ∈ c, Emitted i

theorem All.nil : All [] := fun _ h => by cases h

theorem All.cons {i : Ins} {c : List Ins} (h : Emitted i) (hc : All c) : All (i :: c) := by
  intro x hx
  rcases List.mem_cons.1 hx with h1 | h1
  · rw [h1]; exact h
  · exact hc x h1

theorem All.append {a b : List Ins} (ha : All a) (hb : All b) : All (a ++ b) := by
  intro x hx
  rcases List.mem_append.1 hx with h | h
  · exact ha x h
  · exact hb x h

theorem All.one {i : Ins} (h : Emitted i) : All [i] := .cons h .nil

theorem emitted {i : Ins} (mn : Mn) (ss : List Shape) (hf : (mn, ss) ∈ forms) (h1 : mn = i.mn) (h2 : FitsAll ss i.ops) :
    Emitted i := ⟨(mn, ss), hf, h1, h2⟩

/-- A value in the frame, if it is not empty. -/
def Small (v : Slot) : Prop := v.size ≠ 0 → v.size ≤ v.loc ∧ v.loc ≤ 2147483648

theorem fits_slotMem {v : Slot} {i : Nat} (h : Small v) (hi : i < v.size) : Fits .mem (v.mem i) := by
  obtain ⟨h1, h2⟩ := h (by omega)
  show _ ∧ _ ∧ ¬ _
  refine ⟨by omega, by omega, ?_⟩
  rintro ⟨_, h3⟩
  omega

theorem fits_mem {off : Int} {b : Reg} (h : Disp off) (hb : (b = .rbp ∨ b = .r13) → off ≠ 0) : Fits .mem (MEM off b) :=
  ⟨h.1, h.2, fun ⟨h1, h2⟩ => hb h1 h2⟩

theorem toInt_small {v : Int} (h : -9223372036854775808 ≤ v) (h' : v < 9223372036854775808) : (BitVec.ofInt 64 v).toInt = v := by
  rw [BitVec.toInt_ofInt, Int.bmod_def]; omega

theorem fits_imm {lo hi v : Int} (h : lo ≤ v) (h' : v < hi) (h1 : -9223372036854775808 ≤ v) (h2 : v < 9223372036854775808) :
    Fits (.imm lo hi) (IMM v) := by
  show lo ≤ (BitVec.ofInt 64 v).toInt ∧ (BitVec.ofInt 64 v).toInt < hi
  rw [toInt_small h1 h2]
  exact ⟨h, h'⟩

theorem fits_word {lo hi : Int} {v : BitVec 64} (h : lo ≤ v.toInt) (h' : v.toInt < hi) : Fits (.imm lo hi) (IMM v.toNat) := by
  show lo ≤ (BitVec.ofInt 64 v.toNat).toInt ∧ (BitVec.ofInt 64 v.toNat).toInt < hi
  have : BitVec.ofInt 64 (v.toNat : Int) = v := by simp
  rw [this]
  exact ⟨h, h'⟩

theorem scalarToReg_all {v : Slot} {r : Reg} {c : List Ins} (hv : Small v) (h : scalarToReg v r = .ok c) : All c := by
  unfold scalarToReg at h
  split at h
  all_goals first
    | (injection h with h; subst h; refine .one ?_)
    | cases h
  · exact emitted .movzbl [.mem, .any 4] (by decide) rfl ⟨fits_slotMem hv (by omega), rfl, trivial⟩
  · exact emitted .movzwl [.mem, .any 4] (by decide) rfl ⟨fits_slotMem hv (by omega), rfl, trivial⟩
  · exact emitted .movl [.mem, .any 4] (by decide) rfl ⟨fits_slotMem hv (by omega), rfl, trivial⟩
  · exact emitted .movl [.mem, .any 4] (by decide) rfl ⟨fits_slotMem hv (by omega), rfl, trivial⟩
  · exact emitted .movq [.mem, .any 8] (by decide) rfl ⟨fits_slotMem hv (by omega), rfl, trivial⟩
  · exact emitted .movq [.mem, .any 8] (by decide) rfl ⟨fits_slotMem hv (by omega), rfl, trivial⟩
  · exact emitted .movq [.mem, .any 8] (by decide) rfl ⟨fits_slotMem hv (by omega), rfl, trivial⟩
  · exact emitted .movq [.mem, .any 8] (by decide) rfl ⟨fits_slotMem hv (by omega), rfl, trivial⟩

theorem chunk_cases (i len : Nat) : chunk i len = 1 ∨ chunk i len = 2 ∨ chunk i len = 4 ∨ chunk i len = 8 := by
  unfold chunk; repeat' split
  all_goals simp

theorem move_store {c : Nat} {r : Reg} {d : Opd} (hc : c = 1 ∨ c = 2 ∨ c = 4 ∨ c = 8) (hd : Fits .mem d) :
    Emitted ⟨movN c, [.reg r c, d]⟩ := by
  rcases hc with rfl | rfl | rfl | rfl
  · exact emitted .movb [.any 1, .mem] (by decide) rfl ⟨rfl, hd, trivial⟩
  · exact emitted .movw [.any 2, .mem] (by decide) rfl ⟨rfl, hd, trivial⟩
  · exact emitted .movl [.any 4, .mem] (by decide) rfl ⟨rfl, hd, trivial⟩
  · exact emitted .movq [.any 8, .mem] (by decide) rfl ⟨rfl, hd, trivial⟩

theorem move_load {c : Nat} {d : Opd} (hc : c = 1 ∨ c = 2 ∨ c = 4 ∨ c = 8) (hd : Fits .mem d) :
    Emitted ⟨movN c, [d, .reg .rax c]⟩ := by
  rcases hc with rfl | rfl | rfl | rfl
  · exact emitted .movb [.mem, .low 1] (by decide) rfl ⟨hd, ⟨rfl, by decide⟩, trivial⟩
  · exact emitted .movw [.mem, .low 2] (by decide) rfl ⟨hd, ⟨rfl, by decide⟩, trivial⟩
  · exact emitted .movl [.mem, .any 4] (by decide) rfl ⟨hd, rfl, trivial⟩
  · exact emitted .movq [.mem, .any 8] (by decide) rfl ⟨hd, rfl, trivial⟩

theorem move_zero {c : Nat} {d : Opd} (hc : c = 1 ∨ c = 2 ∨ c = 4 ∨ c = 8) (hd : Fits .mem d) :
    Emitted ⟨movN c, [IMM 0, d]⟩ := by
  rcases hc with rfl | rfl | rfl | rfl
  · exact emitted .movb [.imm 0 256, .mem] (by decide) rfl ⟨by decide, hd, trivial⟩
  · exact emitted .movw [.imm 0 65536, .mem] (by decide) rfl ⟨by decide, hd, trivial⟩
  · exact emitted .movl [imm32, .mem] (by decide) rfl ⟨by decide, hd, trivial⟩
  · exact emitted .movq [imm32, .mem] (by decide) rfl ⟨by decide, hd, trivial⟩

theorem storeLoop_all {r : Reg} {size : Nat} {dst : Nat → Opd} (hd : ∀ i, i < size → Fits .mem (dst i)) (i m : Nat)
    (hm : m ≤ 8) : All (storeLoop r size dst i m) := by
  rw [storeLoop]
  split
  · next hi =>
    refine .append ?_ (.cons (move_store (chunk_cases _ _) (hd i hi)) ?_)
    · split
      · exact .one (emitted .shrq [.imm 0 256, .any 8] (by decide) rfl
          ⟨fits_imm (by omega) (by omega) (by omega) (by omega), rfl, trivial⟩)
      · exact .nil
    · exact storeLoop_all hd _ _ (by rcases chunk_cases i size with h | h | h | h <;> omega)
  · exact .nil
termination_by size - i
decreasing_by have := chunk_pos i size; omega

theorem regToScalar_all {r : Reg} {v : Slot} (hv : Small v) : All (regToScalar r v) :=
  storeLoop_all (fun _ hi => fits_slotMem hv hi) 0 0 (by omega)

theorem memzeroFrom_all {len : Nat} (h : len ≤ 2147483648) (i : Nat) : All (memzeroFrom i len) := by
  rw [memzeroFrom]
  split
  · next hi =>
    refine .cons (move_zero (chunk_cases _ _) (fits_mem ⟨by omega, by omega⟩ (by simp))) (memzeroFrom_all h _)
  · exact .nil
termination_by len - i
decreasing_by have := chunk_pos i len; omega

theorem memcpyFrom_all {len : Nat} (h : len ≤ 2147483648) (i : Nat) : All (memcpyFrom i len) := by
  rw [memcpyFrom]
  split
  · next hi =>
    exact .cons (move_load (chunk_cases _ _) (fits_mem ⟨by omega, by omega⟩ (by simp)))
      (.cons (move_store (chunk_cases _ _) (fits_mem ⟨by omega, by omega⟩ (by simp))) (memcpyFrom_all h _))
  · exact .nil
termination_by len - i
decreasing_by have := chunk_pos i len; omega

theorem memcpy_all {len : Nat} (h : len ≤ 2147483648) : All (memcpy len) := memcpyFrom_all h 0

theorem memcpy_slot {v : Slot} (h : Small v) : All (memcpy v.size) := by
  by_cases h0 : v.size = 0
  · exact memcpy_all (by omega)
  · have := h h0
    exact memcpy_all (by omega)

theorem lea_all {m : Opd} {r : Reg} (h : Fits .mem m) : Emitted ⟨.leaq, [m, R8 r]⟩ :=
  emitted .leaq [.mem, .any 8] (by decide) rfl ⟨h, rfl, trivial⟩

theorem leaSlot_all {v : Slot} {r : Reg} (h : Small v) (h0 : v.size ≠ 0) : Emitted (leaSlot v r) :=
  lea_all (fits_slotMem h (by omega))

theorem asmTable_all (w : Bool) (op : IrOp) : All (asmTable w op) := by
  have : ∀ w op, (asmTable w op).all (fun i => decide (Emitted i)) = true := by
    intro w op
    cases w <;> cases op <;> decide +kernel
  intro i hi
  have := List.all_eq_true.1 (this w op) i hi
  exact of_decide_eq_true this

theorem sample {c : List Ins} (h : c.all (fun i => decide (Emitted i)) = true) : All c :=
  fun i hi => of_decide_eq_true (List.all_eq_true.1 h i hi)

theorem binary_all {op : IrOp} {a b out : Slot} {c : List Ins} (ha : Small a) (hb : Small b) (ho : Small out)
    (h : codegenBinary op a b out = .ok c) : All c := by
  obtain ⟨c1, h1, h⟩ := Res.bind_eq_ok.1 h
  obtain ⟨c2, h2, h⟩ := Res.bind_eq_ok.1 h
  split at h
  · injection h with h
    subst h
    exact .append (.append (.append (scalarToReg_all ha h1) (scalarToReg_all hb h2)) (asmTable_all _ _)) (regToScalar_all ho)
  · cases h

theorem unary_all {m : Mn} {a out : Slot} {c : List Ins} (hm : m = .notq ∨ m = .negq) (ha : Small a) (ho : Small out)
    (h : codegenUnaryInt m a out = .ok c) : All c := by
  obtain ⟨c1, h1, h⟩ := Res.bind_eq_ok.1 h
  injection h with h
  subst h
  refine .append (.append (scalarToReg_all ha h1) ?_) (regToScalar_all ho)
  rcases hm with rfl | rfl <;> exact sample (by decide +kernel)

theorem negFloat_all {a out : Slot} {c : List Ins} (ha : Small a) (ho : Small out)
    (h : codegenNegFloat a out = .ok c) : All c := by
  obtain ⟨c1, h1, h⟩ := Res.bind_eq_ok.1 h
  repeat' split at h
  all_goals first
    | (injection h with h; subst h
       exact .append (.append (scalarToReg_all ha h1) (sample (by decide +kernel))) (regToScalar_all ho))
    | cases h

theorem constant_all {v : BitVec 64} {out : Slot} {c : List Ins} (ho : Small out)
    (hw : match out.size with
      | 0 => False
      | 1 => -128 ≤ v.toInt ∧ v.toInt < 256
      | 2 => -32768 ≤ v.toInt ∧ v.toInt < 65536
      | 4 => -2147483648 ≤ v.toInt ∧ v.toInt < 4294967296
      | _ => True)
    (h : constantCode v out = .ok c) : All c := by
  have hd : Fits .mem (MEM 0 .rdi) := by decide
  unfold constantCode at h
  split at h
  · next hs =>
    rw [hs] at hw
    injection h with h; subst h
    refine .cons (leaSlot_all ho (by omega)) (.one ?_)
    by_cases hn : v.toInt < 128
    · exact emitted .movb [.imm (-128) 128, .mem] (by decide) rfl ⟨fits_word hw.1 hn, hd, trivial⟩
    · exact emitted .movb [.imm 0 256, .mem] (by decide) rfl ⟨fits_word (by omega) hw.2, hd, trivial⟩
  · next hs =>
    rw [hs] at hw
    injection h with h; subst h
    refine .cons (leaSlot_all ho (by omega)) (.one ?_)
    by_cases hn : v.toInt < 32768
    · exact emitted .movw [.imm (-32768) 32768, .mem] (by decide) rfl ⟨fits_word hw.1 hn, hd, trivial⟩
    · exact emitted .movw [.imm 0 65536, .mem] (by decide) rfl ⟨fits_word (by omega) hw.2, hd, trivial⟩
  · next hs =>
    rw [hs] at hw
    injection h with h; subst h
    refine .cons (leaSlot_all ho (by omega)) (.one ?_)
    by_cases hn : v.toInt < 2147483648
    · exact emitted .movl [imm32, .mem] (by decide) rfl ⟨fits_word hw.1 hn, hd, trivial⟩
    · exact emitted .movl [.imm 0 4294967296, .mem] (by decide) rfl ⟨fits_word (by omega) hw.2, hd, trivial⟩
  · next hs =>
    injection h with h; subst h
    refine .cons (leaSlot_all ho (by omega)) (.cons ?_ (sample (by decide +kernel)))
    refine emitted .movabsq [.imm (-9223372036854775808) 9223372036854775808, .low 8] (by decide) rfl
      ⟨fits_word ?_ ?_, ⟨rfl, by decide⟩, trivial⟩
    · have := BitVec.le_toInt v; simpa using this
    · have := BitVec.toInt_lt (x := v); simpa using this
  · next hs => rw [hs] at hw; exact hw.elim
  · cases h

theorem load_all {p v : Slot} {c : List Ins} (hp : Small p) (hv : Small v) (h0 : v.size ≠ 0) (h : load p v = .ok c) : All c := by
  obtain ⟨c1, h1, h⟩ := Res.bind_eq_ok.1 h
  injection h with h; subst h
  exact .append (.append (scalarToReg_all hp h1) (.one (leaSlot_all hv h0))) (memcpy_slot hv)

theorem loadPart_all {p v : Slot} {off : Nat} {c : List Ins} (hp : Small p) (hv : Small v) (h0 : v.size ≠ 0) (hd : Disp off)
    (h : loadPart p v off = .ok c) : All c := by
  obtain ⟨c1, h1, h⟩ := Res.bind_eq_ok.1 h
  injection h with h; subst h
  exact .append (.append (scalarToReg_all hp h1) (.cons (lea_all (fits_mem hd (by simp))) (.one (leaSlot_all hv h0)))) (memcpy_slot hv)

theorem store_all {p v : Slot} {c : List Ins} (hp : Small p) (hv : Small v) (h0 : v.size ≠ 0) (h : store p v = .ok c) : All c := by
  obtain ⟨c1, h1, h⟩ := Res.bind_eq_ok.1 h
  injection h with h; subst h
  exact .append (.append (scalarToReg_all hp h1) (.one (leaSlot_all hv h0))) (memcpy_slot hv)

theorem storePart_all {p v : Slot} {off : Nat} {c : List Ins} (hp : Small p) (hv : Small v) (h0 : v.size ≠ 0) (hd : Disp off)
    (h : storePart p v off = .ok c) : All c := by
  obtain ⟨c1, h1, h⟩ := Res.bind_eq_ok.1 h
  injection h with h; subst h
  exact .append (.append (scalarToReg_all hp h1) (.cons (lea_all (fits_mem hd (by simp))) (.one (leaSlot_all hv h0)))) (memcpy_slot hv)

theorem setZero_all {p : Slot} {size : Nat} {c : List Ins} (hp : Small p) (hs : size ≤ 2147483648) (h : setZeroPtr p size = .ok c) :
    All c := by
  obtain ⟨c1, h1, h⟩ := Res.bind_eq_ok.1 h
  injection h with h; subst h
  exact .append (scalarToReg_all hp h1) (memzeroFrom_all hs 0)

theorem copy_all {d p : Slot} {size : Nat} {c : List Ins} (hd : Small d) (hp : Small p) (hs : size ≤ 2147483648)
    (h : copyMemory d p size = .ok c) : All c := by
  obtain ⟨c1, h1, h⟩ := Res.bind_eq_ok.1 h
  obtain ⟨c2, h2, h⟩ := Res.bind_eq_ok.1 h
  injection h with h; subst h
  exact .append (.append (scalarToReg_all hd h1) (scalarToReg_all hp h2)) (memcpy_all hs)

/-! ### Conversions -/

theorem zeroCast_all {a out : Slot} {c : List Ins} (ha : Small a) (ho : Small out) (h : Cast.zeroCast a out = .ok c) : All c := by
  obtain ⟨c1, h1, h⟩ := Res.bind_eq_ok.1 h
  injection h with h; subst h
  exact .append (scalarToReg_all ha h1) (regToScalar_all ho)

theorem signCast_all {a out : Slot} {c : List Ins} (ha : Small a) (ho : Small out) (h : Cast.signCast a out = .ok c) : All c := by
  obtain ⟨c1, h1, h⟩ := Res.bind_eq_ok.1 h
  injection h with h; subst h
  refine .append (.append (scalarToReg_all ha h1) ?_) (regToScalar_all ho)
  repeat' split
  all_goals first | exact .nil | exact sample (by decide +kernel)

theorem boolCast_all {a out : Slot} {c : List Ins} (ha : Small a) (ho : Small out) (h : Cast.boolCast a out = .ok c) : All c := by
  obtain ⟨c1, h1, h⟩ := Res.bind_eq_ok.1 h
  injection h with h; subst h
  exact .append (.append (scalarToReg_all ha h1) (sample (by decide +kernel))) (regToScalar_all ho)

theorem floatCast_all {a out : Slot} {c : List Ins} (ha : Small a) (ho : Small out) (h : Cast.floatCast a out = .ok c) : All c := by
  obtain ⟨c1, h1, h⟩ := Res.bind_eq_ok.1 h
  repeat' split at h
  all_goals first
    | (injection h with h; subst h
       exact .append (.append (scalarToReg_all ha h1) (sample (by decide +kernel))) (regToScalar_all ho))
    | (injection h with h; subst h; exact .append (scalarToReg_all ha h1) (regToScalar_all ho))
    | cases h

theorem toFloat_all {n : Nat} {c : List Ins} (h : Cast.toFloat n = .ok c) : All c := by
  unfold Cast.toFloat at h
  repeat' split at h
  all_goals first
    | (injection h with h; subst h; exact sample (by decide +kernel))
    | cases h

theorem intFloatCast_all {a out : Slot} {c : List Ins} (ha : Small a) (ho : Small out) (h : Cast.intFloatCast a out = .ok c) :
    All c := by
  obtain ⟨c1, h1, h⟩ := Res.bind_eq_ok.1 h
  obtain ⟨c2, h2, h⟩ := Res.bind_eq_ok.1 h
  injection h with h; subst h
  refine .append (.append (.append (scalarToReg_all ha h1) ?_) (toFloat_all h2)) (regToScalar_all ho)
  repeat' split
  all_goals first | exact .nil | exact sample (by decide +kernel)

theorem uintFloatCast_all {a out : Slot} {c : List Ins} (ha : Small a) (ho : Small out) (h : Cast.uintFloatCast a out = .ok c) :
    All c := by
  obtain ⟨c1, h1, h⟩ := Res.bind_eq_ok.1 h
  obtain ⟨c2, h2, h⟩ := Res.bind_eq_ok.1 h
  injection h with h; subst h
  refine .append (.append (.append (scalarToReg_all ha h1) ?_) (toFloat_all h2)) (regToScalar_all ho)
  repeat' split
  all_goals first | exact .nil | exact sample (by decide +kernel)

theorem floatIntCast_all {a out : Slot} {c : List Ins} (ha : Small a) (ho : Small out) (h : Cast.floatIntCast a out = .ok c) :
    All c := by
  obtain ⟨c1, h1, h⟩ := Res.bind_eq_ok.1 h
  injection h with h; subst h
  refine .append (.append (scalarToReg_all ha h1) ?_) (regToScalar_all ho)
  repeat' split
  all_goals first | exact .nil | exact sample (by decide +kernel)

/-! ### Calls -/

/-- Registers with places. -/
def RegsOk (l : List (Call.Dest × Slot)) : Prop :=
  ∀ r ∈ l, Small r.2 ∧ match r.1 with
    | .sse i => i < 16 ∧ r.2.size ≠ 0
    | .gpr _ => True

theorem setRegs_all : ∀ {l : List (Call.Dest × Slot)} {c : List Ins}, RegsOk l → Call.setRegs l = .ok c → All c
  | [], c, _, h => by simp only [Call.setRegs] at h; injection h with h; subst h; exact .nil
  | (.sse i, v) :: as, c, hl, h => by
    simp only [Call.setRegs] at h
    obtain ⟨r, h1, h⟩ := Res.bind_eq_ok.1 h
    injection h with h; subst h
    obtain ⟨hs, hi, h0⟩ := hl (.sse i, v) (by simp)
    dsimp only at hs h0
    exact .cons (emitted .movsd [.mem, .xmm] (by decide) rfl ⟨fits_slotMem hs (by omega), hi, trivial⟩)
      (setRegs_all (fun r hr => hl r (List.mem_cons_of_mem _ hr)) h1)
  | (.gpr g, v) :: as, c, hl, h => by
    simp only [Call.setRegs] at h
    obtain ⟨c1, h1, h⟩ := Res.bind_eq_ok.1 h
    obtain ⟨r, h2, h⟩ := Res.bind_eq_ok.1 h
    injection h with h; subst h
    exact .append (scalarToReg_all (hl (.gpr g, v) (by simp)).1 h1)
      (setRegs_all (fun r hr => hl r (List.mem_cons_of_mem _ hr)) h2)

theorem getRegs_all : ∀ {l : List (Call.Dest × Slot)}, RegsOk l → All (Call.getRegs l)
  | [], _ => .nil
  | (.sse i, v) :: as, hl => by
    simp only [Call.getRegs]
    obtain ⟨hs, hi, h0⟩ := hl (.sse i, v) (by simp)
    dsimp only at hs h0
    refine .cons ?_ (getRegs_all (fun r hr => hl r (List.mem_cons_of_mem _ hr)))
    split
    · exact emitted .movss [.xmm, .mem] (by decide) rfl ⟨hi, fits_slotMem hs (by omega), trivial⟩
    · exact emitted .movsd [.xmm, .mem] (by decide) rfl ⟨hi, fits_slotMem hs (by omega), trivial⟩
  | (.gpr g, v) :: as, hl => by
    simp only [Call.getRegs]
    exact .append (regToScalar_all (hl (.gpr g, v) (by simp)).1)
      (getRegs_all (fun r hr => hl r (List.mem_cons_of_mem _ hr)))

/-- Stack arguments within the limits. -/
def StackOk : Call.StackArg → Prop
  | .value v off => Small v ∧ v.size ≠ 0 ∧ Disp off
  | .object p off size => Small p ∧ Disp off ∧ size ≤ 2147483648

theorem stackStores_all : ∀ {l : List Call.StackArg} {c : List Ins}, (∀ a ∈ l, StackOk a) → Call.stackStores l = .ok c → All c
  | [], c, _, h => by simp only [Call.stackStores] at h; injection h with h; subst h; exact .nil
  | .value v off :: as, c, hl, h => by
    simp only [Call.stackStores] at h
    obtain ⟨r, h1, h⟩ := Res.bind_eq_ok.1 h
    injection h with h; subst h
    obtain ⟨hs, h0, hd⟩ := hl (.value v off) (by simp)
    exact .append (.append (.cons (lea_all (fits_mem hd (by simp))) (.one (leaSlot_all hs h0))) (memcpy_slot hs))
      (stackStores_all (fun r hr => hl r (List.mem_cons_of_mem _ hr)) h1)
  | .object p off size :: as, c, hl, h => by
    simp only [Call.stackStores] at h
    obtain ⟨c1, h1, h⟩ := Res.bind_eq_ok.1 h
    obtain ⟨r, h2, h⟩ := Res.bind_eq_ok.1 h
    injection h with h; subst h
    obtain ⟨hs, hd, hz⟩ := hl (.object p off size) (by simp)
    exact .append (.append (.append (.one (lea_all (fits_mem hd (by simp)))) (scalarToReg_all hs h1)) (memcpy_all hz))
      (stackStores_all (fun r hr => hl r (List.mem_cons_of_mem _ hr)) h2)

theorem change_all {v : Int} (h : Disp v) : Emitted ⟨.addq, [IMM v, R8 .rsp]⟩ := by
  obtain ⟨h1, h2⟩ := h
  exact emitted .addq [imm32, .low 8] (by decide) rfl ⟨fits_imm h1 h2 (by omega) (by omega), ⟨rfl, by decide⟩, trivial⟩

theorem call_all {k : Call.Call} {c : List Ins} (hc : Disp k.change) (hst : ∀ a ∈ k.stack, StackOk a) (hr : RegsOk k.regs)
    (hf : Small k.callee) (hreg : k.reg = .rbx) (ho : RegsOk k.results) (h : Call.call k = .ok c) : All c := by
  obtain ⟨b, hb, h⟩ := Res.bind_eq_ok.1 h
  injection h with h; subst h
  obtain ⟨st, h1, hb⟩ := Res.bind_eq_ok.1 hb
  obtain ⟨rs, h2, hb⟩ := Res.bind_eq_ok.1 hb
  obtain ⟨fc, h3, hb⟩ := Res.bind_eq_ok.1 hb
  injection hb with hb; subst hb
  refine .append (.cons (change_all hc) (.append (.append (stackStores_all hst h1) (setRegs_all hr h2)) (scalarToReg_all hf h3)))
    (.cons ?_ (.cons (change_all hc) (getRegs_all ho)))
  rw [hreg]
  decide +kernel

/-! ### Functions -/

theorem slot_small (f : Func) (h : f.layout.frame < 2147483648) (n : Nat) : Small (f.slot n) := by
  unfold Func.slot
  split
  · next x v a he =>
    have hm := List.mem_of_find?_eq_some he
    intro h0
    have := (FuncCode.ranges_of f).inside _ hm ⟨v, x.size⟩ (.inl (by unfold FuncCode.valueRange; exact if_neg h0))
    unfold Verif.FrameSpec.Inside at this
    dsimp only at this ⊢
    omega
  · intro h0; exact absurd rfl h0

theorem regs_ok {f : Func} (h : f.layout.frame < 2147483648) {l : List (Call.Dest × Nat)} (hl : RegsWithin f l) :
    RegsOk (FuncCode.regArgs f.slot l) := by
  intro r hr
  obtain ⟨x, hx, rfl⟩ := List.mem_map.1 hr
  refine ⟨slot_small f h _, ?_⟩
  have := hl x hx
  exact this

theorem instruction_all {f : Func} (h : f.layout.frame < 2147483648) {n : Node} {c : List Ins} (hn : Within f n)
    (hc : FuncCode.instruction f.slot f.object n = .ok c) : All c := by
  have S := slot_small f h
  unfold FuncCode.instruction at hc
  unfold Within at hn
  split at hc <;> rename_i hk <;> rw [hk] at hn
  · exact binary_all (S _) (S _) (S _) hc
  · exact constant_all (S _) hn hc
  · injection hc with hc; subst hc
    refine .cons (leaSlot_all (S _) hn.1) (.one ?_)
    exact emitted .movq [.label, .mem] (by decide) rfl ⟨hn.2, by decide, trivial⟩
  · exact unary_all (.inl rfl) (S _) (S _) hc
  · exact unary_all (.inr rfl) (S _) (S _) hc
  · exact negFloat_all (S _) (S _) hc
  · obtain ⟨h1, h2, h3, h4⟩ := hn
    refine call_all h1 ?_ (regs_ok h h2) (S _) rfl (regs_ok h h3) hc
    intro a ha
    obtain ⟨x, hx, rfl⟩ := List.mem_map.1 ha
    have := h4 x hx
    cases x with
    | value v off => exact ⟨S _, this.1, this.2⟩
    | object p off size => exact ⟨S _, this.1, this.2⟩
  · exact load_all (S _) (S _) hn hc
  · exact load_all (S _) (S _) hn hc
  · exact loadPart_all (S _) (S _) hn.1 hn.2 hc
  · exact store_all (S _) (S _) hn hc
  · exact storePart_all (S _) (S _) hn.1 hn.2 hc
  · exact zeroCast_all (S _) (S _) hc
  · exact signCast_all (S _) (S _) hc
  · exact boolCast_all (S _) (S _) hc
  · exact floatCast_all (S _) (S _) hc
  · exact intFloatCast_all (S _) (S _) hc
  · exact uintFloatCast_all (S _) (S _) hc
  · exact floatIntCast_all (S _) (S _) hc
  · exact setZero_all (S _) hn hc
  · injection hc with hc; subst hc
    exact .cons (sample (c := [⟨.xorl, [R4 .rax, R4 .rax]⟩]) (by decide +kernel) _ (by simp)) (regToScalar_all (S _))
  · injection hc with hc; subst hc
    refine .cons (lea_all (fits_mem ⟨?_, ?_⟩ ?_)) (regToScalar_all (S _))
    · omega
    · omega
    · intro _ h0; omega
  · exact copy_all (S _) (S _) hn hc
  · injection hc with hc; subst hc
    exact .append (.cons (lea_all (fits_mem hn.2.1 (fun _ => hn.2.2))) (.one (leaSlot_all (S _) hn.1))) (memcpy_slot (S _))
  · obtain ⟨c1, h1, hc⟩ := Res.bind_eq_ok.1 hc
    injection hc with hc; subst hc
    exact .append (.cons (lea_all (fits_mem hn.1 (fun _ => hn.2.1))) (scalarToReg_all (S _) h1)) (memcpy_all hn.2.2)
  · injection hc with hc; subst hc; exact .nil

theorem instructions_all {f : Func} (h : f.layout.frame < 2147483648) : ∀ {ns : List Node} {c : List Ins}, (∀ n ∈ ns, Within f n) →
    FuncCode.instructions f.slot f.object ns = .ok c → All c
  | [], c, _, hc => by simp only [FuncCode.instructions] at hc; injection hc with hc; subst hc; exact .nil
  | n :: ns, c, hn, hc => by
    simp only [FuncCode.instructions] at hc
    obtain ⟨c1, h1, hc⟩ := Res.bind_eq_ok.1 hc
    obtain ⟨c2, h2, hc⟩ := Res.bind_eq_ok.1 hc
    injection hc with hc; subst hc
    exact .append (instruction_all h (hn n (by simp)) h1) (instructions_all h (fun x hx => hn x (List.mem_cons_of_mem _ hx)) h2)

theorem copies_all {cur a b : Nat} : ∀ {ps : List Phi.Phi} {c : List Ins},
    (∀ p ∈ ps, Small p.out ∧ (∀ v, p.src.1 = some v → Small v) ∧ (∀ v, p.src.2 = some v → Small v)) →
    Phi.copies cur a b ps = .ok c → All c
  | [], c, _, h => by simp only [Phi.copies] at h; injection h with h; subst h; exact .nil
  | p :: ps, c, hp, h => by
    have ih := fun {c} => copies_all (cur := cur) (a := a) (b := b) (c := c) (fun x hx => hp x (List.mem_cons_of_mem _ hx))
    obtain ⟨h1, h2, h3⟩ := hp p (by simp)
    simp only [Phi.copies] at h
    split at h
    · exact ih h
    · obtain ⟨s, hs, h⟩ := Res.bind_eq_ok.1 h
      cases s with
      | none => exact ih h
      | some v =>
        have hv : Small v := by
          unfold Phi.source at hs
          repeat' split at hs
          · injection hs with hs; exact h2 v hs
          · injection hs with hs; exact h3 v hs
          · cases hs
        obtain ⟨l, hl, h⟩ := Res.bind_eq_ok.1 h
        obtain ⟨r, hr, h⟩ := Res.bind_eq_ok.1 h
        injection h with h; subst h
        exact .append (.append (scalarToReg_all hv hl) (regToScalar_all h1)) (ih hr)

theorem phiCode_all {f : Func} (h : f.layout.frame < 2147483648) {cur : Nat} {t : FuncCode.Block} {c : List Ins}
    (hc : FuncCode.phiCode f.slot cur t = .ok c) : All c := by
  have S := slot_small f h
  unfold FuncCode.phiCode at hc
  split at hc
  · injection hc with hc; subst hc; exact .nil
  · refine copies_all ?_ hc
    intro p hp
    obtain ⟨x, _, rfl⟩ := List.mem_map.1 hp
    refine ⟨S _, ?_, ?_⟩
    · intro v hv
      obtain ⟨y, _, rfl⟩ := Option.map_eq_some_iff.1 hv
      exact S _
    · intro v hv
      obtain ⟨y, _, rfl⟩ := Option.map_eq_some_iff.1 hv
      exact S _

theorem jump_all {mn : Mn} {l : Nat} (h : mn = .jmp ∨ mn = .je) : Emitted ⟨mn, [.abs (some l) 0]⟩ := by
  rcases h with rfl | rfl
  · exact emitted .jmp [.target] (by decide) rfl ⟨rfl, trivial⟩
  · exact emitted .je [.target] (by decide) rfl ⟨rfl, trivial⟩

theorem epilogue_all {f : Func} (h : f.layout.frame < 2147483648) : All (Verif.Frame.epilogue f.layout) := by
  unfold Verif.Frame.epilogue
  refine .append ?_ (sample (by decide +kernel))
  split
  · next off ho =>
    have := (FuncCode.ranges_of f).slot off ho
    exact .one (emitted .movq [.mem, .any 8] (by decide) rfl
      ⟨fits_mem ⟨by omega, by omega⟩ (fun _ h0 => by omega), rfl, trivial⟩)
  · exact .nil

theorem prologue_all {f : Func} (h : FuncWithin f) : All (Verif.Frame.prologue f.layout) := by
  unfold Verif.Frame.prologue
  have h1 := h.frame
  have h2 := h.align
  refine .append (.append (.append (sample (by decide +kernel)) ?_) (sample (by decide +kernel))) ?_
  · split
    · next off ho =>
      have := (FuncCode.ranges_of f).slot off ho
      refine .cons (sample (c := [⟨.movq, [R8 .rsp, R8 .rbp]⟩]) (by decide +kernel) _ (by simp)) (.cons ?_ (.one ?_))
      · exact emitted .andq [imm32, .low 8] (by decide) rfl
          ⟨fits_imm (by omega) (by omega) (by omega) (by omega), ⟨rfl, by decide⟩, trivial⟩
      · exact emitted .movq [.any 8, .mem] (by decide) rfl
          ⟨rfl, fits_mem ⟨by omega, by omega⟩ (fun _ h0 => by omega), trivial⟩
    · exact .nil
  · split
    · exact .one (emitted .subq [imm32, .low 8] (by decide) rfl
        ⟨fits_imm (by omega) (by omega) (by omega) (by omega), ⟨rfl, by decide⟩, trivial⟩)
    · exact .nil

theorem end_all {f : Func} (h : FuncWithin f) {b : FuncCode.Block} (hb : b ∈ f.blocks) {next : Option Nat} {c : List Ins}
    (hc : FuncCode.endCode f b next = .ok c) : All c := by
  unfold FuncCode.endCode at hc
  split at hc
  · injection hc with hc; subst hc; exact sample (by decide +kernel)
  · next regs he =>
    obtain ⟨c1, h1, hc⟩ := Res.bind_eq_ok.1 hc
    injection hc with hc; subst hc
    exact .append (setRegs_all (regs_ok h.frame (h.rets b hb regs he)) h1) (epilogue_all h.frame)
  · split at hc
    · cases hc
    · obtain ⟨c1, h1, hc⟩ := Res.bind_eq_ok.1 hc
      injection hc with hc; subst hc
      refine .append (phiCode_all h.frame h1) ?_
      split
      · exact .nil
      · exact .one (jump_all (.inl rfl))
  · obtain ⟨c1, h1, hc⟩ := Res.bind_eq_ok.1 hc
    injection hc with hc; subst hc
    exact .append (scalarToReg_all (slot_small f h.frame _) h1)
      (.cons (sample (c := [⟨.testq, [R8 .rdi, R8 .rdi]⟩]) (by decide +kernel) _ (by simp))
        (.cons (jump_all (.inr rfl)) (.one (jump_all (.inl rfl)))))

/-- Everything in a list of lines has one of the forms. -/
def AllItems (is : List Item) : Prop := ∀ i, .ins i ∈ is → Emitted i

theorem blocks_all {f : Func} (h : FuncWithin f) : ∀ {bs : List FuncCode.Block} {is : List Item}, (∀ b ∈ bs, b ∈ f.blocks) →
    FuncCode.blocks f bs = .ok is → AllItems is
  | [], is, _, hc => by
    simp only [FuncCode.blocks] at hc; injection hc with hc; subst hc
    intro i hi; cases hi
  | b :: bs, is, hb, hc => by
    simp only [FuncCode.blocks] at hc
    obtain ⟨c1, h1, hc⟩ := Res.bind_eq_ok.1 hc
    obtain ⟨r, h2, hc⟩ := Res.bind_eq_ok.1 hc
    injection hc with hc; subst hc
    unfold FuncCode.block at h1
    obtain ⟨c, hi, h1⟩ := Res.bind_eq_ok.1 h1
    obtain ⟨e, he, h1⟩ := Res.bind_eq_ok.1 h1
    injection h1 with h1; subst h1
    have ha : All (c ++ e) := .append (instructions_all h.frame (h.nodes b (hb b (by simp))) hi) (end_all h (hb b (by simp)) he)
    intro i hi
    rcases List.mem_append.1 hi with hi | hi
    · rcases List.mem_cons.1 hi with hi | hi
      · cases hi
      · obtain ⟨x, hx, hx2⟩ := List.mem_map.1 hi
        injection hx2 with hx2; subst hx2
        exact ha _ hx
    · exact blocks_all h (fun x hx => hb x (List.mem_cons_of_mem _ hx)) h2 i hi

theorem function_all {f : Func} (h : FuncWithin f) {is : List Item} (hc : FuncCode.function f = .ok is) : AllItems is := by
  unfold FuncCode.function at hc
  obtain ⟨c, h1, hc⟩ := Res.bind_eq_ok.1 hc
  injection hc with hc; subst hc
  intro i hi
  rcases List.mem_append.1 hi with hi | hi
  · rcases List.mem_cons.1 hi with hi | hi
    · cases hi
    · obtain ⟨x, hx, hx2⟩ := List.mem_map.1 hi
      injection hx2 with hx2; subst hx2
      exact All.append (prologue_all h) (getRegs_all (regs_ok h.frame h.gets)) _ hx
  · exact blocks_all h (fun _ hb => hb) h1 i hi

theorem asmItems_ok {ids : Nat → Int} {global : Nat → Bool} : ∀ {is : List Item}, AllItems is →
    ∃ ops, asmItems ids global is = .ok ops
  | [], _ => ⟨[], rfl⟩
  | x :: xs, h => by
    obtain ⟨b, hb⟩ := asmItems_ok (ids := ids) (global := global) (is := xs) (fun i hi => h i (List.mem_cons_of_mem _ hi))
    have : ∃ a, asmItem ids global x = .ok a := by
      cases x with
      | label l => exact ⟨_, rfl⟩
      | ins i => exact emitted_assembles (h i (by simp)) ids
    obtain ⟨a, ha⟩ := this
    exact ⟨a ++ b, by simp only [asmItems, ha, hb, Res.bind_ok]; rfl⟩

end Verif.Assemble
