import Verif.VaArgSpec
import Verif.ConventionLemmas
import Verif.MemoryProps
import Verif.CondLemmas
import Verif.CallLemmas
/-!
Lemmas about variadic arguments.
-/
namespace Verif.VaArg
open Verif Asm X86 Codegen CodegenSpec Memory MemorySpec VaArgSpec
open Verif.Convention (Ty)
open Verif.Cond (runC_exec runC_append)

theorem exec_ld32 (F : FP) (s : State) (o : Nat) (b r : Reg) :
    exec F ⟨.movl, [MEM o b, R4 r]⟩ s = .ok (s.set r (BitVec.ofNat 64 (rd s.mem (s.reg b + BitVec.ofNat 64 o) 4))) := by
  have hl := rd_lt s.mem (s.reg b + BitVec.ofNat 64 o) 4
  rw [MEM, R4, exec_movl]
  simp only [mov, legal, getOp, putOp, if_true, addr_nat, merge32, Option.bind_eq_bind, Option.bind_some, Out.of_some]
  congr 2
  apply BitVec.eq_of_toNat_eq
  simp only [BitVec.toNat_setWidth, BitVec.toNat_ofNat, show (32 / 8 : Nat) = 4 by decide]
  generalize rd s.mem (s.reg b + BitVec.ofNat 64 o) 4 = x at hl ⊢
  omega

theorem exec_ld64 (F : FP) (s : State) (o : Nat) (b r : Reg) :
    exec F ⟨.movq, [MEM o b, R8 r]⟩ s = .ok (s.set r (BitVec.ofNat 64 (rd s.mem (s.reg b + BitVec.ofNat 64 o) 8))) := by
  rw [MEM, R8, exec_movq_mr]
  simp [mov, legal, getOp, putOp, addr_nat, merge64]

theorem exec_st64 (F : FP) (s : State) (o : Int) (b r : Reg) :
    exec F ⟨.movq, [R8 r, MEM o b]⟩ s = .ok (s.store (s.reg b + BitVec.ofInt 64 o) 8 (s.reg r).toNat) := by
  rw [MEM, R8, exec_movq_rm]
  simp [mov, legal, getOp, putOp, State.addr]

theorem exec_st32 (F : FP) (s : State) (o : Nat) (b r : Reg) :
    exec F ⟨.movl, [R4 r, MEM o b]⟩ s = .ok (s.store (s.reg b + BitVec.ofNat 64 o) 4 ((s.reg r).toNat % 2 ^ 32)) := by
  rw [MEM, R4, exec_movl]
  simp [mov, legal, getOp, putOp, addr_nat]

theorem exec_im32 (F : FP) (s : State) (o : Nat) (b : Reg) (v : Nat) (hv : v < 2 ^ 32) :
    exec F ⟨.movl, [IMM v, MEM o b]⟩ s = .ok (s.store (s.reg b + BitVec.ofNat 64 o) 4 v) := by
  rw [MEM, IMM, exec_movl]
  simp only [mov, legal, getOp, putOp, addr_nat, if_true, Option.bind_eq_bind, Option.bind_some, Out.of_some,
    BitVec.ofInt_natCast, BitVec.toNat_ofNat, show (32 / 8 : Nat) = 4 by decide]
  rw [Nat.mod_eq_of_lt hv]

/-- State after the argument was found in the save area. -/
theorem run_fromRegs_in (F : FP) (n st fe : Nat) (hn : n ≤ 6) (rest : List Ins) (s : State) (g : Nat)
    (hg : rd s.mem (s.reg .rdi) 4 = g) (hle : g + 8 * n ≤ 48) :
    ∃ s', runC F (fromRegs n st fe ++ rest) s = .ok (s', .jump fe) ∧
      s'.reg .rax = BitVec.ofNat 64 (rd s.mem (s.reg .rdi + 16) 8) + BitVec.ofNat 64 g ∧
      s'.mem = wr s.mem (s.reg .rdi) 4 (g + 8 * n) ∧
      ∀ r, r ≠ .rax → r ≠ .rdx → s'.reg r = s.reg r := by
  have h1 : exec F ⟨.movl, [MEM 0 .rdi, R4 .rax]⟩ s = .ok (s.set .rax (BitVec.ofNat 64 g)) := by
    have := exec_ld32 F s 0 .rdi .rax
    simp only [BitVec.ofNat_eq_ofNat, BitVec.add_zero, hg] at this
    exact this
  have h2 : exec F ⟨.cmpl, [IMM (48 - 8 * (n : Int)), R4 .rax]⟩ (s.set .rax (BitVec.ofNat 64 g)) =
      .ok { s.set .rax (BitVec.ofNat 64 g) with fl := some (cmpFlags (BitVec.ofNat 32 g) (BitVec.ofNat 32 (48 - 8 * n))) } := by
    rw [IMM, R4, exec_cmpl]
    simp only [cmpIns, legal, getOp, if_true, Option.bind_eq_bind, Option.bind_some, set_reg, Option.pure_def, Out.of_some]
    have e1 : BitVec.setWidth 32 (BitVec.ofNat 64 g) = BitVec.ofNat 32 g := by
      apply BitVec.eq_of_toNat_eq; simp only [BitVec.toNat_setWidth, BitVec.toNat_ofNat]; omega
    have e2 : BitVec.ofInt 32 (48 - 8 * (n : Int)) = BitVec.ofNat 32 (48 - 8 * n) := by
      rw [← BitVec.ofInt_natCast]; congr 1; omega
    rw [e1, e2]
  have hcc : (fun f : Flags => !f.cf && !f.zf) (cmpFlags (BitVec.ofNat 32 g) (BitVec.ofNat 32 (48 - 8 * n))) = false := by
    show (!(cmpFlags _ _).cf && !(cmpFlags _ _).zf) = false
    rw [cc_a]
    simp only [decide_eq_false_iff_not, BitVec.toNat_ofNat]
    omega
  unfold fromRegs
  simp only [List.cons_append, List.nil_append]
  rw [runC_exec h1, runC_exec h2, runC, jcc]
  simp only [hcc, Bool.false_eq_true, if_false]
  have h3 : ∀ t : State, t.reg .rax = BitVec.ofNat 64 g → exec F ⟨.leal, [MEM (n * 8 : Nat) .rax, R4 .rdx]⟩ t =
      .ok (t.set .rdx (BitVec.ofNat 64 (g + 8 * n))) := by
    intro t ht
    rw [MEM, R4, exec_leal, addr_nat, ht]
    congr 2
    apply BitVec.eq_of_toNat_eq
    simp only [BitVec.toNat_setWidth, BitVec.toNat_ofNat, BitVec.toNat_add]
    omega
  rw [runC_exec (h3 _ (by simp))]
  have h4 : ∀ t : State, exec F ⟨.addq, [MEM 16 .rdi, R8 .rax]⟩ t =
      .ok { t.set .rax (t.reg .rax + BitVec.ofNat 64 (rd t.mem (t.reg .rdi + 16) 8)) with fl := none } := by
    intro t
    rw [MEM, R8, exec_addq]
    simp only [alu, legal, getOp, putOp, if_true, Option.bind_eq_bind, Option.bind_some, Option.pure_def, Out.of_some, merge64,
      BitVec.setWidth_eq]
    rfl
  rw [runC_exec (h4 _)]
  have h5 : ∀ t : State, exec F ⟨.movl, [R4 .rdx, MEM 0 .rdi]⟩ t =
      .ok (t.store (t.reg .rdi) 4 ((t.reg .rdx).toNat % 2 ^ 32)) := by
    intro t
    have := exec_st32 F t 0 .rdi .rdx
    simp only [BitVec.ofNat_eq_ofNat, BitVec.add_zero] at this
    exact this
  rw [runC_exec (h5 _), runC]
  refine ⟨_, rfl, ?_, ?_, ?_⟩
  · simp only [store_reg, set_reg, set_mem]
    simp [BitVec.add_comm]
  · simp only [store_mem, set_mem, set_reg]
    simp only [reduceCtorEq, if_false, if_true, BitVec.toNat_ofNat]
    rw [show (g + 8 * n) % 2 ^ 64 % 2 ^ 32 = g + 8 * n by omega]
  · intro r hr hr'
    simp [hr, hr']

/-- State after the save area turned out to be used up. -/
theorem run_fromRegs_out (F : FP) (n st fe : Nat) (hn : n ≤ 6) (rest : List Ins) (s : State) (g : Nat)
    (hg : rd s.mem (s.reg .rdi) 4 = g) (hgt : 48 < g + 8 * n) :
    ∃ s', runC F (fromRegs n st fe ++ rest) s = .ok (s', .jump st) ∧ s'.mem = s.mem ∧
      ∀ r, r ≠ .rax → s'.reg r = s.reg r := by
  have hlt : g < 2 ^ 32 := by rw [← hg]; exact rd_lt s.mem _ 4
  have h1 : exec F ⟨.movl, [MEM 0 .rdi, R4 .rax]⟩ s = .ok (s.set .rax (BitVec.ofNat 64 g)) := by
    have := exec_ld32 F s 0 .rdi .rax
    simp only [BitVec.ofNat_eq_ofNat, BitVec.add_zero, hg] at this
    exact this
  have h2 : exec F ⟨.cmpl, [IMM (48 - 8 * (n : Int)), R4 .rax]⟩ (s.set .rax (BitVec.ofNat 64 g)) =
      .ok { s.set .rax (BitVec.ofNat 64 g) with fl := some (cmpFlags (BitVec.ofNat 32 g) (BitVec.ofNat 32 (48 - 8 * n))) } := by
    rw [IMM, R4, exec_cmpl]
    simp only [cmpIns, legal, getOp, if_true, Option.bind_eq_bind, Option.bind_some, set_reg, Option.pure_def, Out.of_some]
    have e1 : BitVec.setWidth 32 (BitVec.ofNat 64 g) = BitVec.ofNat 32 g := by
      apply BitVec.eq_of_toNat_eq; simp only [BitVec.toNat_setWidth, BitVec.toNat_ofNat]; omega
    have e2 : BitVec.ofInt 32 (48 - 8 * (n : Int)) = BitVec.ofNat 32 (48 - 8 * n) := by
      rw [← BitVec.ofInt_natCast]; congr 1; omega
    rw [e1, e2]
  have hcc : (fun f : Flags => !f.cf && !f.zf) (cmpFlags (BitVec.ofNat 32 g) (BitVec.ofNat 32 (48 - 8 * n))) = true := by
    show (!(cmpFlags _ _).cf && !(cmpFlags _ _).zf) = true
    rw [cc_a]
    simp only [decide_eq_true_eq, BitVec.toNat_ofNat]
    omega
  unfold fromRegs
  simp only [List.cons_append, List.nil_append]
  rw [runC_exec h1, runC_exec h2, runC, jcc]
  simp only [hcc, if_true]
  refine ⟨_, rfl, rfl, ?_⟩
  intro r hr
  simp [hr]

/-- State after the argument was found in the overflow area. -/
theorem run_fromStack (F : FP) (size : Nat) (s : State) :
    ∃ s', run F (fromStack size) s = .ok s' ∧ s'.reg .rax = BitVec.ofNat 64 (rd s.mem (s.reg .rdi + 8) 8) ∧
      s'.mem = wr s.mem (s.reg .rdi + 8) 8 (BitVec.ofNat 64 (rd s.mem (s.reg .rdi + 8) 8) +
        BitVec.ofNat 64 (Convention.round size 8)).toNat ∧
      ∀ r, r ≠ .rax → r ≠ .rdx → s'.reg r = s.reg r := by
  have h1 := exec_ld64 F s 8 .rdi .rax
  generalize hx : BitVec.ofNat 64 (rd s.mem (s.reg .rdi + BitVec.ofNat 64 8) 8) = x at h1
  have h2 : exec F ⟨.leaq, [MEM (Convention.round size 8 : Nat) .rax, R8 .rdx]⟩ (s.set .rax x) =
      .ok ((s.set .rax x).set .rdx (x + BitVec.ofNat 64 (Convention.round size 8))) := by
    rw [MEM, R8, exec_leaq, addr_nat]
    rfl
  have h3 := exec_st64 F ((s.set .rax x).set .rdx (x + BitVec.ofNat 64 (Convention.round size 8))) 8 .rdi .rdx
  have h1' : exec F ⟨.movq, [MEM 8 .rdi, R8 .rax]⟩ s = .ok (s.set .rax x) := h1
  have hx' : BitVec.ofNat 64 (rd s.mem (s.reg .rdi + 8) 8) = x := hx
  refine ⟨_, by
    unfold fromStack
    rw [run_cons, h1', Out.bind_ok, run_cons, h2, Out.bind_ok, run_cons, h3, Out.bind_ok, run_nil], ?_, ?_, ?_⟩
  · simp [hx]
  · simp only [store_mem, set_mem, set_reg]
    simp [hx]
  · intro r hr hr'
    simp [hr, hr']

/-- The copy at the end. -/
theorem run_fetch (F : FP) (dst : Slot) (hd : dst.size = 8) (size : Nat) (hs : size ≤ 2 ^ 30) :
    ∃ c2, scalarToReg dst .rsi = .ok c2 ∧ ∀ s : State,
      NoPartialOverlap (s.reg .rax) (target s dst) size →
      ∃ s', runC F ([⟨.movq, [R8 .rax, R8 .rdi]⟩] ++ c2 ++ memcpy size) s = .ok (s', .fall) ∧
        s'.mem = copied s.mem (s.reg .rax) (target s dst) size ∧
        ∀ r, r ≠ .rax → r ≠ .rsi → r ≠ .rdi → s'.reg r = s.reg r := by
  obtain ⟨c, e, l⟩ := run_load F dst .rsi (by rw [hd]; simp [ScalarSize])
  refine ⟨c, e, fun s ho => ?_⟩
  have h1 : exec F ⟨.movq, [R8 .rax, R8 .rdi]⟩ s = .ok (s.set .rdi (s.reg .rax)) := by
    rw [R8, R8, exec_movq_rr]
    simp [mov, legal, getOp, putOp, merge64]
  have h2 : run F c (s.set .rdi (s.reg .rax)) = .ok ((s.set .rdi (s.reg .rax)).set .rsi (target s dst)) := by
    rw [l, hd, slotAddr_set _ _ _ _ (by decide)]
    rfl
  obtain ⟨v, hv⟩ := memcpy_copies F size (by omega) ((s.set .rdi (s.reg .rax)).set .rsi (target s dst)) (by simpa using ho)
  refine ⟨_, by
    rw [List.append_assoc, List.singleton_append, runC_exec h1, runC_append h2]
    have := runC_append (b := []) hv
    rw [List.append_nil] at this
    rw [this, runC], ?_, ?_⟩
  · simp
  · intro r h1 h2 h3
    simp [h1, h2, h3]

/-! Where arguments are. -/

open ConventionSpec
open Verif.Convention (used memOf_disjoint eights_eq RegInfo Place)
open Verif.Classify (Class)
open Verif.Call (Dest)

/-- Stack bytes used after some arguments. -/
def bytesUsed (gp sse off : Nat) : List Ty → Nat
  | [] => off
  | t :: ts =>
    if t.classes ≠ [.memory] ∧ gp + need .integer t ≤ 6 ∧ sse + need .sse t ≤ 8 then
      bytesUsed (gp + need .integer t) (sse + need .sse t) off ts
    else bytesUsed gp sse (off + up t.size 8) ts

theorem up_off (off a : Nat) (ha : a ≤ 8) (h : off % 8 = 0) : up off (max 8 a) = off := by
  rw [show max 8 a = 8 by omega]
  exact Convention.up_self off 8 (by omega) h

theorem place_append (N V : List Ty) (ha : ∀ t ∈ N, t.align ≤ 8) : ∀ gp sse off, off % 8 = 0 → gp ≤ 6 → sse ≤ 8 →
    place (intRegs.drop gp) (sseRegs.drop sse) off (N ++ V) =
      place (intRegs.drop gp) (sseRegs.drop sse) off N ++
      place (intRegs.drop (used gp sse N).1) (sseRegs.drop (used gp sse N).2) (bytesUsed gp sse off N) V := by
  induction N with
  | nil => intros; rfl
  | cons t N ih =>
    intro gp sse off ho hg hs
    have ih := ih fun d hd => ha d (by simp [hd])
    rw [List.cons_append, place, place, used, bytesUsed, Convention.int_left, Convention.sse_left]
    by_cases h : t.classes ≠ [.memory] ∧ gp + need .integer t ≤ 6 ∧ sse + need .sse t ≤ 8
    · have h' : t.classes ≠ [.memory] ∧ need .integer t ≤ 6 - gp ∧ need .sse t ≤ 8 - sse := ⟨h.1, by omega, by omega⟩
      rw [if_pos h, if_pos h, if_pos h', if_pos h', List.drop_drop, List.drop_drop, ih _ _ _ ho h.2.1 h.2.2]
      rfl
    · have h' : ¬ (t.classes ≠ [.memory] ∧ need .integer t ≤ 6 - gp ∧ need .sse t ≤ 8 - sse) :=
        fun x => h ⟨x.1, by omega, by omega⟩
      rw [if_neg h, if_neg h, if_neg h', if_neg h']
      simp only [up_off off t.align (ha t (by simp)) ho]
      have hu := Convention.up_mod t.size 8
      rw [ih gp sse (off + up t.size 8) (by omega) hg hs]
      rfl

theorem place_length (ts : List Ty) : ∀ is ss off, (place is ss off ts).length = ts.length := by
  induction ts with
  | nil => intros; rfl
  | cons t ts ih =>
    intro is ss off
    rw [place]
    split <;> simp [ih]

theorem memOf_append (l1 l2 : List Loc) : ∀ i, memOf i (l1 ++ l2) = memOf i l1 ++ memOf (i + l1.length) l2 := by
  induction l1 with
  | nil => intro i; rfl
  | cons a l1 ih =>
    intro i
    cases a <;> simp [memOf, ih, Nat.add_assoc, Nat.add_comm 1]

theorem regsOf_append (N V : List Ty) (l1 l2 : List Loc) : ∀ i, l1.length = N.length →
    regsOf i (N ++ V) (l1 ++ l2) = regsOf i N l1 ++ regsOf (i + N.length) V l2 := by
  induction N generalizing l1 with
  | nil =>
    intro i h
    cases l1 with
    | nil => rfl
    | cons _ _ => simp at h
  | cons t N ih =>
    intro i h
    cases l1 with
    | nil => simp at h
    | cons a l1 =>
      simp only [List.length_cons, Nat.add_right_cancel_iff] at h
      cases a <;> simp [regsOf, ih l1 _ h, Nat.add_assoc, Nat.add_comm 1]

theorem used_le (ts : List Ty) : ∀ gp sse, gp ≤ 6 → sse ≤ 8 → (used gp sse ts).1 ≤ 6 ∧ (used gp sse ts).2 ≤ 8 := by
  induction ts with
  | nil => intro gp sse h1 h2; exact ⟨h1, h2⟩
  | cons t ts ih =>
    intro gp sse h1 h2
    rw [used]
    split
    · next h => exact ih _ _ h.2.1 h.2.2
    · exact ih _ _ h1 h2

theorem bytesUsed_mod (ts : List Ty) : ∀ gp sse off, off % 8 = 0 → bytesUsed gp sse off ts % 8 = 0 := by
  induction ts with
  | nil => intro gp sse off h; exact h
  | cons t ts ih =>
    intro gp sse off h
    rw [bytesUsed]
    split
    · exact ih _ _ _ h
    · have := Convention.up_mod t.size 8
      exact ih _ _ _ (by omega)

/-- The stack bytes are what the compiler adds up. -/
theorem bytesUsed_sum (args ts : List Ty) (ha : ∀ t ∈ ts, t.align ≤ 8) : ∀ i gp sse off, gp ≤ 6 → sse ≤ 8 → off % 8 = 0 →
    (∀ k, k < ts.length → args[i + k]? = ts[k]?) →
    bytesUsed gp sse off ts = off + ((Convention.stackIdx i (place (intRegs.drop gp) (sseRegs.drop sse) off ts)).map
      fun i => Convention.round ((args[i]?.map (·.size)).getD 0) 8).sum := by
  induction ts with
  | nil => intros; rfl
  | cons t ts ih =>
    intro i gp sse off hg hss ho hat
    have ih := ih fun d hd => ha d (by simp [hd])
    have hat' : ∀ k, k < ts.length → args[i + 1 + k]? = ts[k]? := by
      intro k hk
      have := hat (k + 1) (by simp; omega)
      rw [show i + 1 + k = i + (k + 1) by omega, this]
      simp
    have hs : (args[i]?.map (·.size)).getD 0 = t.size := by
      have := hat 0 (by simp)
      simp only [Nat.add_zero] at this
      simp [this]
    rw [bytesUsed, place, Convention.int_left, Convention.sse_left]
    by_cases h : t.classes ≠ [.memory] ∧ gp + need .integer t ≤ 6 ∧ sse + need .sse t ≤ 8
    · have h' : t.classes ≠ [.memory] ∧ need .integer t ≤ 6 - gp ∧ need .sse t ≤ 8 - sse := ⟨h.1, by omega, by omega⟩
      rw [if_pos h, if_pos h', ih (i + 1) _ _ off h.2.1 h.2.2 ho hat', List.drop_drop, List.drop_drop]
      rfl
    · have h' : ¬ (t.classes ≠ [.memory] ∧ need .integer t ≤ 6 - gp ∧ need .sse t ≤ 8 - sse) :=
        fun x => h ⟨x.1, by omega, by omega⟩
      rw [if_neg h, if_neg h']
      have hu := Convention.up_mod t.size 8
      simp only [up_off off t.align (ha t (by simp)) ho]
      rw [ih (i + 1) gp sse (off + up t.size 8) hg hss (by omega) hat']
      simp only [Convention.stackIdx, memOf, List.map_cons, List.sum_cons, hs, Convention.round_eq _ _ (by omega : 0 < 8)]
      omega

theorem eights_get (i size : Nat) (rs : List Dest) : ∀ j m r, rs[m]? = some r →
    (⟨r, some (i, 8 * (j + m)), min (size - 8 * (j + m)) 8⟩ : RegInfo) ∈ Convention.eights i size j rs := by
  induction rs with
  | nil => intro j m r h; simp at h
  | cons a rs ih =>
    intro j m r h
    cases m with
    | zero =>
      simp at h
      subst h
      exact List.mem_cons_self ..
    | succ m =>
      simp at h
      have := ih (j + 1) m r h
      rw [show j + 1 + m = j + (m + 1) by omega] at this
      exact List.mem_cons_of_mem _ this

theorem assign_int (cs : List Class) (h : ∀ c ∈ cs, c = .integer) : ∀ (is ss : List Dest) (m : Nat), m < cs.length →
    m < is.length → (assign cs is ss)[m]? = is[m]? := by
  induction cs with
  | nil => intro is ss m hm; simp at hm
  | cons c cs ih =>
    intro is ss m hm hi
    have hc := h c (by simp)
    subst hc
    cases is with
    | nil => simp at hi
    | cons a is =>
      rw [assign]
      cases m with
      | zero => rfl
      | succ m =>
        simp only [List.getElem?_cons_succ]
        exact ih (fun d hd => h d (by simp [hd])) is ss m (by simpa using hm) (by simpa using hi)

/-- Every variadic argument is where `va_arg` looks for it. -/
theorem walk_finds (V : List Ty) (hv : ∀ t ∈ V, Supported t) (ha : ∀ t ∈ V, t.align ≤ 8) : ∀ i gp ss off, gp ≤ 6 → off % 8 = 0 →
    ∀ j t, V[j]? = some t → ∃ src, (walk ⟨8 * gp, off⟩ V)[j]? = some src ∧
      ((∃ o, src = .over o ∧ (i + j, o) ∈ memOf i (place (intRegs.drop gp) ss off V)) ∨
       (∃ g, src = .save (8 * g) ∧ ∀ k, k < t.size → ∃ r ∈ regsOf i V (place (intRegs.drop gp) ss off V),
          intRegs[g + k / 8]? = some r.reg ∧ r.part = some (i + j, 8 * (k / 8)) ∧ k % 8 < r.size)) := by
  induction V with
  | nil => intro i gp ss off _ _ j t h; simp at h
  | cons u V ih =>
    intro i gp ss off hg ho j t hj
    have ih := ih (fun d hd => hv d (by simp [hd])) (fun d hd => ha d (by simp [hd]))
    have hsse : need .sse u = 0 := by
      rcases hv u (by simp) with h | ⟨_, h, _⟩
      · simp [need, h]
      · simp only [need, List.length_eq_zero_iff, List.filter_eq_nil_iff]
        intro c hc
        simp [h c hc]
    by_cases hfit : u.classes ≠ [.memory] ∧ gp + u.classes.length ≤ 6
    · rcases hv u (by simp) with h | ⟨hne, hc, hl, hsz⟩
      · exact absurd h hfit.1
      have hint : need .integer u = u.classes.length := by
        simp only [need]
        rw [List.filter_eq_self.2]
        intro c hx
        simp [hc c hx]
      rw [walk, next, if_pos ⟨hfit.1, by simp only; omega⟩, place,
        if_pos (show u.classes ≠ [.memory] ∧ need .integer u ≤ (intRegs.drop gp).length ∧ need .sse u ≤ ss.length from
          ⟨hfit.1, by rw [Convention.int_left]; omega, by omega⟩), hint, List.drop_drop, hsse, List.drop_zero]
      cases j with
      | zero =>
        simp only [List.getElem?_cons_zero, Option.some.injEq] at hj
        subst hj
        refine ⟨_, rfl, .inr ⟨gp, rfl, fun k hk => ?_⟩⟩
        have hm : k / 8 < u.classes.length := by omega
        have hget : (intRegs.drop gp)[k / 8]? = intRegs[gp + k / 8]? := by rw [List.getElem?_drop]
        have hlt : gp + k / 8 < intRegs.length := by simp only [intRegs, List.length_cons, List.length_nil]; omega
        obtain ⟨r, hr⟩ : ∃ r, intRegs[gp + k / 8]? = some r := ⟨_, List.getElem?_eq_getElem hlt⟩
        have has := assign_int u.classes hc (intRegs.drop gp) ss (k / 8) hm (by rw [Convention.int_left]; omega)
        rw [hget, hr] at has
        have := eights_get i u.size (assign u.classes (intRegs.drop gp) ss) 0 (k / 8) r has
        rw [Nat.zero_add] at this
        refine ⟨_, List.mem_append.2 (.inl (by rw [eights_eq]; exact this)), hr, rfl, ?_⟩
        simp only
        omega
      | succ j =>
        simp only [List.getElem?_cons_succ] at hj
        obtain ⟨src, h1, h2⟩ := ih (i + 1) (gp + u.classes.length) ss off hfit.2 ho j t hj
        refine ⟨src, ?_, ?_⟩
        · simp only [List.getElem?_cons_succ]
          rw [Nat.mul_add] at h1
          exact h1
        · rw [show i + 1 + j = i + (j + 1) by omega] at h2
          rcases h2 with ⟨o, e, hm⟩ | ⟨g, e, hm⟩
          · exact .inl ⟨o, e, hm⟩
          · refine .inr ⟨g, e, fun k hk => ?_⟩
            obtain ⟨r, hr, x⟩ := hm k hk
            exact ⟨r, List.mem_append.2 (.inr hr), x⟩
    · have hnf : ¬ (u.classes ≠ [.memory] ∧ need .integer u ≤ (intRegs.drop gp).length ∧ need .sse u ≤ ss.length) := by
        rintro ⟨h1, h2, h3⟩
        rcases hv u (by simp) with h | ⟨hne, hc, hl, hsz⟩
        · exact h1 h
        · have hint : need .integer u = u.classes.length := by
            simp only [need]
            rw [List.filter_eq_self.2]
            intro c hx
            simp [hc c hx]
          rw [hint, Convention.int_left] at h2
          exact hfit ⟨h1, by omega⟩
      have hu := Convention.up_mod u.size 8
      rw [walk, next, if_neg (fun h => hfit ⟨h.1, by have := h.2; simp only at this; omega⟩), place, if_neg hnf]
      simp only [up_off off u.align (ha u (by simp)) ho]
      cases j with
      | zero => exact ⟨_, rfl, .inl ⟨off, rfl, List.mem_cons_self ..⟩⟩
      | succ j =>
        simp only [List.getElem?_cons_succ] at hj
        obtain ⟨src, h1, h2⟩ := ih (i + 1) gp ss (off + up u.size 8) hg (by omega) j t hj
        refine ⟨src, by simpa using h1, ?_⟩
        rw [show i + 1 + j = i + (j + 1) by omega] at h2
        rcases h2 with ⟨o, e, hm⟩ | ⟨g, e, hm⟩
        · exact .inl ⟨o, e, List.mem_cons_of_mem _ hm⟩
        · exact .inr ⟨g, e, hm⟩

end Verif.VaArg
