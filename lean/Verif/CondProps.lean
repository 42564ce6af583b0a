import Verif.CondLemmas
import Verif.SwitchLemmas
/-!
Properties of conditions (C30) and of `switch` dispatch (C31) in generated code.
-/
namespace Verif.Cond
open Verif Asm X86 Simple SimpleSpec Codegen CodegenSpec CastSpec CondSpec Cast Memory

/-! ### C30 -/

/-- Not a negative zero. -/
def NotNegZero (t : Option ST) (s : State) (c : Slot) : Prop :=
  ∀ st f n, t = some st → fmtOf st = some (f, n) → slotFlt n s c ≠ 2 ^ (8 * n - 1)

/-- C30 for `if`, `?:`, `!`, `&&`, `||`: every scalar type and value except -0.0. -/
theorem if_condition_partial (abi : Abi) (F : FP) (t : Option ST) (c : Slot) (s : State) (lt lf : Nat)
    (h : Holds abi t s c) (hz : NotNegZero t s c) :
    Decides (ifCond c lt lf) F s ⟨0, 0⟩ (IsTrue abi t s c) lt lf := by
  obtain ⟨b, eb, hd⟩ := decides_of (F := F) (s := s) (s1 := s) (l := []) (o := c) (out := ⟨0, 0⟩)
    (p := IsTrue abi t s c) (lt := lt) (lf := lf) (holds_size h) rfl ⟨rfl, rfl, fun _ _ => rfl⟩ (by
      cases t with
      | none => simp only [Holds] at h; rw [h]; exact Iff.rfl
      | some t =>
        simp only [Holds] at h
        simp only [IsTrue]
        cases hf : fmtOf t with
        | some p =>
          obtain ⟨f, n⟩ := p
          rw [hf] at h
          simp only at h ⊢
          have hlt := rd_lt s.mem (slotAddr s c) n
          have h6 := (flt_facts (abi := abi) hf).2.2.2.2.2.1
          rw [show (256 : Nat) = 2 ^ 8 by rfl, ← Nat.pow_mul, h6] at hlt
          have hz' := hz t f n rfl hf
          rw [show 8 * n - 1 = f.mb + f.eb by omega] at hz'
          rw [h]
          exact not_congr (cmp_zero hlt hz')
        | none =>
          rw [hf] at h
          simp only at h ⊢
          rw [h.2.1]
          exact not_congr (bits_zero h.1 s c).symm)
  unfold ifCond
  rw [eb]
  exact hd

example : Holds .sysv (some .short) (twoSlots 0x8000 0) ⟨2, 8⟩ ∧ IsTrue .sysv (some .short) (twoSlots 0x8000 0) ⟨2, 8⟩ := by
  decide +kernel

/-- C30 fails for `-0.0`: `if (-0.0)` takes the true branch. -/
theorem if_condition_violated : ¬ IfConditions ifCond := by
  intro h
  exact not_decides (abi := .sysv) (by decide +kernel) (by decide +kernel)
    (h .sysv anyFP (some .double) ⟨8, 8⟩ (twoSlots (2 ^ 63) 0) 1 2 (by decide +kernel))

/-- C30 for `while`, `do` and `for`, integer conditions: right unless the value is a non-zero
multiple of 2^32 (so for every type of at most 32 bits). -/
theorem loop_condition_int_partial (abi : Abi) (F : FP) (t : ST) (c : Slot) (s : State) (loc lt lf : Nat)
    (hi : IsInt t) (h : Holds abi (some t) s c)
    (hv : slotVal abi t s c = 0 ∨ ¬ (2 ^ 32 : Int) ∣ slotVal abi t s c) :
    Decides (loopCond abi (some t) c loc lt lf) F s ⟨4, loc⟩ (IsTrue abi (some t) s c) lt lf := by
  have hf : fmtOf t = none := by revert hi; cases t <;> decide
  simp only [Holds, hf] at h
  refine loop_of (int_to_int abi F t .int c loc s hi (by decide) h.2.1 h.2.2) ?_
  rintro s' o ⟨ho, hc⟩
  have h4 : bytes abi .int = 4 := by cases abi <;> rfl
  rw [h4] at ho
  refine ⟨ho, ?_⟩
  have hb := bits_zero (abi := abi) (t := .int) (by decide) s' o
  rw [h4] at hb
  rw [Ne, hb]
  simp only [IsTrue, hf]
  have hw : width abi .int = 32 := by cases abi <;> rfl
  simp only [IsConversion, reduceCtorEq, if_false, InRange, inBits, signed, hw] at hc
  generalize slotVal abi t s c = v at *
  generalize slotVal abi .int s' o = w at *
  simp at hc
  omega

example : Holds .sysv (some .long) (twoSlots (2 ^ 32 + 1) 0) ⟨8, 8⟩ ∧
    ¬ (2 ^ 32 : Int) ∣ slotVal .sysv .long (twoSlots (2 ^ 32 + 1) 0) ⟨8, 8⟩ := by decide +kernel

/-- C30 for loops, pointer conditions: right unless the pointer is a non-zero multiple of
2^32. -/
theorem loop_condition_pointer_partial (abi : Abi) (F : FP) (c : Slot) (s : State) (loc lt lf : Nat)
    (h : Holds abi none s c)
    (hv : rd s.mem (slotAddr s c) 8 = 0 ∨ rd s.mem (slotAddr s c) 8 % 2 ^ 32 ≠ 0) :
    Decides (loopCond abi none c loc lt lf) F s ⟨4, loc⟩ (IsTrue abi none s c) lt lf := by
  simp only [Holds] at h
  obtain ⟨l, el, s', h1, h2, h3⟩ := zero_cast F c ⟨4, loc⟩ s (by rw [h]; decide) (by simp [ScalarSize])
  have hy : Yields abi F none (some .int) c loc s fun s' o =>
      o.size = 4 ∧ rd s'.mem (slotAddr s' o) 4 = rd s.mem (slotAddr s c) 8 % 2 ^ 32 := by
    refine .inr ⟨4, l, s', ?_, h1, h2, rfl, ?_⟩
    · simp only [castExpr, reduceCtorEq, if_false]
      rw [if_neg (by simp), if_pos (by rfl), if_pos (by cases abi <;> decide),
        show sizeT abi (some .int) = 4 by cases abi <;> rfl, el]
      rfl
    · rw [h] at h3; exact h3
  refine loop_of hy ?_
  rintro s' o ⟨ho, hc⟩
  refine ⟨ho, ?_⟩
  rw [hc]
  simp only [IsTrue]
  omega

example : Holds .sysv none (twoSlots 0x7fff12345678 0) ⟨8, 8⟩ ∧
    rd (twoSlots 0x7fff12345678 0).mem (slotAddr (twoSlots 0x7fff12345678 0) ⟨8, 8⟩) 8 % 2 ^ 32 ≠ 0 := by
  decide +kernel

/-- C30 for loops, floating conditions: right for 0 and for values with a non-zero integer
part that fits in `int`. -/
theorem loop_condition_float_partial (abi : Abi) (F : FP) (t : ST) (f : Float.Fmt) (n : Nat) (c : Slot) (s : State)
    (loc lt lf : Nat) (v : Int) (hf : fmtOf t = some (f, n)) (h : Holds abi (some t) s c)
    (ht : Float.trunc f (slotFlt n s c) = some v) (hr : InRange abi .int v)
    (hv : v = 0 ↔ Float.cmp f (slotFlt n s c) 0 = .eq) :
    Decides (loopCond abi (some t) c loc lt lf) F s ⟨4, loc⟩ (IsTrue abi (some t) s c) lt lf := by
  simp only [Holds, hf] at h
  have hw : width abi .int = 32 := by cases abi <;> rfl
  refine loop_of (float_to_int_partial abi F t .int f n c loc s v hf (by decide) (by decide) h ht hr (by
    simp only [InRange, inBits, signed, hw] at hr
    simp at hr; omega)) ?_
  rintro s' o ⟨ho, hc⟩
  have h4 : bytes abi .int = 4 := by cases abi <;> rfl
  rw [h4] at ho
  refine ⟨ho, ?_⟩
  have hb := bits_zero (abi := abi) (t := .int) (by decide) s' o
  rw [h4, hc] at hb
  rw [Ne, hb, hv]
  simp only [IsTrue, hf, Ne]

/-- The double 2.5. -/
def two5 : Nat := 0x4004000000000000

example : Float.trunc Float.f64 (slotFlt 8 (twoSlots two5 0) ⟨8, 8⟩) = some 2 ∧
    Float.cmp Float.f64 (slotFlt 8 (twoSlots two5 0) ⟨8, 8⟩) 0 ≠ .eq := by decide +kernel

/-- C30 fails for loops: `while (1L << 32)` does not enter its body. -/
theorem loop_condition_violated : ¬ LoopConditions loopCond := by
  intro h
  exact not_decides (abi := .sysv) (by decide +kernel) (by decide +kernel)
    (h .sysv anyFP (some .long) ⟨8, 8⟩ (twoSlots (2 ^ 32) 0) 100 1 2 (by decide +kernel))

/-- Nor does `while (0.5)`, nor `while (p)` for a pointer whose low 32 bits are 0. -/
theorem loop_half_violated : ¬ LoopConditions loopCond := by
  intro h
  exact not_decides (abi := .sysv) (by decide +kernel) (by decide +kernel)
    (h .sysv anyFP (some .double) ⟨8, 8⟩ (twoSlots 0x3fe0000000000000 0) 100 1 2 (by decide +kernel))

theorem loop_pointer_violated : ¬ LoopConditions loopCond := by
  intro h
  exact not_decides (abi := .sysv) (by decide +kernel) (by decide +kernel)
    (h .sysv anyFP none ⟨8, 8⟩ (twoSlots 0x700000000 0) 100 1 2 (by decide +kernel))

/-! ### C31 -/

theorem select_selects {abi : Abi} {t : ST} (ht : IsInt t) (hw : width abi t ≤ 32) (v w : Int) (last : Nat)
    (hv : InRange abi t v) (hwv : IsConversion abi .int v w) (ks : List Int) (cs : List Case)
    (h : Converted abi ks cs) : Selects abi t v last (ks.zip (cs.map (·.label))) (select w last cs) := by
  have hi : width abi .int = 32 := by cases abi <;> rfl
  have hp : IsInt (promoted abi t) ∧ promoted abi t ≠ .bool ∧ width abi (promoted abi t) = 32 ∧
      InRange abi (promoted abi t) v := by
    revert hv hw ht
    cases abi <;> cases t <;> simp [IsInt, width, promoted, InRange, inBits, signed] <;> omega
  have key : ∀ k k', IsConversion abi .int k k' → (Matches abi t v k ↔ w = k') := by
    intro k k' hk
    obtain ⟨h1, h2, h3, h4⟩ := hp
    unfold Matches
    simp only [IsConversion, reduceCtorEq, if_false, h2, h4, h3, true_and, hi] at hk hwv ⊢
    simp only [InRange, inBits, signed, hi, show (ST.int ∈ [ST.char, .schar, .short, .int, .long, .llong]) from by decide,
      decide_true, if_true] at hk hwv
    omega
  induction cs generalizing ks with
  | nil =>
    cases ks with
    | nil => exact .none
    | cons k ks => simp [Converted] at h
  | cons c cs ih =>
    cases ks with
    | nil => simp [Converted] at h
    | cons k ks =>
      obtain ⟨h1, h2⟩ := h
      have hc := key k c.k (h2 (k, c) (by simp))
      simp only [List.map_cons, List.zip_cons_cons, select]
      by_cases he : w = c.k
      · rw [if_pos he]; exact .here (hc.2 he)
      · rw [if_neg he]
        exact .next (fun h => he (hc.1 h)) (ih ks ⟨by simpa using h1, fun p hp => h2 p (by simp [hp])⟩)

/-- C31 for controlling expressions of at most 32 bits: any number of cases, any constants
(duplicates: the first is taken), any values, any state. -/
theorem switch_partial : SwitchSelects control blocks fun abi t => width abi t ≤ 32 := by
  intro abi F t c s loc base last ks cs hw hi h hcv hl hac hal
  have hf : fmtOf t = none := by revert hi; cases t <;> decide
  simp only [Holds, hf] at h
  have h4 : bytes abi .int = 4 := by cases abi <;> rfl
  have hki : ∀ x ∈ cs, -2 ^ 31 ≤ x.k ∧ x.k < 2 ^ 31 := by
    intro x hx
    obtain ⟨i, hi, rfl⟩ := List.mem_iff_getElem.1 hx
    have hi' : i < ks.length := by rw [hcv.1]; exact hi
    have hz := hcv.2 (ks[i], cs[i]) (by
      rw [List.mem_iff_getElem]
      exact ⟨i, by simp; omega, by simp⟩)
    have hw : width abi .int = 32 := by cases abi <;> rfl
    simp only [IsConversion, reduceCtorEq, if_false, InRange, inBits, signed, hw] at hz
    simpa using hz.1
  have run : ∀ (o : Slot) (l : List Ins) (s1 : State), o.size = 4 → toInt abi (some t) c loc = .ok (o, l) →
      X86.run F l s = .ok s1 → FrameL s s1 [⟨4, loc⟩] → Apart s o (caseSlots cs) →
      IsConversion abi .int (slotVal abi t s c) (slotVal abi .int s1 o) →
      ∃ o l b s1 fuel s2 target, control abi (some t) c loc base = .ok (o, l) ∧ blocks o base last cs = .ok b ∧
        runC F l s = .ok (s1, .jump base) ∧ runBlocks F b fuel base s1 = some (.ok (s2, .jump target)) ∧
        FrameL s s2 (⟨4, loc⟩ :: caseSlots cs) ∧
        Selects abi t (slotVal abi t s c) last (ks.zip (cs.map (·.label))) target := by
    intro o l s1 ho ht hr hfr hap hconv
    obtain ⟨bl, hbl⟩ := chain_ok o ho last cs base
    have hkeys := chain_keys o last cs base bl hbl
    obtain ⟨fuel, s2, f2, r2⟩ := run_chain F abi o ho last (codeOf bl) cs base bl hbl (fun _ _ => rfl) (by
      intro x hx
      have := hl x hx
      have hn : bl.find? (·.1 == x) = none := by
        rw [List.find?_eq_none]
        intro p hp
        have := hkeys p hp
        simp; omega
      simp [codeOf, hn]) hki s1 (apart_frameL hfr hap)
    refine ⟨o, l ++ [⟨.jmp, [.abs (some base) 0]⟩], codeOf bl, s1, fuel, s2, _, ?_, ?_, ?_, r2, ?_, ?_⟩
    · unfold control; rw [ht]; rfl
    · unfold blocks; rw [hbl]; rfl
    · rw [runC_append hr]; simp [runC]
    · exact frameL_trans (frameL_mono hfr (by simp)) (frameL_mono f2 (by intro o ho; simp [ho]))
    · exact select_selects hi hw _ _ last h.2.2 hconv ks cs hcv
  rcases int_to_int abi F t .int c loc s hi (by decide) h.2.1 h.2.2 with ⟨e, ho, hc⟩ | ⟨n, l, s', e, hr, hfr, ho, hc⟩
  · rw [h4] at ho
    exact run c [] s ho (by unfold toInt; rw [e]; rfl) rfl (frameL_refl _ _) hac hc
  · rw [h4] at ho
    simp only at ho
    subst ho
    exact run ⟨4, loc⟩ l s' rfl (by unfold toInt; rw [e]; rfl) hr (frameL_of_frame hfr (by simp)) hal hc

/-- Some case labels: 0, 7 and -1. -/
def someCases : List Case := [⟨0, 10, 24, 28⟩, ⟨7, 11, 32, 36⟩, ⟨-1, 12, 40, 44⟩]

example : Holds .sysv (some .uchar) (twoSlots 7 0) ⟨1, 8⟩ ∧ Converted .sysv [0, 7, 4294967295] someCases ∧
    select 7 13 someCases = 11 := by
  refine ⟨by decide +kernel, ⟨rfl, ?_⟩, by decide⟩
  intro p hp
  simp [someCases] at hp
  rcases hp with rfl | rfl | rfl <;> simp [IsConversion, InRange, inBits, width, signed] <;> decide

/-- C31 fails for 64-bit controlling expressions: `switch (1L << 32) { case 0: ... }` takes
the case 0. -/
theorem switch_violated : ¬ SwitchSelects control blocks fun _ _ => True := by
  intro h
  obtain ⟨o, l, b, s1, fuel, s2, target, e1, e2, e3, e4, -, e5⟩ := h .sysv anyFP .long ⟨8, 8⟩ (twoSlots (2 ^ 32) 0) 20 100 13
    [0] [⟨0, 10, 28, 36⟩] trivial (by decide) (by decide +kernel)
    ⟨rfl, by simp [IsConversion, InRange, inBits, width, signed]⟩ (by decide)
    (by intro o ho; simp [caseSlots] at ho; rcases ho with rfl | rfl <;> unfold Disj <;> decide +kernel)
    (by intro o ho; simp [caseSlots] at ho; rcases ho with rfl | rfl <;> unfold Disj <;> decide +kernel)
  have hv : slotVal .sysv .long (twoSlots (2 ^ 32) 0) ⟨8, 8⟩ = 2 ^ 32 := by decide +kernel
  have ht : target = 13 := by
    rw [hv] at e5
    cases e5 with
    | here hm => exact absurd hm (by unfold Matches; simp [promoted, IsConversion, InRange, inBits, width, signed])
    | next _ h => cases h; rfl
  obtain ⟨l', s1', ec, hr, hz, hbp⟩ : ∃ l' s1', control .sysv (some .long) ⟨8, 8⟩ 20 100 = .ok (⟨4, 20⟩, l') ∧
      runC anyFP l' (twoSlots (2 ^ 32) 0) = .ok (s1', .jump 100) ∧ slotVal .sysv .int s1' ⟨4, 20⟩ = 0 ∧
      s1'.reg .rbp = 0x1000 := by
    obtain ⟨c, hc, s', r1, f1, X, h3, h4⟩ := sign_cast anyFP (abi := .sysv) (t := .long) (by decide) rfl ⟨8, 8⟩ ⟨4, 20⟩
      (twoSlots (2 ^ 32) 0) rfl (by simp [ScalarSize])
    have hX : (X : Int) % 2 ^ 32 = 0 := by
      rw [hv] at h4
      simp only at h4
      omega
    refine ⟨c ++ [⟨.jmp, [.abs (some 100) 0]⟩], s', ?_, ?_, ?_, f1.1.trans rfl⟩
    · have : castExpr .sysv (some .long) (some .int) ⟨8, 8⟩ 20 = .ok (some (⟨4, 20⟩, c)) := by
        show (do let c ← signCast ⟨8, 8⟩ ⟨4, 20⟩; pure (some ((⟨4, 20⟩ : Slot), c)) : Res (Option (Slot × List Ins))) = _
        rw [hc]; rfl
      unfold control toInt
      rw [this]; rfl
    · rw [runC_append r1]; simp [runC]
    · rw [← bits_zero (by decide)]
      show rd s'.mem (slotAddr s' ⟨4, 20⟩) 4 = 0
      rw [h3]
      show X % 256 ^ 4 = 0
      omega
  rw [ec] at e1
  cases e1
  rw [hr] at e3
  cases e3
  obtain ⟨bl, hbl⟩ := chain_ok ⟨4, 20⟩ rfl 13 [⟨0, 10, 28, 36⟩] 100
  have hkeys := chain_keys _ _ _ _ _ hbl
  have hb : b = codeOf bl := by
    unfold blocks at e2
    rw [hbl] at e2
    cases e2; rfl
  subst hb
  obtain ⟨f', s2', -, r2⟩ := run_chain anyFP .sysv ⟨4, 20⟩ rfl 13 (codeOf bl) [⟨0, 10, 28, 36⟩] 100 bl hbl (fun _ _ => rfl) (by
      intro x hx
      have hx100 : x < 100 := by simp at hx; omega
      have hn : bl.find? (·.1 == x) = none := by
        rw [List.find?_eq_none]
        intro p hp
        have := hkeys p hp
        simp; omega
      simp [codeOf, hn]) (by simp) s1 (by
        intro o ho
        simp [caseSlots] at ho
        simp only [slotAddr, hbp]
        rcases ho with rfl | rfl <;> unfold Disj <;> decide +kernel)
  have := runBlocks_det e4 r2
  rw [hz, ht] at this
  simp [select] at this

end Verif.Cond
