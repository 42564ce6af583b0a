import Verif.CondSpec
import Verif.CastProps
import Verif.MemoryProps
/-!
Lemmas about branches and case tests.
-/
namespace Verif.Cond
open Verif Asm X86 Simple SimpleSpec Codegen CodegenSpec CastSpec CondSpec Cast Memory

/-- An instruction that `exec` carries out does not transfer control. -/
theorem runC_exec {F : FP} {i : Ins} {is : List Ins} {s s' : State} (h : exec F i s = .ok s') :
    runC F (i :: is) s = runC F is s' := by
  obtain ⟨mn, ops⟩ := i
  have hm : mn ≠ .jmp ∧ mn ≠ .je ∧ mn ≠ .jne ∧ mn ≠ .ret ∧ mn ≠ .ja := by
    refine ⟨?_, ?_, ?_, ?_, ?_⟩ <;> (rintro rfl; exact absurd h (by simp [exec]))
  rw [runC]
  · rw [h, Out.bind_ok]
  · intro l hl; exact absurd (by injection hl) hm.1
  · intro l hl; exact absurd (by injection hl) hm.2.1
  · intro l hl; exact absurd (by injection hl) hm.2.2.1
  · intro l hl; exact absurd (by injection hl) hm.2.2.2.2
  · intro hl; exact absurd (by injection hl) hm.2.2.2.1

theorem runC_append {F : FP} {a b : List Ins} {s s' : State} (h : run F a s = .ok s') :
    runC F (a ++ b) s = runC F b s' := by
  induction a generalizing s with
  | nil => simp only [run_nil, Out.ok.injEq] at h; subst h; rfl
  | cons i is ih =>
    rw [run_cons] at h
    cases he : exec F i s with
    | ok t => rw [he, Out.bind_ok] at h; rw [List.cons_append, runC_exec he, ih h]
    | trap => rw [he] at h; cases h
    | bad => rw [he] at h; cases h

/-- The end of a block with a condition: it tests the bits of the slot. -/
theorem run_branch (F : FP) (c : Slot) (h : ScalarSize c.size) (lt lf : Nat) :
    ∃ code, branch c lt lf = .ok code ∧ ∀ s, ∃ s', Kept s s' ∧
      runC F code s = .ok (s', .jump (if rd s.mem (slotAddr s c) c.size = 0 then lf else lt)) := by
  obtain ⟨l, e, hl⟩ := run_load F c .rdi h
  refine ⟨_, by unfold branch; rw [e]; rfl, fun s => ?_⟩
  generalize hx : rd s.mem (slotAddr s c) c.size = x at *
  have hx64 : x < 2 ^ 64 := by
    have := rd_lt s.mem (slotAddr s c) c.size
    rw [hx] at this
    refine Nat.lt_of_lt_of_le this ?_
    rcases h with h | h | h | h <;> rw [h] <;> decide
  have hls := hl s
  rw [hx] at hls
  rw [runC_append hls]
  generalize ht : s.set .rdi (BitVec.ofNat 64 x) = t
  have hr : t.reg .rdi = BitVec.ofNat 64 x := by subst ht; simp
  have hk : Kept s t := by subst ht; simp [Kept]
  have h1 : exec F ⟨.testq, [R8 .rdi, R8 .rdi]⟩ t = .ok { t with fl := some (testFlags (t.reg .rdi) (t.reg .rdi)) } := by
    simp [cmpIns, legal, getOp]
  rw [runC_exec h1]
  have hzf : (testFlags (t.reg .rdi) (t.reg .rdi)).zf = decide (x = 0) := by
    simp only [testFlags, BitVec.and_self, hr]
    rw [Bool.eq_iff_iff]; simp only [beq_iff_eq, decide_eq_true_eq]
    rw [← BitVec.toNat_inj, BitVec.toNat_ofNat, Nat.mod_eq_of_lt hx64]; simp
  refine ⟨{ t with fl := some (testFlags (t.reg .rdi) (t.reg .rdi)) }, hk, ?_⟩
  rw [runC, jcc]
  simp only [hzf, decide_eq_true_eq]
  by_cases h0 : x = 0
  · simp [h0]
  · simp [h0, runC]

theorem holds_size {abi : Abi} {t : Option ST} {s : State} {c : Slot} (h : Holds abi t s c) :
    ScalarSize c.size := by
  unfold Holds at h
  split at h
  · rw [h]; decide
  · split at h
    · rename_i hf; rw [h]; exact (flt_facts (abi := abi) hf).2.2.2.2.2.2
    · rw [h.2.1]; exact (bytes_size h.1).2

theorem cmp_zero {f : Float.Fmt} {x : Nat} (hlt : x < 2 ^ (f.mb + f.eb + 1)) (hz : x ≠ 2 ^ (f.mb + f.eb)) :
    Float.cmp f x 0 = .eq ↔ x = 0 := by
  have hp : 0 < 2 ^ (f.mb + f.eb) := Nat.pow_pos (by decide)
  rw [Nat.pow_succ] at hlt
  have hk0 : Float.key f 0 = 0 := by simp [Float.key]
  have hn0 : Float.isNaN f 0 = false := by simp [Float.isNaN, Float.man]
  constructor
  · intro h
    unfold Float.cmp at h
    split at h
    · cases h
    split at h
    · cases h
    split at h
    · rename_i hk
      rw [hk0] at hk
      have hm : x % 2 ^ (f.mb + f.eb) = 0 := by
        unfold Float.key at hk
        split at hk <;> omega
      have hd := Nat.div_add_mod x (2 ^ (f.mb + f.eb))
      have hq : x / 2 ^ (f.mb + f.eb) < 2 := Nat.div_lt_of_lt_mul (by omega)
      generalize 2 ^ (f.mb + f.eb) = P at *
      generalize x / P = q at *
      have : q = 0 ∨ q = 1 := by omega
      rcases this with rfl | rfl
      · omega
      · exfalso; apply hz; omega
    · cases h
  · rintro rfl
    simp [Float.cmp, hn0]

/-- An integer slot is zero bitwise iff its value is. -/
theorem bits_zero {abi : Abi} {t : ST} (hi : IsInt t) (s : State) (a : Slot) :
    rd s.mem (slotAddr s a) (bytes abi t) = 0 ↔ slotVal abi t s a = 0 := by
  have hlt := rd_lt s.mem (slotAddr s a) (bytes abi t)
  rw [show (256 : Nat) = 2 ^ 8 by rfl, ← Nat.pow_mul] at hlt
  have hc : ((2 ^ (8 * bytes abi t) : Nat) : Int) = 2 ^ (8 * bytes abi t) := by simp
  constructor
  · intro h
    rw [slotVal, h]
    unfold bitsVal
    split <;> simp
  · intro h0
    rcases slotVal_int (abi := abi) hi s a with h | ⟨hs, h⟩
    all_goals
      rw [h0] at h
      generalize rd s.mem (slotAddr s a) (bytes abi t) = x at *
    · omega
    · rw [← hc] at h
      generalize 2 ^ (8 * bytes abi t) = P at *
      omega

/-- What a converted condition gives, as a decision. -/
theorem decides_of {F : FP} {s s1 : State} {l : List Ins} {o out : Slot} {p : Prop} {lt lf : Nat}
    (ho : ScalarSize o.size) (hr : run F l s = .ok s1) (hf : Frame s s1 out)
    (hp : p ↔ rd s1.mem (slotAddr s1 o) o.size ≠ 0) :
    ∃ b, branch o lt lf = .ok b ∧ Decides (.ok (l ++ b)) F s out p lt lf := by
  obtain ⟨b, e, hb⟩ := run_branch F o ho lt lf
  obtain ⟨s', hk, hs'⟩ := hb s1
  refine ⟨b, e, l ++ b, s', rfl, ⟨?_, ?_, ?_⟩, ?_⟩
  · rw [hk.2.1, hf.1]
  · rw [hk.2.2, hf.2.1]
  · intro x hx; rw [hk.1]; exact hf.2.2 x hx
  · rw [runC_append hr, hs']
    by_cases h0 : rd s1.mem (slotAddr s1 o) o.size = 0
    · right; exact ⟨fun h => hp.1 h h0, by rw [if_pos h0]⟩
    · left; exact ⟨hp.2 h0, by rw [if_neg h0]⟩

/-- A loop condition, from what the conversion to `int` yields. -/
theorem loop_of {abi : Abi} {F : FP} {t : Option ST} {c : Slot} {loc : Nat} {s : State} {p : Prop} {lt lf : Nat}
    {Q : State → Slot → Prop} (h : Yields abi F t (some .int) c loc s Q)
    (hQ : ∀ s' o, Q s' o → o.size = 4 ∧ (p ↔ rd s'.mem (slotAddr s' o) 4 ≠ 0)) :
    Decides (loopCond abi t c loc lt lf) F s ⟨4, loc⟩ p lt lf := by
  rcases h with ⟨e, hq⟩ | ⟨n, l, s', e, hr, hf, hq⟩
  · obtain ⟨h4, hp⟩ := hQ _ _ hq
    obtain ⟨b, eb, hd⟩ := decides_of (F := F) (s := s) (s1 := s) (l := []) (o := c) (out := ⟨4, loc⟩) (p := p)
      (lt := lt) (lf := lf) (by rw [h4]; decide) rfl ⟨rfl, rfl, fun _ _ => rfl⟩ (by rw [h4]; exact hp)
    unfold loopCond toInt
    rw [e]
    simp only [Res.bind_ok, eb, Res.pure_eq]
    exact hd
  · obtain ⟨h4, hp⟩ := hQ _ _ hq
    simp only at h4
    subst h4
    obtain ⟨b, eb, hd⟩ := decides_of (F := F) (s := s) (s1 := s') (l := l) (o := ⟨4, loc⟩) (out := ⟨4, loc⟩) (p := p)
      (lt := lt) (lf := lf) (by simp [ScalarSize]) hr hf hp
    unfold loopCond toInt
    rw [e]
    simp only [Res.bind_ok, eb, Res.pure_eq]
    exact hd

/-- Where the code jumps. -/
def exitOf (F : FP) (c : List Ins) (s : State) : Option Exit :=
  match runC F c s with
  | .ok (_, e) => some e
  | _ => none

/-- The code takes the wrong branch. -/
def wrongBranch (code : Res (List Ins)) (F : FP) (s : State) (p : Bool) (lt lf : Nat) : Bool :=
  match code with
  | .ok c => exitOf F c s == some (.jump (if p then lf else lt))
  | _ => false

theorem not_decides {abi : Abi} {code : Res (List Ins)} {F : FP} {t : Option ST} {c : Slot} {s : State} {out : Slot}
    {lt lf : Nat} (h : wrongBranch code F s (IsTrue abi t s c) lt lf = true) (hne : lt ≠ lf) :
    ¬ Decides code F s out (IsTrue abi t s c) lt lf := by
  rintro ⟨l, s', e, -, hd⟩
  rw [e] at h
  simp only [wrongBranch, exitOf, beq_iff_eq, decide_eq_true_eq] at h
  rcases hd with ⟨hp, hr⟩ | ⟨hp, hr⟩ <;> rw [hr] at h <;> simp [hp] at h
  · exact hne h
  · exact hne h.symm

end Verif.Cond
