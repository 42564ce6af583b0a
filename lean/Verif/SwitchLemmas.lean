import Verif.CondLemmas
/-!
Lemmas about the chain of case tests of a `switch`.
-/
namespace Verif.Cond
open Verif Asm X86 Simple SimpleSpec Codegen CodegenSpec CastSpec CondSpec Cast Memory

theorem frame_addr {s s' : State} (h : s'.reg .rbp = s.reg .rbp) (v : Slot) : slotAddr s' v = slotAddr s v := by
  simp [slotAddr, h]

theorem frameL_of_frame {s s' : State} {o : Slot} {l : List Slot} (h : Frame s s' o) (ho : o ∈ l) : FrameL s s' l :=
  ⟨h.1, h.2.1, fun x hx => h.2.2 x (hx o ho)⟩

theorem frameL_refl (s : State) (l : List Slot) : FrameL s s l := ⟨rfl, rfl, fun _ _ => rfl⟩

theorem frameL_trans {s s' s'' : State} {l : List Slot} (h : FrameL s s' l) (h' : FrameL s' s'' l) : FrameL s s'' l := by
  refine ⟨h'.1.trans h.1, h'.2.1.trans h.2.1, fun x hx => ?_⟩
  rw [h'.2.2 x (fun o ho i hi => by rw [frame_addr h.1]; exact hx o ho i hi), h.2.2 x hx]

theorem frameL_mono {s s' : State} {l l' : List Slot} (h : FrameL s s' l) (hl : ∀ o ∈ l, o ∈ l') : FrameL s s' l' :=
  ⟨h.1, h.2.1, fun x hx => h.2.2 x fun o ho => hx o (hl o ho)⟩

theorem frameL_kept {s s' s'' : State} {l : List Slot} (h : FrameL s s' l) (k : Kept s' s'') : FrameL s s'' l :=
  ⟨k.2.1.trans h.1, k.2.2.trans h.2.1, fun x hx => by rw [k.1]; exact h.2.2 x hx⟩

/-- A slot apart from those that changed keeps its value. -/
theorem rd_frameL {s s' : State} {l : List Slot} {v : Slot} (h : FrameL s s' l) (ha : Apart s v l) :
    rd s'.mem (slotAddr s' v) v.size = rd s.mem (slotAddr s v) v.size := by
  rw [frame_addr h.1]
  refine rd_congr fun i hi => h.2.2 _ fun o ho j hj e => ha o ho i hi j hj e

theorem apart_frameL {s s' : State} {l l' : List Slot} {v : Slot} (h : FrameL s s' l') (ha : Apart s v l) :
    Apart s' v l := by
  intro o ho
  rw [frame_addr h.1, frame_addr h.1]
  exact ha o ho

theorem case_ok (ctl : Slot) (h4 : ctl.size = 4) (k : Int) (cloc qloc lt lf : Nat) :
    ∃ code, caseTest ctl k cloc qloc lt lf = .ok code := by
  obtain ⟨n, loc⟩ := ctl
  simp only at h4
  subst h4
  exact ⟨_, rfl⟩

theorem int_bits (x : Nat) (hx : x < 2 ^ 32) (k : Int) (hk : -2 ^ 31 ≤ k ∧ k < 2 ^ 31) :
    BitVec.ofNat 32 x = BitVec.ofNat 32 ((BitVec.ofInt 64 k).toNat % 256 ^ 4) ↔ (BitVec.ofNat 32 x).toInt = k := by
  have e : BitVec.ofNat 32 ((BitVec.ofInt 64 k).toNat % 256 ^ 4) = BitVec.ofInt 32 k := by
    apply BitVec.eq_of_toNat_eq
    simp only [BitVec.toNat_ofNat, BitVec.toNat_ofInt]
    omega
  rw [e]
  constructor
  · intro h
    rw [h, BitVec.toInt_ofInt, Int.bmod_eq_of_le (by omega) (by omega)]
  · intro h
    rw [← h, BitVec.ofInt_toInt]

theorem run_case (F : FP) (ctl : Slot) (h4 : ctl.size = 4) (k : Int) (cloc qloc lt lf : Nat)
    (hk : -2 ^ 31 ≤ k ∧ k < 2 ^ 31) (abi : Abi) (code : List Ins) (hcode : caseTest ctl k cloc qloc lt lf = .ok code)
    (s : State) (ha : Apart s ctl [⟨4, cloc⟩, ⟨4, qloc⟩]) :
    ∃ s', FrameL s s' [⟨4, cloc⟩, ⟨4, qloc⟩] ∧
        runC F code s = .ok (s', .jump (if slotVal abi .int s ctl = k then lt else lf)) := by
  obtain ⟨c1, s1, e1, r1, v1, f1, -⟩ := constant_code F (BitVec.ofInt 64 k) ⟨4, cloc⟩ (by simp [ScalarSize]) s
  have fl1 : FrameL s s1 [⟨4, cloc⟩, ⟨4, qloc⟩] := frameL_of_frame f1 (by simp)
  have hctl : rd s1.mem (slotAddr s1 ctl) 4 = rd s.mem (slotAddr s ctl) 4 := by
    have := rd_frameL fl1 ha
    rw [h4] at this; exact this
  have hcst : rd s1.mem (slotAddr s1 ⟨4, cloc⟩) 4 = (BitVec.ofInt 64 k).toNat % 256 ^ 4 := by
    rw [frame_addr f1.1]; exact v1
  have hlt : rd s.mem (slotAddr s ctl) 4 < 2 ^ 32 := rd_lt _ _ _
  have hbit := int_bits _ hlt k hk
  have hval : slotVal abi .int s ctl = (BitVec.ofNat 32 (rd s.mem (slotAddr s ctl) 4)).toInt := by
    rw [slotVal, bitsVal_signed rfl]
    cases abi <;> rfl
  rw [← hval] at hbit
  obtain ⟨loc, rfl⟩ : ∃ loc, ctl = ⟨4, loc⟩ := ⟨ctl.loc, by cases ctl; simp only at h4; subst h4; rfl⟩
  obtain ⟨c2, e2, s2, r2, f2, v2⟩ := run_binary F .equal ⟨4, loc⟩ ⟨4, cloc⟩ ⟨4, qloc⟩ s1 (.inl rfl) (by simp [ScalarSize])
    rfl (if slotVal abi .int s ⟨4, loc⟩ = k then 1 else 0) (by
      show some (if BitVec.ofNat 32 (rd s1.mem (slotAddr s1 ⟨4, loc⟩) 4) = BitVec.ofNat 32 (rd s1.mem (slotAddr s1 ⟨4, cloc⟩) 4)
        then (1 : BitVec 32) else 0) = _
      rw [hctl, hcst]
      by_cases hv : slotVal abi .int s ⟨4, loc⟩ = k
      · rw [if_pos (hbit.2 hv), if_pos hv]
      · rw [if_neg (fun h => hv (hbit.1 h)), if_neg hv])
  obtain ⟨c3, e3, h3⟩ := run_branch F ⟨4, qloc⟩ (by simp [ScalarSize]) lt lf
  obtain ⟨s3, k3, r3⟩ := h3 s2
  have hc : code = c1 ++ c2 ++ c3 := by
    unfold caseTest at hcode
    rw [e1] at hcode
    simp only [Res.bind_ok, irBinarySize, e2, e3, Res.pure_eq, Res.ok.injEq] at hcode
    exact hcode.symm
  subst hc
  refine ⟨s3, frameL_kept (frameL_trans fl1 (frameL_of_frame f2 (by simp))) k3, ?_⟩
  rw [List.append_assoc, runC_append r1, runC_append r2, r3]
  simp only at v2
  rw [v2]
  by_cases hv : slotVal abi .int s ⟨4, loc⟩ = k <;> simp [hv]

theorem chain_ok (ctl : Slot) (h4 : ctl.size = 4) (last : Nat) (cs : List Case) (base : Nat) :
    ∃ l, chain ctl base last cs = .ok l := by
  induction cs generalizing base with
  | nil => exact ⟨_, rfl⟩
  | cons c cs ih =>
    obtain ⟨t, ht⟩ := case_ok ctl h4 c.k c.cloc c.qloc c.label (base + 1)
    obtain ⟨l, hl⟩ := ih (base + 1)
    exact ⟨_, by rw [chain, ht, Res.bind_ok, hl]; rfl⟩

theorem chain_keys (ctl : Slot) (last : Nat) (cs : List Case) (base : Nat) (l : List (Nat × List Ins))
    (h : chain ctl base last cs = .ok l) : ∀ p ∈ l, base ≤ p.1 := by
  induction cs generalizing base l with
  | nil => rw [chain] at h; cases h; simp
  | cons c cs ih =>
    rw [chain] at h
    cases ht : caseTest ctl c.k c.cloc c.qloc c.label (base + 1) with
    | fail => rw [ht] at h; cases h
    | ub => rw [ht] at h; cases h
    | ok t =>
      rw [ht, Res.bind_ok] at h
      cases hr : chain ctl (base + 1) last cs with
      | fail => rw [hr] at h; cases h
      | ub => rw [hr] at h; cases h
      | ok r =>
        rw [hr, Res.bind_ok] at h
        cases h
        intro p hp
        rcases List.mem_cons.1 hp with rfl | hp
        · simp
        · have := ih (base + 1) r hr p hp; omega

/-- The label the chain of tests jumps to. -/
def select (v : Int) (last : Nat) : List Case → Nat
  | [] => last
  | c :: cs => if v = c.k then c.label else select v last cs

theorem run_chain (F : FP) (abi : Abi) (ctl : Slot) (h4 : ctl.size = 4) (last : Nat) (G : Nat → Option (List Ins))
    (cs : List Case) (base : Nat) (l : List (Nat × List Ins)) (h : chain ctl base last cs = .ok l)
    (hG : ∀ n, base ≤ n → G n = codeOf l n) (hlow : ∀ x ∈ last :: cs.map (·.label), G x = none)
    (hk : ∀ c ∈ cs, -2 ^ 31 ≤ c.k ∧ c.k < 2 ^ 31) (s : State) (ha : Apart s ctl (caseSlots cs)) :
    ∃ fuel s', FrameL s s' (caseSlots cs) ∧
      runBlocks F G fuel base s = some (.ok (s', .jump (select (slotVal abi .int s ctl) last cs))) := by
  induction cs generalizing base l s with
  | nil =>
    rw [chain] at h
    cases h
    refine ⟨2, s, frameL_refl _ _, ?_⟩
    have : G base = some [⟨.jmp, [.abs (some last) 0]⟩] := by rw [hG _ (Nat.le_refl _)]; simp [codeOf]
    simp only [runBlocks, this, runC, hlow last (by simp), select]
  | cons c cs ih =>
    rw [chain] at h
    obtain ⟨t, ht⟩ := case_ok ctl h4 c.k c.cloc c.qloc c.label (base + 1)
    obtain ⟨r, hr⟩ := chain_ok ctl h4 last cs (base + 1)
    rw [ht, Res.bind_ok, hr, Res.bind_ok] at h
    cases h
    have ha1 : Apart s ctl [⟨4, c.cloc⟩, ⟨4, c.qloc⟩] := fun o ho => ha o (by
      simp only [caseSlots, List.flatMap_cons, List.mem_append]; exact .inl ho)
    have ha2 : Apart s ctl (caseSlots cs) := fun o ho => ha o (by
      simp only [caseSlots, List.flatMap_cons, List.mem_append]; exact .inr ho)
    obtain ⟨s1, f1, r1⟩ := run_case F ctl h4 c.k c.cloc c.qloc c.label (base + 1) (hk c (by simp)) abi t ht s ha1
    have hb : G base = some t := by rw [hG _ (Nat.le_refl _)]; simp [codeOf]
    have hv : slotVal abi .int s1 ctl = slotVal abi .int s ctl := by
      have hb4 : bytes abi .int = 4 := by cases abi <;> rfl
      have := rd_frameL f1 ha1
      rw [h4] at this
      unfold slotVal
      rw [hb4, this]
    have f1' : FrameL s s1 (caseSlots (c :: cs)) := frameL_mono f1 (by
      intro o ho; simp only [caseSlots, List.flatMap_cons, List.mem_append]; exact .inl ho)
    by_cases he : slotVal abi .int s ctl = c.k
    · refine ⟨2, s1, f1', ?_⟩
      rw [if_pos he] at r1
      simp only [runBlocks, hb, r1, select, he, if_true]
      rw [hlow c.label (by simp)]
    · rw [if_neg he] at r1
      obtain ⟨fuel, s2, f2, r2⟩ := ih (base + 1) r hr (by
          intro n hn
          rw [hG n (by omega)]
          simp only [codeOf, List.find?_cons]
          rw [show (base == n) = false by simp; omega])
        (fun x hx => hlow x (by
          rcases List.mem_cons.1 hx with h | h
          · rw [h]; simp
          · simp at h ⊢; exact .inr (.inr h))) (fun c hc => hk c (by simp [hc])) s1 (apart_frameL f1 ha2)
      refine ⟨fuel + 1, s2, frameL_trans f1' (frameL_mono f2 (by
        intro o ho; simp only [caseSlots, List.flatMap_cons, List.mem_append]; exact .inr ho)), ?_⟩
      simp only [runBlocks, hb, r1, select, he, if_false]
      rw [hv] at r2
      exact r2

theorem runBlocks_det {F : FP} {G : Nat → Option (List Ins)} {n m l : Nat} {s : State} {x y : Out (State × Exit)}
    (hx : runBlocks F G n l s = some x) (hy : runBlocks F G m l s = some y) : x = y := by
  induction n generalizing m l s with
  | zero => simp [runBlocks] at hx
  | succ n ih =>
    cases m with
    | zero => simp [runBlocks] at hy
    | succ m =>
      rw [runBlocks] at hx hy
      split at hx <;> rename_i hG <;> rw [hG] at hy <;> simp only at hy
      · rw [hx] at hy; exact Option.some.inj hy
      · split at hx <;> rename_i hr
        · rw [hr] at hy; exact ih hx hy
        · split at hy
          · rename_i hr2; exact absurd hr2 (hr _ _)
          · rw [hx] at hy; exact Option.some.inj hy

end Verif.Cond
