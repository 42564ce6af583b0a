import Verif.ConventionSpec
/-!
Lemmas about parameter passing.
-/
namespace Verif.Convention
open Verif Asm ConventionSpec
open Verif.Classify (Class)
open Verif.Call (Dest)

theorem round_eq (n k : Nat) (hk : 0 < k) : round n k = up n k := by
  unfold round up
  have h := Nat.div_add_mod n k
  have hlt := Nat.mod_lt n hk
  split
  · next h0 =>
    rw [h0] at h
    have : (n + k - 1) / k = n / k := by
      apply Nat.div_eq_of_lt_le
      · rw [Nat.mul_comm]; omega
      · rw [Nat.add_mul, Nat.mul_comm, Nat.one_mul]; omega
    rw [this, Nat.mul_comm]; omega
  · next h0 =>
    have : (n + k - 1) / k = n / k + 1 := by
      apply Nat.div_eq_of_lt_le
      · rw [Nat.add_mul, Nat.mul_comm, Nat.one_mul]; omega
      · rw [Nat.add_mul, Nat.add_mul, Nat.mul_comm, Nat.one_mul]; omega
    rw [this, Nat.add_mul, Nat.mul_comm, Nat.one_mul]; omega

theorem up_mod (n k : Nat) : up n k % k = 0 := Nat.mul_mod_left _ _

theorem up_le (n k : Nat) (hk : 0 < k) : n ≤ up n k := by
  rw [← round_eq n k hk]; unfold round; split <;> omega

theorem up_self (n k : Nat) (hk : 0 < k) (h : n % k = 0) : up n k = n := by
  rw [← round_eq n k hk]; unfold round; rw [if_pos h]

/-! Registers by index. -/

theorem gpReg_eq (n : Nat) (h : n < 6) : ∃ r rest, gpReg n = .ok r ∧ intRegs.drop n = .gpr r :: rest ∧
    intRegs.drop (n + 1) = rest := by
  rcases n with _ | _ | _ | _ | _ | _ | n <;> first | exact ⟨_, _, rfl, rfl, rfl⟩ | omega

theorem sseReg_eq (n : Nat) (h : n < 8) : ∃ rest, sseRegs.drop n = .sse n :: rest ∧ sseRegs.drop (n + 1) = rest := by
  rcases n with _ | _ | _ | _ | _ | _ | _ | _ | n <;> first | exact ⟨_, rfl, rfl⟩ | omega

theorem int_left (n : Nat) : (intRegs.drop n).length = 6 - n := by simp [intRegs]
theorem sse_left (n : Nat) : (sseRegs.drop n).length = 8 - n := by simp [sseRegs]

/-- Number of occurrences of a class. -/
def occ (c : Class) (cs : List Class) : Nat := (cs.filter (· = c)).length

theorem need_eq (c : Class) (t : Ty) : need c t = occ c t.classes := rfl

theorem occ_int (cs : List Class) : occ .integer (.integer :: cs) = occ .integer cs + 1 := by simp [occ]
theorem occ_sse (cs : List Class) : occ .sse (.sse :: cs) = occ .sse cs + 1 := by simp [occ]
theorem occ_int' (cs : List Class) : occ .integer (.sse :: cs) = occ .integer cs := by simp [occ]
theorem occ_sse' (cs : List Class) : occ .sse (.integer :: cs) = occ .sse cs := by simp [occ]

theorem count_eq (cs : List Class) (h : ∀ c ∈ cs, c = .integer ∨ c = .sse) :
    count cs = .ok (occ .integer cs, occ .sse cs) := by
  induction cs with
  | nil => rfl
  | cons c cs ih =>
    have ih := ih fun d hd => h d (by simp [hd])
    rcases h c (by simp) with rfl | rfl
    · rw [count, if_neg (by decide), if_neg (by decide), if_pos rfl, ih, occ_int, occ_sse']; rfl
    · rw [count, if_neg (by decide), if_pos (by decide), ih, occ_sse, occ_int']; rfl

/-- The eightbytes from `j` on. -/
def eights (i size j : Nat) : List Dest → List RegInfo
  | [] => []
  | r :: rs => ⟨r, some (i, 8 * j), min (size - 8 * j) 8⟩ :: eights i size (j + 1) rs

theorem eights_eq (i size : Nat) (rs : List Dest) : eightbytes i size rs = eights i size 0 rs := by
  have key : ∀ (rs : List Dest) (j : Nat),
      (rs.zip (List.range' j rs.length)).map (fun x => (⟨x.1, some (i, 8 * x.2), min (size - 8 * x.2) 8⟩ : RegInfo)) = eights i size j rs := by
    intro rs
    induction rs with
    | nil => intro j; rfl
    | cons r rs ih =>
      intro j
      rw [List.length_cons, List.range'_succ, List.zip_cons_cons, List.map_cons, ih]
      rfl
  rw [eightbytes, List.range_eq_range', key]

theorem argParts_eq (i size : Nat) (cs : List Class) (h : ∀ c ∈ cs, c = .integer ∨ c = .sse) :
    ∀ gp sse j, gp + occ .integer cs ≤ 6 → sse + occ .sse cs ≤ 8 →
      argParts i size gp sse j cs = .ok (eights i size j (assign cs (intRegs.drop gp) (sseRegs.drop sse))) := by
  induction cs with
  | nil => intros; rfl
  | cons c cs ih =>
    intro gp sse j hg hs
    have ih := ih fun d hd => h d (by simp [hd])
    rcases h c (by simp) with rfl | rfl
    · rw [occ_int] at hg
      rw [occ_sse'] at hs
      obtain ⟨r, rest, e1, e2, e3⟩ := gpReg_eq gp (by omega)
      rw [argParts, if_neg (by decide), e1, Res.bind_ok, ih (gp + 1) sse (j + 1) (by omega) hs, e2, assign, e3]
      simp [eights, Nat.mul_comm]
    · rw [occ_int'] at hg
      rw [occ_sse] at hs
      obtain ⟨rest, e2, e3⟩ := sseReg_eq sse (by omega)
      rw [argParts, if_pos (by decide), ih gp (sse + 1) (j + 1) hg (by omega), e2, assign, e3]
      · simp [eights, Nat.mul_comm]

/-- Final register counts. -/
def used (gp sse : Nat) : List Ty → Nat × Nat
  | [] => (gp, sse)
  | t :: ts =>
    if t.classes ≠ [.memory] ∧ gp + need .integer t ≤ 6 ∧ sse + need .sse t ≤ 8 then
      used (gp + need .integer t) (sse + need .sse t) ts
    else used gp sse ts

/-- Arguments from `i` on that are on the stack. -/
def stackIdx (i : Nat) (ls : List Loc) : List Nat := (memOf i ls).map (·.1)

theorem argLoop_eq (ts : List Ty) (hv : ∀ t ∈ ts, ConventionSpec.Valid t) :
    ∀ gp sse i off, gp ≤ 6 → sse ≤ 8 →
      argLoop gp sse i ts = .ok (regsOf i ts (place (intRegs.drop gp) (sseRegs.drop sse) off ts),
        stackIdx i (place (intRegs.drop gp) (sseRegs.drop sse) off ts), used gp sse ts) := by
  induction ts with
  | nil => intros; rfl
  | cons t ts ih =>
    intro gp sse i off hg hs
    have ih := ih fun d hd => hv d (by simp [hd])
    rw [argLoop, place, int_left, sse_left]
    rcases hv t (by simp) with hm | ⟨hne, hc, hl, _⟩
    · have e : count t.classes = .ok (0, 0) := by rw [hm]; rfl
      rw [e, Res.bind_ok, hm]
      simp only [true_or, if_true, ne_eq, not_true, false_and, if_false]
      rw [ih gp sse (i + 1) (up off (max 8 t.align) + up t.size 8) hg hs]
      simp [regsOf, stackIdx, memOf, used, hm]
    · rw [count_eq _ hc, Res.bind_ok]
      have hnm : t.classes ≠ [.memory] := by
        intro h
        rcases hc .memory (by rw [h]; simp) with h | h <;> cases h
      have hhd : ∃ c cs, t.classes = c :: cs ∧ c ≠ .memory := by
        cases ht : t.classes with
        | nil => exact absurd ht hne
        | cons c cs =>
          refine ⟨c, cs, rfl, ?_⟩
          rintro rfl
          rcases hc .memory (by rw [ht]; simp) with h | h <;> cases h
      obtain ⟨c, cs, hcs, hcm⟩ := hhd
      by_cases hfit : gp + occ .integer t.classes ≤ 6 ∧ sse + occ .sse t.classes ≤ 8
      · rw [if_pos (show t.classes ≠ [.memory] ∧ need .integer t ≤ 6 - gp ∧ need .sse t ≤ 8 - sse from
          ⟨hnm, by rw [need_eq]; omega, by rw [need_eq]; omega⟩)]
        have hp := argParts_eq i t.size t.classes hc gp sse 0 hfit.1 hfit.2
        have hr := ih (gp + occ .integer t.classes) (sse + occ .sse t.classes) (i + 1) off hfit.1 hfit.2
        rw [used, if_pos (show t.classes ≠ [.memory] ∧ gp + need .integer t ≤ 6 ∧ sse + need .sse t ≤ 8 from ⟨hnm, hfit.1, hfit.2⟩), need_eq, need_eq]
        rw [hcs] at hp hr ⊢
        simp only
        rw [if_neg (by
          rintro (h | h | h)
          · exact hcm h
          · rw [hcs] at hfit; omega
          · rw [hcs] at hfit; omega), hp, Res.bind_ok, hr, Res.bind_ok]
        simp only [regsOf, stackIdx, memOf, eights_eq, List.drop_drop]
        rfl
      · rw [if_neg (show ¬ (t.classes ≠ [.memory] ∧ need .integer t ≤ 6 - gp ∧ need .sse t ≤ 8 - sse) from
          fun h => hfit ⟨by have := h.2.1; rw [need_eq] at this; omega, by have := h.2.2; rw [need_eq] at this; omega⟩)]
        have hr := ih gp sse (i + 1) (up off (max 8 t.align) + up t.size 8) hg hs
        rw [used, if_neg (show ¬ (t.classes ≠ [.memory] ∧ gp + need .integer t ≤ 6 ∧ sse + need .sse t ≤ 8) from fun h => hfit h.2)]
        rw [hcs] at hfit ⊢
        simp only
        rw [if_pos (by
          by_cases h1 : gp + occ .integer (c :: cs) ≤ 6
          · exact .inr (.inr (by omega))
          · exact .inr (.inl (by omega))), hr, Res.bind_ok]
        simp only [regsOf, stackIdx, memOf, List.map_cons]
        rfl

theorem stackOffsets_eq (args : List Ty) (ts : List Ty) (ha : ∀ t ∈ ts, t.align ≤ 8) :
    ∀ i is ss off, (∀ k, k < ts.length → args[i + k]? = ts[k]?) → off % 8 = 0 →
      stackOffsets args off (stackIdx i (place is ss off ts)) = memOf i (place is ss off ts) := by
  induction ts with
  | nil => intros; rfl
  | cons t ts ih =>
    intro i is ss off hat ho
    have ih := ih fun d hd => ha d (by simp [hd])
    have hat' : ∀ k, k < ts.length → args[i + 1 + k]? = ts[k]? := by
      intro k hk
      have := hat (k + 1) (by simp; omega)
      rw [show i + 1 + k = i + (k + 1) by omega, this]
      simp
    rw [place]
    split
    · simp only [stackIdx, memOf]
      exact ih (i + 1) _ _ off hat' ho
    · have hm : max 8 t.align = 8 := by have := ha t (by simp); omega
      have h0 : args[i]? = some t := by have := hat 0 (by simp); simpa using this
      simp only [hm, up_self off 8 (by omega) ho]
      simp only [stackIdx, memOf, List.map_cons, stackOffsets, h0, Option.map_some, Option.getD_some]
      rw [round_eq _ 8 (by omega)]
      congr 1
      refine ih (i + 1) is ss _ hat' ?_
      have := up_mod t.size 8
      omega

theorem valid_hidden (t : Ty) (h : ConventionSpec.Valid t) :
    ∃ c cs, t.classes = c :: cs ∧ (c = .memory ↔ t.classes = [.memory]) := by
  rcases h with h | ⟨hne, hc, _⟩
  · exact ⟨.memory, [], h, by simp [h]⟩
  · cases ht : t.classes with
    | nil => exact absurd ht hne
    | cons c cs =>
      refine ⟨c, cs, rfl, ?_, fun h => ?_⟩
      · rintro rfl
        rcases hc .memory (by rw [ht]; simp) with h | h <;> cases h
      · simp at h; exact h.1

/-- What the convention is for valid types; the result takes at most two registers of each
kind. -/
theorem getConvention_eq (ret : Option Ty) (args : List Ty) (hr : ∀ t, ret = some t → ConventionSpec.Valid t)
    (hrr : ∀ t, ret = some t → t.classes ≠ [.memory] → ∃ rr, retParts 0 0 t.classes = .ok rr)
    (hv : ∀ t ∈ args, ConventionSpec.Valid t) :
    ∃ c, getConvention ret args = .ok c ∧
      c.regs = (if hidden ret then [⟨.gpr .rdi, none, 8⟩] else []) ++ regsOf 0 args (locations ret args) ∧
      c.stack = stackIdx 0 (locations ret args) ∧ c.returnsAddress = hidden ret ∧
      (c.gpOffset, c.rax) = ((used (if hidden ret then 1 else 0) 0 args).1 * 8, (used (if hidden ret then 1 else 0) 0 args).2) ∧
      (∀ t, ret = some t → if hidden ret then c.retRegs = [] else retParts 0 0 t.classes = .ok c.retRegs) := by
  have hloop : ∀ b : Bool, argLoop (if b then 1 else 0) 0 0 args =
      .ok (regsOf 0 args (place (if b then intRegs.drop 1 else intRegs) sseRegs 0 args),
        stackIdx 0 (place (if b then intRegs.drop 1 else intRegs) sseRegs 0 args), used (if b then 1 else 0) 0 args) := by
    intro b
    have := argLoop_eq args hv (if b then 1 else 0) 0 0 0 (by split <;> omega) (by omega)
    cases b <;> simpa using this
  unfold getConvention
  cases ret with
  | none =>
    have := hloop false
    simp only [Bool.false_eq_true, if_false] at this
    simp only [Res.bind_ok, Bool.false_eq_true, if_false, this]
    exact ⟨_, rfl, by simp [hidden, locations], by simp [hidden, locations], rfl, by simp [hidden], by simp⟩
  | some t =>
    obtain ⟨c, cs, hcs, hcm⟩ := valid_hidden t (hr t rfl)
    have hh : hidden (some t) = decide (c = .memory) := by
      simp only [hidden]
      by_cases h : c = .memory
      · simp [h, hcm.1 h]
      · rw [decide_eq_false h]
        have := mt hcm.2 h
        simpa using this
    by_cases h : c = .memory
    · have hh' : hidden (some t) = true := by rw [hh]; simp [h]
      have := hloop true
      simp only [if_true] at this
      simp only [hcs, h, if_true, Res.bind_ok, this]
      exact ⟨_, rfl, by simp [hh', locations], by simp [hh', locations], by rw [hh'], by simp [hh'], by simp [hh']⟩
    · have hh' : hidden (some t) = false := by rw [hh]; simp [h]
      obtain ⟨rr, hrr⟩ := hrr t rfl (mt hcm.2 h)
      have := hloop false
      simp only [Bool.false_eq_true, if_false] at this
      rw [hcs] at hrr
      simp only [hcs, h, if_false, hrr, Res.bind_ok, Res.pure_eq, Bool.false_eq_true, this]
      refine ⟨_, rfl, by simp [hh', locations], by simp [hh', locations], by rw [hh'], by simp [hh'], ?_⟩
      intro t' ht
      cases ht
      simp [hh', hcs, hrr]

/-! Registers are used once, stack bytes do not overlap. -/

theorem assign_mem (cs : List Class) : ∀ is ss : List Dest,
    ∀ d ∈ assign cs is ss, d ∈ is.take (occ .integer cs) ∨ d ∈ ss.take (occ .sse cs) := by
  induction cs with
  | nil => intro is ss d hd; simp [assign] at hd
  | cons c cs ih =>
    intro is ss d hd
    unfold assign at hd
    split at hd
    · next h => cases h
    · next i is' ss' h =>
      cases h
      rw [occ_int, occ_sse', List.take_succ_cons]
      rcases List.mem_cons.1 hd with h | h
      · exact .inl (by simp [h])
      · rcases ih _ _ d h with h | h
        · exact .inl (by simp [h])
        · exact .inr h
    · next s ss' h =>
      cases h
      rw [occ_sse, occ_int', List.take_succ_cons]
      rcases List.mem_cons.1 hd with h | h
      · exact .inr (by simp [h])
      · rcases ih _ _ d h with h | h
        · exact .inl h
        · exact .inr (by simp [h])
    · next heq _ _ =>
      cases heq
      have mono : ∀ (l : List Dest) k, d ∈ l.take (occ k cs) → d ∈ l.take (occ k (c :: cs)) := by
        intro l k hm
        refine (List.take_sublist_take_left ?_).subset hm
        simp only [occ, List.filter_cons]
        split <;> simp
      rcases ih _ _ d hd with h | h
      · exact .inl (mono _ _ h)
      · exact .inr (mono _ _ h)

theorem assign_nodup (cs : List Class) : ∀ is ss : List Dest, (is ++ ss).Nodup → (assign cs is ss).Nodup := by
  induction cs with
  | nil => intros; simp [assign]
  | cons c cs ih =>
    intro is ss hn
    unfold assign
    split
    · simp
    · next i is' ss' h =>
      cases h
      rw [List.cons_append, List.nodup_cons] at hn
      rw [List.nodup_cons]
      refine ⟨fun hm => ?_, ih _ _ hn.2⟩
      rcases assign_mem _ _ _ _ hm with h | h
      · exact hn.1 (List.mem_append.2 (.inl (List.mem_of_mem_take h)))
      · exact hn.1 (List.mem_append.2 (.inr (List.mem_of_mem_take h)))
    · next s ss' h =>
      cases h
      rw [List.nodup_append] at hn
      obtain ⟨h1, h2, h3⟩ := hn
      rw [List.nodup_cons] at h2
      rw [List.nodup_cons]
      refine ⟨fun hm => ?_, ih _ _ ?_⟩
      · rcases assign_mem _ _ _ _ hm with h | h
        · exact h3 _ (List.mem_of_mem_take h) _ (by simp) rfl
        · exact h2.1 (List.mem_of_mem_take h)
      · rw [List.nodup_append]
        exact ⟨h1, h2.2, fun a ha b hb => h3 a ha b (by simp [hb])⟩
    · next heq _ _ =>
      cases heq
      exact ih _ _ hn

theorem eights_regs (i size : Nat) (rs : List Dest) : ∀ j, (eights i size j rs).map (·.reg) = rs := by
  induction rs with
  | nil => intro j; rfl
  | cons r rs ih => intro j; simp [eights, ih]

theorem regsOf_nodup (ts : List Ty) : ∀ i is ss off, (is ++ ss).Nodup →
    ((regsOf i ts (place is ss off ts)).map (·.reg)).Nodup ∧
    ∀ d ∈ (regsOf i ts (place is ss off ts)).map (·.reg), d ∈ is ++ ss := by
  induction ts with
  | nil => intros; simp [regsOf]
  | cons t ts ih =>
    intro i is ss off hn
    rw [place]
    split
    · simp only [regsOf, List.map_append, eights_eq, eights_regs]
      rw [List.nodup_append] at hn
      obtain ⟨h1, h2, h3⟩ := hn
      have hd : (is.drop (need .integer t) ++ ss.drop (need .sse t)).Nodup := by
        rw [List.nodup_append]
        exact ⟨(List.drop_sublist _ _).nodup h1, (List.drop_sublist _ _).nodup h2,
          fun a ha b hb => h3 a (List.mem_of_mem_drop ha) b (List.mem_of_mem_drop hb)⟩
      obtain ⟨r1, r2⟩ := ih (i + 1) _ _ off hd
      have hsplit : ∀ (l : List Dest) n, l.Nodup → ∀ a ∈ l.take n, a ∉ l.drop n := by
        intro l n hl a ha hb
        rw [← List.take_append_drop n l, List.nodup_append] at hl
        exact hl.2.2 a ha a hb rfl
      constructor
      · rw [List.nodup_append]
        refine ⟨assign_nodup _ _ _ (List.nodup_append.2 ⟨h1, h2, h3⟩), r1, ?_⟩
        rintro a ha b hb rfl
        rcases List.mem_append.1 (r2 a hb) with hb | hb <;>
          rcases assign_mem _ _ _ a ha with ha | ha
        · exact hsplit _ _ h1 a ha hb
        · exact h3 a (List.mem_of_mem_drop hb) a (List.mem_of_mem_take ha) rfl
        · exact h3 a (List.mem_of_mem_take ha) a (List.mem_of_mem_drop hb) rfl
        · exact hsplit _ _ h2 a ha hb
      · intro d hd
        rcases List.mem_append.1 hd with hd | hd
        · rcases assign_mem _ _ _ d hd with h | h
          · exact List.mem_append.2 (.inl (List.mem_of_mem_take h))
          · exact List.mem_append.2 (.inr (List.mem_of_mem_take h))
        · rcases List.mem_append.1 (r2 d hd) with h | h
          · exact List.mem_append.2 (.inl (List.mem_of_mem_drop h))
          · exact List.mem_append.2 (.inr (List.mem_of_mem_drop h))
    · simp only [regsOf]
      exact ih (i + 1) is ss _ hn

/-- Offsets grow by at least the sizes of the arguments. -/
theorem memOf_disjoint (args ts : List Ty) : ∀ i is ss off, (∀ k, k < ts.length → args[i + k]? = ts[k]?) →
    (memOf i (place is ss off ts)).Pairwise (fun a b => a.1 < b.1 ∧ a.2 + sizeOf args a.1 ≤ b.2) ∧
    ∀ x ∈ memOf i (place is ss off ts), i ≤ x.1 ∧ off ≤ x.2 := by
  induction ts with
  | nil => intros; simp [place, memOf]
  | cons t ts ih =>
    intro i is ss off hat
    have hat' : ∀ k, k < ts.length → args[i + 1 + k]? = ts[k]? := by
      intro k hk
      have := hat (k + 1) (by simp; omega)
      rw [show i + 1 + k = i + (k + 1) by omega, this]
      simp
    rw [place]
    split
    · simp only [memOf]
      obtain ⟨h1, h2⟩ := ih (i + 1) _ _ off hat'
      refine ⟨h1, fun x hx => ?_⟩
      have := h2 x hx
      omega
    · simp only [memOf]
      obtain ⟨h1, h2⟩ := ih (i + 1) is ss (up off (max 8 t.align) + up t.size 8) hat'
      have hs : sizeOf args i = t.size := by
        have := hat 0 (by simp)
        simp only [Nat.add_zero] at this
        simp [ConventionSpec.sizeOf, this]
      have hu := up_le t.size 8 (by omega)
      have hu2 := up_le off (max 8 t.align) (by omega)
      refine ⟨List.pairwise_cons.2 ⟨fun x hx => ?_, h1⟩, fun x hx => ?_⟩
      · have := h2 x hx
        simp only [hs]
        omega
      · rcases List.mem_cons.1 hx with rfl | hx
        · exact ⟨Nat.le_refl _, hu2⟩
        · have := h2 x hx
          omega

/-! Every byte of an argument has a place. -/

theorem assign_length (cs : List Class) (h : ∀ c ∈ cs, c = .integer ∨ c = .sse) : ∀ is ss : List Dest,
    occ .integer cs ≤ is.length → occ .sse cs ≤ ss.length → (assign cs is ss).length = cs.length := by
  induction cs with
  | nil => intros; rfl
  | cons c cs ih =>
    intro is ss h1 h2
    have ih := ih fun d hd => h d (by simp [hd])
    rcases h c (by simp) with rfl | rfl
    · rw [occ_int] at h1
      rw [occ_sse'] at h2
      cases is with
      | nil => simp at h1
      | cons a is =>
        rw [assign, List.length_cons, List.length_cons, ih is ss (by simpa using h1) h2]
    · rw [occ_int'] at h1
      rw [occ_sse] at h2
      cases ss with
      | nil => simp at h2
      | cons a ss =>
        rw [assign, List.length_cons, List.length_cons, ih is ss h1 (by simpa using h2)]

theorem eights_cover (i size : Nat) (rs : List Dest) : ∀ j k, 8 * j ≤ k → k < size → k < 8 * (j + rs.length) →
    ∃ r ∈ eights i size j rs, ∃ pos, r.part = some (i, pos) ∧ pos ≤ k ∧ k < pos + r.size := by
  induction rs with
  | nil => intro j k h1 h2 h3; simp at h3; omega
  | cons a rs ih =>
    intro j k h1 h2 h3
    by_cases hk : k < 8 * (j + 1)
    · refine ⟨_, List.mem_cons_self .., 8 * j, rfl, h1, ?_⟩
      simp only
      omega
    · rw [List.length_cons] at h3
      obtain ⟨r, hr, x⟩ := ih (j + 1) k (by omega) h2 (by omega)
      exact ⟨r, List.mem_cons_of_mem _ hr, x⟩

theorem cover (args ts : List Ty) (hv : ∀ t ∈ ts, ConventionSpec.Valid t) : ∀ i is ss off,
    (∀ k, k < ts.length → args[i + k]? = ts[k]?) → ∀ j k, i ≤ j → j < i + ts.length → k < sizeOf args j →
      (∃ o, (j, o) ∈ memOf i (place is ss off ts)) ∨
      ∃ r ∈ regsOf i ts (place is ss off ts), ∃ pos, r.part = some (j, pos) ∧ pos ≤ k ∧ k < pos + r.size := by
  induction ts with
  | nil => intro i is ss off _ j k h1 h2; simp at h2; omega
  | cons t ts ih =>
    intro i is ss off hat j k h1 h2 h3
    have ih := ih fun d hd => hv d (by simp [hd])
    have hat' : ∀ k, k < ts.length → args[i + 1 + k]? = ts[k]? := by
      intro k hk
      have := hat (k + 1) (by simp; omega)
      rw [show i + 1 + k = i + (k + 1) by omega, this]
      simp
    rw [List.length_cons] at h2
    have hs : sizeOf args i = t.size := by
      have := hat 0 (by simp)
      simp only [Nat.add_zero] at this
      simp [ConventionSpec.sizeOf, this]
    rw [place]
    split
    · next hfit =>
      simp only [memOf, regsOf]
      by_cases hj : j = i
      · subst hj
        right
        rcases hv t (by simp) with h | ⟨hne, hc, hl, _⟩
        · exact absurd h hfit.1
        · have hlen := assign_length t.classes hc is ss hfit.2.1 hfit.2.2
          rw [hs] at h3
          obtain ⟨r, hr, x⟩ := eights_cover j t.size (assign t.classes is ss) 0 k (by omega) h3 (by rw [hlen, hl]; omega)
          exact ⟨r, List.mem_append.2 (.inl (by rw [eights_eq]; exact hr)), x⟩
      · rcases ih (i + 1) (is.drop (need .integer t)) (ss.drop (need .sse t)) off hat' j k (by omega) (by omega) h3 with h | ⟨r, hr, x⟩
        · exact .inl h
        · exact .inr ⟨r, List.mem_append.2 (.inr hr), x⟩
    · simp only [memOf, regsOf]
      by_cases hj : j = i
      · subst hj
        exact .inl ⟨_, List.mem_cons_self ..⟩
      · rcases ih (i + 1) is ss (up off (max 8 t.align) + up t.size 8) hat' j k (by omega) (by omega) h3 with ⟨o, h⟩ | h
        · exact .inl ⟨o, List.mem_cons_of_mem _ h⟩
        · exact .inr h

/-! Moving bytes. -/

theorem setReg_stack (vals ptr) (l : List RegInfo) (p : Place) :
    (l.foldr (fun r p => setReg vals ptr p r) p).stack = p.stack := by
  induction l with
  | nil => rfl
  | cons r l ih => simpa [setReg] using ih

theorem putStack_reg (args vals) (l : List (Nat × Nat)) (p : Place) :
    (l.foldr (fun x p => putStack args vals p x) p).reg = p.reg := by
  induction l with
  | nil => rfl
  | cons r l ih => simpa [putStack] using ih

/-- The byte a register part stands for. -/
def partVal (vals : Nat → Nat → Byte) (ptr : Nat → Byte) (r : RegInfo) (k : Nat) : Byte :=
  match r.part with
  | some (i, pos) => vals i (pos + k)
  | none => ptr k

theorem setReg_val (vals ptr) (l : List RegInfo) (p : Place) (hn : (l.map (·.reg)).Nodup) :
    ∀ r ∈ l, ∀ k, k < r.size → (l.foldr (fun r p => setReg vals ptr p r) p).reg r.reg k = partVal vals ptr r k := by
  induction l with
  | nil => intro r hr; cases hr
  | cons a l ih =>
    intro r hr k hk
    rw [List.map_cons, List.nodup_cons] at hn
    rw [List.foldr_cons]
    rcases List.mem_cons.1 hr with rfl | hr
    · simp only [setReg, partVal]
      rw [if_pos ⟨trivial, hk⟩]
      rfl
    · have hne : r.reg ≠ a.reg := fun h => hn.1 (h ▸ List.mem_map_of_mem hr)
      simp only [setReg]
      rw [if_neg fun h => hne h.1]
      exact ih hn.2 r hr k hk

theorem putStack_val (args vals) (l : List (Nat × Nat)) (p : Place)
    (hd : l.Pairwise fun a b => a.1 < b.1 ∧ a.2 + sizeOf args a.1 ≤ b.2) :
    ∀ x ∈ l, ∀ k, k < sizeOf args x.1 → (l.foldr (fun x p => putStack args vals p x) p).stack (x.2 + k) = vals x.1 k := by
  induction l with
  | nil => intro x hx; cases hx
  | cons a l ih =>
    intro x hx k hk
    rw [List.pairwise_cons] at hd
    rw [List.foldr_cons]
    rcases List.mem_cons.1 hx with rfl | hx
    · simp only [putStack]
      rw [if_pos ⟨by omega, by unfold ConventionSpec.sizeOf at hk; omega⟩, Nat.add_sub_cancel_left]
    · have := hd.1 x hx
      simp only [putStack]
      rw [if_neg (by unfold ConventionSpec.sizeOf at this; omega)]
      exact ih hd.2 x hx k hk

theorem takeStack_val (args) (vals : Nat → Nat → Byte) (p : Place) (l : List (Nat × Nat))
    (hp : ∀ x ∈ l, ∀ k, k < sizeOf args x.1 → p.stack (x.2 + k) = vals x.1 k) (j k : Nat) :
    ∀ o : Nat → Nat → Option Byte, (o j k = some (vals j k) ∨ (∃ of, (j, of) ∈ l) ∧ k < sizeOf args j) →
      l.foldl (takeStack args p) o j k = some (vals j k) := by
  induction l with
  | nil =>
    intro o ho
    rcases ho with h | ⟨⟨_, h⟩, _⟩
    · exact h
    · cases h
  | cons a l ih =>
    intro o ho
    rw [List.foldl_cons]
    refine ih (fun x hx => hp x (by simp [hx])) _ ?_
    by_cases hc : j = a.1 ∧ k < sizeOf args a.1
    · left
      unfold takeStack
      rw [if_pos (by unfold ConventionSpec.sizeOf at hc; exact hc), hp a (by simp) k hc.2, hc.1]
    · rcases ho with h | ⟨⟨off, h⟩, hk⟩
      · left
        unfold takeStack
        rw [if_neg (by unfold ConventionSpec.sizeOf at hc; exact hc), h]
      · rcases List.mem_cons.1 h with h | h
        · subst h
          exact absurd ⟨rfl, hk⟩ hc
        · exact .inr ⟨⟨off, h⟩, hk⟩

theorem takeReg_val (vals : Nat → Nat → Byte) (ptr) (p : Place) (l : List RegInfo)
    (hp : ∀ r ∈ l, ∀ k, k < r.size → p.reg r.reg k = partVal vals ptr r k) (j k : Nat) :
    ∀ o : Nat → Nat → Option Byte,
      (o j k = some (vals j k) ∨ ∃ r ∈ l, ∃ pos, r.part = some (j, pos) ∧ pos ≤ k ∧ k < pos + r.size) →
      l.foldl (takeReg p) o j k = some (vals j k) := by
  induction l with
  | nil =>
    intro o ho
    rcases ho with h | ⟨_, h, _⟩
    · exact h
    · cases h
  | cons a l ih =>
    intro o ho
    rw [List.foldl_cons]
    refine ih (fun x hx => hp x (by simp [hx])) _ ?_
    by_cases hc : ∃ pos, a.part = some (j, pos) ∧ pos ≤ k ∧ k < pos + a.size
    · left
      obtain ⟨pos, h1, h2, h3⟩ := hc
      have := hp a (by simp) (k - pos) (by omega)
      simp only [partVal, h1] at this
      unfold takeReg
      rw [h1]
      simp only
      rw [if_pos ⟨trivial, h2, h3⟩, this, Nat.add_sub_cancel' h2]
    · rcases ho with h | ⟨r, hr, x⟩
      · left
        unfold takeReg
        cases ha : a.part with
        | none => exact h
        | some q =>
          obtain ⟨i, pos⟩ := q
          simp only
          rw [if_neg, h]
          rintro ⟨rfl, h2, h3⟩
          exact hc ⟨pos, ha, h2, h3⟩
      · rcases List.mem_cons.1 hr with rfl | hr
        · exact absurd x hc
        · exact .inr ⟨r, hr, x⟩

end Verif.Convention
