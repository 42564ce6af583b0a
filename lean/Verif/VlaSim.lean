import Verif.VlaLemmas
/-! The invariant of the words of the allocations. -/
namespace Verif.Vla
open Verif Asm X86 Codegen Frame VlaSpec FrameSpec

variable {F : FP} {ns : List Node} {pre : Nat}

theorem layout_offset (ns : List Node) (pre : Nat) : (layout ns pre).vlaOffset = (values 0 ns).1 + 8 * (layout ns pre).vlaCount := by
  simp only [layout]
  omega

theorem layout_room (ns : List Node) (pre : Nat) : (layout ns pre).vlaOffset ≤ (layout ns pre).frame := by
  have h := (allocs_stacked ((values 0 ns).1 + vlas ns * 8) 0 ns).1
  have h2 := roundUp_ge
  simp only [layout]
  refine Nat.le_trans ?_ (roundUp_ge _ _)
  split <;> omega

theorem values_low {ns : List Node} {c j : Nat} {n : Node} {v : Nat} (hn : ns[j]? = some n) (hs : n.size ≠ 0) (hv : (values c ns).2[j]? = some v) :
    c + n.size ≤ v ∧ v ≤ (values c ns).1 := by
  induction ns generalizing c j with
  | nil => simp at hn
  | cons m ns ih =>
    rw [values] at hv ⊢
    cases j with
    | zero =>
      simp only [List.getElem?_cons_zero, Option.some.injEq] at hn
      subst hn
      rw [if_neg hs] at hv ⊢
      simp only [List.getElem?_cons_zero, Option.some.injEq] at hv
      subst hv
      exact ⟨Nat.le_refl _, (values_stacked _ _).1⟩
    | succ j =>
      simp only [List.getElem?_cons_succ] at hn
      by_cases hm : m.size = 0
      · rw [if_pos hm] at hv ⊢
        exact ih hn (by simpa using hv)
      · rw [if_neg hm] at hv ⊢
        obtain ⟨h1, h2⟩ := ih hn (c := c + m.size) (by simpa using hv)
        exact ⟨by omega, h2⟩

theorem filter_lt {ns : List Node} {j : Nat} {n : Node} (hn : ns[j]? = some n) (hk : n.kind = .vla) :
    ((ns.take j).filter (·.kind = .vla)).length < (ns.filter (·.kind = .vla)).length := by
  induction ns generalizing j with
  | nil => simp at hn
  | cons m ns ih =>
    cases j with
    | zero =>
      simp only [List.getElem?_cons_zero, Option.some.injEq] at hn
      subst hn
      simp [hk]
    | succ j =>
      have := ih (j := j) (by simpa using hn)
      by_cases hm : m.kind = .vla
      · simpa [hm] using this
      · simpa [hm] using this

theorem declares_facts {k : Nat} {len out : Slot} (h : Declares ns pre k len out) (s : State) :
    k < (layout ns pre).vlaCount ∧ Beside (layout ns pre) s len ∧ Beside (layout ns pre) s out := by
  have e := layout_offset ns pre
  obtain ⟨j, h1, h2, h3⟩ := h.alloc
  obtain ⟨i, kind, h4, h5⟩ := h.operand
  have a1 := values_low h1 (by decide) h3
  have a2 := values_low h4 (by simp) h5
  simp only at a1 a2
  refine ⟨?_, ⟨h.lenSize, by omega, by omega⟩, ⟨h.outSize, by omega, by omega⟩⟩
  rw [h2]
  exact filter_lt h1 rfl

theorem fits_of {s : State} (h : (layout ns pre).frame ≤ (s.reg .rbp).toNat) : Fits (layout ns pre) s := by
  have e := layout_offset ns pre
  have e2 := layout_room ns pre
  exact ⟨by omega, by omega⟩

theorem and_16 (x : BitVec 64) : (x &&& BitVec.ofInt 64 (-16)).toNat = x.toNat - x.toNat % 16 := by
  have := align_down x 4 (by decide)
  exact this

/-- An allocation, in numbers. -/
theorem allocates_facts {k : Nat} {len out : Slot} (hd : Declares ns pre k len out) {s s' : State} (hf : Fits (layout ns pre) s)
    (ha : Allocates F ns pre k len out s s') : Alloc (layout ns pre) k len out s s' := by
  obtain ⟨lbl, c, h1, h2⟩ := ha
  obtain ⟨h3, h4, h5⟩ := declares_facts hd s
  obtain ⟨c', s'', g1, g2, g3⟩ := run_alloc F h3 lbl hf h4 h5
  rw [h1] at g1
  injection g1 with g1
  subst g1
  rw [h2] at g2
  injection g2 with g2
  subst g2
  exact g3

theorem slot_lt (l : Layout) (s : State) (k : Nat) : slot l s k < 2 ^ 64 :=
  Nat.lt_of_lt_of_le (rd_lt _ _ _) (by decide)

theorem word_lt (s : State) (k : Nat) : word s k < 2 ^ 64 :=
  Nat.lt_of_lt_of_le (rd_lt _ _ _) (by decide)

/-- The base of an allocation. -/
def baseOf (l : Layout) (s : State) (k : Nat) : Nat := if slot l s k = 0 then (s.reg .rsp).toNat else slot l s k

theorem alloc_numbers {l : Layout} {k : Nat} {len out : Slot} {s s' : State} (h : Alloc l k len out s s') (hb : word s len.loc ≤ baseOf l s k) :
    word s' out.loc + word s len.loc = baseOf l s k ∧ (s'.reg .rsp).toNat = word s' out.loc - word s' out.loc % 16 := by
  have hv := h.value
  have hB : baseOf l s k < 2 ^ 64 := by
    unfold baseOf
    split
    · exact (s.reg .rsp).isLt
    · exact slot_lt l s k
  have e : BitVec.ofNat 64 (word s' out.loc) = BitVec.ofNat 64 (baseOf l s k) - BitVec.ofNat 64 (word s len.loc) := hv
  have hw := word_lt s' out.loc
  have hl := word_lt s len.loc
  refine ⟨?_, ?_⟩
  · have := congrArg BitVec.toNat e
    rw [BitVec.toNat_sub_of_le] at this
    · simp only [BitVec.toNat_ofNat] at this
      rw [Nat.mod_eq_of_lt hw, Nat.mod_eq_of_lt hB, Nat.mod_eq_of_lt hl] at this
      omega
    · rw [BitVec.le_def]
      simp only [BitVec.toNat_ofNat]
      rw [Nat.mod_eq_of_lt hB, Nat.mod_eq_of_lt hl]
      exact hb
  · rw [h.rsp, and_16]
    simp only [BitVec.toNat_ofNat]
    rw [Nat.mod_eq_of_lt hw]

/-- The invariant. -/
structure Kept (l : Layout) (top : Nat) (live : List Arr) (s : State) : Prop where
  base : (s.reg .rbp).toNat = top + l.frame
  stack : 16 ∣ (s.reg .rsp).toNat ∧ (s.reg .rsp).toNat ≤ top
  slots : ∀ k, k < l.vlaCount → slot l s k = 0 ∨ 16 ∣ slot l s k ∧ (s.reg .rsp).toNat ≤ slot l s k ∧ slot l s k ≤ top
  arrays : ∀ a ∈ live, a.num < l.vlaCount ∧ slot l s a.num ≠ 0 ∧ a.addr + a.size = slot l s a.num ∧ (s.reg .rsp).toNat ≤ a.addr ∧
    ∀ j, a.num < j → j < l.vlaCount → slot l s j ≠ 0 → slot l s j ≤ a.addr
  nums : live.Pairwise (·.num ≠ ·.num)
  mono : ∀ i j, i < j → j < l.vlaCount → slot l s i ≠ 0 → slot l s j ≠ 0 → slot l s j ≤ slot l s i

theorem good_start {top : Nat} {s s' : State} (h1 : 16 ∣ top) (h2 : (s.reg .rsp).toNat = top) (h3 : (s.reg .rbp).toNat = top + (layout ns pre).frame)
    (h4 : run F (clearAll (layout ns pre)) s = .ok s') : Kept (layout ns pre) top [] s' := by
  obtain ⟨t, h5, h6⟩ := run_clears F (List.range (layout ns pre).vlaCount) (fun i hi => by simpa using hi) (s := s) (fits_of (by omega))
  unfold clearAll at h4
  rw [h4] at h5
  injection h5 with h5
  subst h5
  refine ⟨by rw [h6.reg]; exact h3, ?_, ?_, by simp, .nil, ?_⟩
  · rw [h6.reg, h2]
    exact ⟨h1, Nat.le_refl _⟩
  · intro k hk
    left
    rw [h6.slots k hk, if_pos (by simpa using hk)]
  · intro i j hij hj _ hz
    exact absurd (by rw [h6.slots j hj, if_pos (by simpa using hj)]) hz

theorem good_other {top : Nat} {live live' : List Arr} {s s' : State} {l : Layout} (h : Kept l top live s) (hk : Keeps l s s') (hs : live'.Sublist live) :
    Kept l top live' s' := by
  refine ⟨by rw [hk.rbp]; exact h.base, by rw [hk.rsp]; exact h.stack, ?_, ?_, h.nums.sublist hs, ?_⟩
  · intro k hk'
    rw [hk.slots k hk', hk.rsp]
    exact h.slots k hk'
  · intro a ha
    obtain ⟨h1, h2, h3, h4, h5⟩ := h.arrays a (hs.subset ha)
    refine ⟨h1, by rw [hk.slots _ h1]; exact h2, by rw [hk.slots _ h1]; exact h3, by rw [hk.rsp]; exact h4, ?_⟩
    intro j hj hj'
    rw [hk.slots j hj']
    exact h5 j hj hj'
  · intro i j hij hj
    rw [hk.slots i (by omega), hk.slots j hj]
    exact h.mono i j hij hj

theorem good_alloc {top : Nat} {live : List Arr} {s s' : State} {k : Nat} {len out : Slot} (h : Kept (layout ns pre) top live s) (hd : Declares ns pre k len out)
    (ho : ∀ a ∈ live, a.num = k ∨ a.num < k) (hw : word s len.loc < (s.reg .rsp).toNat) (ha : Allocates F ns pre k len out s s') :
    Kept (layout ns pre) top (⟨k, word s' out.loc, word s len.loc⟩ :: live.filter (·.num ≠ k)) s' := by
  have hf : Fits (layout ns pre) s := fits_of (by rw [h.base]; omega)
  obtain ⟨hk, -, -⟩ := declares_facts hd s
  have ha := allocates_facts hd hf ha
  have hB : 16 ∣ baseOf (layout ns pre) s k ∧ (s.reg .rsp).toNat ≤ baseOf (layout ns pre) s k ∧ baseOf (layout ns pre) s k ≤ top := by
    unfold baseOf
    split
    · exact ⟨h.stack.1, Nat.le_refl _, h.stack.2⟩
    · rename_i hz
      exact (h.slots k hk).resolve_left hz
  obtain ⟨n1, n2⟩ := alloc_numbers ha (by omega)
  have hsl := ha.slots
  have hbase : ∀ j, j < (layout ns pre).vlaCount → slot (layout ns pre) s' j =
      if k < j then 0 else if j = k then baseOf (layout ns pre) s k else slot (layout ns pre) s j := hsl
  have hle : (s'.reg .rsp).toNat ≤ word s' out.loc := by omega
  have hnk : slot (layout ns pre) s' k = baseOf (layout ns pre) s k := by rw [hbase k hk]; simp
  have hlt : ∀ j, j < k → slot (layout ns pre) s' j = slot (layout ns pre) s j := by
    intro j hj
    rw [hbase j (by omega), if_neg (by omega), if_neg (by omega)]
  -- the base is below all that is alive
  have hlow : ∀ a ∈ live, a.num < k → baseOf (layout ns pre) s k ≤ a.addr := by
    intro a ha' hak
    obtain ⟨g1, g2, g3, g4, g5⟩ := h.arrays a ha'
    unfold baseOf
    split
    · exact g4
    · rename_i hz
      exact g5 k hak hk hz
  have hmono : ∀ j, j < k → slot (layout ns pre) s j ≠ 0 → baseOf (layout ns pre) s k ≤ slot (layout ns pre) s j := by
    intro j hj hz
    unfold baseOf
    split
    · exact ((h.slots j (by omega)).resolve_left hz).2.1
    · rename_i hz'
      exact h.mono j k hj hk hz hz'
  refine ⟨?_, ?_, ?_, ?_, ?_, ?_⟩
  · rw [ha.regs .rbp (by decide) (by decide)]
    exact h.base
  · refine ⟨?_, by omega⟩
    rw [n2]
    exact Nat.dvd_sub_mod _
  · intro j hj
    by_cases h1 : k < j
    · left
      rw [hbase j hj, if_pos h1]
    · by_cases h2 : j = k
      · right
        rw [h2, hnk]
        exact ⟨hB.1, by omega, hB.2.2⟩
      · rw [hlt j (by omega)]
        rcases Decidable.em (slot (layout ns pre) s j = 0) with g | g
        · exact .inl g
        · obtain ⟨g1, g2, g3⟩ := (h.slots j hj).resolve_left g
          have := hmono j (by omega) g
          exact .inr ⟨g1, by omega, g3⟩
  · intro a ha'
    rcases List.mem_cons.1 ha' with rfl | ha'
    · refine ⟨hk, by simp only; rw [hnk]; omega, by simp only; rw [hnk, n1], by simp only; omega, ?_⟩
      intro j hj hj' hz
      exact absurd (by rw [hbase j hj', if_pos hj]) hz
    · obtain ⟨ha1, ha2⟩ := List.mem_filter.1 ha'
      have hak : a.num ≠ k := by simpa using ha2
      have hak' : a.num < k := (ho a ha1).resolve_left hak
      obtain ⟨g1, g2, g3, g4, g5⟩ := h.arrays a ha1
      have := hlow a ha1 hak'
      refine ⟨g1, by rw [hlt _ hak']; exact g2, by rw [hlt _ hak']; exact g3, by omega, ?_⟩
      intro j hj hj' hz
      by_cases h1 : k < j
      · exact absurd (by rw [hbase j hj', if_pos h1]) hz
      · by_cases h2 : j = k
        · rw [h2, hnk]
          exact this
        · rw [hlt j (by omega)] at hz ⊢
          exact g5 j hj hj' hz
  · refine List.Pairwise.cons ?_ (h.nums.filter _)
    intro a ha'
    have := (List.mem_filter.1 ha').2
    have : a.num ≠ k := by simpa using this
    exact fun e => this e.symm
  · intro i j hij hj hz hz'
    have hjk : ¬ k < j := fun h1 => hz' (by rw [hbase j hj, if_pos h1])
    have hik : i < k := by omega
    rw [hlt i hik] at hz ⊢
    by_cases h2 : j = k
    · rw [h2, hnk]
      exact hmono i hik hz
    · rw [hlt j (by omega)] at hz' ⊢
      exact h.mono i j hij hj hz hz'

theorem good_history {Outer : Nat → Nat → Prop} (hO : ∀ i k, Outer i k → i < k) {top : Nat} {live : List Arr} {s : State} (h : History F ns pre Outer top live s) :
    Kept (layout ns pre) top live s := by
  induction h with
  | start h1 h2 h3 h4 => exact good_start h1 h2 h3 h4
  | other _ h1 h2 ih => exact good_other ih h1 h2
  | alloc _ h1 h2 h3 h4 ih => exact good_alloc ih h1 (fun a ha => (h2 a ha).imp id (hO _ _)) h3 h4

theorem good_stored {l : Layout} {top : Nat} {live : List Arr} {s : State} (h : Kept l top live s) : Stored top live s := by
  refine ⟨?_, ?_, ?_, h.stack.1⟩
  · refine List.Pairwise.imp_of_mem ?_ h.nums
    intro a b ha hb hne
    obtain ⟨a1, a2, a3, a4, a5⟩ := h.arrays a ha
    obtain ⟨b1, b2, b3, b4, b5⟩ := h.arrays b hb
    rcases Nat.lt_or_gt_of_ne hne with g | g
    · have := a5 _ g b1 b2
      right
      omega
    · have := b5 _ g a1 a2
      left
      omega
  · intro a ha
    obtain ⟨a1, a2, a3, a4, a5⟩ := h.arrays a ha
    have := (h.slots _ a1).resolve_left a2
    omega
  · intro a ha d h1 h2
    obtain ⟨a1, a2, a3, a4, a5⟩ := h.arrays a ha
    have := (h.slots _ a1).resolve_left a2
    have h3 : d ∣ a.addr + a.size := by rw [a3]; exact Nat.dvd_trans h1 this.1
    exact (Nat.dvd_add_iff_left h2).2 h3

/-- The word of `k` stays while greater numbers are allocated. -/
theorem within_slot {k : Nat} (hk : k < (layout ns pre).vlaCount) {s s' : State} (h : Within F ns pre k s s') (hf : (layout ns pre).frame ≤ (s.reg .rbp).toNat) :
    slot (layout ns pre) s' k = slot (layout ns pre) s k ∧ s'.reg .rbp = s.reg .rbp := by
  induction h with
  | none => exact ⟨rfl, rfl⟩
  | other _ h1 ih => exact ⟨(h1.slots k hk).trans ih.1, h1.rbp.trans ih.2⟩
  | alloc _ h1 h2 h3 ih =>
    have hf' := fits_of (ns := ns) (pre := pre) (by rw [ih.2]; exact hf)
    have := allocates_facts h2 hf' h3
    refine ⟨?_, (this.regs .rbp (by decide) (by decide)).trans ih.2⟩
    rw [this.slots k hk, if_neg (by omega), if_neg (by omega)]
    exact ih.1

end Verif.Vla
