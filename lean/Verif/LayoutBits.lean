import Verif.LayoutLemmas
/-! Lemmas about bit-fields in structures. -/
namespace Verif.Layout
open Verif LayoutSpec

/-- Where the next bit may go. -/
def frontier (s : St) : Int :=
  match s.prev with
  | b :: _ => if s.last = 0 then 8 * s.max else 8 * b.offset + s.last
  | [] => 8 * s.max

/-- The state after some members; `al`: alignment is tracked too. -/
structure Inv (al : Prop) (packing : Int) (s : St) : Prop where
  cur : s.cur = s.max
  nonneg : 0 ≤ s.max
  align : 1 ≤ s.align
  last : 0 ≤ s.last
  inside : ∀ p ∈ s.prev, 0 ≤ p.offset ∧ 0 ≤ p.bitOffset ∧ 0 < p.ty.size ∧ p.bitOffset + bits p ≤ 8 * p.ty.size ∧
    p.offset + p.ty.size ≤ s.max
  front : ∀ p ∈ s.prev, first p + bits p ≤ frontier s
  order : s.prev.Pairwise fun g f => first f + bits f ≤ first g
  run : s.last ≠ 0 → ∃ b t, s.prev = b :: t ∧ b.bitfield ≠ -1 ∧ s.last = b.bitOffset + b.bitfield ∧
    (∀ p ∈ s.prev, p.offset = b.offset → p.ty.size ≤ b.ty.size) ∧ s.max = b.offset + b.ty.size
  alig : al → ∀ p ∈ s.prev, eff packing p.ty.align ∣ p.offset

theorem Inv.init (al : Prop) (packing : Int) : Inv al packing {} :=
  ⟨rfl, by simp, by simp, by simp, by simp, by simp, by simp, by simp, by simp⟩

theorem findFit_rest {last : Int} {b i : Field} {o : Option FTy} (hl : last ≠ 0) {js : List Field}
    (hj : ∀ j ∈ js, j.offset = b.offset → j.ty.size ≤ i.ty.size) (hc : ¬ last + i.bitfield ≤ 8 * i.ty.size)
    (h : findFit last (some b) i js = .ok o) : o = none := by
  induction js with
  | nil => cases h; rfl
  | cons j js ih =>
    unfold findFit at h
    obtain ⟨x, h1, h2⟩ := Res.bind_eq_ok.1 h
    have hx : x = false := by
      unfold fitsAt at h1
      simp only [hl, if_false] at h1
      split at h1
      · next ho =>
        obtain ⟨l, hl', h1⟩ := Res.bind_eq_ok.1 h1
        obtain ⟨r, hr', h1⟩ := Res.bind_eq_ok.1 h1
        have e1 := i32_ok hl'
        have e2 := i32_ok hr'
        subst e1 e2
        have := hj j (by simp) ho
        simp only [Res.pure_eq, Res.ok.injEq] at h1
        rw [← h1]
        simp; omega
      · cases h1; rfl
    subst hx
    exact ih (fun k hk => hj k (by simp [hk])) (by simpa using h2)

/-- The search of 240-247 finds the field's own type or nothing, when no earlier type at the
same place is larger. -/
theorem findFit_own {last : Int} {b i : Field} {js : List Field} {o : Option FTy} (hl : last ≠ 0)
    (hi : i.offset = b.offset) (hj : ∀ j ∈ js, j.offset = b.offset → j.ty.size ≤ i.ty.size)
    (h : findFit last (some b) i (i :: js) = .ok o) :
    (o = some i.ty ∧ last + i.bitfield ≤ 8 * i.ty.size) ∨ (o = none ∧ ¬ last + i.bitfield ≤ 8 * i.ty.size) := by
  unfold findFit at h
  obtain ⟨x, h1, h⟩ := Res.bind_eq_ok.1 h
  unfold fitsAt at h1
  simp only [hl, hi, if_false, if_true] at h1
  obtain ⟨l, hl', h1⟩ := Res.bind_eq_ok.1 h1
  obtain ⟨r, hr', h1⟩ := Res.bind_eq_ok.1 h1
  have e1 := i32_ok hl'
  have e2 := i32_ok hr'
  subst e1 e2
  simp only [Res.pure_eq, Res.ok.injEq] at h1
  subst h1
  split at h
  · next hc =>
    cases h
    exact .inl ⟨rfl, by simpa using hc⟩
  · next hc =>
    have hc : ¬ last + i.bitfield ≤ 8 * i.ty.size := by simpa using hc
    exact .inr ⟨findFit_rest hl hj hc h, hc⟩

theorem findFit_zero (b : Option Field) (i : Field) (js : List Field) : findFit 0 b i js = .ok none := by
  induction js with
  | nil => rfl
  | cons j js ih => simp [findFit, fitsAt, ih]

/-- The two ways a bit-field is placed. -/
theorem placeBits_cases {packing : Int} {al : Prop} {s : St} {cur : Int} {f f1 : Field} {c l : Int} (hp : 0 ≤ packing)
    (hinv : Inv al packing s) (hL : Legal f)
    (hrun : ∀ b t, s.prev = b :: t → b.bitfield ≠ -1 → b.bitfield ≠ 0 ∧ b.ty.size ≤ f.ty.size)
    (h : placeBits false packing s cur f = .ok (f1, c, l)) :
    (∃ b t, s.prev = b :: t ∧ s.last ≠ 0 ∧ f1 = { f with offset := b.offset, bitOffset := s.last } ∧ c = b.offset ∧
      l = s.last ∧ s.last + f.bitfield ≤ 8 * f.ty.size) ∨
    (∃ o, RoundUp s.max (eff packing f.ty.align) o ∧ f1 = { f with offset := o, bitOffset := 0 } ∧ c = o ∧ l = 0 ∧
      (s.last ≠ 0 → ¬ s.last + f.bitfield ≤ 8 * f.ty.size)) := by
  unfold placeBits at h
  obtain ⟨off, h1, h⟩ := Res.bind_eq_ok.1 h
  obtain ⟨o, h2, h⟩ := Res.bind_eq_ok.1 h
  unfold startOffset at h1
  by_cases hl : s.last = 0
  · simp only [hl, findFit_zero] at h2
    cases h2
    simp only [Bool.false_eq_true, if_false] at h
    obtain ⟨cur', h3, h4⟩ := Res.bind_eq_ok.1 h
    rw [alignMax_eff] at h3
    have := roundUp_spec (eff_pos hp hL.2.1) hinv.nonneg h3
    simp only [Res.pure_eq, Res.ok.injEq, Prod.mk.injEq] at h4
    obtain ⟨rfl, rfl, rfl⟩ := h4
    exact .inr ⟨_, this, rfl, rfl, rfl, fun h => absurd hl h⟩
  · obtain ⟨b, t, hb, hb1, hlast, hsz, hmax⟩ := hinv.run hl
    obtain ⟨hb0, hle⟩ := hrun b t hb hb1
    rw [if_neg hl] at h1
    simp only [hb, List.head?_cons, hb0, ne_eq, not_false_eq_true, if_true, Res.ok.injEq] at h1
    subst h1
    have h2' : findFit s.last (some b) { f with offset := b.offset, bitOffset := 0 }
        ({ f with offset := b.offset, bitOffset := 0 } :: s.prev) = .ok o := by simpa only [hb, List.head?_cons] using h2
    rcases findFit_own (b := b) (i := { f with offset := b.offset, bitOffset := 0 }) hl rfl
      (fun j hj ho => Int.le_trans (hsz j hj ho) hle) h2' with ⟨rfl, hf⟩ | ⟨rfl, hf⟩
    · simp only [Res.pure_eq, Res.ok.injEq, Prod.mk.injEq] at h
      obtain ⟨rfl, rfl, rfl⟩ := h
      exact .inl ⟨b, t, hb, hl, rfl, rfl, rfl, hf⟩
    · simp only [Bool.false_eq_true, if_false] at h
      obtain ⟨cur', h3, h4⟩ := Res.bind_eq_ok.1 h
      rw [alignMax_eff] at h3
      have := roundUp_spec (eff_pos hp hL.2.1) hinv.nonneg h3
      simp only [Res.pure_eq, Res.ok.injEq, Prod.mk.injEq] at h4
      obtain ⟨rfl, rfl, rfl⟩ := h4
      exact .inr ⟨_, this, rfl, rfl, rfl, fun _ => hf⟩

/-- The step on a bit-field of a structure. -/
theorem step_bits {packing : Int} {isLast : Bool} {s s' : St} {f : Field} (hL : Legal f) (hb : f.bitfield ≠ -1)
    (hb0 : f.bitfield ≠ 0) (h : step false packing isLast s f = .ok s') :
    ∃ cur f1 c l, placeBits false packing s cur f = .ok (f1, c, l) ∧
      s' = { cur := c + f.ty.size
             max := if c + f.ty.size > s.max then c + f.ty.size else s.max
             align := if eff packing f.ty.align > s.align then eff packing f.ty.align else s.align
             last := l + f.bitfield
             prev := f1 :: s.prev } := by
  unfold step at h
  obtain ⟨cur, h1, h⟩ := Res.bind_eq_ok.1 h
  rw [if_neg hb0] at h
  obtain ⟨⟨f1, c, l⟩, h2, h⟩ := Res.bind_eq_ok.1 h
  obtain ⟨sz, h3, h⟩ := Res.bind_eq_ok.1 h
  simp only [Bool.false_eq_true, if_false] at h
  obtain ⟨c', h4, h5⟩ := Res.bind_eq_ok.1 h
  have h4 := i32_ok h4
  have h3 := newSize_ok h3
  unfold place at h2
  rw [if_pos hb] at h2
  obtain ⟨⟨f2, c2, l2⟩, h6, h2⟩ := Res.bind_eq_ok.1 h2
  simp only [Bool.false_eq_true, if_false] at h2
  obtain ⟨l3, h7, h2⟩ := Res.bind_eq_ok.1 h2
  have h7 := i32_ok h7
  simp only [Res.pure_eq, Res.ok.injEq, Prod.mk.injEq] at h2
  obtain ⟨rfl, rfl, rfl⟩ := h2
  simp only [Res.pure_eq, Res.ok.injEq] at h5
  refine ⟨cur, _, _, _, h6, ?_⟩
  rw [← h5, h7, h4, h3]
  simp [contrib, hL.2.2.1, alignMax_eff]

/-- The condition on adjacent members under which bit-fields are laid out properly. -/
def Follows (al : Prop) (packing : Int) (f g : Field) : Prop :=
  f.bitfield ≠ -1 → g.bitfield ≠ -1 → f.ty.size ≤ g.ty.size ∧
    (al → eff packing f.ty.align = eff packing g.ty.align)

theorem step_inv {al : Prop} {packing : Int} {isLast : Bool} {s s' : St} {f : Field} (hp : 0 ≤ packing)
    (hinv : Inv al packing s) (hL : Legal f) (hw : f.bitfield ≠ 0)
    (hnz : ∀ p ∈ s.prev, p.bitfield ≠ 0)
    (hrun : ∀ b t, s.prev = b :: t → Follows al packing b f)
    (h : step false packing isLast s f = .ok s') :
    Inv al packing s' ∧ ∃ o bo, s'.prev = { f with offset := o, bitOffset := bo } :: s.prev := by
  obtain ⟨hs, ha, hfl, hwd⟩ := id hL
  have hfm : ∀ p ∈ s.prev, first p + bits p ≤ 8 * s.max := by
    intro p hpm
    obtain ⟨h1, h2, h3, h4, h5⟩ := hinv.inside p hpm
    unfold first
    omega
  by_cases hb : f.bitfield = -1
  · obtain ⟨o, ho, rfl⟩ := step_plain hb hp ha (by rw [hinv.cur]; exact hinv.nonneg) h
    have hc : contrib isLast f.ty = f.ty.size := by simp [contrib, hfl]
    have ho1 := ho.2.1
    have hcur := hinv.cur
    have hnn := hinv.nonneg
    have hal := hinv.align
    rw [hc]
    have hmax : (if o + f.ty.size > s.max then o + f.ty.size else s.max) = o + f.ty.size := by
      rw [if_pos (by omega)]
    rw [hmax]
    have hbits : bits { f with offset := o, bitOffset := 0 } = 8 * f.ty.size := by simp [bits, hb]
    refine ⟨⟨rfl, by dsimp only; omega, by dsimp only; split <;> omega, by simp, ?_, ?_, ?_, by simp, ?_⟩, o, 0, rfl⟩
    · intro p hpm
      rcases List.mem_cons.1 hpm with rfl | hpm
      · rw [hbits]; dsimp only; exact ⟨by omega, by omega, by omega, by omega, by omega⟩
      · obtain ⟨h1, h2, h3, h4, h5⟩ := hinv.inside p hpm
        exact ⟨h1, h2, h3, h4, by dsimp only; omega⟩
    · intro p hpm
      simp only [frontier, if_true]
      rcases List.mem_cons.1 hpm with rfl | hpm
      · rw [hbits]; simp only [first]; omega
      · have := hfm p hpm
        omega
    · refine List.pairwise_cons.2 ⟨fun p hpm => ?_, hinv.order⟩
      have := hfm p hpm
      simp only [first] at this ⊢
      omega
    · intro hal p hpm
      rcases List.mem_cons.1 hpm with rfl | hpm
      · exact ho.1
      · exact hinv.alig hal p hpm
  · have hw1 : 1 ≤ f.bitfield := by omega
    have hwm : f.bitfield ≤ 8 * f.ty.size := by omega
    obtain ⟨cur, f1, c, l, hpb, rfl⟩ := step_bits hL hb hw h
    have hnn := hinv.nonneg
    have hal := hinv.align
    have hlast := hinv.last
    rcases placeBits_cases hp hinv hL (fun b t hbt hb1 => ⟨hnz b (by simp [hbt]), (hrun b t hbt hb1 hb).1⟩) hpb with
      ⟨b, t, hbt, hl, rfl, rfl, rfl, hfit⟩ | ⟨o, ho, rfl, rfl, rfl, _⟩
    · obtain ⟨b', t', hbt', hb1, hl1, hsz, hmax⟩ := hinv.run hl
      rw [hbt] at hbt'
      obtain ⟨rfl, rfl⟩ := List.cons.inj hbt'
      have hbf := hrun b t hbt hb1 hb
      have hin := hinv.inside b (by simp [hbt])
      have hm : (if b.offset + f.ty.size > s.max then b.offset + f.ty.size else s.max) = b.offset + f.ty.size := by
        split <;> omega
      rw [hm]
      have hbits : bits { f with offset := b.offset, bitOffset := s.last } = f.bitfield := by simp [bits, hb]
      have hfr : ∀ p ∈ s.prev, first p + bits p ≤ 8 * b.offset + s.last := by
        intro p hpm
        have := hinv.front p hpm
        simpa [frontier, hbt, hl] using this
      refine ⟨⟨rfl, by dsimp only; omega, by dsimp only; split <;> omega, by dsimp only; omega, ?_, ?_, ?_, ?_, ?_⟩, _, _, rfl⟩
      · intro p hpm
        rcases List.mem_cons.1 hpm with rfl | hpm
        · rw [hbits]; dsimp only; exact ⟨by omega, by omega, by omega, by omega, by omega⟩
        · obtain ⟨h1, h2, h3, h4, h5⟩ := hinv.inside p hpm
          exact ⟨h1, h2, h3, h4, by dsimp only; omega⟩
      · intro p hpm
        simp only [frontier]
        rw [if_neg (by omega)]
        rcases List.mem_cons.1 hpm with rfl | hpm
        · rw [hbits]; simp only [first]; omega
        · have := hfr p hpm; omega
      · refine List.pairwise_cons.2 ⟨fun p hpm => ?_, hinv.order⟩
        have := hfr p hpm
        simp only [first] at this ⊢
        omega
      · intro _
        refine ⟨_, _, rfl, hb, rfl, ?_, rfl⟩
        intro p hpm
        rcases List.mem_cons.1 hpm with rfl | hpm
        · intro _; dsimp only; omega
        · intro ho
          have := hsz p hpm ho
          dsimp only; omega
      · intro hal p hpm
        rcases List.mem_cons.1 hpm with rfl | hpm
        · dsimp only
          rw [← hbf.2 hal]
          exact hinv.alig hal b (by simp [hbt])
        · exact hinv.alig hal p hpm
    · have ho1 := ho.2.1
      have hm : (if c + f.ty.size > s.max then c + f.ty.size else s.max) = c + f.ty.size := by
        rw [if_pos (by omega)]
      rw [hm]
      have hbits : bits { f with offset := c, bitOffset := 0 } = f.bitfield := by simp [bits, hb]
      refine ⟨⟨rfl, by dsimp only; omega, by dsimp only; split <;> omega, by dsimp only; omega, ?_, ?_, ?_, ?_, ?_⟩, _, _, rfl⟩
      · intro p hpm
        rcases List.mem_cons.1 hpm with rfl | hpm
        · rw [hbits]; dsimp only; exact ⟨by omega, by omega, by omega, by omega, by omega⟩
        · obtain ⟨h1, h2, h3, h4, h5⟩ := hinv.inside p hpm
          exact ⟨h1, h2, h3, h4, by dsimp only; omega⟩
      · intro p hpm
        simp only [frontier]
        rw [if_neg (by omega)]
        rcases List.mem_cons.1 hpm with rfl | hpm
        · rw [hbits]; simp only [first]; omega
        · have := hfm p hpm; omega
      · refine List.pairwise_cons.2 ⟨fun p hpm => ?_, hinv.order⟩
        have := hfm p hpm
        simp only [first] at this ⊢
        omega
      · intro _
        refine ⟨_, _, rfl, hb, rfl, ?_, rfl⟩
        intro p hpm
        rcases List.mem_cons.1 hpm with rfl | hpm
        · intro _; dsimp only; omega
        · intro ho
          obtain ⟨h1, h2, h3, h4, h5⟩ := hinv.inside p hpm
          dsimp only at ho ⊢; omega
      · intro hal p hpm
        rcases List.mem_cons.1 hpm with rfl | hpm
        · exact ho.1
        · exact hinv.alig hal p hpm

theorem Adjacent.tail {α : Type} {R : α → α → Prop} {a : α} {l : List α} (h : Adjacent R (a :: l)) : Adjacent R l := by
  cases l with
  | nil => trivial
  | cons b l => exact h.2

theorem Adjacent.mono {α : Type} {R S : α → α → Prop} (hRS : ∀ a b, R a b → S a b) :
    ∀ {l : List α}, Adjacent R l → Adjacent S l
  | [], _ => trivial
  | [_], _ => trivial
  | a :: b :: _, h => ⟨hRS a b h.1, Adjacent.mono hRS h.2⟩

theorem loop_inv {al : Prop} {packing : Int} (hp : 0 ≤ packing) : ∀ (fs : List Field) (s s' : St),
    Inv al packing s → (∀ f ∈ fs, Legal f ∧ f.bitfield ≠ 0) → (∀ p ∈ s.prev, p.bitfield ≠ 0) →
    Adjacent (Follows al packing) fs → (∀ b t f u, s.prev = b :: t → fs = f :: u → Follows al packing b f) →
    loop false packing fs s = .ok s' →
    Inv al packing s' ∧ (∀ p ∈ s'.prev, p.bitfield ≠ 0) ∧
      s'.prev.reverse.map (fun p => (p.ty, p.bitfield)) = s.prev.reverse.map (fun p => (p.ty, p.bitfield)) ++ fs.map (fun p => (p.ty, p.bitfield)) := by
  intro fs
  induction fs with
  | nil => intro s s' hi _ hz _ _ h; cases h; exact ⟨hi, hz, by simp⟩
  | cons f fs ih =>
    intro s s' hi hL hz hadj hfst h
    unfold loop at h
    obtain ⟨s1, h1, h⟩ := Res.bind_eq_ok.1 h
    obtain ⟨hi1, o, bo, hprev⟩ := step_inv hp hi (hL f (by simp)).1 (hL f (by simp)).2 hz
      (fun b t hb => hfst b t f fs hb rfl) h1
    obtain ⟨g1, g2, g3⟩ := ih s1 s' hi1 (fun g hg => hL g (by simp [hg]))
      (by
        rw [hprev]
        intro p hpm
        rcases List.mem_cons.1 hpm with rfl | hpm
        · exact (hL f (by simp)).2
        · exact hz p hpm) (Adjacent.tail hadj)
      (by
        intro b t g u hb hg
        rw [hprev] at hb
        obtain ⟨rfl, rfl⟩ := List.cons.inj hb
        subst hg
        exact hadj.1) h
    refine ⟨g1, g2, ?_⟩
    rw [g3, hprev]
    simp

end Verif.Layout
