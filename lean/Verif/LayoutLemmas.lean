import Verif.LayoutSpec
/-! Lemmas about structure layout. -/
namespace Verif.Layout
open Verif LayoutSpec

theorem i32_ok {x y : Int} (h : i32 x = .ok y) : y = x := by
  unfold i32 at h
  split at h <;> cases h
  rfl

theorem roundUp_spec {x a r : Int} (ha : 0 < a) (hx : 0 ≤ x) (h : roundUp x a = .ok r) : RoundUp x a r := by
  unfold roundUp at h
  have hm : x.tmod a = x % a := Int.tmod_eq_emod_of_nonneg hx
  rw [if_neg (by omega), hm] at h
  have h0 := Int.emod_nonneg x (show a ≠ 0 by omega)
  have h1 := Int.emod_lt_of_pos x ha
  have h2 := Int.emod_add_mul_ediv x a
  split at h
  · next hne =>
    obtain ⟨y, hy, h⟩ := Res.bind_eq_ok.1 h
    have := i32_ok hy
    have hr := i32_ok h
    subst this
    have hr' : r = a * (x / a + 1) := by rw [Int.mul_add]; omega
    refine ⟨⟨x / a + 1, hr'⟩, by omega, ?_⟩
    rintro r' ⟨k, rfl⟩ hk
    rw [hr']
    refine Int.mul_le_mul_of_nonneg_left ?_ (by omega)
    refine Decidable.byContradiction fun hc => ?_
    have : a * k ≤ a * (x / a) := Int.mul_le_mul_of_nonneg_left (by omega) (by omega)
    omega
  · next he =>
    have he : x % a = 0 := by simpa using he
    cases h
    exact ⟨⟨x / a, by omega⟩, by omega, fun r' _ h => h⟩

theorem alignMax_eff (t : FTy) (p : Int) : alignMax t p = eff p t.align := by
  unfold alignMax eff
  split
  · rfl
  · split <;> omega

theorem eff_pos {p a : Int} (hp : 0 ≤ p) (ha : 0 < a) : 0 < eff p a := by
  unfold eff; split <;> omega

theorem RoundUp.unique {x a r r' : Int} (h : RoundUp x a r) (h' : RoundUp x a r') : r = r' := by
  have := h.2.2 _ h'.1 h'.2.1
  have := h'.2.2 _ h.1 h.2.1
  omega

theorem RoundUp.self {x a : Int} (h : a ∣ x) : RoundUp x a x := ⟨h, by omega, fun _ _ h => h⟩

/-! ### Ordinary members of structures -/

theorem newSize_ok {isLast : Bool} {f : Field} {sz : Int} (h : newSize isLast f = .ok sz) :
    sz = contrib isLast f.ty := by
  unfold newSize at h
  unfold contrib
  split at h
  · next hc => cases h; rw [if_pos hc]
  · next hc =>
    rw [if_neg hc]
    split at h <;> cases h
    rfl

theorem step_plain {packing : Int} {isLast : Bool} {s s' : St} {f : Field} (hf : f.bitfield = -1)
    (hp : 0 ≤ packing) (ha : 0 < f.ty.align) (hc : 0 ≤ s.cur) (h : step false packing isLast s f = .ok s') :
    ∃ o, RoundUp s.cur (eff packing f.ty.align) o ∧
      s' = { cur := o + contrib isLast f.ty
             max := if o + contrib isLast f.ty > s.max then o + contrib isLast f.ty else s.max
             align := if eff packing f.ty.align > s.align then eff packing f.ty.align else s.align
             last := 0
             prev := { f with offset := o, bitOffset := 0 } :: s.prev } := by
  unfold step at h
  obtain ⟨cur, h1, h⟩ := Res.bind_eq_ok.1 h
  rw [if_neg (by omega)] at h
  obtain ⟨⟨f1, c, l⟩, h2, h⟩ := Res.bind_eq_ok.1 h
  obtain ⟨sz, h3, h⟩ := Res.bind_eq_ok.1 h
  simp only [Bool.false_eq_true, if_false] at h
  obtain ⟨c', h4, h5⟩ := Res.bind_eq_ok.1 h
  have h4 := i32_ok h4
  have h3 := newSize_ok h3
  unfold place at h2
  rw [if_neg (by omega)] at h2
  cases h2
  cases h5
  rw [alignMax_eff] at h1 ⊢
  refine ⟨_, roundUp_spec (eff_pos hp ha) hc h1, ?_⟩
  subst h4 h3
  rfl

theorem loop_plain {packing : Int} (hp : 0 ≤ packing) : ∀ (fs : List Field) (s s' : St),
    (∀ f ∈ fs, f.bitfield = -1 ∧ 0 < f.ty.align ∧ (0 ≤ f.ty.size ∨ f.ty.flex = true ∧ f.ty.size = -1)) →
    0 ≤ s.cur → s.max = s.cur →
    loop false packing fs s = .ok s' →
    ∃ os, Placed s.cur ((contribs fs).map (fun m => (m.1, eff packing m.2))) os s'.cur ∧ s'.max = s'.cur ∧
      0 ≤ s'.cur ∧
      s'.prev = (List.zipWith (fun f o => { f with offset := o, bitOffset := 0 }) fs os).reverse ++ s.prev ∧
      s'.align = (fs.map (fun f => eff packing f.ty.align)).foldl (fun m a => if a > m then a else m) s.align := by
  intro fs
  induction fs with
  | nil =>
    intro s s' _ h0 hm h
    cases h
    exact ⟨[], .nil _, hm, h0, rfl, rfl⟩
  | cons f fs ih =>
    intro s s' hf h0 hm h
    unfold loop at h
    obtain ⟨s1, h1, h⟩ := Res.bind_eq_ok.1 h
    obtain ⟨b, ha, hs⟩ := hf f (by simp)
    obtain ⟨o, ho, rfl⟩ := step_plain b hp ha h0 h1
    have hsz : 0 ≤ contrib fs.isEmpty f.ty := by
      unfold contrib
      split
      · omega
      · next hc =>
        rcases hs with hs | ⟨hs, hn⟩
        · exact hs
        · exfalso
          have : fs.isEmpty = false := by simpa [hs] using hc
          unfold step at h1
          obtain ⟨_, _, h1⟩ := Res.bind_eq_ok.1 h1
          rw [if_neg (by omega)] at h1
          obtain ⟨_, _, h1⟩ := Res.bind_eq_ok.1 h1
          obtain ⟨_, h3, h1⟩ := Res.bind_eq_ok.1 h1
          simp [newSize, this, hn] at h3
    have h1 := ho.2.1
    obtain ⟨os, hpl, hm', h0', hprev, hal⟩ := ih _ s' (fun g hg => hf g (by simp [hg])) (by simp; omega)
      (by simp only []; split <;> omega) h
    refine ⟨o :: os, .cons ho hpl, hm', h0', ?_, ?_⟩
    · rw [hprev]; simp
    · rw [hal]; simp

theorem foldl_largest (as : List Int) : ∀ (m : Int) (bs : List Int), Largest bs m →
    Largest (bs ++ as) (as.foldl (fun m a => if a > m then a else m) m) := by
  induction as with
  | nil => intro m bs h; simpa using h
  | cons a as ih =>
    intro m bs h
    have := ih (if a > m then a else m) (bs ++ [a]) (by
      obtain ⟨h1, h2, h3⟩ := h
      split
      · next hc =>
        refine ⟨.inr (by simp), by omega, fun b hb => ?_⟩
        rcases List.mem_append.1 hb with hb | hb
        · have := h3 b hb; omega
        · simp at hb; omega
      · next hc =>
        refine ⟨h1.imp_right (fun h => by simp [h]), h2, fun b hb => ?_⟩
        rcases List.mem_append.1 hb with hb | hb
        · exact h3 b hb
        · simp at hb; omega)
    simpa using this

/-- What `Placed` says about any two members and the end. -/
theorem Placed.facts {e e' : Int} {ms : List (Int × Int)} {os : List Int} (h : Placed e ms os e')
    (hs : ∀ m ∈ ms, 0 ≤ m.1) :
    os.length = ms.length ∧ e ≤ e' ∧
    (∀ (i : Nat) (m : Int × Int) (o : Int), ms[i]? = some m → os[i]? = some o → m.2 ∣ o ∧ e ≤ o ∧ o + m.1 ≤ e') ∧
    (∀ (i j : Nat) (m : Int × Int) (o o' : Int), i < j → ms[i]? = some m → os[i]? = some o → os[j]? = some o' →
      o + m.1 ≤ o') := by
  induction h with
  | nil e => simp
  | @cons e s a o ms os e' hr hpl ih =>
    obtain ⟨h1, h2, h3, h4⟩ := ih (fun m hm => hs m (by simp [hm]))
    have hs0 : 0 ≤ s := hs (s, a) (by simp)
    have hle := hr.2.1
    refine ⟨by simp [h1], by omega, ?_, ?_⟩
    · intro i m o' hm ho
      cases i with
      | zero =>
        simp at hm ho
        subst hm ho
        exact ⟨hr.1, by omega, by omega⟩
      | succ i =>
        simp at hm ho
        obtain ⟨g1, g2, g3⟩ := h3 i m o' hm ho
        exact ⟨g1, by omega, g3⟩
    · intro i j m o1 o2 hij hm ho ho'
      cases j with
      | zero => omega
      | succ j =>
        cases i with
        | zero =>
          simp at hm ho ho'
          subst hm ho
          have hj : j < ms.length := by
            rw [← h1]
            exact (List.getElem?_eq_some_iff.1 ho').1
          obtain ⟨_, g2, _⟩ := h3 j ms[j] o2 (List.getElem?_eq_getElem hj) ho'
          exact g2
        | succ i =>
          simp at hm ho ho'
          exact h4 i j m o1 o2 (by omega) hm ho ho'

/-! ### Unions -/

theorem roundUp_zero {a r : Int} (h : roundUp 0 a = .ok r) : r = 0 := by
  unfold roundUp at h
  split at h
  · cases h
  · simp at h; exact h.symm

theorem step_union {packing : Int} {isLast : Bool} {s s' : St} {f : Field} 
    (hc : s.cur = 0) (hl : s.last = 0) (h : step true packing isLast s f = .ok s') :
    s'.cur = 0 ∧ s'.last = 0 ∧
      (f.bitfield ≠ 0 → s'.prev = { f with offset := 0, bitOffset := 0 } :: s.prev ∧
        contrib isLast f.ty ≤ s'.max ∧ eff packing f.ty.align ≤ s'.align) ∧
      (f.bitfield = 0 → s'.prev = f :: s.prev) ∧ s.max ≤ s'.max ∧ s.align ≤ s'.align ∧
      (s'.max = s.max ∨ f.bitfield ≠ 0 ∧ s'.max = contrib isLast f.ty) ∧
      (s'.align = s.align ∨ f.bitfield ≠ 0 ∧ s'.align = eff packing f.ty.align) := by
  unfold step at h
  obtain ⟨cur, h1, h⟩ := Res.bind_eq_ok.1 h
  rw [hc] at h1
  have h1 := roundUp_zero h1
  subst h1
  split at h
  · next hb =>
    cases h
    exact ⟨rfl, hl, fun h => absurd hb h, fun _ => rfl, by simp, by simp, .inl rfl, .inl rfl⟩
  · next hb =>
    obtain ⟨⟨f1, c, l⟩, h2, h⟩ := Res.bind_eq_ok.1 h
    obtain ⟨sz, h3, h⟩ := Res.bind_eq_ok.1 h
    have h3 := newSize_ok h3
    simp only [if_true] at h
    have hpl : f1 = { f with offset := 0, bitOffset := 0 } ∧ c = 0 ∧ l = 0 := by
      unfold place at h2
      split at h2
      · obtain ⟨⟨f2, c2, l2⟩, h4, h2⟩ := Res.bind_eq_ok.1 h2
        simp only [if_true, Res.pure_eq, Res.bind_ok, Res.ok.injEq, Prod.mk.injEq] at h2
        obtain ⟨rfl, rfl, rfl⟩ := h2
        unfold placeBits startOffset at h4
        simp only [hl, if_true, Res.bind_ok] at h4
        have hfit : ∀ (i : Field) (b : Option Field) (js : List Field), findFit 0 b i js = .ok none := by
          intro i b js
          induction js with
          | nil => rfl
          | cons j js ih => simp [findFit, fitsAt, ih]
        simp only [hfit, Res.bind_ok, Res.pure_eq, Res.ok.injEq, Prod.mk.injEq] at h4
        obtain ⟨rfl, rfl, rfl⟩ := h4
        exact ⟨rfl, rfl, rfl⟩
      · cases h2
        exact ⟨rfl, rfl, rfl⟩
    obtain ⟨rfl, rfl, rfl⟩ := hpl
    cases h
    subst h3
    rw [← alignMax_eff]
    refine ⟨rfl, rfl, fun _ => ⟨rfl, ?_, ?_⟩, fun h => absurd h hb, ?_, ?_, ?_, ?_⟩ <;> dsimp only
    · split <;> omega
    · split <;> omega
    · split <;> omega
    · split <;> omega
    · split
      · exact .inr ⟨hb, rfl⟩
      · exact .inl rfl
    · split
      · exact .inr ⟨hb, rfl⟩
      · exact .inl rfl

end Verif.Layout
