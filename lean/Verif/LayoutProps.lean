import Verif.LayoutBits
/-!
# C19, C20, C70: structure layout and bit-fields
-/
namespace Verif.Layout
open Verif LayoutSpec

/-- A member that is no bit-field, of a complete type or a flexible array. -/
def Plain (f : Field) : Prop :=
  f.bitfield = -1 ∧ 0 < f.ty.align ∧ (0 ≤ f.ty.size ∨ f.ty.flex = true ∧ f.ty.size = -1)

theorem largest_le_packing {packing : Int} {as : List Int} {m : Int}
    (h : Largest (as.map (eff packing)) m) : ¬ (packing > 0 ∧ m > packing) := by
  rintro ⟨h1, h2⟩
  rcases h.1 with h | h
  · omega
  · obtain ⟨a, _, rfl⟩ := List.mem_map.1 h
    unfold eff at h2
    split at h2 <;> omega

/-- **C19, structures.**  Every member is placed at the first multiple of its alignment
after the preceding member, the alignment of the structure is the largest of the members'
and its size the end of the last member rounded up. -/
theorem struct_layout_exact (packing : Int) (hp : 0 ≤ packing) (fs : List Field) (hf : ∀ f ∈ fs, Plain f) (l : Layout)
    (h : calculateOffsets false packing fs = .ok l) :
    ∃ os e, Placed 0 ((contribs fs).map fun m => (m.1, eff packing m.2)) os e ∧
      l.fields = List.zipWith (fun f o => { f with offset := o, bitOffset := 0 }) fs os ∧
      Largest (fs.map fun f => eff packing f.ty.align) l.align ∧ RoundUp e l.align l.size := by
  unfold calculateOffsets at h
  obtain ⟨s, h1, h⟩ := Res.bind_eq_ok.1 h
  obtain ⟨size, h2, h⟩ := Res.bind_eq_ok.1 h
  obtain ⟨os, hpl, hm, h0, hprev, hal⟩ := loop_plain hp fs {} s hf (by simp) rfl h1
  have hlg : Largest (fs.map fun f => eff packing f.ty.align) s.align := by
    have := foldl_largest (fs.map fun f => eff packing f.ty.align) 1 [] ⟨.inl rfl, by simp, by simp⟩
    rw [hal]
    simpa using this
  have hnp := largest_le_packing (as := fs.map fun f => f.ty.align) (m := s.align) (by simpa [Function.comp_def] using hlg)
  rw [if_neg hnp] at h2 h
  cases h
  refine ⟨os, s.cur, hpl, by simp [hprev], hlg, ?_⟩
  rw [← hm]
  have := hlg.2.1
  exact roundUp_spec (a := s.align) (by omega) (by omega) h2

theorem contribs_nonneg : ∀ {fs : List Field}, (∀ f ∈ fs, Plain f) → (∀ f ∈ fs.dropLast, f.ty.flex = false) →
    ∀ m ∈ contribs fs, 0 ≤ m.1
  | [], _, _, m, h => by cases h
  | f :: fs, hf, hl, m, h => by
    unfold contribs at h
    rcases List.mem_cons.1 h with rfl | h
    · obtain ⟨_, _, h3⟩ := hf f (by simp)
      dsimp only [contrib]
      split
      · omega
      · next hc =>
        rcases h3 with h3 | ⟨h3, _⟩
        · exact h3
        · cases fs with
          | nil => simp [h3] at hc
          | cons g fs => have := hl f (by simp); simp [h3] at this
    · refine contribs_nonneg (fun g hg => hf g (by simp [hg])) (fun g hg => hl g ?_) m h
      cases fs with
      | nil => cases hg
      | cons a fs => simp [hg]

theorem contribs_get : ∀ (fs : List Field) (i : Nat) (f : Field), fs[i]? = some f → f.ty.flex = false →
    (contribs fs)[i]? = some (f.ty.size, f.ty.align)
  | [], i, f, h, _ => by simp at h
  | g :: fs, 0, f, h, hf => by
    simp at h
    subst h
    simp [contribs, contrib, hf]
  | g :: fs, i + 1, f, h, hf => by
    simp at h
    simp [contribs, contribs_get fs i f h hf]

/-- **C19, structures**, as promised to programs: members at increasing, aligned,
non-overlapping offsets, inside the structure, whose size is a multiple of its alignment. -/
theorem struct_layout_sound (packing : Int) (hp : 0 ≤ packing) (fs : List Field) (hf : ∀ f ∈ fs, Plain f)
    (hfl : ∀ f ∈ fs, f.ty.flex = false) (l : Layout) (h : calculateOffsets false packing fs = .ok l) :
    l.fields.map (·.ty) = fs.map (·.ty) ∧ l.align ∣ l.size ∧
    (∀ f ∈ l.fields, 0 ≤ f.offset ∧ eff packing f.ty.align ∣ f.offset ∧ f.offset + f.ty.size ≤ l.size ∧
      eff packing f.ty.align ≤ l.align) ∧
    l.fields.Pairwise (fun f g => f.offset + f.ty.size ≤ g.offset) := by
  obtain ⟨os, e, hpl, hfs, hlg, hr⟩ := struct_layout_exact packing hp fs hf l h
  have hnn : ∀ m ∈ (contribs fs).map (fun m => (m.1, eff packing m.2)), 0 ≤ m.1 := by
    intro m hm
    obtain ⟨m', hm', rfl⟩ := List.mem_map.1 hm
    exact contribs_nonneg hf (fun f hf => hfl f (List.dropLast_subset _ hf)) m' hm'
  obtain ⟨hlen, _, hat, hord⟩ := Placed.facts hpl hnn
  have hcl : ∀ (fs : List Field), (contribs fs).length = fs.length := by
    intro fs
    induction fs with
    | nil => rfl
    | cons f fs ih => simp [contribs, ih]
  rw [List.length_map, hcl] at hlen
  have hget : ∀ (i : Nat) (f : Field), l.fields[i]? = some f → ∃ (g : Field) (o : Int), fs[i]? = some g ∧ os[i]? = some o ∧
      f = { g with offset := o, bitOffset := 0 } := by
    intro i f hi
    rw [hfs, List.getElem?_zipWith] at hi
    cases hg : fs[i]? with
    | none => simp [hg] at hi
    | some g =>
      cases ho : os[i]? with
      | none => simp [hg, ho] at hi
      | some o =>
        simp [hg, ho] at hi
        exact ⟨g, o, rfl, rfl, hi.symm⟩
  have hmem : ∀ (i : Nat) (g : Field), fs[i]? = some g → ((contribs fs).map (fun m => (m.1, eff packing m.2)))[i]?
      = some (g.ty.size, eff packing g.ty.align) := by
    intro i g hg
    rw [List.getElem?_map, contribs_get fs i g hg (hfl g (List.mem_of_getElem? hg))]
    rfl
  refine ⟨?_, hr.1, ?_, ?_⟩
  · rw [hfs]
    refine List.ext_getElem? fun i => ?_
    rw [List.getElem?_map, List.getElem?_map, List.getElem?_zipWith]
    cases hg : fs[i]? with
    | none => simp
    | some g =>
      have : i < os.length := by rw [hlen]; exact (List.getElem?_eq_some_iff.1 hg).1
      rw [List.getElem?_eq_getElem this]
      simp
  · intro f hfm
    obtain ⟨i, hi⟩ := List.mem_iff_getElem?.1 hfm
    obtain ⟨g, o, hg, ho, rfl⟩ := hget i f hi
    obtain ⟨a1, a2, a3⟩ := hat i _ _ (hmem i g hg) ho
    have := hr.2.1
    exact ⟨a2, a1, by dsimp only at a3 ⊢; omega, hlg.2.2 _ (List.mem_map.2 ⟨g, List.mem_of_getElem? hg, rfl⟩)⟩
  · refine List.pairwise_iff_getElem.2 fun i j hi hj hij => ?_
    obtain ⟨g, o, hg, ho, e1⟩ := hget i _ (List.getElem?_eq_getElem hi)
    obtain ⟨g', o', hg', ho', e2⟩ := hget j _ (List.getElem?_eq_getElem hj)
    rw [e1, e2]
    exact hord i j _ o o' hij (hmem i g hg) ho ho'

/-- The sum of sizes and alignments of the members. -/
def demand (fs : List Field) : Int := (fs.map fun f => f.ty.size + f.ty.align).sum

/-- **C19.**  Layout succeeds for every structure of complete members of reasonable size. -/
theorem struct_layout_defined (packing : Int) (hp : 0 ≤ packing) (fs : List Field)
    (hf : ∀ f ∈ fs, f.bitfield = -1 ∧ 0 < f.ty.align ∧ 0 ≤ f.ty.size) (hd : demand fs ≤ 1073741823) :
    ∃ l, calculateOffsets false packing fs = .ok l := by
  have hru : ∀ x a : Int, 0 < a → 0 ≤ x → x + a ≤ 2147483647 → ∃ r, roundUp x a = .ok r ∧ x ≤ r ∧ r ≤ x + a := by
    intro x a ha hx hb
    unfold roundUp
    have hm : x.tmod a = x % a := Int.tmod_eq_emod_of_nonneg hx
    have h0 := Int.emod_nonneg x (show a ≠ 0 by omega)
    have h1 := Int.emod_lt_of_pos x ha
    rw [if_neg (by omega), hm]
    split
    · refine ⟨x + (a - x % a), ?_, by omega, by omega⟩
      simp only [i32]
      rw [if_pos (by omega), Res.bind_ok, if_pos (by omega)]
    · exact ⟨x, rfl, by omega, by omega⟩
  have heff : ∀ a : Int, 0 < a → 0 < eff packing a ∧ eff packing a ≤ a := by
    intro a ha
    unfold eff
    split <;> omega
  have key : ∀ (fs : List Field) (s : St), (∀ f ∈ fs, f.bitfield = -1 ∧ 0 < f.ty.align ∧ 0 ≤ f.ty.size) →
      0 ≤ s.cur → s.max = s.cur → 1 ≤ s.align → s.cur + demand fs ≤ 1073741823 → s.align + demand fs ≤ 1073741824 →
      ∃ s', loop false packing fs s = .ok s' ∧ 0 ≤ s'.max ∧ s'.max ≤ 1073741823 ∧ 1 ≤ s'.align ∧ s'.align ≤ 1073741824 := by
    intro fs
    induction fs with
    | nil =>
      intro s _ h0 hm ha h1 h2
      simp [demand] at h1 h2
      exact ⟨s, rfl, by omega, by omega, ha, h2⟩
    | cons f fs ih =>
      intro s hf h0 hm ha h1 h2
      obtain ⟨hb, hal, hsz⟩ := hf f (by simp)
      have hdem : demand (f :: fs) = f.ty.size + f.ty.align + demand fs := by simp [demand]
      have hnn : 0 ≤ demand fs := by
        have : ∀ l : List Field, (∀ f ∈ l, f.bitfield = -1 ∧ 0 < f.ty.align ∧ 0 ≤ f.ty.size) → 0 ≤ demand l := by
          intro l
          induction l with
          | nil => simp [demand]
          | cons g l ihl =>
            intro hl
            have := ihl (fun g hg => hl g (by simp [hg]))
            have h2 := hl g (by simp)
            simp only [demand, List.map_cons, List.sum_cons] at this ⊢
            omega
        exact this fs (fun g hg => hf g (by simp [hg]))
      obtain ⟨e1, e2⟩ := heff f.ty.align hal
      obtain ⟨r, hr, hr1, hr2⟩ := hru s.cur (eff packing f.ty.align) e1 h0 (by omega)
      have hns : newSize fs.isEmpty f = .ok (contrib fs.isEmpty f.ty) := by
        unfold newSize contrib
        split
        · rfl
        · rw [if_neg (by omega)]
      have hcn : 0 ≤ contrib fs.isEmpty f.ty ∧ contrib fs.isEmpty f.ty ≤ f.ty.size := by
        unfold contrib; split <;> omega
      have hstep : step false packing fs.isEmpty s f = .ok
          { cur := r + contrib fs.isEmpty f.ty
            max := if r + contrib fs.isEmpty f.ty > s.max then r + contrib fs.isEmpty f.ty else s.max
            align := if eff packing f.ty.align > s.align then eff packing f.ty.align else s.align
            last := 0
            prev := { f with offset := r, bitOffset := 0 } :: s.prev } := by
        unfold step
        simp only [alignMax_eff, hr, Res.bind_ok, hb, place, hns]
        simp only [show ¬ ((-1 : Int) = 0) by decide, if_false, ne_eq, not_true, Bool.false_eq_true, Res.bind_ok]
        unfold i32
        rw [if_pos (by omega)]
        rfl
      unfold loop
      rw [hstep, Res.bind_ok]
      refine ih _ (fun g hg => hf g (by simp [hg])) (by dsimp only; omega) (by dsimp only; split <;> omega)
        (by dsimp only; split <;> omega) (by dsimp only; omega) (by dsimp only; split <;> omega)
  obtain ⟨s', h1, h2, h3, h4, h5⟩ := key fs {} hf (by simp) rfl (by simp) (by simpa using hd) (by simp; omega)
  unfold calculateOffsets
  rw [h1, Res.bind_ok]
  obtain ⟨r, hr, _⟩ := hru s'.max (if packing > 0 ∧ s'.align > packing then packing else s'.align)
    (by split <;> omega) h2 (by split <;> omega)
  dsimp only
  rw [hr]
  exact ⟨_, rfl⟩

/-- **C19, unions** (bit-fields included, whatever their width).  All members are at
offset 0, the size covers the largest and is a multiple of the alignment. -/
theorem union_layout (packing : Int) (fs : List Field)
    (hf : ∀ f ∈ fs, 0 < f.ty.align ∧ f.ty.flex = false) (hz : ∀ f ∈ fs, f.offset = 0 ∧ f.bitOffset = 0)
    (l : Layout) (h : calculateOffsets true packing fs = .ok l) :
    l.fields = fs ∧ l.align ∣ l.size ∧
    (∀ f ∈ fs, f.bitfield ≠ 0 → f.ty.size ≤ l.size ∧ eff packing f.ty.align ≤ l.align) ∧
    (∃ m, (m = 0 ∨ ∃ f ∈ fs, f.bitfield ≠ 0 ∧ m = f.ty.size) ∧ RoundUp m l.align l.size) := by
  have key : ∀ (fs : List Field) (s s' : St), s.cur = 0 → s.last = 0 → 1 ≤ s.align →
      (∀ f ∈ fs, 0 < f.ty.align ∧ f.ty.flex = false) → (∀ f ∈ fs, f.offset = 0 ∧ f.bitOffset = 0) →
      loop true packing fs s = .ok s' →
      s'.prev.reverse = s.prev.reverse ++ fs ∧ s.max ≤ s'.max ∧ s.align ≤ s'.align ∧
      (∀ f ∈ fs, f.bitfield ≠ 0 → f.ty.size ≤ s'.max ∧ eff packing f.ty.align ≤ s'.align) ∧
      (s'.max = s.max ∨ ∃ f ∈ fs, f.bitfield ≠ 0 ∧ s'.max = f.ty.size) ∧
      (s'.align = s.align ∨ ∃ f ∈ fs, s'.align = eff packing f.ty.align) := by
    intro fs
    induction fs with
    | nil => intro s s' _ _ _ _ _ h; cases h; simp
    | cons f fs ih =>
      intro s s' hc hl ha hf hz h
      unfold loop at h
      obtain ⟨s1, h1, h2⟩ := Res.bind_eq_ok.1 h
      obtain ⟨g1, g2, g3, g4, g5, g6, g7, g8⟩ := step_union hc hl h1
      obtain ⟨k1, k2, k3, k4, k5, k6⟩ := ih s1 s' g1 g2 (by omega) (fun g hg => hf g (by simp [hg]))
        (fun g hg => hz g (by simp [hg])) h2
      have hcon : contrib fs.isEmpty f.ty = f.ty.size := by simp [contrib, (hf f (by simp)).2]
      have hprev : s1.prev = f :: s.prev := by
        by_cases hb : f.bitfield = 0
        · exact g4 hb
        · rw [(g3 hb).1]
          obtain ⟨z1, z2⟩ := hz f (by simp)
          cases f
          dsimp only at z1 z2
          rw [z1, z2]
      refine ⟨by rw [k1, hprev]; simp, by omega, by omega, ?_, ?_, ?_⟩
      · intro g hg hb
        rcases List.mem_cons.1 hg with rfl | hg
        · obtain ⟨_, a, b⟩ := g3 hb
          rw [hcon] at a
          exact ⟨by omega, by omega⟩
        · exact k4 g hg hb
      · rcases k5 with k5 | ⟨g, hg, hb, e⟩
        · rcases g7 with g7 | ⟨hb, g7⟩
          · exact .inl (by omega)
          · exact .inr ⟨f, by simp, hb, by omega⟩
        · exact .inr ⟨g, by simp [hg], hb, e⟩
      · rcases k6 with k6 | ⟨g, hg, e⟩
        · rcases g8 with g8 | ⟨hb, g8⟩
          · exact .inl (by omega)
          · exact .inr ⟨f, by simp, by omega⟩
        · exact .inr ⟨g, by simp [hg], e⟩
  unfold calculateOffsets at h
  obtain ⟨s, h1, h⟩ := Res.bind_eq_ok.1 h
  obtain ⟨size, h2, h⟩ := Res.bind_eq_ok.1 h
  obtain ⟨k1, k2, k3, k4, k5, k6⟩ := key fs {} s rfl rfl (by simp) hf hz h1
  have hnp : ¬ (packing > 0 ∧ s.align > packing) := by
    rintro ⟨a, b⟩
    rcases k6 with k6 | ⟨g, hg, e⟩
    · simp at k6; omega
    · unfold eff at e; split at e <;> omega
  rw [if_neg hnp] at h2 h
  cases h
  simp at k2 k3
  have hr := roundUp_spec (by omega) k2 h2
  have hle := hr.2.1
  refine ⟨by simpa using k1, hr.1, fun f hfm hb => ⟨by have := (k4 f hfm hb).1; dsimp only; omega, (k4 f hfm hb).2⟩, s.max, ?_, hr⟩
  rcases k5 with k5 | k5
  · exact .inl k5
  · exact .inr k5

/-- `char`, `short`, `int`, `long` on System V. -/
def tChar : FTy := { size := 1, align := 1, tag := 1 }
def tShort : FTy := { size := 2, align := 2, tag := 2 }
def tInt : FTy := { size := 4, align := 4, tag := 3 }
def tLong : FTy := { size := 8, align := 8, tag := 4 }

/-- `struct { char a; int b; short c; }`. -/
example : calculateOffsets false 0 [⟨tChar, -1, 0, 0⟩, ⟨tInt, -1, 0, 0⟩, ⟨tShort, -1, 0, 0⟩] =
    .ok ⟨[⟨tChar, -1, 0, 0⟩, ⟨tInt, -1, 4, 0⟩, ⟨tShort, -1, 8, 0⟩], 12, 4⟩ := by decide
/-- The same under `#pragma pack(2)`. -/
example : calculateOffsets false 2 [⟨tChar, -1, 0, 0⟩, ⟨tInt, -1, 0, 0⟩, ⟨tShort, -1, 0, 0⟩] =
    .ok ⟨[⟨tChar, -1, 0, 0⟩, ⟨tInt, -1, 2, 0⟩, ⟨tShort, -1, 6, 0⟩], 8, 2⟩ := by decide
example : ∀ f ∈ ([⟨tChar, -1, 0, 0⟩, ⟨tInt, -1, 0, 0⟩, ⟨tShort, -1, 0, 0⟩] : List Field),
    Plain f ∧ f.ty.flex = false := by simp [Plain, tChar, tInt, tShort]
example : calculateOffsets true 0 [⟨tChar, -1, 0, 0⟩, ⟨tInt, 5, 0, 0⟩, ⟨tShort, -1, 0, 0⟩] =
    .ok ⟨[⟨tChar, -1, 0, 0⟩, ⟨tInt, 5, 0, 0⟩, ⟨tShort, -1, 0, 0⟩], 4, 4⟩ := by decide

/-! ## C20: bit-fields -/

/-- **C20 is violated**: in `struct { int a : 9; char b : 3; char c; }` the member `c` is
placed at offset 1, on top of bits 8-15 of `a`; and `b` has become an `int`. -/
theorem bitfields_sound_violated : ¬ BitfieldsSound := by
  intro h
  obtain ⟨h1, _⟩ := h [⟨tInt, 9, 0, 0⟩, ⟨tChar, 3, 0, 0⟩, ⟨tChar, -1, 0, 0⟩]
    ⟨[⟨tInt, 9, 0, 0⟩, ⟨tInt, 3, 0, 9⟩, ⟨tChar, -1, 1, 0⟩], 4, 4⟩
    (by simp [Legal, tInt, tChar]) (by decide)
  exact absurd h1 (by decide)

/-- The overlap itself. -/
theorem bitfields_overlap : ∃ l, calculateOffsets false 0
      [⟨tInt, 9, 0, 0⟩, ⟨tChar, 3, 0, 0⟩, ⟨tChar, -1, 0, 0⟩] = .ok l ∧ ¬ Disjoint l.fields := by
  refine ⟨⟨[⟨tInt, 9, 0, 0⟩, ⟨tInt, 3, 0, 9⟩, ⟨tChar, -1, 1, 0⟩], 4, 4⟩, by decide, ?_⟩
  simp [Disjoint, first, bits, tInt, tChar]

/-- Zero-width bit-fields: in `struct { char a : 3; long : 0; char b : 6; char c; }`
(after src/arch/x64.c:228 skips the second member) `b` straddles the bytes 8 and 9, is
accessed as a `long` although the structure has only ten bytes, and overlaps `c`. -/
theorem zero_width_violated : ∃ l, calculateOffsets false 0
      [⟨tChar, 3, 0, 0⟩, ⟨tLong, 0, 0, 0⟩, ⟨tChar, 6, 0, 0⟩, ⟨tChar, -1, 0, 0⟩] = .ok l ∧ l.size = 10 ∧
      l.fields[2]? = some ⟨tLong, 6, 8, 3⟩ ∧ l.fields[3]? = some ⟨tChar, -1, 9, 0⟩ :=
  ⟨⟨[⟨tChar, 3, 0, 0⟩, ⟨tLong, 0, 0, 0⟩, ⟨tLong, 6, 8, 3⟩, ⟨tChar, -1, 9, 0⟩], 10, 1⟩, by decide, rfl, rfl, rfl⟩

/-- **C20** for structures, without zero widths, whose adjacent bit-fields do not go from a
larger type to a smaller one: types kept, no overlap, everything inside the structure. -/
theorem bitfields_sound_partial (packing : Int) (hp : 0 ≤ packing) (fs : List Field)
    (hL : ∀ f ∈ fs, Legal f ∧ f.bitfield ≠ 0)
    (hadj : Adjacent (fun f g => f.bitfield ≠ -1 → g.bitfield ≠ -1 → f.ty.size ≤ g.ty.size) fs)
    (l : Layout) (h : calculateOffsets false packing fs = .ok l) :
    l.fields.map (fun f => (f.ty, f.bitfield)) = fs.map (fun f => (f.ty, f.bitfield)) ∧
    Disjoint l.fields ∧ (∀ f ∈ l.fields, Inside l.size f) := by
  unfold calculateOffsets at h
  obtain ⟨s, h1, h⟩ := Res.bind_eq_ok.1 h
  obtain ⟨size, h2, h⟩ := Res.bind_eq_ok.1 h
  have hadj' : Adjacent (Follows False packing) fs :=
    Adjacent.mono (fun f g h a b => ⟨h a b, fun h => h.elim⟩) hadj
  obtain ⟨hi, _, hmap⟩ := loop_inv hp fs {} s (Inv.init False packing) hL (by simp) hadj' (by simp) h1
  cases h
  have hal : 0 < (if packing > 0 ∧ s.align > packing then packing else s.align) := by
    have := hi.align
    split <;> omega
  have hr := roundUp_spec hal hi.nonneg h2
  refine ⟨by simpa using hmap, ?_, ?_⟩
  · exact List.pairwise_reverse.2 hi.order
  · intro f hf
    obtain ⟨a, b, c, d, e⟩ := hi.inside f (List.mem_reverse.1 hf)
    have := hr.2.1
    exact ⟨a, b, d, by dsimp only; omega⟩

/-- **C20**, when moreover adjacent bit-fields have equal alignment: bit-fields are inside
aligned units of their types. -/
theorem bitfields_aligned_partial (packing : Int) (hp : 0 ≤ packing) (fs : List Field)
    (hL : ∀ f ∈ fs, Legal f ∧ f.bitfield ≠ 0)
    (hadj : Adjacent (fun f g => f.bitfield ≠ -1 → g.bitfield ≠ -1 → f.ty.size ≤ g.ty.size ∧ f.ty.align = g.ty.align) fs)
    (l : Layout) (h : calculateOffsets false packing fs = .ok l) :
    ∀ f ∈ l.fields, eff packing f.ty.align ∣ f.offset := by
  unfold calculateOffsets at h
  obtain ⟨s, h1, h⟩ := Res.bind_eq_ok.1 h
  obtain ⟨size, h2, h⟩ := Res.bind_eq_ok.1 h
  have hadj' : Adjacent (Follows True packing) fs :=
    Adjacent.mono (fun f g h a b => ⟨(h a b).1, fun _ => by rw [(h a b).2]⟩) hadj
  obtain ⟨hi, _, hmap⟩ := loop_inv hp fs {} s (Inv.init True packing) hL (by simp) hadj' (by simp) h1
  cases h
  intro f hf
  exact hi.alig trivial f (List.mem_reverse.1 hf)

/-- `struct { char c; int a : 9; int b : 25; char d; }`. -/
example : calculateOffsets false 0 [⟨tChar, -1, 0, 0⟩, ⟨tInt, 9, 0, 0⟩, ⟨tInt, 25, 0, 0⟩, ⟨tInt, 7, 0, 0⟩, ⟨tChar, -1, 0, 0⟩] =
    .ok ⟨[⟨tChar, -1, 0, 0⟩, ⟨tInt, 9, 4, 0⟩, ⟨tInt, 25, 8, 0⟩, ⟨tInt, 7, 8, 25⟩, ⟨tChar, -1, 12, 0⟩], 16, 4⟩ := by decide
example : Adjacent (fun f g => f.bitfield ≠ -1 → g.bitfield ≠ -1 → f.ty.size ≤ g.ty.size ∧ f.ty.align = g.ty.align)
    ([⟨tChar, -1, 0, 0⟩, ⟨tInt, 9, 0, 0⟩, ⟨tInt, 25, 0, 0⟩, ⟨tInt, 7, 0, 0⟩, ⟨tChar, -1, 0, 0⟩] : List Field) := by
  simp [Adjacent]

/-! ## C70: the System V bit-field layout -/

/-- Positions of the bit-fields of one type, as in the psABI. -/
def SysvPositions (fs : List Field) (l : Layout) (t : FTy) : Prop :=
  SysvBits (8 * t.size) 0 (fs.map (·.bitfield)) (l.fields.map first)

theorem loop_sysv {t : FTy} (hs : 0 < t.size) (ha : t.align = t.size) : ∀ (fs : List Field) (s s' : St),
    Inv True 0 s → (s.last = 0 → s.prev = [] ∧ s.max = 0) → (∀ b ∈ s.prev, b.ty = t ∧ b.bitfield ≠ 0) →
    (∀ f ∈ fs, f.ty = t ∧ 0 < f.bitfield ∧ f.bitfield ≤ 8 * t.size ∧ Legal f) →
    loop false 0 fs s = .ok s' →
    ∃ new : List Field, s'.prev = new.reverse ++ s.prev ∧ SysvBits (8 * t.size) (frontier s) (fs.map (·.bitfield)) (new.map first) := by
  intro fs
  induction fs with
  | nil => intro s s' _ _ _ _ h; cases h; exact ⟨[], rfl, .nil _⟩
  | cons f fs ih =>
    intro s s' hi hstart hb hf h
    unfold loop at h
    obtain ⟨s1, h1, h2⟩ := Res.bind_eq_ok.1 h
    obtain ⟨ht, hw0, hw1, hL⟩ := hf f (by simp)
    have hfol : ∀ b u, s.prev = b :: u → Follows True 0 b f := by
      intro b u hbu _ _
      rw [(hb b (by simp [hbu])).1, ht]
      exact ⟨by omega, fun _ => rfl⟩
    obtain ⟨hi1, _⟩ := step_inv (by omega) hi hL (by omega) (fun p hp => (hb p hp).2) hfol h1
    obtain ⟨cur, f1, c, l, hpb, rfl⟩ := step_bits hL (by omega) (by omega) h1
    have hcases := placeBits_cases (by omega) hi hL
      (fun b u hbu hb1 => ⟨(hb b (by simp [hbu])).2, by rw [(hb b (by simp [hbu])).1, ht]; omega⟩) hpb
    have hlast := hi.last
    have next : ∀ (g : Field) (hg : f1 = g) (hgt : g.ty = t) (hgb : g.bitfield = f.bitfield) (hl : l = g.bitOffset)
        (hl0 : 0 ≤ l), ∃ new : List Field, s'.prev = new.reverse ++ f1 :: s.prev ∧
          SysvBits (8 * t.size) (first g + f.bitfield) (fs.map (·.bitfield)) (new.map first) ∧ g.offset = f1.offset := by
      intro g hg hgt hgb hl hl0
      subst hg
      obtain ⟨new, e1, e2⟩ := ih _ s' hi1 (by dsimp only; omega)
        (by
          intro b hbm
          rcases List.mem_cons.1 hbm with rfl | hbm
          · exact ⟨hgt, by omega⟩
          · exact hb b hbm)
        (fun g hg => hf g (by simp [hg])) h2
      refine ⟨new, e1, ?_, rfl⟩
      have : frontier (St.mk (c + f.ty.size) (if c + f.ty.size > s.max then c + f.ty.size else s.max)
          (if eff 0 f.ty.align > s.align then eff 0 f.ty.align else s.align) (l + f.bitfield) (f1 :: s.prev))
          = first f1 + f.bitfield := by
        simp only [frontier, first]
        rw [if_neg (by omega), hl]
        omega
      rw [← this]
      exact e2
    have hdiv : ∀ p w k : Int, 0 < w → 8 * t.size * k ≤ p → p + w ≤ 8 * t.size * (k + 1) →
        p / (8 * t.size) = (p + w - 1) / (8 * t.size) := by
      intro p w k hw a b
      have e1 : p / (8 * t.size) = k := by
        rw [Int.mul_comm] at a
        rw [Int.mul_comm] at b
        refine Int.le_antisymm (Int.lt_add_one_iff.1 ((Int.ediv_lt_iff_lt_mul (by omega)).2 (by omega)))
          ((Int.le_ediv_iff_mul_le (by omega)).2 a)
      have e2 : (p + w - 1) / (8 * t.size) = k := by
        rw [Int.mul_comm] at a
        rw [Int.mul_comm] at b
        refine Int.le_antisymm (Int.lt_add_one_iff.1 ((Int.ediv_lt_iff_lt_mul (by omega)).2 (by omega)))
          ((Int.le_ediv_iff_mul_le (by omega)).2 (by omega))
      rw [e1, e2]
    rcases hcases with ⟨b, u, hbu, hl, hf1, hc, hll, hfit⟩ | ⟨o, ho, hf1, hc, hll, hnf⟩
    · obtain ⟨new, e1, e2, _⟩ := next _ hf1 ht rfl hll (by omega)
      refine ⟨f1 :: new, by simp [e1], ?_⟩
      have hfr : frontier s = 8 * b.offset + s.last := by simp [frontier, hbu, hl]
      have hpos : first f1 = 8 * b.offset + s.last := by rw [hf1]; rfl
      rw [List.map_cons, List.map_cons, hpos, hfr]
      obtain ⟨k, hk⟩ : t.size ∣ b.offset := by
        have := hi.alig trivial b (by simp [hbu])
        rwa [(hb b (by simp [hbu])).1, ha] at this
      refine .here (hdiv _ _ k hw0 ?_ ?_) ?_
      · rw [hk, Int.mul_assoc]; omega
      · rw [hk, Int.mul_add, Int.mul_assoc, ← ht]; rw [← ht] at hk; omega
      · have : first { f with offset := b.offset, bitOffset := s.last } = 8 * b.offset + s.last := rfl
        rwa [this] at e2
    · have hmd : t.size ∣ s.max := by
        by_cases hl : s.last = 0
        · rw [(hstart hl).2]; exact Int.dvd_zero _
        · obtain ⟨b, u, hbu, _, _, _, hm⟩ := hi.run hl
          have := hi.alig trivial b (by simp [hbu])
          rw [(hb b (by simp [hbu])).1, ha] at this
          have h3 : t.size ∣ t.size := Int.dvd_refl _
          rw [hm, (hb b (by simp [hbu])).1]
          exact Int.dvd_add this h3
      have hom : o = s.max := by
        rw [ht, ha] at ho
        exact RoundUp.unique ho (RoundUp.self hmd)
      subst hom
      obtain ⟨new, e1, e2, _⟩ := next _ hf1 ht rfl hll (by omega)
      refine ⟨f1 :: new, by simp [e1], ?_⟩
      have hpos : first f1 = 8 * s.max := by rw [hf1]; simp [first]
      have hpos' : first { f with offset := s.max, bitOffset := 0 } = 8 * s.max := by simp [first]
      rw [hpos'] at e2
      rw [List.map_cons, List.map_cons, hpos]
      obtain ⟨k, hk⟩ := hmd
      by_cases hl : s.last = 0
      · have hfr : frontier s = 8 * s.max := by simp [frontier, (hstart hl).1]
        rw [hfr]
        refine .here (hdiv _ _ k hw0 ?_ ?_) e2
        · rw [hk, Int.mul_assoc]; omega
        · rw [hk, Int.mul_add, Int.mul_assoc]; omega
      · obtain ⟨b, u, hbu, _, hl1, _, hm⟩ := hi.run hl
        have hbt := (hb b (by simp [hbu])).1
        have hin := hi.inside b (by simp [hbu])
        have hbb : bits b = b.bitfield := by
          have := (hi.run hl)
          obtain ⟨b', u', hbu', hne, _⟩ := this
          rw [hbu] at hbu'
          obtain ⟨rfl, _⟩ := List.cons.inj hbu'
          simp [bits, hne]
        have hfr : frontier s = 8 * b.offset + s.last := by simp [frontier, hbu, hl]
        have hnf' := hnf hl
        rw [ht] at hnf'
        rw [hbt] at hm hin
        rw [hbb] at hin
        rw [hfr]
        by_cases hfull : s.last = 8 * t.size
        · have : 8 * b.offset + s.last = 8 * s.max := by omega
          rw [this]
          refine .here (hdiv _ _ k hw0 ?_ ?_) e2
          · rw [hk, Int.mul_assoc]; omega
          · rw [hk, Int.mul_add, Int.mul_assoc]; omega
        · have hlt : s.last < 8 * t.size := by omega
          have hmul : 8 * t.size * k = 8 * s.max := by rw [hk, Int.mul_assoc]
          refine .skip ?_ ⟨⟨k, hmul.symm⟩, by omega, ?_⟩ e2
          · intro he
            have a : (8 * b.offset + s.last) / (8 * t.size) < k := by
              refine (Int.ediv_lt_iff_lt_mul (by omega)).2 ?_
              rw [Int.mul_comm k]; omega
            have b' : k ≤ (8 * b.offset + s.last + f.bitfield - 1) / (8 * t.size) := by
              refine (Int.le_ediv_iff_mul_le (by omega)).2 ?_
              rw [Int.mul_comm k]; omega
            omega
          · rintro r ⟨j, rfl⟩ hj
            have : k - 1 < j := by
              refine Decidable.byContradiction fun hc => ?_
              have h3 : 8 * t.size * j ≤ 8 * t.size * (k - 1) := Int.mul_le_mul_of_nonneg_left (by omega) (by omega)
              rw [Int.mul_sub] at h3
              omega
            rw [← hmul]
            exact Int.mul_le_mul_of_nonneg_left (by omega) (by omega)

/-- **C70** for structures of bit-fields of one type. -/
theorem sysv_bitfields_partial (t : FTy) (hs : 0 < t.size) (ha : t.align = t.size) (fl : t.flex = false)
    (fs : List Field) (hf : ∀ f ∈ fs, f.ty = t ∧ 0 < f.bitfield ∧ f.bitfield ≤ 8 * t.size) (l : Layout)
    (h : calculateOffsets false 0 fs = .ok l) : SysvPositions fs l t := by
  unfold calculateOffsets at h
  obtain ⟨s, h1, h⟩ := Res.bind_eq_ok.1 h
  obtain ⟨size, h2, h⟩ := Res.bind_eq_ok.1 h
  cases h
  obtain ⟨new, e1, e2⟩ := loop_sysv hs ha fs {} s (Inv.init True 0) (by simp) (by simp)
    (fun f hfm => ⟨(hf f hfm).1, (hf f hfm).2.1, (hf f hfm).2.2, by
      obtain ⟨a, b, c⟩ := hf f hfm
      exact ⟨by rw [a]; exact hs, by rw [a, ha]; exact hs, by rw [a]; exact fl, .inr ⟨by omega, by rw [a]; exact c⟩⟩⟩) h1
  simp at e1
  unfold SysvPositions
  rw [show (Layout.mk s.prev.reverse size _).fields = s.prev.reverse from rfl, e1, List.reverse_reverse]
  exact e2

/-- **C70 is violated** as soon as other members follow: in `struct { int a : 3; char c; }`
the psABI (and gcc) put `c` at offset 1 and the size is 4; here it is at 4 and the size
is 8.  And in `struct { short x; int b : 4; }` the bit-field goes to offset 4 instead of
bit 16 (size 8 instead of 4). -/
theorem sysv_bitfields_violated :
    calculateOffsets false 0 [⟨tInt, 3, 0, 0⟩, ⟨tChar, -1, 0, 0⟩] =
      .ok ⟨[⟨tInt, 3, 0, 0⟩, ⟨tChar, -1, 4, 0⟩], 8, 4⟩ ∧
    calculateOffsets false 0 [⟨tShort, -1, 0, 0⟩, ⟨tInt, 4, 0, 0⟩] =
      .ok ⟨[⟨tShort, -1, 0, 0⟩, ⟨tInt, 4, 4, 0⟩], 8, 4⟩ := by decide

example : calculateOffsets false 0 [⟨tInt, 20, 0, 0⟩, ⟨tInt, 12, 0, 0⟩, ⟨tInt, 30, 0, 0⟩, ⟨tInt, 3, 0, 0⟩] =
    .ok ⟨[⟨tInt, 20, 0, 0⟩, ⟨tInt, 12, 0, 20⟩, ⟨tInt, 30, 4, 0⟩, ⟨tInt, 3, 8, 0⟩], 12, 4⟩ := by decide

end Verif.Layout
