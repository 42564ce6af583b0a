import Verif.ObjectSpec
/-!
Lemmas about the object under construction (src/linker/object.c) and label names
(src/codegen/rodata.c).
-/
namespace Verif.Object
open Verif Verif.ObjectSpec

/-! ### Searches -/

theorem findSymbol_some {n : Name} : ∀ {l : List Symbol} {k i : Nat}, findSymbol n l k = some i →
    k ≤ i ∧ ∃ s, l[i - k]? = some s ∧ s.name = some n := by
  intro l
  induction l with
  | nil => intro k i h; cases h
  | cons s l ih =>
    intro k i h
    unfold findSymbol at h
    split at h
    · next hs => injection h with h; subst h; exact ⟨Nat.le_refl _, s, by simp, hs⟩
    · obtain ⟨h1, t, h2, h3⟩ := ih h
      refine ⟨by omega, t, ?_, h3⟩
      rw [show i - k = (i - (k + 1)) + 1 by omega]
      exact h2

theorem findSymbol_none {n : Name} : ∀ {l : List Symbol} {k : Nat}, findSymbol n l k = none →
    ∀ s ∈ l, s.name ≠ some n := by
  intro l
  induction l with
  | nil => intro k h s hs; cases hs
  | cons s l ih =>
    intro k h t ht
    unfold findSymbol at h
    split at h
    · cases h
    · next hs =>
      rcases List.mem_cons.1 ht with rfl | ht
      · exact hs
      · exact ih h t ht

theorem findSection_some {n : Name} : ∀ {l : List Section} {k i : Nat}, findSection n l k = some i →
    k ≤ i ∧ ∃ s, l[i - k]? = some s ∧ s.name = some n := by
  intro l
  induction l with
  | nil => intro k i h; cases h
  | cons s l ih =>
    intro k i h
    unfold findSection at h
    split at h
    · next hs => injection h with h; subst h; exact ⟨Nat.le_refl _, s, by simp, hs⟩
    · obtain ⟨h1, t, h2, h3⟩ := ih h
      refine ⟨by omega, t, ?_, h3⟩
      rw [show i - k = (i - (k + 1)) + 1 by omega]
      exact h2

theorem findSection_none {n : Name} : ∀ {l : List Section} {k : Nat}, findSection n l k = none →
    ∀ s ∈ l, s.name ≠ some n := by
  intro l
  induction l with
  | nil => intro k h s hs; cases hs
  | cons s l ih =>
    intro k h t ht
    unfold findSection at h
    split at h
    · cases h
    · next hs =>
      rcases List.mem_cons.1 ht with rfl | ht
      · exact hs
      · exact ih h t ht

/-! ### Lists with distinct names -/

theorem pairwise_idx {α β : Type} {f : α → β} {l : List α} (h : l.Pairwise fun a b => f a ≠ f b)
    {i j : Nat} {a b : α} (hi : l[i]? = some a) (hj : l[j]? = some b) (hab : f a = f b) : i = j := by
  rcases Nat.lt_trichotomy i j with hlt | heq | hlt
  · exfalso
    obtain ⟨hi', rfl⟩ := List.getElem?_eq_some_iff.1 hi
    obtain ⟨hj', rfl⟩ := List.getElem?_eq_some_iff.1 hj
    exact List.pairwise_iff_getElem.1 h i j hi' hj' hlt hab
  · exact heq
  · exfalso
    obtain ⟨hi', rfl⟩ := List.getElem?_eq_some_iff.1 hi
    obtain ⟨hj', rfl⟩ := List.getElem?_eq_some_iff.1 hj
    exact List.pairwise_iff_getElem.1 h j i hj' hi' hlt hab.symm

theorem pairwise_set {α β : Type} {f : α → β} {l : List α} (h : l.Pairwise fun a b => f a ≠ f b)
    {i : Nat} {a b : α} (hi : l[i]? = some a) (hab : f b = f a) :
    (l.set i b).Pairwise fun a b => f a ≠ f b := by
  have hmap : (l.set i b).map f = l.map f := by
    rw [List.map_set]
    apply List.ext_getElem?
    intro k
    rw [List.getElem?_set]
    split
    · next hk =>
      subst hk
      obtain ⟨hi', rfl⟩ := List.getElem?_eq_some_iff.1 hi
      simp [hi', hab]
    · rfl
  have h1 : (l.map f).Pairwise (· ≠ ·) := List.pairwise_map.2 h
  rw [← hmap] at h1
  exact List.pairwise_map.1 h1

theorem pairwise_snoc {α β : Type} {f : α → β} {l : List α} (h : l.Pairwise fun a b => f a ≠ f b) {b : α}
    (hb : ∀ a ∈ l, f a ≠ f b) : (l ++ [b]).Pairwise fun a b => f a ≠ f b := by
  apply List.pairwise_append.2
  refine ⟨h, List.pairwise_singleton .., ?_⟩
  intro a ha c hc
  rw [List.mem_singleton.1 hc]
  exact hb a ha

theorem mem_set_cases {α : Type} {l : List α} {i : Nat} {a b x : α} (hi : l[i]? = some a)
    (hx : x ∈ l.set i b) : x = b ∨ ∃ j, j ≠ i ∧ l[j]? = some x := by
  obtain ⟨j, hj⟩ := List.mem_iff_getElem?.1 hx
  rw [List.getElem?_set] at hj
  split at hj
  · next h =>
    subst h
    split at hj
    · injection hj with hj; exact .inl hj.symm
    · cases hj
  · next h => exact .inr ⟨j, fun hh => h hh.symm, hj⟩

/-! ### The invariant -/

/-- The object shows the view, and the current section is the one of the view. -/
structure Good (o : Obj) (v : View) : Prop where
  shows' : Shows o v
  cur : ∃ s, o.sections[o.cur]? = some s ∧ s.name = some v.cur

theorem refsOf_append {ys : List Symbol} : ∀ {rs : List Relocation} {fs : List Ref} {r : Relocation} {f : Ref},
    RefsOf ys rs fs → RefOf ys r f → RefsOf ys (rs ++ [r]) (fs ++ [f]) := by
  intro rs
  induction rs with
  | nil => intro fs r f h hr; cases fs with
    | nil => exact ⟨hr, trivial⟩
    | cons f' fs => exact h.elim
  | cons r' rs ih => intro fs r f h hr; cases fs with
    | nil => exact h.elim
    | cons f' fs => exact ⟨h.1, ih h.2 hr⟩

theorem refOf_mono {ys zs : List Symbol} (hm : ∀ (i : Nat) s, ys[i]? = some s → ∃ t, zs[i]? = some t ∧ t.name = s.name)
    {r : Relocation} {f : Ref} (h : RefOf ys r f) : RefOf zs r f := by
  obtain ⟨h1, h2, h3, s, h4, h5⟩ := h
  obtain ⟨t, ht, hn⟩ := hm _ _ h4
  exact ⟨h1, h2, h3, t, ht, by rw [hn]; exact h5⟩

theorem refsOf_mono {ys zs : List Symbol} (hm : ∀ (i : Nat) s, ys[i]? = some s → ∃ t, zs[i]? = some t ∧ t.name = s.name) :
    ∀ {rs : List Relocation} {fs : List Ref}, RefsOf ys rs fs → RefsOf zs rs fs := by
  intro rs
  induction rs with
  | nil => intro fs h; cases fs with
    | nil => trivial
    | cons f fs => exact h.elim
  | cons r rs ih => intro fs h; cases fs with
    | nil => exact h.elim
    | cons f fs => exact ⟨refOf_mono hm h.1, ih h.2⟩

theorem defOf_mono {ss ts : List Section} (hm : ∀ (i : Nat) s, ss[i]? = some s → ∃ t, ts[i]? = some t ∧ t.name = s.name)
    {y : Symbol} {d : Option Def} (h : DefOf ss y d) : DefOf ts y d := by
  cases d with
  | none => exact h
  | some d =>
    obtain ⟨i, t, h1, h2, h3, h4⟩ := h
    obtain ⟨t', h2', h3'⟩ := hm _ _ h2
    exact ⟨i, t', h1, h2', by rw [h3', h3], h4⟩

theorem good_start : Good objectStart start := by
  refine ⟨⟨?_, ?_, ?_, ?_, ?_, ?_⟩, ⟨{ name := some (str ".text") }, rfl, rfl⟩⟩
  · exact List.pairwise_singleton ..
  · intro s hs
    rw [List.mem_singleton.1 hs]
    exact ⟨_, rfl, rfl, trivial, rfl⟩
  · intro n _; exact ⟨rfl, rfl, rfl⟩
  · exact List.Pairwise.nil
  · intro s hs; cases hs
  · intro n hn; exact absurd rfl hn

theorem good_sect {o : Obj} {v : View} (h : Good o v) (n : Name) :
    Good (setSection o n) (ObjectSpec.step v (.sect n)) := by
  unfold setSection
  split
  · next i hi =>
    obtain ⟨_, s, hs, hn⟩ := findSection_some hi
    exact ⟨⟨h.1.1, h.1.2, h.1.3, h.1.4, h.1.5, h.1.6⟩, s, by simpa using hs, hn⟩
  · next hi =>
    have hnone := findSection_none hi
    have hl := h.1.3 n hnone
    refine ⟨⟨?_, ?_, ?_, h.1.4, ?_, h.1.6⟩, { name := some n }, by simp, rfl⟩
    · exact pairwise_snoc h.1.1 hnone
    · intro s hs
      rcases List.mem_append.1 hs with hs | hs
      · exact h.1.2 s hs
      · rw [List.mem_singleton.1 hs]
        exact ⟨n, rfl, hl.1.symm, by show RefsOf _ [] (v.refs n); rw [hl.2.1]; trivial, hl.2.2.symm⟩
    · intro m hm
      exact h.1.3 m (fun s hs => hm s (List.mem_append_left _ hs))
    · intro s hs
      obtain ⟨m, hm, hd⟩ := h.1.5 s hs
      refine ⟨m, hm, defOf_mono ?_ hd⟩
      intro i t ht
      refine ⟨t, ?_, rfl⟩
      obtain ⟨hi', _⟩ := List.getElem?_eq_some_iff.1 ht
      show (o.sections ++ [_])[i]? = _
      rw [List.getElem?_append_left hi', ht]

/-- An update of the current section. -/
theorem good_onSection {o : Obj} {v v' : View} (h : Good o v) {f : Section → Section} (hf : ∀ s, (f s).name = s.name)
    (hc : v'.cur = v.cur) (hd : v'.defs = v.defs)
    (hother : ∀ n, n ≠ v.cur → v'.content n = v.content n ∧ v'.refs n = v.refs n ∧ v'.pad n = v.pad n)
    (hcur : ∀ s, o.sections[o.cur]? = some s → s.data = v.content v.cur → RefsOf o.symbols s.relocs (v.refs v.cur) →
      s.alignment = v.pad v.cur →
      (f s).data = v'.content v.cur ∧ RefsOf o.symbols (f s).relocs (v'.refs v.cur) ∧
      (f s).alignment = v'.pad v.cur) :
    ∃ o', onSection o f = .ok o' ∧ Good o' v' := by
  obtain ⟨s, hs, hn⟩ := h.2
  have hmem := List.mem_of_getElem? hs
  obtain ⟨n, hn', k1, k2, k3⟩ := h.1.2 s hmem
  obtain rfl : n = v.cur := by rw [hn] at hn'; injection hn' with hn'; exact hn'.symm
  obtain ⟨c1, c2, c3⟩ := hcur s hs k1 k2 k3
  have hlt := (List.getElem?_eq_some_iff.1 hs).1
  have hmono : ∀ (i : Nat) t, o.sections[i]? = some t → ∃ t', (o.sections.set o.cur (f s))[i]? = some t' ∧ t'.name = t.name := by
    intro i t ht
    rw [List.getElem?_set]
    by_cases hi : o.cur = i
    · subst hi
      rw [hs] at ht
      injection ht with ht
      subst ht
      exact ⟨f s, by simp [hlt], hf s⟩
    · rw [if_neg hi]; exact ⟨t, ht, rfl⟩
  unfold onSection
  rw [hs]
  refine ⟨_, rfl, ⟨?_, ?_, ?_, h.1.4, ?_, ?_⟩, ?_⟩
  · exact pairwise_set h.1.1 hs (hf s)
  · intro t ht
    rcases mem_set_cases hs ht with rfl | ⟨j, hj, ht⟩
    · exact ⟨v.cur, by rw [hf]; exact hn, c1, c2, c3⟩
    · obtain ⟨m, hm, l1, l2, l3⟩ := h.1.2 t (List.mem_of_getElem? ht)
      have hne : m ≠ v.cur := by
        rintro rfl
        exact hj (pairwise_idx h.1.1 ht hs (by rw [hm, hn]))
      obtain ⟨o1, o2, o3⟩ := hother m hne
      refine ⟨m, hm, by rw [o1, l1], ?_, by rw [o3, l3]⟩
      rw [o2]; exact l2
  · intro m hm
    have hne : m ≠ v.cur := by
      rintro rfl
      apply hm (f s) _ (by rw [hf]; exact hn)
      exact List.mem_iff_getElem?.2 ⟨o.cur, by rw [List.getElem?_set]; simp [hlt]⟩
    obtain ⟨o1, o2, o3⟩ := hother m hne
    rw [o1, o2, o3]
    apply h.1.3 m
    intro t ht
    obtain ⟨i, hi⟩ := List.mem_iff_getElem?.1 ht
    obtain ⟨t', ht', hnm⟩ := hmono i t hi
    rw [← hnm]
    exact hm t' (List.mem_of_getElem? ht')
  · intro y hy
    obtain ⟨m, hm, hdef⟩ := h.1.5 y hy
    refine ⟨m, hm, ?_⟩
    rw [hd]
    exact defOf_mono hmono hdef
  · intro m hm
    rw [hd] at hm
    exact h.1.6 m hm
  · refine ⟨f s, ?_, ?_⟩
    · show (o.sections.set o.cur (f s))[o.cur]? = _
      rw [List.getElem?_set]; simp [hlt]
    · rw [hf, hc]; exact hn

theorem upd_same {α : Type} (f : Name → α) (n : Name) (a : α) : upd f n a n = a := if_pos rfl
theorem upd_other {α : Type} (f : Name → α) {n m : Name} (a : α) (h : m ≠ n) : upd f n a m = f m := if_neg h

theorem good_write {o : Obj} {v : View} (h : Good o v) (bs : List Byte) :
    ∃ o', write o bs = .ok o' ∧ Good o' (ObjectSpec.step v (.emit bs)) := by
  refine good_onSection (f := fun s => { s with data := s.data ++ bs }) h (fun _ => rfl) rfl rfl ?_ ?_
  · intro n hn
    exact ⟨upd_other _ _ hn, rfl, rfl⟩
  · intro s _ h1 h2 h3
    refine ⟨?_, h2, h3⟩
    show _ = upd v.content v.cur _ v.cur
    rw [upd_same, ← h1]

theorem emit_emit (v : View) (a b : List Byte) :
    ObjectSpec.step (ObjectSpec.step v (.emit a)) (.emit b) = ObjectSpec.step v (.emit (a ++ b)) := by
  simp only [ObjectSpec.step, upd_same, List.append_assoc]
  congr 1
  funext n
  by_cases hn : n = v.cur
  · subst hn; rw [upd_same, upd_same]
  · rw [upd_other _ _ hn, upd_other _ _ hn, upd_other _ _ hn]

theorem byte_shift (v : BitVec 64) (i : Nat) :
    (v >>> (8 * i)).setWidth 8 = BitVec.ofNat 8 (v.toNat / 256 ^ i) := by
  apply BitVec.eq_of_toNat_eq
  simp only [BitVec.toNat_setWidth, BitVec.toNat_ushiftRight, BitVec.toNat_ofNat, Nat.shiftRight_eq_div_pow]
  rw [show (256 : Nat) = 2 ^ 8 from rfl, ← Nat.pow_mul]

theorem quadBytes_eq (v : BitVec 64) : quadBytes v =
    [v.setWidth 8] ++ [(v >>> 8).setWidth 8] ++ [(v >>> 16).setWidth 8] ++ [(v >>> 24).setWidth 8] ++
    [(v >>> 32).setWidth 8] ++ [(v >>> 40).setWidth 8] ++ [(v >>> 48).setWidth 8] ++ [(v >>> 56).setWidth 8] := by
  have h0 : v.setWidth 8 = BitVec.ofNat 8 (v.toNat / 256 ^ 0) := by
    have := byte_shift v 0
    rw [← this]; simp
  have h1 : (v >>> 8).setWidth 8 = BitVec.ofNat 8 (v.toNat / 256 ^ 1) := byte_shift v 1
  have h2 : (v >>> 16).setWidth 8 = BitVec.ofNat 8 (v.toNat / 256 ^ 2) := byte_shift v 2
  have h3 : (v >>> 24).setWidth 8 = BitVec.ofNat 8 (v.toNat / 256 ^ 3) := byte_shift v 3
  have h4 : (v >>> 32).setWidth 8 = BitVec.ofNat 8 (v.toNat / 256 ^ 4) := byte_shift v 4
  have h5 : (v >>> 40).setWidth 8 = BitVec.ofNat 8 (v.toNat / 256 ^ 5) := byte_shift v 5
  have h6 : (v >>> 48).setWidth 8 = BitVec.ofNat 8 (v.toNat / 256 ^ 6) := byte_shift v 6
  have h7 : (v >>> 56).setWidth 8 = BitVec.ofNat 8 (v.toNat / 256 ^ 7) := byte_shift v 7
  rw [h0, h1, h2, h3, h4, h5, h6, h7]
  rfl

theorem good_quad {o : Obj} {v : View} (h : Good o v) (x : BitVec 64) :
    ∃ o', writeQuad o x = .ok o' ∧ Good o' (ObjectSpec.step v (.emit (quadBytes x))) := by
  rw [quadBytes_eq]
  unfold writeQuad
  obtain ⟨o1, e1, h1⟩ := good_write h [x.setWidth 8]
  obtain ⟨o2, e2, h2⟩ := good_write h1 [(x >>> 8).setWidth 8]
  obtain ⟨o3, e3, h3⟩ := good_write h2 [(x >>> 16).setWidth 8]
  obtain ⟨o4, e4, h4⟩ := good_write h3 [(x >>> 24).setWidth 8]
  obtain ⟨o5, e5, h5⟩ := good_write h4 [(x >>> 32).setWidth 8]
  obtain ⟨o6, e6, h6⟩ := good_write h5 [(x >>> 40).setWidth 8]
  obtain ⟨o7, e7, h7⟩ := good_write h6 [(x >>> 48).setWidth 8]
  obtain ⟨o8, e8, h8⟩ := good_write h7 [(x >>> 56).setWidth 8]
  rw [e1, Res.bind_ok, e2, Res.bind_ok, e3, Res.bind_ok, e4, Res.bind_ok, e5, Res.bind_ok, e6, Res.bind_ok,
    e7, Res.bind_ok]
  refine ⟨o8, e8, ?_⟩
  simp only [emit_emit] at h8
  exact h8

theorem good_align {o : Obj} {v : View} (h : Good o v) {n : Nat} (hn : 0 < n) :
    ∃ o', align o n = .ok o' ∧ Good o' (ObjectSpec.step v (.align n)) := by
  obtain ⟨s, hs, hnm⟩ := h.2
  obtain ⟨m, hm, k1, k2, k3⟩ := h.1.2 s (List.mem_of_getElem? hs)
  obtain rfl : m = v.cur := by rw [hnm] at hm; injection hm with hm; exact hm.symm
  unfold align
  rw [hs]
  dsimp only
  rw [if_neg (by omega)]
  by_cases hr : s.data.length % n = 0
  · rw [if_pos hr]
    refine ⟨o, rfl, ?_⟩
    have hr' : (v.content v.cur).length % n = 0 := by rw [← k1]; exact hr
    have hv : ObjectSpec.step v (.align n) = { v with req := upd v.req v.cur (max (v.req v.cur) n) } := by
      simp only [ObjectSpec.step, padding, if_pos hr', List.replicate_zero, List.append_nil]
      congr 1
      funext k
      by_cases hk : k = v.cur
      · rw [hk, upd_same]
      · rw [upd_other _ _ hk]
    rw [hv]
    exact ⟨⟨h.1.1, h.1.2, h.1.3, h.1.4, h.1.5, h.1.6⟩, h.2⟩
  · rw [if_neg hr]
    have hr' : ¬ (v.content v.cur).length % n = 0 := by rw [← k1]; exact hr
    obtain ⟨o1, e1, h1⟩ := good_write h (List.replicate (n - s.data.length % n) 0)
    rw [e1, Res.bind_ok]
    refine good_onSection (f := fun s => { s with alignment := max s.alignment n }) h1 (fun _ => rfl) rfl rfl ?_ ?_
    · intro k hk
      have hk : k ≠ v.cur := hk
      refine ⟨?_, rfl, ?_⟩
      · show upd v.content v.cur _ k = upd v.content v.cur _ k
        rw [upd_other _ _ hk, upd_other _ _ hk]
      · simp only [ObjectSpec.step, if_neg hr']
        exact upd_other _ _ hk
    · intro t _ t1 t2 t3
      refine ⟨?_, t2, ?_⟩
      · show t.data = upd v.content v.cur _ v.cur
        have t1 : t.data = upd v.content v.cur _ v.cur := t1
        rw [upd_same] at t1
        rw [upd_same, t1, padding, if_neg hr', ← k1]
      · simp only [ObjectSpec.step, if_neg hr', upd_same]
        rw [show t.alignment = v.pad v.cur from t3]

/-- `get_symbol`: the object shows the same view, and the symbol has the name. -/
theorem good_getSymbol {es : List Entry} {o : Obj} {v : View} (h : Good o v) {id : Int} {n : Name}
    (hl : getLabel es id = .ok n) (hid : id ≠ -1) :
    ∃ o' i s, getSymbol es o id = .ok (o', i) ∧ Good o' v ∧ o'.symbols[i]? = some s ∧ s.name = some n ∧
      o'.sections = o.sections ∧ o'.cur = o.cur := by
  unfold getSymbol
  rw [hl, Res.bind_ok]
  cases hf : findSymbol n o.symbols 0 with
  | some i =>
    obtain ⟨_, s, hs, hn⟩ := findSymbol_some hf
    exact ⟨o, i, s, rfl, h, by simpa using hs, hn, rfl, rfl⟩
  | none =>
    have hnone := findSymbol_none hf
    have hdef : v.defs n = none := by
      cases hd : v.defs n with
      | none => rfl
      | some d =>
        obtain ⟨s, hs, hn⟩ := h.1.6 n (by rw [hd]; simp)
        exact absurd hn (hnone s hs)
    refine ⟨_, _, { name := some n }, rfl, ?_, ?_, rfl, rfl, rfl⟩
    · refine ⟨⟨h.1.1, ?_, h.1.3, ?_, ?_, ?_⟩, h.2⟩
      · intro s hs
        obtain ⟨m, hm, k1, k2, k3⟩ := h.1.2 s hs
        refine ⟨m, hm, k1, refsOf_mono ?_ k2, k3⟩
        intro i t ht
        refine ⟨t, ?_, rfl⟩
        obtain ⟨hi', _⟩ := List.getElem?_eq_some_iff.1 ht
        show (o.symbols ++ [_])[i]? = _
        rw [List.getElem?_append_left hi', ht]
      · apply pairwise_snoc h.1.4
        intro a ha
        rw [if_pos hid]
        exact hnone a ha
      · intro s hs
        rcases List.mem_append.1 hs with hs | hs
        · exact h.1.5 s hs
        · rw [List.mem_singleton.1 hs]
          refine ⟨n, by simp [hid], ?_⟩
          rw [hdef]
          rfl
      · intro m hm
        obtain ⟨s, hs, hn⟩ := h.1.6 m hm
        exact ⟨s, List.mem_append_left _ hs, hn⟩
    · simp [hid]

theorem good_reloc {es : List Entry} {o : Obj} {v : View} (h : Good o v) {id : Int} {n : Name} {off : Nat}
    {add : BitVec 64} {ty : RelType} (hl : getLabel es id = .ok n) (hid : id ≠ -1) :
    ∃ o', symbolRelocate es o id off add ty = .ok o' ∧ Good o' (ObjectSpec.step v (.refer ⟨ty, n, off, add⟩)) := by
  obtain ⟨o1, i, y, e1, h1, hy, hn, _, _⟩ := good_getSymbol h hl hid
  unfold symbolRelocate
  rw [e1, Res.bind_ok]
  refine good_onSection (f := fun s => { s with relocs := s.relocs ++ [⟨ty, i, BitVec.ofNat 64 (s.data.length + off), add⟩] })
    h1 (fun _ => rfl) rfl rfl ?_ ?_
  · intro k hk
    exact ⟨rfl, upd_other _ _ hk, rfl⟩
  · intro s _ k1 k2 k3
    refine ⟨k1, ?_, k3⟩
    show RefsOf _ _ (upd v.refs v.cur _ v.cur)
    rw [upd_same]
    exact refsOf_append k2 ⟨rfl, by rw [k1], rfl, y, hy, hn⟩

theorem good_label {es : List Entry} {o : Obj} {v : View} (h : Good o v) {id : Int} {n : Name} {g : Bool}
    (hl : getLabel es id = .ok n) (hid : id ≠ -1) :
    ∃ o', symbolSet es o id g = .ok o' ∧ Good o' (ObjectSpec.step v (.define n g)) := by
  obtain ⟨s, hs, hsn⟩ := h.2
  obtain ⟨o1, i, y, e1, h1, hy, hn, hsec, hcur⟩ := good_getSymbol h hl hid
  obtain ⟨m, hm, k1, _, _⟩ := h.1.2 s (List.mem_of_getElem? hs)
  obtain rfl : m = v.cur := by rw [hsn] at hm; injection hm with hm; exact hm.symm
  unfold symbolSet
  rw [hs]
  dsimp only
  rw [e1, Res.bind_ok]
  dsimp only
  rw [hy]
  have hlt := (List.getElem?_eq_some_iff.1 hy).1
  refine ⟨_, rfl, ⟨h1.1.1, ?_, h1.1.3, ?_, ?_, ?_⟩, h1.2⟩
  · intro t ht
    obtain ⟨m, hm, l1, l2, l3⟩ := h1.1.2 t ht
    refine ⟨m, hm, l1, refsOf_mono ?_ l2, l3⟩
    intro j z hz
    show ∃ t, (o1.symbols.set i _)[j]? = some t ∧ _
    rw [List.getElem?_set]
    by_cases hj : i = j
    · subst hj
      rw [hy] at hz
      injection hz with hz
      subst hz
      rw [if_pos rfl, if_pos hlt]
      exact ⟨_, rfl, rfl⟩
    · rw [if_neg hj]; exact ⟨z, hz, rfl⟩
  · exact pairwise_set h1.1.4 hy rfl
  · intro z hz
    rcases mem_set_cases hy hz with rfl | ⟨j, hj, hz⟩
    · refine ⟨n, hn, ?_⟩
      show DefOf _ _ (upd v.defs n _ n)
      rw [upd_same]
      refine ⟨o1.cur, s, rfl, ?_, hsn, ?_, rfl⟩
      · show o1.sections[o1.cur]? = _
        rw [hsec, hcur, hs]
      · show BitVec.ofNat 64 s.data.length = _
        rw [k1]
    · obtain ⟨m, hm, hd⟩ := h1.1.5 z (List.mem_of_getElem? hz)
      refine ⟨m, hm, ?_⟩
      have hne : m ≠ n := by
        rintro rfl
        exact hj (pairwise_idx h1.1.4 hz hy (by rw [hm, hn]))
      show DefOf _ _ (upd v.defs n _ m)
      rw [upd_other _ _ hne]
      exact hd
  · intro m hm
    by_cases hmn : m = n
    · subst hmn
      have hmem := List.mem_iff_getElem?.2 ⟨i, (List.getElem?_set_self (a := { y with
        sect := some o1.cur, value := BitVec.ofNat 64 s.data.length, global := g }) hlt)⟩
      exact ⟨_, hmem, hn⟩
    · have hm : upd v.defs n _ m ≠ none := hm
      rw [upd_other _ _ hmn] at hm
      obtain ⟨z, hz, hzn⟩ := h1.1.6 m hm
      obtain ⟨j, hj⟩ := List.mem_iff_getElem?.1 hz
      have hji : i ≠ j := by
        rintro rfl
        rw [hy] at hj
        injection hj with hj
        subst hj
        rw [hn] at hzn
        injection hzn with hzn
        exact hmn hzn.symm
      exact ⟨z, List.mem_iff_getElem?.2 ⟨j, by rw [List.getElem?_set, if_neg hji, hj]⟩, hzn⟩

theorem good_step {es : List Entry} {o : Obj} {v : View} (h : Good o v) {op : Op} {c : Call} (hc : CallOf es op c) :
    ∃ o', step es o op = .ok o' ∧ Good o' (ObjectSpec.step v c) := by
  cases op with
  | sect n => have hc : c = _ := hc; subst hc; exact ⟨_, rfl, good_sect h n⟩
  | write bs => have hc : c = _ := hc; subst hc; exact good_write h bs
  | quad x => have hc : c = _ := hc; subst hc; exact good_quad h x
  | zero n => have hc : c = _ := hc; subst hc; exact good_write h _
  | align n => obtain ⟨rfl, hn⟩ := hc; exact good_align h hn
  | label g id => obtain ⟨n, hl, hid, rfl⟩ := hc; exact good_label h hl hid
  | reloc id off add ty => obtain ⟨n, hl, hid, rfl⟩ := hc; exact good_reloc h hl hid

theorem good_run {es : List Entry} : ∀ {ops : List Op} {cs : List Call} {o : Obj} {v : View}, Good o v →
    CallsOf es ops cs → ∃ o', run es o ops = .ok o' ∧ Good o' (cs.foldl ObjectSpec.step v) := by
  intro ops
  induction ops with
  | nil => intro cs o v h hc; cases cs with
    | nil => exact ⟨o, rfl, h⟩
    | cons c cs => exact hc.elim
  | cons op ops ih => intro cs o v h hc; cases cs with
    | nil => exact hc.elim
    | cons c cs =>
      obtain ⟨o1, e1, h1⟩ := good_step h hc.1
      rw [run, e1, Res.bind_ok]
      show ∃ o', _ ∧ Good o' (cs.foldl ObjectSpec.step (ObjectSpec.step v c))
      exact ih h1 hc.2

end Verif.Object
