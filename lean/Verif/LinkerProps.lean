import Verif.LinkerLemmas
/-!
C49, C50, C51 and C83: what linking produces.
-/
namespace Verif.Linker
open Verif Verif.Object Verif.LinkerSpec

/-! ### An example -/

/-- `_start` calls `f`, which the second object defines at offset `v` of its second section. -/
def caller : Obj :=
  { sections := [{ name := some (str ".text"), data := [0xe8, 0, 0, 0, 0, 0xc3],
                   relocs := [⟨.r32rel, 0, 1, -4⟩] }]
    symbols := [{ name := some (str "f"), global := true },
                { name := some (str "_start"), global := true, sect := some 0 }] }

/-- The second object. -/
def callee (v : BitVec 64) : Obj :=
  { sections := [{ name := some (str ".data"), alignment := 4, data := [1, 2, 3, 4] },
                 { name := some (str ".text"), data := [0x90, 0x90, 0x90, 0x90, 0x90, 0xc3] }]
    symbols := [{ name := some (str "f"), value := v, global := true, sect := some 1 }] }

theorem demo_linkable (v : BitVec 64) : Linkable [caller, callee v] where
  symbols := by intro o ho; simp at ho; rcases ho with rfl | rfl <;> simp [caller, callee]
  sections := by intro o ho; simp at ho; rcases ho with rfl | rfl <;> simp [caller, callee]
  fields := by
    intro o ho
    simp at ho
    rcases ho with rfl | rfl
    · intro s hs
      simp [caller] at hs
      subst hs
      exact ⟨by simp [width], List.pairwise_singleton _ _⟩
    · intro s hs
      simp [callee] at hs
      rcases hs with rfl | rfl <;> exact ⟨by simp, List.Pairwise.nil⟩
  defined := by
    intro a o y ho hy
    match a, ho with
    | 0, ho =>
      simp at ho; subst ho
      simp [caller] at hy
      rcases hy with rfl | rfl
      · exact ⟨1, 1, v, .other (z := { name := some (str "f"), value := v, global := true, sect := some 1 }) rfl
          (show ([caller, callee v] : List Obj)[1]? = some (callee v) from rfl) (by simp [callee]) rfl (by simp) rfl rfl⟩
      · exact ⟨0, 0, 0, .own rfl⟩
    | 1, ho =>
      simp at ho; subst ho
      simp [callee] at hy
      subst hy
      exact ⟨1, 1, v, .own rfl⟩
    | a + 2, ho => simp at ho
  unique := by
    have key : ∀ a o y b s w, ([caller, callee v] : List Obj)[a]? = some o → y ∈ o.symbols →
        Target [caller, callee v] a y b s w →
        b = (if y.name = some (str "f") then 1 else 0) ∧ s = (if y.name = some (str "f") then 1 else 0) ∧
        w = (if y.name = some (str "f") then v else 0) := by
      intro a o y b s w ho hy ht
      have hne : (some (str "_start") : Option Name) ≠ some (str "f") := by decide
      cases ht with
      | own hs =>
        match a, ho with
        | 0, ho =>
          simp at ho; subst ho
          simp [caller] at hy
          rcases hy with rfl | rfl
          · cases hs
          · injection hs with hs; subst hs; simp [show str "_start" ≠ str "f" by decide]
        | 1, ho =>
          simp at ho; subst ho
          simp [callee] at hy
          subst hy
          injection hs with hs; subst hs; simp
        | a + 2, ho => simp at ho
      | @other _ _ o' z hs hb hz hzn hn hg hzs =>
        have hyf : y.name = some (str "f") := by
          match a, ho with
          | 0, ho =>
            simp at ho; subst ho
            simp [caller] at hy
            rcases hy with rfl | rfl
            · rfl
            · cases hs
          | 1, ho =>
            simp at ho; subst ho
            simp [callee] at hy
            subst hy; cases hs
          | a + 2, ho => simp at ho
        rw [hyf] at hzn
        match b, hb with
        | 0, hb =>
          simp at hb; subst hb
          simp [caller] at hz
          rcases hz with rfl | rfl
          · cases hzs
          · exact absurd hzn hne
        | 1, hb =>
          simp at hb; subst hb
          simp [callee] at hz
          subst hz
          injection hzs with hzs; subst hzs; simp [hyf]
        | b + 2, hb => simp at hb
    intro a o y b s w b' s' w' ho hy h1 h2
    obtain ⟨rfl, rfl, rfl⟩ := key a o y b s w ho hy h1
    obtain ⟨rfl, rfl, rfl⟩ := key a o y b' s' w' ho hy h2
    exact ⟨rfl, rfl, rfl⟩
  single := by intro h; simp at h
  small := by simp [total, bytes, caller, callee]

/-! ### C49 -/

/-- What a relocated field holds, given the address of its symbol. -/
theorem field_value {os : List Obj} (h : Linkable os) {e : Executable} (he : linkerLink os = .ok e)
    {a s : Nat} {o : Obj} {sec : Section} {r : Relocation} {y : Symbol} {b t : Nat} {v : BitVec 64} {tsec : Section}
    (h1 : os[a]? = some o) (h2 : o.sections[s]? = some sec) (h3 : r ∈ sec.relocs) (h4 : o.symbols[r.idx]? = some y)
    (ht : Target os a y b t v) (hv : v = y.value) (hts : sect os b t = some tsec) (hne : tsec.data ≠ [])
    (k : Nat) (hk : k < width r.type) :
    e.data[start os a s + r.offset.toNat + k]? = (Bytes.leBytes (width r.type)
      (fieldValue r.type (addr os b t + v) r.add (addr os a s + r.offset)).toNat)[k]? := by
  obtain ⟨L, e', infos, hw, hsec, hsym, hinf, hl, _, _, _, _, hfld⟩ := link_ok h
  rw [he] at hl
  injection hl with hl
  subst hl
  rw [hfld a s o sec h1 h2 r h3 k hk]
  obtain ⟨y', g1, g2, g3, _⟩ := whole_sym h hsym h1 h4 ht
  obtain ⟨o', k1, k2⟩ := Option.bind_eq_some_iff.1 hts
  have hi := concat_sect (sy := 0) (se := 0) k1 k2
  have hst := concat_start (sy := 0) (se := 0) k1 (Nat.le_of_lt (List.getElem?_eq_some_iff.1 k2).1)
  have hin : infos[secOff os b + t]? = some (start os b t) := by
    have hdne : (moveSection (0 + symOff os b) tsec).data ≠ [] := hne
    rw [hinf, place_infos L.sections [] _ _ (by rw [hsec]; exact hi), if_neg hdne, hsec, hst]
    simp
  have hsv : symValue L infos 0x10000 { r with idx := r.idx + symOff os a } = addr os b t + v := by
    unfold symValue
    dsimp only
    rw [Nat.add_comm r.idx, g1]
    dsimp only
    rw [g2, g3, hv]
    show _ + BitVec.ofNat 64 (infos[_]?.getD 0) + _ = _
    rw [hin]
    show y.value + BitVec.ofNat 64 (start os b t) + 0x10000 = 0x10000 + BitVec.ofNat 64 (start os b t) + y.value
    rw [BitVec.add_assoc, BitVec.add_comm, BitVec.add_comm 0x10000]
  unfold writeOf
  dsimp only
  have hpos : r.offset + BitVec.ofNat 64 (start os a s) + 0x10000 = addr os a s + r.offset := by
    unfold addr
    rw [BitVec.add_assoc, BitVec.add_comm, BitVec.add_comm 0x10000]
  rw [hsv, hpos]

/-- C49.  Linking succeeds, every byte outside the relocated fields is that of its section, and the
field of a relocation that refers to a symbol of its own object holds S + A or S + A - P,
truncated to the width of the field. -/
theorem relocations_applied {os : List Obj} (h : Linkable os) :
    ∃ e, linkerLink os = .ok e ∧ Placed os e ∧
      ∀ (a s : Nat) (o : Obj) (sec : Section) (r : Relocation) (y : Symbol) (t : Nat) (tsec : Section),
        os[a]? = some o → o.sections[s]? = some sec → r ∈ sec.relocs → o.symbols[r.idx]? = some y →
        y.sect = some t → o.sections[t]? = some tsec → tsec.data ≠ [] → ∀ k, k < width r.type →
        e.data[start os a s + r.offset.toNat + k]? = (Bytes.leBytes (width r.type)
          (fieldValue r.type (addr os a t + y.value) r.add (addr os a s + r.offset)).toNat)[k]? := by
  obtain ⟨L, e, infos, hw, hsec, hsym, hinf, hl, _, hlen, _, hrest, _⟩ := link_ok h
  refine ⟨e, hl, ⟨hlen, hrest⟩, ?_⟩
  intro a s o sec r y t tsec h1 h2 h3 h4 h5 h6 h7 k hk
  exact field_value h hl h1 h2 h3 h4 (.own h5) rfl (by unfold sect; rw [h1]; exact h6) h7 k hk

/-- A single object with a reference to itself. -/
def selfCaller : Obj :=
  { sections := [{ name := some (str ".text"), data := [0xe8, 0, 0, 0, 0, 0xc3], relocs := [⟨.r32rel, 0, 1, -4⟩] }]
    symbols := [{ name := some (str "_start"), value := 5, global := true, sect := some 0 }] }

example : Linkable [selfCaller] ∧
    linkerLink [selfCaller] = .ok ⟨0x10005, 0x10000, [0xe8, 0, 0, 0, 0, 0xc3]⟩ := by
  refine ⟨?_, by decide +kernel⟩
  have hd : ∀ a o y b s w, ([selfCaller] : List Obj)[a]? = some o → y ∈ o.symbols →
      Target [selfCaller] a y b s w → b = 0 ∧ s = 0 ∧ w = 5 := by
    intro a o y b s w ho hy ht
    match a, ho with
    | 0, ho =>
      simp at ho; subst ho
      simp [selfCaller] at hy
      subst hy
      cases ht with
      | own hs => injection hs with hs; subst hs; exact ⟨rfl, rfl, rfl⟩
      | other hs => cases hs
    | a + 1, ho => simp at ho
  refine ⟨by simp [selfCaller], by simp [selfCaller], ?_, ?_, ?_, by simp [selfCaller], by decide +kernel⟩
  · intro o ho s hs
    simp at ho; subst ho
    simp [selfCaller] at hs; subst hs
    exact ⟨by simp [width], List.pairwise_singleton _ _⟩
  · intro a o y ho hy
    match a, ho with
    | 0, ho =>
      simp at ho; subst ho
      simp [selfCaller] at hy
      subst hy
      exact ⟨0, 0, 5, .own rfl⟩
    | a + 1, ho => simp at ho
  · intro a o y b s w b' s' w' ho hy h1 h2
    obtain ⟨rfl, rfl, rfl⟩ := hd a o y b s w ho hy h1
    obtain ⟨rfl, rfl, rfl⟩ := hd a o y b' s' w' ho hy h2
    exact ⟨rfl, rfl, rfl⟩

/-- C49.  The relocations of a section can be applied in any order. -/
theorem relocations_commute {L : Obj} {infos : List Nat} {load : BitVec 64} {here : Nat} {rs qs : List Relocation}
    {d : List Byte} (hp : rs.Perm qs) (hs : ∀ r ∈ rs, SymOk L r) (hinf : infos.length = L.sections.length)
    (hd : ∀ r ∈ rs, here + r.offset.toNat + width r.type ≤ d.length) (hlt : d.length < 2 ^ 64)
    (hdis : rs.Pairwise fun r q => ∀ i, ¬ (InField r i ∧ InField q i)) :
    relocateAll L infos load here rs d = relocateAll L infos load here qs d := by
  rw [relocateAll_ok hinf hs hd hlt, relocateAll_ok hinf (fun r h => hs r (hp.mem_iff.2 h))
    (fun r h => hd r (hp.mem_iff.2 h)) hlt]
  congr 1
  have hw : ∀ w ∈ rs.map (writeOf L infos load here), w.1 + w.2.length ≤ d.length := by
    intro w hw
    obtain ⟨r, hr, rfl⟩ := List.mem_map.1 hw
    rw [writeOf_length]
    exact hd r hr
  have hq : ∀ w ∈ qs.map (writeOf L infos load here), w.1 + w.2.length ≤ d.length := by
    intro w h
    exact hw w ((hp.map _).mem_iff.2 h)
  have hpr := List.pairwise_map.2 (hdis.imp (apart_of_fields (L := L) (infos := infos) (load := load) (off := here)))
  have hpq : (qs.map (writeOf L infos load here)).Pairwise Apart :=
    (hp.map _).pairwise hpr (fun h => by unfold Apart at *; omega)
  apply List.ext_getElem?
  intro p
  by_cases h : ∃ w ∈ rs.map (writeOf L infos load here), w.1 ≤ p ∧ p < w.1 + w.2.length
  · obtain ⟨w, hwm, h1, h2⟩ := h
    obtain ⟨k, rfl⟩ := Nat.exists_eq_add_of_le h1
    rw [applyWrites_in _ hw hpr hwm (by omega), applyWrites_in _ hq hpq ((hp.map _).mem_iff.1 hwm) (by omega)]
  · have h : ∀ w ∈ rs.map (writeOf L infos load here), p < w.1 ∨ w.1 + w.2.length ≤ p := by
      intro w hwm
      exact Decidable.byContradiction fun hc => h ⟨w, hwm, by omega, by omega⟩
    rw [applyWrites_out _ hw h, applyWrites_out _ hq (fun w hwm => h w ((hp.map _).mem_iff.2 hwm))]

/-! ### C50 -/

/-- C50 (partial).  A reference to a symbol of another object resolves to its definition, and the entry
point is `_start`, if the definition is where its section starts (the undefined symbol's value, always 0, is used instead
of the definition's) and that section is not empty.  Missing: other offsets, where it is false. -/
theorem reference_resolves_partial {os : List Obj} (h : Linkable os)
    (hval : ∀ a o y b t v, os[a]? = some o → y ∈ o.symbols → Target os a y b t v →
      v = y.value ∧ ∀ tsec, sect os b t = some tsec → tsec.data ≠ []) :
    ∃ e, linkerLink os = .ok e ∧ Placed os e ∧ Relocated os e ∧
      ∀ b t v, (∃ (a : Nat) (o : Obj) (y : Symbol), os[a]? = some o ∧ y ∈ o.symbols ∧ y.name = some (str "_start")) →
        (∀ a o y, os[a]? = some o → y ∈ o.symbols → y.name = some (str "_start") → Target os a y b t v) →
        e.entry = addr os b t + v := by
  obtain ⟨L, e, infos, hw, hsec, hsym, hinf, hl, _, hlen, hent, hrest, _⟩ := link_ok h
  refine ⟨e, hl, ⟨hlen, hrest⟩, ?_, ?_⟩
  · intro a s o sec r y b t v h1 h2 h3 h4 ht k hk
    obtain ⟨o', tsec, k1, k2⟩ := target_sect h h1 h4 ht
    have hts : sect os b t = some tsec := by unfold sect; rw [k1]; exact k2
    obtain ⟨hv, hne⟩ := hval a o y b t v h1 (List.mem_of_getElem? h4) ht
    exact field_value h hl h1 h2 h3 h4 ht hv hts (hne tsec hts) k hk
  · intro b t v hex hall
    have hyp : ∀ y ∈ L.symbols, ∃ s there, y.sect = some s ∧ infos[s]? = some there ∧
        (y.name = some (str "_start") → y.value + BitVec.ofNat 64 there + 0x10000 = addr os b t + v) := by
      intro y hy
      obtain ⟨i, hi⟩ := List.mem_iff_getElem?.1 hy
      obtain ⟨a, k, o, y0, h1, h2, h3⟩ := whole_sym_inv hsym hi
      obtain ⟨b', t', v', ht⟩ := h.defined a o y0 h1 (List.mem_of_getElem? h2)
      obtain ⟨y', g1, g2, g3, g4⟩ := whole_sym h hsym h1 h2 ht
      rw [← h3, hi] at g1
      injection g1 with g1
      subst g1
      obtain ⟨o', tsec, k1, k2⟩ := target_sect h h1 h2 ht
      have hts : sect os b' t' = some tsec := by unfold sect; rw [k1]; exact k2
      obtain ⟨hv, hne⟩ := hval a o y0 b' t' v' h1 (List.mem_of_getElem? h2) ht
      have hii := concat_sect (sy := 0) (se := 0) k1 k2
      have hst := concat_start (sy := 0) (se := 0) k1 (Nat.le_of_lt (List.getElem?_eq_some_iff.1 k2).1)
      refine ⟨_, start os b' t', g2, ?_, ?_⟩
      · have hdne : (moveSection (0 + symOff os b') tsec).data ≠ [] := hne tsec hts
        rw [hinf, place_infos L.sections [] _ _ (by rw [hsec]; exact hii), if_neg hdne, hsec, hst]
        simp
      · intro hn
        rw [g4] at hn
        obtain ⟨rfl, rfl, rfl⟩ := h.unique a o y0 _ _ _ _ _ _ h1 (List.mem_of_getElem? h2) ht
          (hall a o y0 h1 (List.mem_of_getElem? h2) hn)
        rw [g3, ← hv]
        unfold addr
        rw [BitVec.add_assoc, BitVec.add_comm, BitVec.add_comm 0x10000]
    obtain ⟨en, e1, e2⟩ := findEntry_ok (entry := 0) hyp
    rw [hent] at e1
    injection e1 with e1
    rw [e1]
    apply e2
    right
    obtain ⟨a, o, y, h1, h2, h3⟩ := hex
    obtain ⟨k, hk⟩ := List.mem_iff_getElem?.1 h2
    obtain ⟨y', g1, _, _, g4⟩ := whole_sym h hsym h1 hk (hall a o y h1 h2 h3)
    exact ⟨y', List.mem_of_getElem? g1, by rw [g4]; exact h3⟩

example : linkerLink [caller, callee 0] = .ok ⟨0x10000, 0x10000, [0xe8, 5, 0, 0, 0, 0xc3, 1, 2, 3, 4,
      0x90, 0x90, 0x90, 0x90, 0x90, 0xc3]⟩ ∧
    (∀ a o y b t v, ([caller, callee 0] : List Obj)[a]? = some o → y ∈ o.symbols →
      Target [caller, callee 0] a y b t v → v = y.value ∧ ∀ tsec, sect [caller, callee 0] b t = some tsec →
        tsec.data ≠ []) := by
  refine ⟨by decide +kernel, ?_⟩
  intro a o y b t v ho hy ht
  have hall : ∀ b t tsec, sect [caller, callee 0] b t = some tsec → tsec.data ≠ [] := by
    intro b t tsec h
    obtain ⟨o, h1, h2⟩ := Option.bind_eq_some_iff.1 h
    have h1 := List.mem_of_getElem? h1
    have h2 := List.mem_of_getElem? h2
    simp at h1
    rcases h1 with rfl | rfl
    · simp [caller] at h2; subst h2; simp
    · simp [callee] at h2; rcases h2 with rfl | rfl <;> simp
  refine ⟨?_, hall b t⟩
  have hz : ∀ (c : Nat) o y, ([caller, callee 0] : List Obj)[c]? = some o → y ∈ o.symbols → y.value = 0 := by
    intro c o y h1 h2
    have h1 := List.mem_of_getElem? h1
    simp at h1
    rcases h1 with rfl | rfl
    · simp [caller] at h2; rcases h2 with rfl | rfl <;> rfl
    · simp [callee] at h2; subst h2; rfl
  cases ht with
  | own => rfl
  | other _ hb hm => rw [hz _ _ _ hb hm, hz _ _ _ ho hy]

/-- C50 fails: `f` is at offset 5 of its section, and the call goes to offset 0. -/
theorem reference_resolves_violated :
    ∃ os e, Linkable os ∧ linkerLink os = .ok e ∧ ¬ Relocated os e := by
  refine ⟨[caller, callee 5], ⟨0x10000, 0x10000, [0xe8, 5, 0, 0, 0, 0xc3, 1, 2, 3, 4,
      0x90, 0x90, 0x90, 0x90, 0x90, 0xc3]⟩, demo_linkable 5, by decide +kernel, ?_⟩
  intro h
  have := h 0 0 caller _ ⟨.r32rel, 0, 1, -4⟩ _ 1 1 5 rfl rfl (by simp [caller]) rfl
    (.other (z := { name := some (str "f"), value := 5, global := true, sect := some 1 }) rfl
      (show ([caller, callee 5] : List Obj)[1]? = some (callee 5) from rfl) (by simp [callee]) rfl (by simp) rfl rfl)
    0 (by decide)
  revert this
  decide +kernel

/-! ### C51 -/

/-- C51.  Sections are at disjoint places of the image, inside it, with their content except for the
relocated fields. -/
theorem sections_placed {os : List Obj} (h : Linkable os) :
    ∃ e, linkerLink os = .ok e ∧ e.loadAddress = 0x10000 ∧ Placed os e ∧ NoOverlap os ∧
      ∀ a s sec, sect os a s = some sec → start os a s + sec.data.length ≤ e.data.length := by
  obtain ⟨L, e, infos, hw, hsec, hsym, hinf, hl, hload, hlen, _, hrest, _⟩ := link_ok h
  refine ⟨e, hl, hload, ⟨hlen, hrest⟩, ?_, ?_⟩
  · intro a s sec a' s' sec' h1 h2 hne
    obtain ⟨o, k1, k2⟩ := Option.bind_eq_some_iff.1 h1
    obtain ⟨o', k1', k2'⟩ := Option.bind_eq_some_iff.1 h2
    have c1 := concat_sect (sy := 0) (se := 0) k1 k2
    have c2 := concat_sect (sy := 0) (se := 0) k1' k2'
    have st1 := concat_start (sy := 0) (se := 0) k1 (Nat.le_of_lt (List.getElem?_eq_some_iff.1 k2).1)
    have st2 := concat_start (sy := 0) (se := 0) k1' (Nat.le_of_lt (List.getElem?_eq_some_iff.1 k2').1)
    rw [← st1, ← st2]
    rcases Nat.lt_trichotomy (secOff os a + s) (secOff os a' + s') with hlt | heq | hlt
    · have := bytes_take_lt c1 hlt; exact .inl this
    · exfalso
      apply hne
      have off : ∀ {os : List Obj} {a a' s s' : Nat} {o : Obj}, a < a' → os[a]? = some o → s < o.sections.length →
          secOff os a + s < secOff os a' + s' := by
        intro os
        induction os with
        | nil => intro a a' s s' o _ h; cases h
        | cons x os ih =>
          intro a a' s s' o hlt ho hs
          cases a' with
          | zero => omega
          | succ a' =>
            cases a with
            | zero =>
              simp only [List.getElem?_cons_zero, Option.some.injEq] at ho
              subst ho
              rw [secOff_zero, secOff_succ]; omega
            | succ a =>
              have ho : os[a]? = some o := ho
              have := ih (s' := s') (show a < a' by omega) ho hs
              rw [secOff_succ, secOff_succ]; omega
      have hs1 := (List.getElem?_eq_some_iff.1 k2).1
      have hs2 := (List.getElem?_eq_some_iff.1 k2').1
      rcases Nat.lt_trichotomy a a' with hlt | heq' | hlt
      · have := off (s' := s') hlt k1 hs1; omega
      · subst heq'; rw [show s = s' by omega]
      · have := off (s' := s) hlt k1' hs2; omega
    · have := bytes_take_lt c2 hlt; exact .inr this
  · intro a s sec h1
    obtain ⟨o, k1, k2⟩ := Option.bind_eq_some_iff.1 h1
    have c1 := concat_sect (sy := 0) (se := 0) k1 k2
    have st1 := concat_start (sy := 0) (se := 0) k1 (Nat.le_of_lt (List.getElem?_eq_some_iff.1 k2).1)
    have := bytes_take_le c1
    rw [concat_bytes, st1] at this
    rw [hlen]
    exact this

example : Linkable [caller, callee 5] ∧ start [caller, callee 5] 0 0 = 0 ∧ start [caller, callee 5] 1 0 = 6 ∧
    start [caller, callee 5] 1 1 = 10 := ⟨demo_linkable 5, by decide, by decide, by decide⟩

/-! ### C83 -/

theorem bytes_dvd {m : Nat} {ss : List Section} (h : ∀ s ∈ ss, m ∣ s.data.length) : m ∣ bytes ss := by
  induction ss with
  | nil => exact Nat.dvd_zero m
  | cons s ss ih =>
    rw [bytes_cons]
    exact Nat.dvd_add (h s (by simp)) (ih fun t ht => h t (by simp [ht]))

theorem total_dvd {m : Nat} {os : List Obj} (h : ∀ o ∈ os, ∀ s ∈ o.sections, m ∣ s.data.length) : m ∣ total os := by
  induction os with
  | nil => exact Nat.dvd_zero m
  | cons o os ih =>
    have : total (o :: os) = bytes o.sections + total os := by simp [total]
    rw [this]
    exact Nat.dvd_add (bytes_dvd (h o (by simp))) (ih fun t ht => h t (by simp [ht]))

/-- C83 (partial).  A section is where its alignment requires, if that divides the load address and the
size of every section (the linker inserts no padding).  Missing: other sizes, where it is
false. -/
theorem sections_aligned_partial {os : List Obj} {a s : Nat} {sec : Section} (h : Linkable os)
    (hs : sect os a s = some sec) (hal : sec.alignment ∣ 0x10000)
    (hsz : ∀ o ∈ os, ∀ t ∈ o.sections, sec.alignment ∣ t.data.length) :
    sec.alignment ∣ (addr os a s).toNat := by
  obtain ⟨o, k1, k2⟩ := Option.bind_eq_some_iff.1 hs
  have st1 := concat_start (sy := 0) (se := 0) k1 (Nat.le_of_lt (List.getElem?_eq_some_iff.1 k2).1)
  have c1 := concat_sect (sy := 0) (se := 0) k1 k2
  have hle := bytes_take_le c1
  rw [concat_bytes, st1] at hle
  have hsm := h.small
  have e : (addr os a s).toNat = 0x10000 + start os a s := by
    unfold addr
    rw [BitVec.toNat_add, BitVec.toNat_ofNat]
    have : (0x10000 : BitVec 64).toNat = 0x10000 := rfl
    omega
  rw [e]
  refine Nat.dvd_add hal ?_
  unfold start
  rw [k1]
  refine Nat.dvd_add (total_dvd fun o ho => hsz o (List.mem_of_mem_take ho)) ?_
  exact bytes_dvd fun t ht => hsz o (List.mem_of_getElem? k1) t (List.mem_of_mem_take ht)

example : sect [callee 0] 0 0 = some { name := some (str ".data"), alignment := 4, data := [1, 2, 3, 4] } ∧
    4 ∣ 0x10000 := ⟨rfl, by decide⟩

/-- C83 fails: the `.data` section of the second object asks for an alignment of 4 and is at address 0x10006. -/
theorem sections_aligned_violated : ∃ os a s sec e, Linkable os ∧ linkerLink os = .ok e ∧ sect os a s = some sec ∧
    sec.alignment ∣ 0x10000 ∧ ¬ sec.alignment ∣ (addr os a s).toNat ∧
    ∀ i, i < 4 → e.data[6 + i]? = sec.data[i]? :=
  ⟨[caller, callee 0], 1, 0, { name := some (str ".data"), alignment := 4, data := [1, 2, 3, 4] }, _, demo_linkable 0,
    rfl, rfl, by decide, by decide +kernel, by decide +kernel⟩

end Verif.Linker
