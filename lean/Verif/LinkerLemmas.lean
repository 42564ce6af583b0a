import Verif.LinkerSpec
import Verif.BytesProps
/-!
Lemmas about the linker.
-/
namespace Verif.Linker
open Verif Verif.Object Verif.LinkerSpec

/-! ### Disjoint patches -/

/-- Applying writes in order. -/
def applyWrites (ws : List (Nat × List Byte)) (d : List Byte) : List Byte :=
  ws.foldl (fun d w => Bytes.patch d w.1 w.2) d

/-- Two writes touch different bytes. -/
def Apart (w u : Nat × List Byte) : Prop := w.1 + w.2.length ≤ u.1 ∨ u.1 + u.2.length ≤ w.1

theorem applyWrites_length : ∀ (ws : List (Nat × List Byte)) {d : List Byte},
    (∀ w ∈ ws, w.1 + w.2.length ≤ d.length) → (applyWrites ws d).length = d.length := by
  intro ws
  induction ws with
  | nil => intro d _; rfl
  | cons w ws ih =>
    intro d h
    have hl := Bytes.patch_length d w.1 w.2 (h w (by simp))
    show (applyWrites ws _).length = _
    rw [ih (by intro u hu; rw [hl]; exact h u (by simp [hu])), hl]

theorem applyWrites_out : ∀ (ws : List (Nat × List Byte)) {d : List Byte} {p : Nat},
    (∀ w ∈ ws, w.1 + w.2.length ≤ d.length) → (∀ w ∈ ws, p < w.1 ∨ w.1 + w.2.length ≤ p) →
    (applyWrites ws d)[p]? = d[p]? := by
  intro ws
  induction ws with
  | nil => intro d p _ _; rfl
  | cons w ws ih =>
    intro d p h hp
    have hl := Bytes.patch_length d w.1 w.2 (h w (by simp))
    show (applyWrites ws _)[p]? = _
    rw [ih (by intro u hu; rw [hl]; exact h u (by simp [hu])) (fun u hu => hp u (by simp [hu]))]
    exact Bytes.patch_get_out _ _ _ _ (h w (by simp)) (hp w (by simp))

theorem applyWrites_in : ∀ (ws : List (Nat × List Byte)) {d : List Byte} {w : Nat × List Byte} {k : Nat},
    (∀ w ∈ ws, w.1 + w.2.length ≤ d.length) → ws.Pairwise Apart → w ∈ ws → k < w.2.length →
    (applyWrites ws d)[w.1 + k]? = w.2[k]? := by
  intro ws
  induction ws with
  | nil => intro d w k _ _ h; cases h
  | cons u ws ih =>
    intro d w k h hp hw hk
    have hl := Bytes.patch_length d u.1 u.2 (h u (by simp))
    have hb : ∀ v ∈ ws, v.1 + v.2.length ≤ (Bytes.patch d u.1 u.2).length := by
      intro v hv; rw [hl]; exact h v (by simp [hv])
    obtain ⟨h1, h2⟩ := List.pairwise_cons.1 hp
    show (applyWrites ws _)[w.1 + k]? = _
    rcases List.mem_cons.1 hw with rfl | hw
    · rw [applyWrites_out ws hb]
      · exact Bytes.patch_get_in _ _ _ _ (h w (by simp)) hk
      · intro v hv
        rcases h1 v hv with h | h
        · left; omega
        · right; omega
    · exact ih hb h2 hw hk

/-! ### Placement -/

theorem bytes_nil : bytes [] = 0 := rfl
theorem bytes_cons (s : Section) (ss : List Section) : bytes (s :: ss) = s.data.length + bytes ss := by
  simp [bytes]
theorem bytes_append (a b : List Section) : bytes (a ++ b) = bytes a + bytes b := by
  simp [bytes]

/-- The data of sections, one after the other. -/
def flat (ss : List Section) : List Byte := (ss.map fun s => s.data).flatten

theorem flat_length (ss : List Section) : (flat ss).length = bytes ss := by
  induction ss with
  | nil => rfl
  | cons s ss ih => rw [bytes_cons, ← ih]; simp [flat]

theorem place_data : ∀ (ss : List Section) (d : List Byte), (place ss d).1 = d ++ flat ss := by
  intro ss
  induction ss with
  | nil => intro d; simp [place, flat]
  | cons s ss ih => intro d; simp [place, ih, flat]

theorem place_infos : ∀ (ss : List Section) (d : List Byte) (i : Nat) (s : Section), ss[i]? = some s →
    (place ss d).2[i]? = some (if s.data = [] then 0 else d.length + bytes (ss.take i)) := by
  intro ss
  induction ss with
  | nil => intro d i s h; cases h
  | cons x ss ih =>
    intro d i s h
    cases i with
    | zero =>
      simp only [List.getElem?_cons_zero, Option.some.injEq] at h
      subst h
      simp [place, bytes_nil]
    | succ i =>
      have h : ss[i]? = some s := h
      have := ih (d ++ x.data) i s h
      show (place ss (d ++ x.data)).2[i]? = _
      rw [this, List.take_succ_cons, bytes_cons, List.length_append]
      simp [Nat.add_assoc]

theorem place_infos_length : ∀ (ss : List Section) (d : List Byte), (place ss d).2.length = ss.length := by
  intro ss
  induction ss with
  | nil => intro d; rfl
  | cons x ss ih => intro d; simp [place, ih]

theorem flat_get {ss : List Section} : ∀ {i : Nat} {s : Section}, ss[i]? = some s → ∀ k, k < s.data.length →
    (flat ss)[bytes (ss.take i) + k]? = s.data[k]? := by
  induction ss with
  | nil => intro i s h; cases h
  | cons x ss ih =>
    intro i s h k hk
    have e : flat (x :: ss) = x.data ++ flat ss := by simp [flat]
    rw [e]
    cases i with
    | zero =>
      simp only [List.getElem?_cons_zero, Option.some.injEq] at h
      subst h
      rw [List.take_zero, bytes_nil, Nat.zero_add, List.getElem?_append_left hk]
    | succ i =>
      have h : ss[i]? = some s := h
      rw [List.take_succ_cons, bytes_cons, List.getElem?_append_right (by omega)]
      rw [show x.data.length + bytes (ss.take i) + k - x.data.length = bytes (ss.take i) + k by omega]
      exact ih h k hk

/-- A section lies inside the whole. -/
theorem bytes_take_le {ss : List Section} : ∀ {i : Nat} {s : Section}, ss[i]? = some s →
    bytes (ss.take i) + s.data.length ≤ bytes ss := by
  induction ss with
  | nil => intro i s h; cases h
  | cons x ss ih =>
    intro i s h
    cases i with
    | zero =>
      simp only [List.getElem?_cons_zero, Option.some.injEq] at h
      subst h
      rw [List.take_zero, bytes_nil, bytes_cons]; omega
    | succ i =>
      have h : ss[i]? = some s := h
      have := ih h
      rw [List.take_succ_cons, bytes_cons, bytes_cons]; omega

/-- A section ends before any later one starts. -/
theorem bytes_take_lt {ss : List Section} : ∀ {i j : Nat} {s : Section}, ss[i]? = some s → i < j →
    bytes (ss.take i) + s.data.length ≤ bytes (ss.take j) := by
  intro i j s h hij
  have h' : (ss.take j)[i]? = some s := by rw [List.getElem?_take, if_pos hij]; exact h
  have := bytes_take_le h'
  rwa [List.take_take, Nat.min_eq_left (by omega)] at this

/-! ### Relocation of one object -/

/-- The symbol of a relocation exists and is in a section that exists. -/
def SymOk (L : Obj) (r : Relocation) : Prop :=
  ∃ y t, L.symbols[r.idx]? = some y ∧ y.sect = some t ∧ t < L.sections.length

/-- The address that the linker takes for a symbol. -/
def symValue (L : Obj) (infos : List Nat) (load : BitVec 64) (r : Relocation) : BitVec 64 :=
  match L.symbols[r.idx]? with
  | none => 0
  | some y => y.value + BitVec.ofNat 64 ((y.sect.bind fun s => infos[s]?).getD 0) + load

/-- The write of a relocation of a section at `here`. -/
def writeOf (L : Obj) (infos : List Nat) (load : BitVec 64) (here : Nat) (r : Relocation) : Nat × List Byte :=
  (here + r.offset.toNat, Bytes.leBytes (width r.type)
    (fieldValue r.type (symValue L infos load r) r.add (r.offset + BitVec.ofNat 64 here + load)).toNat)

theorem writeOf_length (L : Obj) (infos : List Nat) (load : BitVec 64) (here : Nat) (r : Relocation) :
    (writeOf L infos load here r).2.length = width r.type := by simp [writeOf]

theorem relocate_ok {L : Obj} {infos : List Nat} {load : BitVec 64} {here : Nat} {r : Relocation} {d : List Byte}
    (hs : SymOk L r) (hinf : infos.length = L.sections.length) (hd : here + r.offset.toNat + width r.type ≤ d.length)
    (hlt : d.length < 2 ^ 64) :
    relocate L infos load here r d =
      .ok (Bytes.patch d (writeOf L infos load here r).1 (writeOf L infos load here r).2) := by
  obtain ⟨y, t, h1, h2, h3⟩ := hs
  have h4 : infos[t]? = some infos[t] := List.getElem?_eq_getElem (by omega)
  have hpos : (r.offset + BitVec.ofNat 64 here).toNat = here + r.offset.toNat := by
    rw [BitVec.toNat_add, BitVec.toNat_ofNat, Nat.mod_eq_of_lt (a := here) (by omega),
      Nat.mod_eq_of_lt (by omega), Nat.add_comm]
  have hsv : symValue L infos load r = y.value + BitVec.ofNat 64 infos[t] + load := by
    unfold symValue; rw [h1]; simp [h2, h4]
  unfold relocate writeOf
  rw [h1]
  dsimp only
  rw [h2]
  dsimp only
  rw [h4]
  dsimp only
  rw [hpos, hsv]
  cases hty : r.type with
  | r64 =>
    rw [hty] at hd
    exact Bytes.write64_eq _ _ _ hd
  | r32 =>
    rw [hty] at hd
    exact Bytes.write32_eq _ _ _ hd
  | r32rel =>
    rw [hty] at hd
    dsimp only
    rw [Bytes.write32_eq _ _ _ hd]
    congr 4
    show _ = (y.value + BitVec.ofNat 64 infos[t] + load) + r.add - _
    rw [BitVec.sub_eq_add_neg, BitVec.sub_eq_add_neg, BitVec.add_assoc, BitVec.add_comm (-_) r.add, ← BitVec.add_assoc]

theorem relocateAll_ok {L : Obj} {infos : List Nat} {load : BitVec 64} {here : Nat}
    (hinf : infos.length = L.sections.length) : ∀ {rs : List Relocation} {d : List Byte}, (∀ r ∈ rs, SymOk L r) →
    (∀ r ∈ rs, here + r.offset.toNat + width r.type ≤ d.length) → d.length < 2 ^ 64 →
    relocateAll L infos load here rs d = .ok (applyWrites (rs.map (writeOf L infos load here)) d) := by
  intro rs
  induction rs with
  | nil => intro d _ _ _; rfl
  | cons r rs ih =>
    intro d hs hd hlt
    have hw := hd r (by simp)
    have hl := Bytes.patch_length d (writeOf L infos load here r).1 (writeOf L infos load here r).2
      (by rw [writeOf_length]; exact hw)
    rw [relocateAll, relocate_ok (hs r (by simp)) hinf hw hlt, Res.bind_ok,
      ih (fun r h => hs r (by simp [h])) (fun r h => by rw [hl]; exact hd r (by simp [h])) (by rw [hl]; exact hlt)]
    rfl

/-- The writes of the sections from offset `off` on. -/
def writes (L : Obj) (infos : List Nat) (load : BitVec 64) : List Section → Nat → List (Nat × List Byte)
  | [], _ => []
  | s :: ss, off => s.relocs.map (writeOf L infos load off) ++ writes L infos load ss (off + s.data.length)

theorem writes_mem {L : Obj} {infos : List Nat} {load : BitVec 64} : ∀ {ss : List Section} {off : Nat}
    {w : Nat × List Byte}, w ∈ writes L infos load ss off ↔
      ∃ i s r, ss[i]? = some s ∧ r ∈ s.relocs ∧ w = writeOf L infos load (off + bytes (ss.take i)) r := by
  intro ss
  induction ss with
  | nil => intro off w; simp [writes]
  | cons x ss ih =>
    intro off w
    rw [writes, List.mem_append, ih, List.mem_map]
    constructor
    · rintro (⟨r, hr, rfl⟩ | ⟨i, s, r, h1, h2, h3⟩)
      · exact ⟨0, x, r, rfl, hr, by rw [List.take_zero, bytes_nil, Nat.add_zero]⟩
      · exact ⟨i + 1, s, r, h1, h2, by rw [h3, List.take_succ_cons, bytes_cons, Nat.add_assoc]⟩
    · rintro ⟨i, s, r, h1, h2, h3⟩
      cases i with
      | zero =>
        simp only [List.getElem?_cons_zero, Option.some.injEq] at h1
        subst h1
        exact .inl ⟨r, h2, by rw [h3, List.take_zero, bytes_nil, Nat.add_zero]⟩
      | succ i => exact .inr ⟨i, s, r, h1, h2, by rw [h3, List.take_succ_cons, bytes_cons, Nat.add_assoc]⟩

/-- Where the writes of a section are. -/
theorem writes_range {L : Obj} {infos : List Nat} {load : BitVec 64} {ss : List Section} {off : Nat}
    {w : Nat × List Byte} (hf : ∀ s ∈ ss, FieldsOk s) (hw : w ∈ writes L infos load ss off) :
    off ≤ w.1 ∧ w.1 + w.2.length ≤ off + bytes ss := by
  obtain ⟨i, s, r, h1, h2, rfl⟩ := writes_mem.1 hw
  have h3 := (hf s (List.mem_of_getElem? h1)).1 r h2
  have h4 := bytes_take_le h1
  rw [writeOf_length]
  show off ≤ off + bytes (ss.take i) + r.offset.toNat ∧ off + bytes (ss.take i) + r.offset.toNat + _ ≤ _
  omega

theorem width_pos (ty : RelType) : 0 < width ty := by cases ty <;> decide

theorem apart_of_fields {L : Obj} {infos : List Nat} {load : BitVec 64} {off : Nat} {r q : Relocation}
    (h : ∀ i, ¬ (InField r i ∧ InField q i)) : Apart (writeOf L infos load off r) (writeOf L infos load off q) := by
  unfold Apart
  rw [writeOf_length, writeOf_length]
  show off + r.offset.toNat + _ ≤ off + q.offset.toNat ∨ off + q.offset.toNat + _ ≤ off + r.offset.toNat
  have hr := width_pos r.type
  have hq := width_pos q.type
  have h1 := h r.offset.toNat
  have h2 := h q.offset.toNat
  unfold InField at h1 h2
  omega

theorem writes_apart {L : Obj} {infos : List Nat} {load : BitVec 64} : ∀ {ss : List Section} {off : Nat},
    (∀ s ∈ ss, FieldsOk s) → (writes L infos load ss off).Pairwise Apart := by
  intro ss
  induction ss with
  | nil => intro off _; exact List.Pairwise.nil
  | cons s ss ih =>
    intro off hf
    rw [writes]
    refine List.pairwise_append.2 ⟨?_, ih (fun s h => hf s (by simp [h])), ?_⟩
    · exact List.pairwise_map.2 ((hf s (by simp)).2.imp apart_of_fields)
    · intro w hw u hu
      obtain ⟨r, hr, rfl⟩ := List.mem_map.1 hw
      have h1 := (hf s (by simp)).1 r hr
      have h2 := (writes_range (fun s h => hf s (by simp [h])) hu).1
      left
      rw [writeOf_length]
      show off + r.offset.toNat + _ ≤ _
      omega

theorem relocateSections_ok {L : Obj} {infos : List Nat} {load : BitVec 64} (hinf : infos.length = L.sections.length) :
    ∀ {ss : List Section} {d0 d : List Byte}, (∀ s ∈ ss, FieldsOk s) → (∀ s ∈ ss, ∀ r ∈ s.relocs, SymOk L r) →
    d0.length + bytes ss ≤ d.length → d.length < 2 ^ 64 →
    relocateSections L infos load (ss.zip (place ss d0).2) d =
      .ok (applyWrites (writes L infos load ss d0.length) d) := by
  intro ss
  induction ss with
  | nil => intro d0 d _ _ _ _; rfl
  | cons s ss ih =>
    intro d0 d hf hs hd hlt
    rw [bytes_cons] at hd
    show relocateSections L infos load ((s, _) :: ss.zip (place ss (d0 ++ s.data)).2) d = _
    rw [relocateSections]
    have hfs := hf s (by simp)
    have e : relocateAll L infos load (if s.data = [] then 0 else d0.length) s.relocs d =
        .ok (applyWrites (s.relocs.map (writeOf L infos load d0.length)) d) := by
      by_cases he : s.data = []
      · have hnil : s.relocs = [] := by
          cases hr : s.relocs with
          | nil => rfl
          | cons r rs =>
            have := hfs.1 r (by rw [hr]; simp)
            have := width_pos r.type
            rw [he] at *
            simp at *
            omega
        rw [hnil]
        rfl
      · rw [if_neg he]
        refine relocateAll_ok hinf (hs s (by simp)) ?_ hlt
        intro r hr
        have := hfs.1 r hr
        omega
    rw [e, Res.bind_ok]
    have hl : (applyWrites (s.relocs.map (writeOf L infos load d0.length)) d).length = d.length := by
      apply applyWrites_length
      intro w hw
      obtain ⟨r, hr, rfl⟩ := List.mem_map.1 hw
      have := hfs.1 r hr
      rw [writeOf_length]
      show d0.length + r.offset.toNat + _ ≤ _
      omega
    rw [ih (fun s h => hf s (by simp [h])) (fun s h => hs s (by simp [h])) (by rw [hl, List.length_append]; omega)
      (by rw [hl]; exact hlt)]
    rw [writes, List.length_append]
    unfold applyWrites
    rw [List.foldl_append]

/-- Linking one object. -/
theorem one_ok {L : Obj} {load : BitVec 64} (hf : ∀ s ∈ L.sections, FieldsOk s)
    (hs : ∀ s ∈ L.sections, ∀ r ∈ s.relocs, SymOk L r) (hlt : bytes L.sections < 2 ^ 64) :
    ∃ d, relocateSections L (place L.sections []).2 load (L.sections.zip (place L.sections []).2) (place L.sections []).1
        = .ok d ∧ d.length = bytes L.sections ∧
      (∀ (i : Nat) s, L.sections[i]? = some s → ∀ k, k < s.data.length → (∀ r ∈ s.relocs, ¬ InField r k) →
        d[bytes (L.sections.take i) + k]? = s.data[k]?) ∧
      (∀ (i : Nat) s, L.sections[i]? = some s → ∀ r ∈ s.relocs, ∀ k, k < width r.type →
        d[bytes (L.sections.take i) + r.offset.toNat + k]? =
          (writeOf L (place L.sections []).2 load (bytes (L.sections.take i)) r).2[k]?) := by
  have hpd : (place L.sections []).1 = flat L.sections := by rw [place_data]; rfl
  have hfl := flat_length L.sections
  let infos := (place L.sections []).2
  have hrange : ∀ w ∈ writes L infos load L.sections 0, w.1 + w.2.length ≤ (flat L.sections).length := by
    intro w hw
    have := (writes_range hf hw).2
    omega
  refine ⟨_, relocateSections_ok (place_infos_length _ _) hf hs (by rw [hpd, hfl]; simp) (by rw [hpd, hfl]; exact hlt),
    ?_, ?_, ?_⟩
  · rw [hpd]
    rw [← hfl]
    exact applyWrites_length _ hrange
  · intro i s hi k hk hno
    rw [hpd]
    refine Eq.trans (applyWrites_out (writes L infos load L.sections 0) hrange ?_) (flat_get hi k hk)
    intro w hw
    obtain ⟨j, t, r, h1, h2, rfl⟩ := writes_mem.1 hw
    have h3 := (hf t (List.mem_of_getElem? h1)).1 r h2
    rw [writeOf_length]
    show _ < 0 + bytes (L.sections.take j) + r.offset.toNat ∨ 0 + bytes (L.sections.take j) + r.offset.toNat + _ ≤ _
    rcases Nat.lt_trichotomy i j with hlt | heq | hlt
    · have := bytes_take_lt hi hlt
      omega
    · subst heq
      rw [hi] at h1
      injection h1 with h1
      subst h1
      have := hno r h2
      unfold InField at this
      omega
    · have := bytes_take_lt h1 hlt
      omega
  · intro i s hi r hr k hk
    have hw : writeOf L infos load (0 + bytes (L.sections.take i)) r ∈ writes L infos load L.sections 0 :=
      writes_mem.2 ⟨i, s, r, hi, hr, rfl⟩
    rw [Nat.zero_add] at hw
    rw [hpd]
    exact applyWrites_in _ hrange (writes_apart hf) hw (by rw [writeOf_length]; exact hk)

/-! ### Combining -/

/-- Symbols before object `a`. -/
def symOff (os : List Obj) (a : Nat) : Nat := ((os.take a).map fun o => o.symbols.length).sum

/-- Sections before object `a`. -/
def secOff (os : List Obj) (a : Nat) : Nat := ((os.take a).map fun o => o.sections.length).sum

theorem symOff_succ (o : Obj) (os : List Obj) (a : Nat) : symOff (o :: os) (a + 1) = o.symbols.length + symOff os a := by
  simp [symOff]
theorem secOff_succ (o : Obj) (os : List Obj) (a : Nat) : secOff (o :: os) (a + 1) = o.sections.length + secOff os a := by
  simp [secOff]
theorem symOff_zero (os : List Obj) : symOff os 0 = 0 := by simp [symOff]
theorem secOff_zero (os : List Obj) : secOff os 0 = 0 := by simp [secOff]

theorem concat_sect : ∀ {os : List Obj} {sy se a s : Nat} {o : Obj} {sec : Section}, os[a]? = some o →
    o.sections[s]? = some sec →
    (concat os sy se).1[secOff os a + s]? = some (moveSection (sy + symOff os a) sec) := by
  intro os
  induction os with
  | nil => intro sy se a s o sec h; cases h
  | cons x os ih =>
    intro sy se a s o sec h1 h2
    rw [concat]
    dsimp only
    cases a with
    | zero =>
      simp only [List.getElem?_cons_zero, Option.some.injEq] at h1
      subst h1
      have hlt := (List.getElem?_eq_some_iff.1 h2).1
      rw [secOff_zero, symOff_zero, Nat.zero_add, Nat.add_zero, List.getElem?_append_left (by simpa using hlt),
        List.getElem?_map, h2]
      rfl
    | succ a =>
      have h1 : os[a]? = some o := h1
      rw [secOff_succ, symOff_succ, List.getElem?_append_right (by simp; omega), List.length_map]
      rw [show x.sections.length + secOff os a + s - x.sections.length = secOff os a + s by omega, ih h1 h2, Nat.add_assoc]

theorem concat_sym : ∀ {os : List Obj} {sy se a k : Nat} {o : Obj} {y : Symbol}, os[a]? = some o →
    o.symbols[k]? = some y →
    (concat os sy se).2[symOff os a + k]? = some (moveSymbol (se + secOff os a) y) := by
  intro os
  induction os with
  | nil => intro sy se a s o sec h; cases h
  | cons x os ih =>
    intro sy se a s o sec h1 h2
    rw [concat]
    dsimp only
    cases a with
    | zero =>
      simp only [List.getElem?_cons_zero, Option.some.injEq] at h1
      subst h1
      have hlt := (List.getElem?_eq_some_iff.1 h2).1
      rw [secOff_zero, symOff_zero, Nat.zero_add, Nat.add_zero, List.getElem?_append_left (by simpa using hlt),
        List.getElem?_map, h2]
      rfl
    | succ a =>
      have h1 : os[a]? = some o := h1
      rw [secOff_succ, symOff_succ, List.getElem?_append_right (by simp; omega), List.length_map]
      rw [show x.symbols.length + symOff os a + s - x.symbols.length = symOff os a + s by omega, ih h1 h2, Nat.add_assoc]

theorem concat_sect_inv : ∀ {os : List Obj} {sy se i : Nat} {t : Section}, (concat os sy se).1[i]? = some t →
    ∃ (a s : Nat) (o : Obj) (sec : Section), os[a]? = some o ∧ o.sections[s]? = some sec ∧ i = secOff os a + s ∧
      t = moveSection (sy + symOff os a) sec := by
  intro os
  induction os with
  | nil => intro sy se i t h; cases h
  | cons x os ih =>
    intro sy se i t h
    rw [concat] at h
    dsimp only at h
    by_cases hi : i < x.sections.length
    · rw [List.getElem?_append_left (by simpa using hi), List.getElem?_map] at h
      cases hx : x.sections[i]? with
      | none => rw [hx] at h; cases h
      | some sec =>
        rw [hx] at h
        injection h with h
        exact ⟨0, i, x, sec, rfl, hx, by rw [secOff_zero, Nat.zero_add], by rw [symOff_zero, ← h]; rfl⟩
    · rw [List.getElem?_append_right (by simp; omega), List.length_map] at h
      obtain ⟨a, s, o, sec, h1, h2, h3, h4⟩ := ih h
      exact ⟨a + 1, s, o, sec, h1, h2, by rw [secOff_succ]; omega, by rw [h4, symOff_succ, Nat.add_assoc]⟩

theorem concat_sym_inv : ∀ {os : List Obj} {sy se i : Nat} {t : Symbol}, (concat os sy se).2[i]? = some t →
    ∃ (a k : Nat) (o : Obj) (y : Symbol), os[a]? = some o ∧ o.symbols[k]? = some y ∧ i = symOff os a + k ∧
      t = moveSymbol (se + secOff os a) y := by
  intro os
  induction os with
  | nil => intro sy se i t h; cases h
  | cons x os ih =>
    intro sy se i t h
    rw [concat] at h
    dsimp only at h
    by_cases hi : i < x.symbols.length
    · rw [List.getElem?_append_left (by simpa using hi), List.getElem?_map] at h
      cases hx : x.symbols[i]? with
      | none => rw [hx] at h; cases h
      | some y =>
        rw [hx] at h
        injection h with h
        exact ⟨0, i, x, y, rfl, hx, by rw [symOff_zero, Nat.zero_add], by rw [secOff_zero, ← h]; rfl⟩
    · rw [List.getElem?_append_right (by simp; omega), List.length_map] at h
      obtain ⟨a, s, o, sec, h1, h2, h3, h4⟩ := ih h
      exact ⟨a + 1, s, o, sec, h1, h2, by rw [symOff_succ]; omega, by rw [h4, secOff_succ, Nat.add_assoc]⟩

theorem bytes_move (n : Nat) (ss : List Section) : bytes (ss.map (moveSection n)) = bytes ss := by
  induction ss with
  | nil => rfl
  | cons s ss ih => rw [List.map_cons, bytes_cons, bytes_cons, ih]; rfl

theorem concat_bytes : ∀ (os : List Obj) (sy se : Nat), bytes (concat os sy se).1 = total os := by
  intro os
  induction os with
  | nil => intro sy se; rfl
  | cons o os ih =>
    intro sy se
    rw [concat]
    dsimp only
    rw [bytes_append, bytes_move, ih]
    simp [total]

theorem concat_start : ∀ {os : List Obj} {sy se a s : Nat} {o : Obj}, os[a]? = some o → s ≤ o.sections.length →
    bytes ((concat os sy se).1.take (secOff os a + s)) = start os a s := by
  intro os
  induction os with
  | nil => intro sy se a s o h; cases h
  | cons x os ih =>
    intro sy se a s o h1 h2
    rw [concat]
    dsimp only
    cases a with
    | zero =>
      simp only [List.getElem?_cons_zero, Option.some.injEq] at h1
      subst h1
      rw [secOff_zero, Nat.zero_add, List.take_append_of_le_length (by simpa using h2), ← List.map_take, bytes_move]
      simp [start, total]
    | succ a =>
      have h1 : os[a]? = some o := h1
      rw [secOff_succ, List.take_append, List.take_of_length_le (by simp; omega), List.length_map,
        show x.sections.length + secOff os a + s - x.sections.length = secOff os a + s by omega, bytes_append,
        bytes_move, ih h1 h2]
      simp [start, total, Nat.add_assoc]

/-! ### Symbols -/

/-- The definitions of a name. -/
def Defines (n : Name) (y : Symbol) : Prop := y.name = some n ∧ y.global = true ∧ y.sect ≠ none

instance (n : Name) (y : Symbol) : Decidable (Defines n y) := inferInstanceAs (Decidable (_ ∧ _ ∧ _))

theorem findDefinition_spec {n : Name} {S : Option Nat} : ∀ {ys : List Symbol} {found : Option Nat},
    (∀ y ∈ ys, Defines n y → y.sect = S) → (found = S ∨ ∃ y ∈ ys, Defines n y) →
    findDefinition n ys found = S := by
  intro ys
  induction ys with
  | nil =>
    rintro found _ (h | ⟨y, h, _⟩)
    · exact h
    · cases h
  | cons y ys ih =>
    intro found hall h
    rw [findDefinition]
    by_cases hy : y.name = some n ∧ y.global = true ∧ y.sect ≠ none
    · rw [if_pos hy]
      exact ih (fun z hz => hall z (by simp [hz])) (.inl (hall y (by simp) hy))
    · rw [if_neg hy]
      apply ih (fun z hz => hall z (by simp [hz]))
      rcases h with h | ⟨z, hz, hd⟩
      · exact .inl h
      · rcases List.mem_cons.1 hz with rfl | hz
        · exact absurd hd hy
        · exact .inr ⟨z, hz, hd⟩

/-- A symbol after linking, given the section of each defined name. -/
def resolved (D : Name → Option Nat) (y : Symbol) : Symbol :=
  if y.sect = none then { y with sect := (y.name.bind D) } else y

theorem linkSymbols_ok {D : Name → Option Nat} {ys : List Symbol}
    (hD : ∀ x ∈ ys, x.sect = none → ∀ n, x.name = some n → ∀ y ∈ ys, Defines n y → y.sect = D n)
    (hex : ∀ y ∈ ys, y.sect = none → ∃ n, y.name = some n ∧ ∃ z ∈ ys, Defines n z) :
    ∀ (k i : Nat) {cur : List Symbol}, i + k = ys.length → cur.length = ys.length →
    (∀ j, j < i → cur[j]? = (ys[j]?).map (resolved D)) → (∀ j, i ≤ j → cur[j]? = ys[j]?) →
    linkSymbols cur i k = .ok (ys.map (resolved D)) := by
  intro k
  induction k with
  | zero =>
    intro i cur hik hl h1 h2
    rw [linkSymbols]
    congr 1
    apply List.ext_getElem?
    intro j
    rw [List.getElem?_map]
    by_cases hj : j < i
    · exact h1 j hj
    · rw [h2 j (by omega), List.getElem?_eq_none (by omega)]; rfl
  | succ k ih =>
    intro i cur hik hl h1 h2
    have hlt : i < ys.length := by omega
    have hyi : ys[i]? = some ys[i] := List.getElem?_eq_getElem hlt
    have hci : cur[i]? = some ys[i] := by rw [h2 i (Nat.le_refl _), hyi]
    have hmem : ys[i] ∈ ys := List.getElem_mem hlt
    rw [linkSymbols, hci]
    dsimp only
    by_cases hs : (ys[i]).sect = none
    · rw [if_pos hs]
      obtain ⟨n, hn, z, hz, hzd⟩ := hex _ hmem hs
      rw [hn]
      dsimp only
      have hfind : findDefinition n cur none = D n := by
        apply findDefinition_spec
        · intro y hy hd
          obtain ⟨j, hj⟩ := List.mem_iff_getElem?.1 hy
          by_cases hji : j < i
          · rw [h1 j hji] at hj
            cases hyj : ys[j]? with
            | none => rw [hyj] at hj; cases hj
            | some x =>
              rw [hyj] at hj
              injection hj with hj
              have hxm := List.mem_of_getElem? hyj
              subst hj
              unfold resolved at hd ⊢
              by_cases hx : x.sect = none
              · rw [if_pos hx] at hd ⊢
                obtain ⟨m, hm, _⟩ := hex x hxm hx
                have : x.name = some n := hd.1
                show x.name.bind D = D n
                rw [this]; rfl
              · rw [if_neg hx] at hd ⊢
                exact hD _ hmem hs n hn x hxm hd
          · rw [h2 j (by omega)] at hj
            exact hD _ hmem hs n hn y (List.mem_of_getElem? hj) hd
        · right
          obtain ⟨j, hj⟩ := List.mem_iff_getElem?.1 hz
          by_cases hji : j < i
          · refine ⟨resolved D z, List.mem_iff_getElem?.2 ⟨j, by rw [h1 j hji, hj]; rfl⟩, ?_⟩
            unfold resolved
            rw [if_neg hzd.2.2]
            exact hzd
          · exact ⟨z, List.mem_iff_getElem?.2 ⟨j, by rw [h2 j (by omega)]; exact hj⟩, hzd⟩
      rw [hfind]
      have hres : resolved D ys[i] = { ys[i] with sect := D n } := by
        unfold resolved; rw [if_pos hs]; simp [hn]
      apply ih (i + 1) (by omega) (by simpa using hl)
      · intro j hj
        rw [List.getElem?_set]
        by_cases hij : i = j
        · subst hij
          rw [if_pos rfl, if_pos (by omega), hyi, Option.map_some, hres]; simp [hn]
        · rw [if_neg hij]; exact h1 j (by omega)
      · intro j hj
        rw [List.getElem?_set, if_neg (by omega)]
        exact h2 j (by omega)
    · rw [if_neg hs]
      apply ih (i + 1) (by omega) hl
      · intro j hj
        by_cases hij : j = i
        · subst hij
          rw [hci, hyi, Option.map_some, resolved, if_neg hs]
        · exact h1 j (by omega)
      · intro j hj
        exact h2 j (by omega)

/-- The section of the first definition of a name. -/
def defSect (ys : List Symbol) (n : Name) : Option Nat := (ys.find? fun y => decide (Defines n y)).bind fun y => y.sect

theorem concat_nil_off : ∀ (o : Obj), concat [o] 0 0 = (o.sections, o.symbols) := by
  intro o
  have h1 : moveSection 0 = id := by
    funext s
    have : (fun r : Relocation => { r with idx := r.idx + 0 }) = id := by funext r; rfl
    simp [moveSection]
  have h2 : moveSymbol 0 = id := by
    funext y
    have : (fun x : Nat => x + 0) = id := by funext x; rfl
    simp [moveSymbol]
  simp [concat, h1, h2]

/-- What an undefined symbol finds. -/
theorem concat_target {os : List Obj} (h : Linkable os) {a k : Nat} {o : Obj} {y : Symbol} {b s : Nat} {v : BitVec 64}
    (h1 : os[a]? = some o) (h2 : o.symbols[k]? = some y) (ht : Target os a y b s v) (hn : y.sect = none) :
    (∃ n, y.name = some n ∧ ∃ z ∈ (concat os 0 0).2, Defines n z) ∧
    (∀ n, y.name = some n → ∀ z ∈ (concat os 0 0).2, Defines n z → z.sect = some (secOff os b + s)) := by
  constructor
  · cases ht with
    | own hs => rw [hn] at hs; cases hs
    | other _ hb hz hzn hne hg hs =>
      obtain ⟨j, hj⟩ := List.mem_iff_getElem?.1 hz
      obtain ⟨n, hnn⟩ := Option.ne_none_iff_exists'.1 hne
      refine ⟨n, hnn, _, List.mem_of_getElem? (concat_sym (sy := 0) (se := 0) hb hj), by
        show _ = some n
        rw [← hnn, ← hzn]; rfl, hg, ?_⟩
      show Option.map _ _ ≠ none
      rw [hs]
      simp
  · intro n hnn z hz hd
    obtain ⟨i, hi⟩ := List.mem_iff_getElem?.1 hz
    obtain ⟨b', j, o', y', g1, g2, g3, rfl⟩ := concat_sym_inv hi
    obtain ⟨d1, d2, d3⟩ := hd
    have e : y'.name = y.name := by rw [hnn]; exact d1
    cases hs' : y'.sect with
    | none => exact absurd (show (moveSymbol _ y').sect = none by simp [moveSymbol, hs']) d3
    | some s' =>
      have ht' : Target os a y b' s' y'.value :=
        .other hn g1 (List.mem_of_getElem? g2) e (by rw [hnn]; simp) d2 hs'
      obtain ⟨rfl, rfl, rfl⟩ := h.unique a o y _ _ _ _ _ _ h1 (List.mem_of_getElem? h2) ht ht'
      simp [moveSymbol, hs', Nat.add_comm]

theorem whole_ok {os : List Obj} (h : Linkable os) :
    ∃ L, whole os = .ok L ∧ L.sections = (concat os 0 0).1 ∧
      L.symbols = (concat os 0 0).2.map (resolved (defSect (concat os 0 0).2)) := by
  let D := defSect (concat os 0 0).2
  have hlink : linkSymbols (concat os 0 0).2 0 (concat os 0 0).2.length = .ok ((concat os 0 0).2.map (resolved D)) := by
    apply linkSymbols_ok (D := D) (ys := (concat os 0 0).2)
    · intro x hx hxn n hnn y hy hd
      obtain ⟨i, hi⟩ := List.mem_iff_getElem?.1 hx
      obtain ⟨a, k, o, x0, g1, g2, g3, rfl⟩ := concat_sym_inv hi
      obtain ⟨b, s, v, ht⟩ := h.defined a o x0 g1 (List.mem_of_getElem? g2)
      have hn0 : x0.sect = none := by
        cases hs : x0.sect with
        | none => rfl
        | some q => simp [moveSymbol, hs] at hxn
      have hc := (concat_target h g1 g2 ht hn0).2 n hnn
      rw [hc y hy hd]
      show _ = defSect _ n
      unfold defSect
      cases hf : (concat os 0 0).2.find? fun y => decide (Defines n y) with
      | none => exact absurd hd (by simpa using List.find?_eq_none.1 hf y hy)
      | some w =>
        have hw := List.find?_some hf
        exact (hc w (List.mem_of_find?_eq_some hf) (by simpa using hw)).symm
    · intro x hx hxn
      obtain ⟨i, hi⟩ := List.mem_iff_getElem?.1 hx
      obtain ⟨a, k, o, x0, g1, g2, g3, rfl⟩ := concat_sym_inv hi
      obtain ⟨b, s, v, ht⟩ := h.defined a o x0 g1 (List.mem_of_getElem? g2)
      have hn0 : x0.sect = none := by
        cases hs : x0.sect with
        | none => rfl
        | some q => simp [moveSymbol, hs] at hxn
      exact (concat_target h g1 g2 ht hn0).1
    · omega
    · rfl
    · intro j hj; omega
    · intro j _; rfl
  by_cases h1 : os.length = 1
  · obtain ⟨o, rfl⟩ := List.length_eq_one_iff.1 h1
    refine ⟨o, rfl, by rw [concat_nil_off], ?_⟩
    rw [concat_nil_off]
    symm
    refine Eq.trans (List.map_congr_left (g := id) ?_) (List.map_id _)
    intro y hy
    unfold resolved
    rw [if_neg (h.single rfl o (by simp) y hy)]
    rfl
  · have hw : whole os = combineObjects os := by
      match os, h1 with
      | [], _ => rfl
      | [o], h1 => exact absurd rfl h1
      | _ :: _ :: _, _ => rfl
    refine ⟨{ sections := (concat os 0 0).1, symbols := _ }, ?_, rfl, rfl⟩
    rw [hw]
    unfold combineObjects
    dsimp only
    rw [hlink]
    rfl

/-- A symbol of the whole object. -/
theorem whole_sym {os : List Obj} (h : Linkable os) {L : Obj}
    (hL : L.symbols = (concat os 0 0).2.map (resolved (defSect (concat os 0 0).2)))
    {a k : Nat} {o : Obj} {y : Symbol} {b s : Nat} {v : BitVec 64}
    (h1 : os[a]? = some o) (h2 : o.symbols[k]? = some y) (ht : Target os a y b s v) :
    ∃ y', L.symbols[symOff os a + k]? = some y' ∧ y'.sect = some (secOff os b + s) ∧ y'.value = y.value ∧
      y'.name = y.name := by
  have hc := concat_sym (sy := 0) (se := 0) h1 h2
  refine ⟨resolved (defSect (concat os 0 0).2) (moveSymbol (0 + secOff os a) y), by rw [hL, List.getElem?_map, hc]; rfl, ?_⟩
  unfold resolved
  by_cases hn : y.sect = none
  · rw [if_pos (by simp [moveSymbol, hn])]
    refine ⟨?_, rfl, rfl⟩
    obtain ⟨⟨n, hnn, z, hz, hd⟩, hall⟩ := concat_target h h1 h2 ht hn
    have hall := hall n hnn
    show (y.name.bind (defSect (concat os 0 0).2)) = _
    rw [hnn]
    show defSect _ n = _
    unfold defSect
    cases hf : (concat os 0 0).2.find? fun y => decide (Defines n y) with
    | none => exact absurd hd (by simpa using List.find?_eq_none.1 hf z hz)
    | some w =>
      have hw := List.find?_some hf
      exact hall w (List.mem_of_find?_eq_some hf) (by simpa using hw)
  · rw [if_neg (by cases hs : y.sect with
      | none => exact absurd hs hn
      | some q => simp [moveSymbol, hs])]
    refine ⟨?_, rfl, rfl⟩
    cases ht with
    | own hs => simp [moveSymbol, hs, Nat.add_comm]
    | other hs => exact absurd hs hn

/-- Every symbol of the whole object is one of an input object. -/
theorem whole_sym_inv {os : List Obj} {L : Obj}
    (hL : L.symbols = (concat os 0 0).2.map (resolved (defSect (concat os 0 0).2))) {i : Nat} {y' : Symbol}
    (hi : L.symbols[i]? = some y') :
    ∃ (a k : Nat) (o : Obj) (y : Symbol), os[a]? = some o ∧ o.symbols[k]? = some y ∧ i = symOff os a + k := by
  rw [hL, List.getElem?_map] at hi
  cases hc : (concat os 0 0).2[i]? with
  | none => rw [hc] at hi; cases hi
  | some t =>
    obtain ⟨a, k, o, y, h1, h2, h3, _⟩ := concat_sym_inv hc
    exact ⟨a, k, o, y, h1, h2, h3⟩

/-- The section of a target exists. -/
theorem target_sect {os : List Obj} (h : Linkable os) {a k : Nat} {o : Obj} {y : Symbol} {b s : Nat} {v : BitVec 64}
    (h1 : os[a]? = some o) (h2 : o.symbols[k]? = some y) (ht : Target os a y b s v) :
    ∃ o' sec, os[b]? = some o' ∧ o'.sections[s]? = some sec := by
  cases ht with
  | own hs =>
    have := h.sections o (List.mem_of_getElem? h1) y (List.mem_of_getElem? h2) s hs
    exact ⟨o, _, h1, List.getElem?_eq_getElem this⟩
  | other _ hb hz hzn hne hg hs =>
    have := h.sections _ (List.mem_of_getElem? hb) _ hz s hs
    exact ⟨_, _, hb, List.getElem?_eq_getElem this⟩

theorem fieldsOk_move {n : Nat} {s : Section} (h : FieldsOk s) : FieldsOk (moveSection n s) := by
  constructor
  · intro r hr
    obtain ⟨q, hq, rfl⟩ := List.mem_map.1 hr
    exact h.1 q hq
  · exact List.pairwise_map.2 h.2

theorem findEntry_ok {infos : List Nat} {load E : BitVec 64} : ∀ {ys : List Symbol} {entry : BitVec 64},
    (∀ y ∈ ys, ∃ s there, y.sect = some s ∧ infos[s]? = some there ∧
      (y.name = some (str "_start") → y.value + BitVec.ofNat 64 there + load = E)) →
    ∃ e, findEntry infos load ys entry = .ok e ∧
      ((entry = E ∨ ∃ y ∈ ys, y.name = some (str "_start")) → e = E) := by
  intro ys
  induction ys with
  | nil =>
    intro entry _
    refine ⟨entry, rfl, ?_⟩
    rintro (h | ⟨y, h, _⟩)
    · exact h
    · cases h
  | cons y ys ih =>
    intro entry h
    obtain ⟨s, there, h1, h2, h3⟩ := h y (by simp)
    rw [findEntry, h1]
    dsimp only
    rw [h2]
    dsimp only
    obtain ⟨e, g1, g2⟩ := ih (entry := if y.name = some (str "_start") then y.value + BitVec.ofNat 64 there + load else entry)
      (fun z hz => h z (by simp [hz]))
    refine ⟨e, g1, ?_⟩
    intro hc
    apply g2
    by_cases hy : y.name = some (str "_start")
    · left; rw [if_pos hy]; exact h3 hy
    · rw [if_neg hy]
      rcases hc with hc | ⟨z, hz, hzn⟩
      · exact .inl hc
      · rcases List.mem_cons.1 hz with rfl | hz
        · exact absurd hzn hy
        · exact .inr ⟨z, hz, hzn⟩

/-- What the linker produces, in terms of the sections and symbols of the input objects. -/
theorem link_ok {os : List Obj} (h : Linkable os) :
    ∃ L e infos, whole os = .ok L ∧ L.sections = (concat os 0 0).1 ∧
      L.symbols = (concat os 0 0).2.map (resolved (defSect (concat os 0 0).2)) ∧
      infos = (place L.sections []).2 ∧
      linkerLink os = .ok e ∧ e.loadAddress = 0x10000 ∧ e.data.length = total os ∧
      findEntry infos 0x10000 L.symbols 0 = .ok e.entry ∧
      (∀ a s sec, sect os a s = some sec → ∀ k, k < sec.data.length → (∀ r ∈ sec.relocs, ¬ InField r k) →
        e.data[start os a s + k]? = sec.data[k]?) ∧
      (∀ (a s : Nat) o sec, os[a]? = some o → o.sections[s]? = some sec → ∀ r ∈ sec.relocs, ∀ k, k < width r.type →
        e.data[start os a s + r.offset.toNat + k]? =
          (writeOf L infos 0x10000 (start os a s) { r with idx := r.idx + symOff os a }).2[k]?) := by
  obtain ⟨L, hw, hsec, hsym⟩ := whole_ok h
  have hf : ∀ s ∈ L.sections, FieldsOk s := by
    intro s hs
    rw [hsec] at hs
    obtain ⟨i, hi⟩ := List.mem_iff_getElem?.1 hs
    obtain ⟨a, k, o, sec, h1, h2, h3, rfl⟩ := concat_sect_inv hi
    exact fieldsOk_move (h.fields o (List.mem_of_getElem? h1) sec (List.mem_of_getElem? h2))
  have hsectlen : ∀ {b s : Nat} {o : Obj} {sec : Section}, os[b]? = some o → o.sections[s]? = some sec →
      secOff os b + s < L.sections.length := by
    intro b s o sec h1 h2
    have := concat_sect (sy := 0) (se := 0) h1 h2
    rw [hsec]
    exact (List.getElem?_eq_some_iff.1 this).1
  have hs : ∀ s ∈ L.sections, ∀ r ∈ s.relocs, SymOk L r := by
    intro s hs r hr
    rw [hsec] at hs
    obtain ⟨i, hi⟩ := List.mem_iff_getElem?.1 hs
    obtain ⟨a, k, o, sec, h1, h2, h3, rfl⟩ := concat_sect_inv hi
    obtain ⟨q, hq, rfl⟩ := List.mem_map.1 hr
    have hlt := h.symbols o (List.mem_of_getElem? h1) sec (List.mem_of_getElem? h2) q hq
    have hy := List.getElem?_eq_getElem hlt
    obtain ⟨b, t, v, ht⟩ := h.defined a o _ h1 (List.getElem_mem hlt)
    obtain ⟨y', g1, g2, g3, _⟩ := whole_sym h hsym h1 hy ht
    obtain ⟨o', sec', k1, k2⟩ := target_sect h h1 hy ht
    refine ⟨y', secOff os b + t, ?_, g2, hsectlen k1 k2⟩
    rw [← g1]
    congr 1
    show q.idx + (0 + symOff os a) = _
    omega
  have hbytes : bytes L.sections = total os := by rw [hsec, concat_bytes]
  have hsmall := h.small
  obtain ⟨d, hd, hlen, hrest, hfld⟩ := one_ok (L := L) (load := 0x10000) hf hs (by omega)
  have hentry : ∃ en, findEntry (place L.sections []).2 0x10000 L.symbols 0 = .ok en := by
    have key : ∀ ys : List Symbol, (∀ y ∈ ys, ∃ s there, y.sect = some s ∧ (place L.sections []).2[s]? = some there) →
        ∀ entry, ∃ en, findEntry (place L.sections []).2 0x10000 ys entry = .ok en := by
      intro ys
      induction ys with
      | nil => intro _ entry; exact ⟨entry, rfl⟩
      | cons y ys ih =>
        intro hall entry
        obtain ⟨s, there, g1, g2⟩ := hall y (by simp)
        rw [findEntry, g1]
        dsimp only
        rw [g2]
        exact ih (fun z hz => hall z (by simp [hz])) _
    apply key
    intro y hy
    obtain ⟨i, hi⟩ := List.mem_iff_getElem?.1 hy
    obtain ⟨a, k, o, y0, h1, h2, h3⟩ := whole_sym_inv hsym hi
    obtain ⟨b, t, v, ht⟩ := h.defined a o y0 h1 (List.mem_of_getElem? h2)
    obtain ⟨y', g1, g2, _⟩ := whole_sym h hsym h1 h2 ht
    rw [← h3, hi] at g1
    injection g1 with g1
    subst g1
    obtain ⟨o', sec', k1, k2⟩ := target_sect h h1 h2 ht
    exact ⟨_, _, g2, List.getElem?_eq_getElem (by rw [place_infos_length]; exact hsectlen k1 k2)⟩
  obtain ⟨en, hen⟩ := hentry
  refine ⟨L, ⟨en, 0x10000, d⟩, _, hw, hsec, hsym, rfl, ?_, rfl, ?_, hen, ?_, ?_⟩
  · unfold linkerLink
    rw [hw, Res.bind_ok]
    dsimp only
    rw [hd, Res.bind_ok, hen, Res.bind_ok]
  · exact hlen.trans hbytes
  · intro a s sec hsec' k hk hno
    obtain ⟨o, h1, h2⟩ := Option.bind_eq_some_iff.1 hsec'
    have hi := concat_sect (sy := 0) (se := 0) h1 h2
    have hst := concat_start (sy := 0) (se := 0) h1 (Nat.le_of_lt (List.getElem?_eq_some_iff.1 h2).1)
    rw [← hst, ← hsec]
    refine hrest _ (moveSection (0 + symOff os a) sec) (by rw [hsec]; exact hi) k hk ?_
    intro r hr
    obtain ⟨q, hq, rfl⟩ := List.mem_map.1 hr
    exact hno q hq
  · intro a s o sec h1 h2 r hr k hk
    have hi := concat_sect (sy := 0) (se := 0) h1 h2
    have hst := concat_start (sy := 0) (se := 0) h1 (Nat.le_of_lt (List.getElem?_eq_some_iff.1 h2).1)
    rw [← hst, ← hsec]
    have := hfld _ _ (by rw [hsec]; exact hi) { r with idx := r.idx + (0 + symOff os a) } (List.mem_map.2 ⟨r, hr, rfl⟩) k hk
    rw [Nat.zero_add] at this
    exact this

end Verif.Linker
