import Verif.ElfTableLemmas
/-!
Lemmas about ELF files: reading.
-/
namespace Verif.Elf
open Verif Verif.Object Verif.Bytes Verif.ElfSpec Verif.Linker

/-! ### Numbers in a buffer -/

theorem ofNat_leVal {w n : Nat} (v : BitVec w) (h : 256 ^ n = 2 ^ w) : BitVec.ofNat w (leVal (leBytes n v.toNat)) = v := by
  apply BitVec.eq_of_toNat_eq
  rw [BitVec.toNat_ofNat, leVal_leBytes, h, Nat.mod_mod]
  exact Nat.mod_eq_of_lt v.isLt

theorem at_byte {d : List Byte} {p : Nat} {v : BitVec 8} (h : At d p (leBytes 1 v.toNat)) : read8 d p = .ok v := by
  refine read8_eq _ _ _ ?_
  have := h.2 0 (by simp)
  rw [Nat.add_zero] at this
  rw [this]
  simp [leBytes]

theorem at_16 {d : List Byte} {p : Nat} {v : BitVec 16} (h : At d p (leBytes 2 v.toNat)) : read16 d p = .ok v := by
  have := read16_eq d p (leBytes 2 v.toNat) (by simp) (fun i hi => h.2 i (by simpa using hi))
  rwa [ofNat_leVal _ (by decide)] at this

theorem at_32 {d : List Byte} {p : Nat} {v : BitVec 32} (h : At d p (leBytes 4 v.toNat)) : read32 d p = .ok v := by
  have := read32_eq d p (leBytes 4 v.toNat) (by simp) (fun i hi => h.2 i (by simpa using hi))
  rwa [ofNat_leVal _ (by decide)] at this

theorem at_64 {d : List Byte} {p : Nat} {v : BitVec 64} (h : At d p (leBytes 8 v.toNat)) : read64 d p = .ok v := by
  have := read64_eq d p (leBytes 8 v.toNat) (by simp) (fun i hi => h.2 i (by simpa using hi))
  rwa [ofNat_leVal _ (by decide)] at this

/-! ### Numbers in a file -/

theorem readByte_of {file : List Byte} {p : Nat} {b : Byte} (h : read8 file p = .ok b) : readByte file p = .ok b := by
  unfold read8 fetch at h
  unfold readByte
  cases hf : file[p]? with
  | none => rw [hf] at h; cases h
  | some c => rw [hf] at h; exact h

theorem readWord_of {file : List Byte} {p : Nat} {b : BitVec 16} (h : read16 file p = .ok b) : readWord file p = .ok b := by
  unfold read16 at h
  obtain ⟨a, ha, h⟩ := Res.bind_eq_ok.1 h
  obtain ⟨c, hc, h⟩ := Res.bind_eq_ok.1 h
  unfold readWord
  rw [readByte_of ha, Res.bind_ok, readByte_of hc, Res.bind_ok]
  exact h

theorem readLong_of {file : List Byte} {p : Nat} {b : BitVec 32} (h : read32 file p = .ok b) : readLong file p = .ok b := by
  unfold read32 at h
  obtain ⟨a, ha, h⟩ := Res.bind_eq_ok.1 h
  obtain ⟨c, hc, h⟩ := Res.bind_eq_ok.1 h
  unfold readLong
  rw [readWord_of ha, Res.bind_ok, readWord_of hc, Res.bind_ok]
  exact h

theorem readQuad_of {file : List Byte} {p : Nat} {b : BitVec 64} (h : read64 file p = .ok b) : readQuad file p = .ok b := by
  unfold read64 at h
  obtain ⟨a, ha, h⟩ := Res.bind_eq_ok.1 h
  obtain ⟨c, hc, h⟩ := Res.bind_eq_ok.1 h
  unfold readQuad
  rw [readLong_of ha, Res.bind_ok, readLong_of hc, Res.bind_ok]
  exact h

theorem readWord_num {file : List Byte} {p v : Nat} {b : BitVec 16} (h : Num file p 2 v) (e : v = b.toNat) :
    readWord file p = .ok b := by subst e; exact readWord_of (at_16 h.2)

theorem readLong_num {file : List Byte} {p v : Nat} {b : BitVec 32} (h : Num file p 4 v) (e : v = b.toNat) :
    readLong file p = .ok b := by subst e; exact readLong_of (at_32 h.2)

theorem readQuad_num {file : List Byte} {p v : Nat} {b : BitVec 64} (h : Num file p 8 v) (e : v = b.toNat) :
    readQuad file p = .ok b := by subst e; exact readQuad_of (at_64 h.2)

theorem readBytes_at {file : List Byte} {p : Nat} {bs : List Byte} (h : At file p bs) :
    readBytes file p bs.length = .ok bs := by
  unfold readBytes
  rw [if_pos h.1]
  congr 1
  apply List.ext_getElem?
  intro i
  by_cases hi : i < bs.length
  · rw [List.getElem?_take_of_lt hi, List.getElem?_drop, h.2 i hi]
  · rw [List.getElem?_eq_none (by rw [List.length_take]; omega), List.getElem?_eq_none (by omega)]

theorem byte_at {file bs : List Byte} {k : Nat} {b : Byte} (h : file[0 + k]? = bs[k]?) (hb : bs[k]? = some b) :
    readByte file k = .ok b := by
  rw [Nat.zero_add, hb] at h
  unfold readByte
  rw [h]

/-! ### The header -/

theorem readHeader_ok {file : List Byte} {type : BitVec 16} {entry phoff shoff : BitVec 64} {phnum shnum shstrndx : BitVec 16}
    {p q : Nat} (hp : p = phnum.toNat) (hq : q = shnum.toNat)
    (h : IsHeader file type.toNat entry.toNat phoff.toNat shoff.toNat p q shstrndx.toNat) :
    readHeader file = .ok (some ({ type := type, entry := entry, shoff := shoff, phoff := phoff, shstrndx := shstrndx },
      phnum, shnum)) := by
  have hid := h.ident
  have b4 : readByte file 4 = .ok 2 := byte_at (hid.2 4 (by decide)) rfl
  have b5 : readByte file 5 = .ok 1 := byte_at (hid.2 5 (by decide)) rfl
  have b6 : readByte file 6 = .ok 1 := byte_at (hid.2 6 (by decide)) rfl
  have b7 : readByte file 7 = .ok 0 := byte_at (hid.2 7 (by decide)) rfl
  have b8 : readByte file 8 = .ok 0 := byte_at (hid.2 8 (by decide)) rfl
  have m : readBytes file 0 4 = .ok [0x7f, 0x45, 0x4c, 0x46] :=
    readBytes_at (at_split (a := [0x7f, 0x45, 0x4c, 0x46]) (b := [2, 1, 1, 0, 0, 0, 0, 0, 0, 0, 0, 0]) hid).1
  have m9 : readBytes file 9 7 = .ok [0, 0, 0, 0, 0, 0, 0] :=
    readBytes_at (at_split (a := [0x7f, 0x45, 0x4c, 0x46, 2, 1, 1, 0, 0]) (b := [0, 0, 0, 0, 0, 0, 0]) hid).2
  unfold readHeader
  rw [m, Res.bind_ok, if_neg (by simp), b4, Res.bind_ok, b5]
  have c2 : readWord file 18 = .ok 0x3e := readWord_num h.machine rfl
  have c3 : readLong file 20 = .ok 1 := readLong_num h.version rfl
  have c4 : readLong file 48 = .ok 0 := readLong_num h.flags rfl
  have c5 : readWord file 52 = .ok 64 := readWord_num h.ehsize rfl
  have c6 : readWord file 54 = .ok (if phnum = 0 then 0 else 56) := readWord_num h.phentsize (by
    subst hp
    by_cases e : phnum = 0
    · subst e; rfl
    · rw [if_neg e, if_neg (show ¬ phnum.toNat = 0 from fun e2 => e (BitVec.eq_of_toNat_eq e2))]; rfl)
  have c7 : readWord file 58 = .ok (if shnum = 0 then 0 else 64) := readWord_num h.shentsize (by
    subst hq
    by_cases e : shnum = 0
    · subst e; rfl
    · rw [if_neg e, if_neg (show ¬ shnum.toNat = 0 from fun e2 => e (BitVec.eq_of_toNat_eq e2))]; rfl)
  rw [b6, b7, b8, m9, readWord_num h.type rfl, c2, c3, readQuad_num h.entry rfl, readQuad_num h.phoff rfl,
    readQuad_num h.shoff rfl, c4, c5, c6, readWord_num h.phnum hp, c7, readWord_num h.shnum hq, readWord_num h.shstrndx rfl]
  simp only [Res.bind_ok]
  have e1 : (decide (phnum = 0 ∨ (if phnum = 0 then (0 : BitVec 16) else 56) = 7 * 8)) = true := by
    by_cases e : phnum = 0
    · simp [e]
    · simp [e]
  have e2 : (decide (shnum = 0 ∨ (if shnum = 0 then (0 : BitVec 16) else 64) = 8 * 8)) = true := by
    by_cases e : shnum = 0
    · simp [e]
    · simp [e]
  rw [e1, e2]
  rfl

theorem readSectionHeader_ok {file : List Byte} {p : Nat} {h : SHdr} {offset size : BitVec 64}
    (hs : IsSection file p h offset.toNat size.toNat) :
    readSectionHeader file p = .ok { h with offset := offset, size := size } := by
  unfold readSectionHeader
  rw [readLong_num hs.name rfl, Res.bind_ok, readLong_num hs.type rfl, Res.bind_ok, readQuad_num hs.flags rfl, Res.bind_ok,
    readQuad_num hs.addr rfl, Res.bind_ok, readQuad_num hs.offset rfl, Res.bind_ok, readQuad_num hs.size rfl, Res.bind_ok,
    readLong_num hs.link rfl, Res.bind_ok, readLong_num hs.info rfl, Res.bind_ok, readQuad_num hs.addralign rfl, Res.bind_ok,
    readQuad_num hs.entsize rfl, Res.bind_ok]

theorem readSectionHeaders_ok {file : List Byte} : ∀ {hs : List SHdr} {p : Nat},
    (∀ (i : Nat) h, hs[i]? = some h → readSectionHeader file (p + 64 * i) = .ok h) →
    readSectionHeaders file hs.length p = .ok hs := by
  intro hs
  induction hs with
  | nil => intro p _; rfl
  | cons h hs ih =>
    intro p hh
    have h0 := hh 0 h rfl
    rw [Nat.mul_zero, Nat.add_zero] at h0
    rw [List.length_cons, readSectionHeaders, h0, Res.bind_ok, ih, Res.bind_ok]
    intro i x hx
    have := hh (i + 1) x hx
    rwa [show p + 64 * (i + 1) = p + 64 + 64 * i by omega] at this

theorem readContents_ok {file : List Byte} : ∀ {es : List ESect},
    (∀ e ∈ es, e.hdr.size.toNat = e.data.length ∧ (e.data ≠ [] → At file e.hdr.offset.toNat e.data)) →
    readContents file (es.map fun e => e.hdr) = .ok es := by
  intro es
  induction es with
  | nil => intro _; rfl
  | cons e es ih =>
    intro h
    obtain ⟨h1, h2⟩ := h e (by simp)
    rw [List.map_cons, readContents, h1, ih (fun x hx => h x (by simp [hx]))]
    by_cases hz : e.data.length = 0
    · rw [if_pos hz]
      have hnil := List.length_eq_zero_iff.1 hz
      cases e
      simp only at hnil
      subst hnil
      rfl
    · rw [if_neg hz, readBytes_at (h2 (fun e => hz (by rw [e]; rfl)))]
      rfl

/-- A section with its size. -/
def sized (s : ESect) : ESect := { s with hdr := { s.hdr with offset := 0, size := BitVec.ofNat 64 s.data.length } }

/-- A section without its offset. -/
def clear (s : ESect) : ESect := { s with hdr := { s.hdr with offset := 0 } }

/-- The sections that are read. -/
theorem readSections_ok {f : File} {file : List Byte} {offs : List Nat} (hf : Fits f) (hl : Layout f file offs) :
    ∃ R : List ESect, readSectionHeaders file f.sections.length 64 = .ok (R.map fun e => e.hdr) ∧
      readContents file (R.map fun e => e.hdr) = .ok R ∧ R.map clear = f.sections.map sized := by
  have hsm := hf.small
  have key : ∀ i, i < f.sections.length → secOffset f i ≤ phOffset f := by
    intro i hi
    have := contents_take (List.getElem?_eq_getElem hi)
    unfold secOffset phOffset
    omega
  have hsz : ∀ s ∈ f.sections, s.data.length < 2 ^ 64 := by
    intro s hs
    obtain ⟨i, hi⟩ := List.mem_iff_getElem?.1 hs
    have := contents_take hi
    unfold phOffset at hsm
    omega
  let g := fun (i : Nat) (s : ESect) =>
    { s with hdr := { s.hdr with offset := BitVec.ofNat 64 (if i = 0 then 0 else secOffset f i)
                                 size := BitVec.ofNat 64 s.data.length } }
  have hR : ∀ (i : Nat), (f.sections.mapIdx g)[i]? = (f.sections[i]?).map (g i) := by
    intro i; rw [List.getElem?_mapIdx]
  refine ⟨f.sections.mapIdx g, ?_, ?_, ?_⟩
  · have := readSectionHeaders_ok (file := file) (hs := (f.sections.mapIdx g).map fun e => e.hdr) (p := 64) (by
      intro i h hh
      rw [List.getElem?_map, hR] at hh
      cases hs : f.sections[i]? with
      | none => rw [hs] at hh; cases hh
      | some s =>
        rw [hs] at hh
        simp only [Option.map_some, Option.some.injEq] at hh
        subst hh
        have hi := (List.getElem?_eq_some_iff.1 hs).1
        have hk := key i hi
        have hz := hsz s (List.mem_of_getElem? hs)
        refine readSectionHeader_ok ?_
        rw [BitVec.toNat_ofNat, BitVec.toNat_ofNat, Nat.mod_eq_of_lt hz, Nat.mod_eq_of_lt]
        · exact (hl.sections i s hs).1
        · split
          · decide
          · omega)
    rwa [List.length_map, List.length_mapIdx] at this
  · refine readContents_ok ?_
    intro e he
    obtain ⟨i, hi⟩ := List.mem_iff_getElem?.1 he
    rw [hR] at hi
    cases hs : f.sections[i]? with
    | none => rw [hs] at hi; cases hi
    | some s =>
      rw [hs] at hi
      simp only [Option.map_some, Option.some.injEq] at hi
      subst hi
      have hi := (List.getElem?_eq_some_iff.1 hs).1
      have hk := key i hi
      have hz := hsz s (List.mem_of_getElem? hs)
      have hd : (g i s).data = s.data := rfl
      rw [hd]
      refine ⟨by show (BitVec.ofNat 64 s.data.length).toNat = _; rw [BitVec.toNat_ofNat, Nat.mod_eq_of_lt hz], ?_⟩
      intro hne
      have ho : (g i s).hdr.offset = BitVec.ofNat 64 (if i = 0 then 0 else secOffset f i) := rfl
      have hi0 : i ≠ 0 := by
        intro e0
        subst e0
        exact hne (hf.null s hs).1
      rw [ho, if_neg hi0, BitVec.toNat_ofNat, Nat.mod_eq_of_lt (by omega)]
      exact (hl.sections i s hs).2 hne
  · apply List.ext_getElem?
    intro i
    rw [List.getElem?_map, List.getElem?_map, hR]
    cases f.sections[i]? <;> rfl

/-! ### The object -/

theorem findStrings_clear (all : List ESect) : ∀ (es : List ESect) (found : Option (List Byte)),
    findStrings all es found = findStrings (all.map clear) (es.map clear) found := by
  intro es
  induction es with
  | nil => intro found; rfl
  | cons e es ih =>
    intro found
    rw [List.map_cons, findStrings.eq_def, findStrings.eq_def (all.map clear)]
    dsimp only
    have h1 : (clear e).hdr.type = e.hdr.type := rfl
    have h2 : (clear e).hdr.link = e.hdr.link := rfl
    rw [h1, h2, List.getElem?_map, ih found]
    cases found with
    | some _ => rfl
    | none =>
      cases all[e.hdr.link.toNat]? with
      | none => rfl
      | some t =>
        have h3 : (clear t).hdr.type = t.hdr.type := rfl
        have h4 : (clear t).data = t.data := rfl
        simp only [Option.map_some, h3, h4, ih]

theorem progbits_clear (sh : List Byte) : ∀ (es : List ESect) (ss : List Section) (m : List (Option Nat)),
    progbits sh es ss m = progbits sh (es.map clear) ss m := by
  intro es
  induction es with
  | nil => intro ss m; rfl
  | cons e es ih =>
    intro ss m
    rw [List.map_cons, progbits, progbits]
    have h1 : (clear e).hdr.type = e.hdr.type := rfl
    have h2 : (clear e).hdr.name = e.hdr.name := rfl
    have h3 : (clear e).data = e.data := rfl
    simp only [h1, h2, h3, ih]

theorem symtabs_clear (st : List Byte) (mp : List (Option Nat)) : ∀ (es : List ESect) (ys : List Symbol)
    (m : Option (List (Option Nat))), symtabs st mp es ys m = symtabs st mp (es.map clear) ys m := by
  intro es
  induction es with
  | nil => intro ys m; rfl
  | cons e es ih =>
    intro ys m
    rw [List.map_cons, symtabs, symtabs]
    have h1 : (clear e).hdr.type = e.hdr.type := rfl
    have h2 : (clear e).hdr.entsize = e.hdr.entsize := rfl
    have h3 : (clear e).hdr.size = e.hdr.size := rfl
    have h4 : (clear e).data = e.data := rfl
    simp only [h1, h2, h3, h4, ih]

theorem relas_clear (mp : List (Option Nat)) (m : Option (List (Option Nat))) : ∀ (es : List ESect) (ss : List Section),
    relas mp m es ss = relas mp m (es.map clear) ss := by
  intro es
  induction es with
  | nil => intro ss; rfl
  | cons e es ih =>
    intro ss
    rw [List.map_cons, relas, relas]
    have h1 : (clear e).hdr.type = e.hdr.type := rfl
    have h2 : (clear e).hdr.entsize = e.hdr.entsize := rfl
    have h3 : (clear e).hdr.size = e.hdr.size := rfl
    have h4 : (clear e).data = e.data := rfl
    have h5 : (clear e).hdr.info = e.hdr.info := rfl
    simp only [h1, h2, h3, h4, h5, ih]

/-- Reading a file is reading its sections. -/
theorem readObject_ok {f : File} {file : List Byte} {offs : List Nat} (hf : Fits f) (hl : Layout f file offs)
    (hs : f.sections ≠ []) (hg : f.segments = []) {t : ESect} (ht : f.sections[f.hdr.shstrndx.toNat]? = some t)
    (h0 : f.hdr.shstrndx ≠ 0) (ht3 : t.hdr.type = 3) {st : Option (List Byte)}
    (hst : findStrings (f.sections.map sized) (f.sections.map sized) none = .ok st)
    {o : Obj} (ho : objectFromElf { shstrings := t.data, strings := st.getD [], sections := f.sections.map sized } = .ok o) :
    readObject file = .ok (some o) := by
  obtain ⟨R, r1, r2, r3⟩ := readSections_ok hf hl
  have hh := hl.header
  rw [if_neg hs, if_pos hg, hg] at hh
  have hH := readHeader_ok (file := file) (type := f.hdr.type) (entry := f.hdr.entry) (phoff := f.hdr.phoff) (shoff := 64)
    (phnum := 0) (shnum := BitVec.ofNat 16 f.sections.length) (shstrndx := f.hdr.shstrndx) rfl
    (by rw [BitVec.toNat_ofNat, Nat.mod_eq_of_lt hf.nsect]) hh
  have hE : elfRead file = .ok (some { hdr := ⟨f.hdr.type, f.hdr.entry, 64, f.hdr.phoff, f.hdr.shstrndx⟩, shstrings := t.data, strings := st.getD [], sections := R }) := by
    unfold elfRead
    rw [hH, Res.bind_ok]
    dsimp only
    have h64 : (64 : BitVec 64).toNat = 64 := rfl
    rw [if_neg (by simp), BitVec.toNat_ofNat, Nat.mod_eq_of_lt hf.nsect, h64, r1, Res.bind_ok, r2, Res.bind_ok, if_neg h0]
    have hR : ∃ t', R[f.hdr.shstrndx.toNat]? = some t' ∧ t'.hdr.type = 3 ∧ t'.data = t.data := by
      have : (R.map clear)[f.hdr.shstrndx.toNat]? = some (sized t) := by rw [r3, List.getElem?_map, ht]; rfl
      rw [List.getElem?_map] at this
      cases hr : R[f.hdr.shstrndx.toNat]? with
      | none => rw [hr] at this; cases this
      | some t' =>
        rw [hr] at this
        simp only [Option.map_some, Option.some.injEq] at this
        refine ⟨t', rfl, ?_, ?_⟩
        · rw [show t'.hdr.type = (clear t').hdr.type from rfl, this]; exact ht3
        · rw [show t'.data = (clear t').data from rfl, this]; rfl
    obtain ⟨t', q1, q2, q3⟩ := hR
    rw [q1]
    dsimp only
    rw [if_pos q2, q3, Res.bind_ok, findStrings_clear, r3, hst, Res.bind_ok]
  unfold readObject
  rw [hE, Res.bind_ok]
  dsimp only
  unfold objectFromElf at ho ⊢
  dsimp only at ho ⊢
  rw [progbits_clear, r3]
  simp only [symtabs_clear _ _ R, relas_clear _ _ R, r3]
  rw [ho]
  rfl

end Verif.Elf
