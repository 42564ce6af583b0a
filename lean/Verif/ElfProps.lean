import Verif.ElfObjectLemmas
/-!
ELF files: the properties.
-/
namespace Verif.Elf
open Verif Verif.Object Verif.Bytes Verif.ElfSpec Verif.Linker

/-- C53: for every file with a null section first, alignments other than 0, and sizes and counts that fit in their fields,
`elf_allocate_sections` and `elf_write` succeed; every header and every content is at the position that is recorded for it;
and what they occupy is in increasing order: the section headers, the contents of the sections in order, the program headers,
the contents of the segments in order. -/
theorem elf_layout {f : File} (h : Fits f) :
    ∃ g file offs, allocate f = .ok g ∧ elfWrite g = .ok file ∧ Layout f file offs ∧
      (∀ (i j : Nat) s, f.sections[i]? = some s → i < j → secOffset f i + s.data.length ≤ secOffset f j) ∧
      (∀ (i : Nat) s, f.sections[i]? = some s →
        64 + 64 * f.sections.length ≤ secOffset f i ∧ secOffset f i + s.data.length ≤ phOffset f) ∧
      (∀ (i : Nat) o, offs[i]? = some o → phOffset f + 56 * f.segments.length ≤ o) ∧
      (∀ (i j : Nat) s o p, f.segments[i]? = some s → offs[i]? = some o → offs[j]? = some p → i < j → o + s.data.length ≤ p) := by
  obtain ⟨g, file, offs, h1, h2, h3, _, _⟩ := write_ok h
  refine ⟨g, file, offs, h1, h2, h3, ?_, ?_, ?_, ?_⟩
  · intro i j s hs hij
    have := contents_take_lt hs hij
    unfold secOffset
    omega
  · intro i s hs
    have := contents_take hs
    unfold secOffset phOffset
    omega
  · intro i o ho
    exact segOffsets_ge h3.offsets ho
  · intro i j s o p hs ho hp hij
    exact segOffsets_lt h3.offsets hs ho hp hij

/-- A file with sections and segments. -/
def sampleFile : File :=
  { hdr := { type := 2, entry := 0x10000, shstrndx := 2 }
    sections := [{ hdr := { name := 0, type := 0 } }, { hdr := { name := 1, type := 1 }, data := [1, 2, 3] },
                 { hdr := { name := 7, type := 3 }, data := [0, 0] }]
    segments := [{ hdr := { type := 1, align := 0x1000, vaddr := 0x10000 }, data := [1, 2, 3] },
                 { hdr := { type := 1, align := 16 }, data := [4] }] }

example : Fits sampleFile where
  null := by intro s hs; simp [sampleFile] at hs; subst hs; exact ⟨rfl, rfl⟩
  aligns := by intro s hs; simp [sampleFile] at hs; rcases hs with rfl | rfl <;> decide
  nsect := by decide
  nseg := by decide
  small := by decide

/-- C53 for executables: the file is an `ET_EXEC` file with the entry point and one `PT_LOAD` segment, readable, writable and
executable, whose contents and addresses are those of the executable, at an offset that is a multiple of a page, as is its address
when the load address is (`mmap` requires that they agree modulo the size of a page). -/
theorem executable_layout {e : Executable} (h : e.data.length < 2 ^ 63) (ha : 0x1000 ∣ e.loadAddress.toNat) :
    ∃ file, writeExecutable e = .ok file ∧
      IsHeader file 2 e.entry.toNat 64 0 1 0 0 ∧
      IsSegment file 64 { type := 1, flags := 7, vaddr := e.loadAddress, paddr := e.loadAddress,
                          memsz := BitVec.ofNat 64 e.data.length, align := 0x1000 } 0x1000 e.data.length ∧
      (e.data ≠ [] → At file 0x1000 e.data) ∧ 0x1000 % 0x1000 = e.loadAddress.toNat % 0x1000 := by
  let f : File := { hdr := { type := 2, entry := e.entry }
                    segments := [{ hdr := { type := 1, flags := 1 ||| 4 ||| 2, vaddr := e.loadAddress, paddr := e.loadAddress,
                                            filesz := BitVec.ofNat 64 e.data.length, memsz := BitVec.ofNat 64 e.data.length,
                                            align := 0x1000 }, data := e.data }] }
  have hf : Fits f := {
    null := by intro s hs; cases hs
    aligns := by intro s hs; simp only [f, List.mem_singleton] at hs; subst hs; exact (by decide : 0 < (0x1000 : BitVec 64).toNat)
    nsect := by simp [f]
    nseg := by simp [f]
    small := by
      simp only [f, phOffset, contents, List.map_nil, List.map_cons, List.sum_nil, List.sum_cons, List.length_nil, List.length_singleton]
      have : (0x1000 : BitVec 64).toNat = 0x1000 := rfl
      rw [this]
      omega }
  obtain ⟨g, file, offs, h1, h2, h3, _, _⟩ := write_ok hf
  have hph : phOffset f = 64 := rfl
  refine ⟨file, by show (do elfWrite (← allocate f)) = _; rw [h1, Res.bind_ok, h2], ?_, ?_⟩
  · have := h3.header
    rwa [if_neg (by simp [f]), if_pos rfl, hph] at this
  · obtain ⟨o, os, ho, l1, l2, l3, l4⟩ := h3.offsets
    rw [hph] at l1 l2
    simp only [List.length_singleton] at l1 l2
    have e12 : (0x1000 : BitVec 64).toNat = 0x1000 := rfl
    rw [e12] at l2 l3
    have ho' : o = 0x1000 := by
      obtain ⟨q, hq⟩ := l3
      have : f.segments.length = 1 := rfl
      omega
    subst ho'
    obtain ⟨s1, s2⟩ := h3.segments 0 _ 0x1000 rfl (by rw [ho]; rfl)
    rw [hph] at s1
    refine ⟨⟨s1.type, s1.flags, s1.offset, s1.vaddr, s1.paddr, s1.filesz, s1.memsz, s1.align⟩, s2, ?_⟩
    obtain ⟨q, hq⟩ := ha
    omega

example : ∃ e : Executable, e.data.length < 2 ^ 63 ∧ 0x1000 ∣ e.loadAddress.toNat ∧ e.data ≠ [] ∧ e.loadAddress.toNat ≠ 0 :=
  ⟨{ data := [1, 2, 3] }, by decide, by decide, by decide, by decide⟩

/-- C53 for objects: for every object that can be written, and whatever the memory from `cc_malloc` holds, the file has the layout
of a relocatable object file as the ELF specification describes it: the contents, names, symbols and relocations of the object are
in it, and local symbols precede the others. -/
theorem object_layout {o : Obj} (h : Writable o) (junk : Nat → Byte) :
    ∃ file f offs κ, writeObject junk o = .ok file ∧ Layout f file offs ∧ IsObject o f κ := by
  obtain ⟨g, file, offs, h1, h2, h3, _, _⟩ := write_ok (objFile_fits (junk := junk) h)
  exact ⟨file, _, offs, _, by rw [writeObject, elfFromObject_ok h, h1, Res.bind_ok, h2], h3, objFile_isObject h⟩

/-- C52: for every object that can be written and whose symbol indices in the symbol table fit in 16 bits, the file that is written
is read as the same object, up to the order of the symbols and without the alignments of the sections. -/
theorem elf_round_trip_partial {o : Obj} (h : Writable o) (hi : o.sections.length + o.symbols.length + 1 ≤ 2 ^ 16)
    (junk : Nat → Byte) :
    ∃ file o' σ, writeObject junk o = .ok file ∧ readObject file = .ok (some o') ∧ Same o o' σ := by
  obtain ⟨file, _, h1, _, h2⟩ := round_trip (junk := junk) h (reads_rank h hi)
  exact ⟨file, _, _, h1, h2, readBack_same o⟩

/-- An object with local and global symbols, an undefined one, and relocations. -/
def sampleObject : Obj :=
  { sections := [{ name := some (str ".text"), data := [1, 2, 3, 4, 5, 6, 7, 8],
                   relocs := [{ type := .r32rel, idx := 0, offset := 4, add := -4 }, { type := .r64, idx := 1, offset := 0, add := 0 }] },
                 { name := some (str ".data"), data := [9], alignment := 16 }]
    symbols := [{ name := some (str "main"), global := true, sect := some 0 }, { name := some (str "x"), sect := some 1, value := 3, size := 4 },
                { name := some (str "printf"), global := true }] }

theorem sampleObject_writable : Writable sampleObject where
  sectName := by
    intro s hs
    simp only [sampleObject, List.mem_cons, List.not_mem_nil, or_false] at hs
    rcases hs with rfl | rfl <;> exact ⟨_, rfl, by decide, by decide⟩
  symName := by
    intro s hs
    simp only [sampleObject, List.mem_cons, List.not_mem_nil, or_false] at hs
    rcases hs with rfl | rfl | rfl <;> exact ⟨_, rfl, by decide⟩
  symSect := by
    intro y hy s hs
    simp only [sampleObject, List.mem_cons, List.not_mem_nil, or_false] at hy
    rcases hy with rfl | rfl | rfl <;> simp at hs <;> subst hs <;> decide
  relSym := by decide
  nsect := by decide
  nsym := by decide
  strings := by decide
  small := by decide

example : Writable sampleObject ∧ sampleObject.sections.length + sampleObject.symbols.length + 1 ≤ 2 ^ 16 :=
  ⟨sampleObject_writable, by decide⟩

/-- Many symbols, of which only the last, number `n`, is not called `a`; it has a relocation. -/
def manySymbols (n : Nat) : Obj :=
  { sections := [{ name := some (str ".data"), data := [0, 0, 0, 0, 0, 0, 0, 0], relocs := [{ type := .r64, idx := n, offset := 0, add := 0 }] }]
    symbols := List.replicate n { name := some (str "a"), sect := some 0 } ++ [{ name := some (str "b"), sect := some 0, value := 4 }] }

theorem manySymbols_mem {n : Nat} {y : Symbol} (h : y ∈ (manySymbols n).symbols) :
    y.sect = some 0 ∧ y.global = false ∧ (y.name = some (str "a") ∨ y.name = some (str "b")) := by
  rcases List.mem_append.1 h with h | h
  · have := List.eq_of_mem_replicate h
    subst this
    exact ⟨rfl, rfl, .inl rfl⟩
  · simp only [List.mem_singleton] at h
    subst h
    exact ⟨rfl, rfl, .inr rfl⟩

theorem manySymbols_length (n : Nat) : (manySymbols n).symbols.length = n + 1 := by
  simp [manySymbols]

theorem manySymbols_last (n : Nat) :
    (manySymbols n).symbols[n]? = some { name := some (str "b"), sect := some 0, value := 4 } := by
  simp [manySymbols]

theorem manySymbols_writable {n : Nat} (hn : n < 2 ^ 30) : Writable (manySymbols n) where
  sectName := by
    intro s hs
    simp only [manySymbols, List.mem_cons, List.not_mem_nil, or_false] at hs
    subst hs
    exact ⟨_, rfl, by decide, by decide⟩
  symName := by
    intro y hy
    rcases (manySymbols_mem hy).2.2 with h | h
    · exact ⟨_, h, by decide⟩
    · exact ⟨_, h, by decide⟩
  symSect := by
    intro y hy s hs
    rw [(manySymbols_mem hy).1] at hs
    cases hs
    exact Nat.zero_lt_one
  relSym := by
    intro s hs r hr
    simp only [manySymbols, List.mem_cons, List.not_mem_nil, or_false] at hs
    subst hs
    simp only [List.mem_cons, List.not_mem_nil, or_false] at hr
    subst hr
    rw [manySymbols_length]
    exact Nat.lt_succ_self n
  nsect := by simp [manySymbols]
  nsym := by
    have : (manySymbols n).sections.length = 1 := rfl
    rw [manySymbols_length, this]; omega
  strings := by
    have e : ((manySymbols n).symbols.map fun y => (y.name.getD []).length + 1).sum = n * 2 + 2 := by
      have ea : (str "a").length = 1 := by decide
      have eb : (str "b").length = 1 := by decide
      simp [manySymbols, ea, eb]
    rw [e]
    omega
  small := by simp [manySymbols]

theorem manySymbols_rank (n : Nat) : rank (manySymbols n).symbols n = n := by
  unfold rank
  rw [manySymbols_last]
  dsimp only
  rw [if_neg (by simp), manySymbols, List.take_append_of_le_length (by simp), List.take_of_length_le (by simp),
    List.countP_replicate]
  simp

theorem manySymbols_first {n : Nat} (h : 0 < n) :
    (sorted (manySymbols n).symbols)[0]? = some { name := some (str "a"), sect := some 0 } := by
  obtain ⟨m, rfl⟩ : ∃ m, n = m + 1 := ⟨n - 1, by omega⟩
  simp [sorted, manySymbols, List.replicate_succ]

theorem manySymbols_read {n : Nat} (h : (1 + 1 + n) % 65536 = 2) (hn : n < 2 ^ 30) (h0 : 0 < n) (junk : Nat → Byte) :
    ∃ file o', writeObject junk (manySymbols n) = .ok file ∧ readObject file = .ok (some o') ∧
      (∃ s r y, (manySymbols n).sections[0]? = some s ∧ s.relocs[0]? = some r ∧ (manySymbols n).symbols[r.idx]? = some y ∧
        y.name = some (str "b") ∧ y.value = 4) ∧
      (∃ s r y, o'.sections[0]? = some s ∧ s.relocs[0]? = some r ∧ o'.symbols[r.idx]? = some y ∧
        y.name = some (str "a") ∧ y.value = 0) := by
  have hr : Reads (manySymbols n) (fun _ => 0) := by
    intro s hs r hr
    simp only [manySymbols, List.mem_cons, List.not_mem_nil, or_false] at hs
    subst hs
    simp only [List.mem_cons, List.not_mem_nil, or_false] at hr
    subst hr
    dsimp only
    rw [manySymbols_rank]
    have hl : (manySymbols n).sections.length = 1 := rfl
    have := entMap_get (o := manySymbols n) (k := 0) (by rw [manySymbols_length]; omega)
    rw [hl] at this ⊢
    rw [h]
    exact this
  obtain ⟨file, _, h1, _, h2⟩ := round_trip (junk := junk) (manySymbols_writable hn) hr
  refine ⟨file, _, h1, h2, ?_, ?_⟩
  · exact ⟨_, _, _, rfl, rfl, manySymbols_last n, rfl, rfl⟩
  · exact ⟨_, _, _, rfl, rfl, manySymbols_first h0, rfl, rfl⟩

/-- C52 fails for symbols whose index in the symbol table does not fit in 16 bits: `object_from_elf` takes only 16 bits of the
index, so that the relocation for `b`, at offset 4 of the section, is read as one for `a`, at its start. -/
theorem elf_round_trip_violated :
    ∃ o, Writable o ∧ ∀ junk, ∃ file o', writeObject junk o = .ok file ∧ readObject file = .ok (some o') ∧
      (∃ s r y, o.sections[0]? = some s ∧ s.relocs[0]? = some r ∧ o.symbols[r.idx]? = some y ∧ y.name = some (str "b") ∧ y.value = 4) ∧
      (∃ s r y, o'.sections[0]? = some s ∧ s.relocs[0]? = some r ∧ o'.symbols[r.idx]? = some y ∧ y.name = some (str "a") ∧ y.value = 0) :=
  ⟨manySymbols 65536, manySymbols_writable (by decide), fun junk => manySymbols_read (by decide) (by decide) (by decide) junk⟩

/-- The alignment of a section does not survive: what is read has alignment 0, whatever the section had. -/
theorem elf_alignment_lost {o : Obj} (h : Writable o) (hi : o.sections.length + o.symbols.length + 1 ≤ 2 ^ 16) (junk : Nat → Byte) :
    ∃ file o', writeObject junk o = .ok file ∧ readObject file = .ok (some o') ∧ ∀ s ∈ o'.sections, s.alignment = 0 := by
  obtain ⟨file, o', σ, h1, h2, h3⟩ := elf_round_trip_partial h hi junk
  refine ⟨file, o', h1, h2, ?_⟩
  intro s hs
  rw [h3.sections] at hs
  obtain ⟨t, _, rfl⟩ := List.mem_map.1 hs
  rfl

end Verif.Elf
