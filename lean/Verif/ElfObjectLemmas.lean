import Verif.ElfReadLemmas
/-!
Lemmas about ELF files: an object that is written and read.
-/
namespace Verif.Elf
open Verif Verif.Object Verif.Bytes Verif.ElfSpec Verif.Linker

/-! ### The file of an object -/

/-- The indices of the symbols of an object. -/
def symMap (o : Obj) : List Nat :=
  idxs o.symbols (1 + o.sections.length) (1 + o.symbols.countP (fun y => !y.global) + o.sections.length)

/-- The rows of the symbol table. -/
def tableRows (o : Obj) : List (Nat × List Byte) :=
  (0, List.replicate 24 0) :: (sectRows o.sections 0 ++
    symRows [0] o.symbols (1 + o.sections.length) (1 + o.symbols.countP (fun y => !y.global) + o.sections.length))

/-- The symbol table. -/
def table (junk : Nat → Byte) (o : Obj) : List Byte :=
  applyWrites (rows (tableRows o)) ((List.range ((o.sections.length + o.symbols.length + 1) * 24)).map junk)

/-- The names of sections before the symbol table's. -/
def sh1 (o : Obj) : List Byte := tab [0] (o.sections.map secName)

/-- The names of sections before those of the relocation sections. -/
def sh2 (o : Obj) : List Byte := sh1 o ++ str ".symtab" ++ [0]

/-- The names of sections before the string tables'. -/
def sh3 (o : Obj) : List Byte := tab (sh2 o) (o.sections.map relaName)

/-- The names of sections. -/
def sh5 (o : Obj) : List Byte := sh3 o ++ str ".strtab" ++ [0] ++ str ".shstrtab" ++ [0]

/-- The section of the symbol table. -/
def symSect (junk : Nat → Byte) (o : Obj) : ESect :=
  { hdr := { name := BitVec.ofNat 32 (sh1 o).length, type := 2,
             info := BitVec.ofNat 32 (1 + o.symbols.countP (fun y => !y.global) + o.sections.length), entsize := 24,
             link := BitVec.ofNat 32 (2 * o.sections.length + 2) }
    data := table junk o }

/-- The sections of the file. -/
def objSects (junk : Nat → Byte) (o : Obj) : List ESect :=
  { hdr := { name := 0, type := 0 } } :: (progs [0] o.sections ++ (symSect junk o ::
    (relaSects junk (symMap o) (o.sections.length + 1) (sh2 o) o.sections 0 ++
      [{ hdr := { name := BitVec.ofNat 32 (sh3 o).length, type := 3 }, data := tab [0] (o.symbols.map symName) },
       { hdr := { name := BitVec.ofNat 32 (sh3 o ++ str ".strtab" ++ [0]).length, type := 3 }, data := sh5 o }])))

/-- The file before its layout. -/
def objFile (junk : Nat → Byte) (o : Obj) : File :=
  { hdr := { type := 1, shstrndx := BitVec.ofNat 16 (2 * o.sections.length + 3) }
    shstrings := sh5 o
    strings := tab [0] (o.symbols.map symName)
    sections := objSects junk o }

theorem sectRows_fst : ∀ (ss : List Section) (i : Nat), (sectRows ss i).map Prod.fst = List.range' (i + 1) ss.length := by
  intro ss
  induction ss with
  | nil => intro i; rfl
  | cons s ss ih => intro i; simp [sectRows, ih, List.range'_succ]

theorem sectRows_length : ∀ {ss : List Section} {i : Nat}, ∀ e ∈ sectRows ss i, e.2.length = 24 := by
  intro ss
  induction ss with
  | nil => intro i e h; cases h
  | cons s ss ih =>
    intro i e h
    rcases List.mem_cons.1 h with rfl | h
    · exact entry_length _ _ _ _ _
    · exact ih e h

theorem sectRows_get : ∀ {ss : List Section} {i j : Nat} {s : Section}, ss[j]? = some s →
    (i + j + 1, entry 0 3 (BitVec.ofNat 16 (i + j + 1)) 0 (BitVec.ofNat 64 s.data.length)) ∈ sectRows ss i := by
  intro ss
  induction ss with
  | nil => intro i j s h; cases h
  | cons x ss ih =>
    intro i j s h
    cases j with
    | zero =>
      simp only [List.getElem?_cons_zero, Option.some.injEq] at h
      subst h
      simp [sectRows]
    | succ j =>
      have := ih (i := i + 1) (show ss[j]? = some s from h)
      rw [sectRows]
      refine List.mem_cons_of_mem _ ?_
      rwa [show i + (j + 1) + 1 = i + 1 + j + 1 by omega]

theorem counts (ys : List Symbol) : ys.countP (fun y => !y.global) + ys.countP (fun y => y.global) = ys.length := by
  have := sorted_length ys
  unfold sorted at this
  rw [List.length_append, ← List.countP_eq_length_filter, ← List.countP_eq_length_filter] at this
  exact this

theorem symMap_lt {o : Obj} {k : Nat} (h : k ∈ symMap o) :
    o.sections.length < k ∧ k < o.sections.length + o.symbols.length + 1 := by
  have h1 := idxs_range h
  have h2 := counts o.symbols
  omega

theorem table_spec (junk : Nat → Byte) (o : Obj) :
    (table junk o).length = 24 * (o.sections.length + o.symbols.length + 1) ∧
    (∀ (j : Nat) s, o.sections[j]? = some s → At (table junk o) (24 * (j + 1))
      (entry 0 3 (BitVec.ofNat 16 (j + 1)) 0 (BitVec.ofNat 64 s.data.length))) ∧
    (∀ (i : Nat) y, o.symbols[i]? = some y → At (table junk o) (24 * (1 + o.sections.length + rank o.symbols i))
      (symEntry (tab [0] ((o.symbols.take i).map symName)).length y)) := by
  have hd : ((List.range ((o.sections.length + o.symbols.length + 1) * 24)).map junk).length =
      24 * (o.sections.length + o.symbols.length + 1) := by simp [Nat.mul_comm]
  have hfst : (tableRows o).map Prod.fst = 0 :: (List.range' 1 o.sections.length ++ symMap o) := by
    rw [tableRows, List.map_cons, List.map_append, sectRows_fst, symRows_fst]
    rfl
  have hidx : ∀ k ∈ (tableRows o).map Prod.fst, k < o.sections.length + o.symbols.length + 1 := by
    intro k hk
    rw [hfst] at hk
    rcases List.mem_cons.1 hk with rfl | hk
    · omega
    · rcases List.mem_append.1 hk with hk | hk
      · have := List.mem_range'_1.1 hk
        omega
      · exact (symMap_lt hk).2
  have hnd : ((tableRows o).map Prod.fst).Nodup := by
    rw [hfst]
    refine List.nodup_cons.2 ⟨?_, List.nodup_append.2 ⟨List.nodup_range', ?_, ?_⟩⟩
    · intro hk
      rcases List.mem_append.1 hk with hk | hk
      · have := List.mem_range'_1.1 hk
        omega
      · have := (symMap_lt hk).1
        omega
    · exact idxs_nodup (by omega)
    · intro a ha b hb e
      have h1 := List.mem_range'_1.1 ha
      have h2 := (symMap_lt hb).1
      omega
  have := rows_at (es := tableRows o) (d := (List.range ((o.sections.length + o.symbols.length + 1) * 24)).map junk) (by
    intro e he
    rw [hd]
    have hi := hidx e.1 (List.mem_map.2 ⟨e, he, rfl⟩)
    refine ⟨?_, by omega⟩
    rcases List.mem_cons.1 he with rfl | he
    · rfl
    · rcases List.mem_append.1 he with he | he
      · exact sectRows_length e he
      · exact symRows_length e he) hnd
  refine ⟨by rw [table, this.1, hd], ?_, ?_⟩
  · intro j s hj
    have hm := sectRows_get (i := 0) hj
    rw [Nat.zero_add] at hm
    exact this.2 _ (List.mem_cons_of_mem _ (List.mem_append.2 (.inl hm)))
  · intro i y hi
    obtain ⟨k, h1, h2⟩ := symRows_get (base := [0]) (l := 1 + o.sections.length)
      (g := 1 + o.symbols.countP (fun y => !y.global) + o.sections.length) hi
    have h3 := rank_idx (a := 1 + o.sections.length) hi
    rw [show 1 + o.sections.length + o.symbols.countP (fun z => !z.global) =
      1 + o.symbols.countP (fun y => !y.global) + o.sections.length by omega, h1] at h3
    simp only [Option.some.injEq] at h3
    rw [← h3]
    exact this.2 _ (List.mem_cons_of_mem _ (List.mem_append.2 (.inr h2)))

theorem elfFromObject_ok {junk : Nat → Byte} {o : Obj} (h : Writable o) :
    elfFromObject junk o = allocate (objFile junk o) := by
  unfold elfFromObject
  have hs : ∀ s ∈ o.sections, s.name ≠ none := by
    intro s hs hn
    obtain ⟨n, e, _⟩ := h.sectName s hs
    rw [hn] at e
    cases e
  have hy : ∀ s ∈ o.symbols, s.name ≠ none := by
    intro s hs hn
    obtain ⟨n, e, _⟩ := h.symName s hs
    rw [hn] at e
    cases e
  simp only [registerString, registerShstring, List.nil_append, List.length_nil]
  rw [addSections_ok hs, Res.bind_ok]
  dsimp only
  have hd : ((List.range ((o.sections.length + o.symbols.length + 1) * 24)).map junk).length =
      24 * (o.sections.length + o.symbols.length + 1) := by simp [Nat.mul_comm]
  have hd2 : (patch ((List.range ((o.sections.length + o.symbols.length + 1) * 24)).map junk) 0
      (List.replicate 24 0)).length = 24 * (o.sections.length + o.symbols.length + 1) := by
    rw [patch_length _ _ _ (by rw [hd]; simp; omega), hd]
  rw [sectionSymbols_ok (by rw [hd2]; omega), Res.bind_ok]
  have hd3 : (applyWrites (rows (sectRows o.sections 0)) (patch ((List.range ((o.sections.length + o.symbols.length + 1) * 24)).map junk) 0
      (List.replicate 24 0))).length = 24 * (o.sections.length + o.symbols.length + 1) := by
    rw [applyWrites_length, hd2]
    intro w hw
    obtain ⟨e, he, rfl⟩ := List.mem_map.1 hw
    have h1 := sectRows_length e he
    have h2 : e.1 ∈ (sectRows o.sections 0).map Prod.fst := List.mem_map.2 ⟨e, he, rfl⟩
    rw [sectRows_fst] at h2
    have := List.mem_range'_1.1 h2
    rw [hd2]
    dsimp only
    omega
  obtain ⟨l, g, hsy⟩ := addSymbols_ok (ys := o.symbols)
    (st := { file := { hdr := { type := 1 }, shstrings := tab [0] (o.sections.map secName) ++ str ".symtab" ++ [0],
                       strings := [0], sections := [{ hdr := { name := BitVec.ofNat 32 0, type := 0 } }] ++ progs [0] o.sections }
             data := applyWrites (rows (sectRows o.sections 0)) (patch ((List.range ((o.sections.length + o.symbols.length + 1) * 24)).map junk) 0
               (List.replicate 24 0))
             loc := 1 + o.sections.length
             glob := 1 + o.symbols.countP (fun y => !y.global) + o.sections.length
             mapping := [] }) hy (by
      intro i hi
      have := symMap_lt hi
      dsimp only
      rw [hd3]
      omega)
  rw [hsy, Res.bind_ok]
  dsimp only
  have hml : (idxs o.symbols (1 + o.sections.length) (1 + o.symbols.countP (fun y => !y.global) + o.sections.length)).length =
    o.symbols.length := idxs_length _ _ _
  rw [List.nil_append, addRelaSections_ok (fun s hs => by
    obtain ⟨n, h1, _, h3⟩ := h.sectName s hs
    exact ⟨n, h1, h3⟩) (fun s hs r hr => by rw [hml]; exact h.relSym s hs r hr), Res.bind_ok]
  dsimp only
  congr 1
  have ht : applyWrites (rows (symRows [0] o.symbols (1 + o.sections.length)
      (1 + o.symbols.countP (fun y => !y.global) + o.sections.length)))
      (applyWrites (rows (sectRows o.sections 0)) (patch ((List.range ((o.sections.length + o.symbols.length + 1) * 24)).map junk) 0
        (List.replicate 24 0))) = table junk o := by
    simp only [table, tableRows, rows, applyWrites, List.map_cons, List.map_append, List.foldl_cons, List.foldl_append, Nat.mul_zero]
  rw [ht]
  have l1 : ([{ hdr := { name := BitVec.ofNat 32 0, type := 0 } }] ++ progs [0] o.sections : List ESect).length =
    o.sections.length + 1 := by simp [progs_length]
  rw [l1]
  unfold objFile
  have key : ∀ (A B C : List ESect) (x y : ESect) (k : Nat), A.length = k → ((A ++ [x] ++ B) ++ C).set k y = A ++ (y :: (B ++ C)) := by
    intro A B C x y k hk
    subst hk
    simp
  rw [key _ _ _ _ _ _ l1]
  have l2 : ([{ hdr := { name := BitVec.ofNat 32 0, type := 0 } }] ++ progs [0] o.sections ++
      [{ hdr := { name := BitVec.ofNat 32 (tab [0] (o.sections.map secName)).length, type := 2,
                  info := BitVec.ofNat 32 (1 + o.symbols.countP (fun y => !y.global) + o.sections.length), entsize := 24 },
         data := table junk o }] ++ relaSects junk (idxs o.symbols (1 + o.sections.length)
          (1 + o.symbols.countP (fun y => !y.global) + o.sections.length)) (o.sections.length + 1)
          (tab [0] (o.sections.map secName) ++ str ".symtab" ++ [0]) o.sections 0 : List ESect).length =
    2 * o.sections.length + 2 := by simp [progs_length, relaSects_length]; omega
  rw [l2]
  rfl

/-! ### Sizes -/

theorem contents_append (a b : List ESect) : contents (a ++ b) = contents a + contents b := by
  simp [contents]

theorem contents_progs : ∀ (ss : List Section) (base : List Byte),
    contents (progs base ss) = (ss.map fun s => s.data.length).sum := by
  intro ss
  induction ss with
  | nil => intro base; rfl
  | cons s ss ih => intro base; rw [progs, contents_cons, ih]; simp [prog]

theorem contents_relas {junk : Nat → Byte} {mapping : List Nat} {symIdx : Nat} : ∀ (ss : List Section) (base : List Byte) (i : Nat),
    contents (relaSects junk mapping symIdx base ss i) = (ss.map fun s => 24 * s.relocs.length).sum := by
  intro ss
  induction ss with
  | nil => intro base i; rfl
  | cons s ss ih => intro base i; rw [relaSects, contents_cons, ih]; simp [rela, (relData_spec junk mapping s.relocs).1]

theorem sum_add (ss : List Section) (f g : Section → Nat) :
    (ss.map fun s => f s + g s).sum = (ss.map f).sum + (ss.map g).sum := by
  induction ss with
  | nil => rfl
  | cons s ss ih => simp [ih]; omega

theorem sum_le (ss : List Section) (f : Section → Nat) (c : Nat) (h : ∀ s ∈ ss, f s ≤ c) : (ss.map f).sum ≤ c * ss.length := by
  induction ss with
  | nil => simp
  | cons s ss ih =>
    have h1 := h s (by simp)
    have h2 := ih (fun t ht => h t (by simp [ht]))
    rw [List.map_cons, List.sum_cons, List.length_cons, Nat.mul_succ]
    omega

theorem secName_le {o : Obj} (h : Writable o) {s : Section} (hs : s ∈ o.sections) : (secName s).length ≤ 250 := by
  obtain ⟨n, h1, _, h3⟩ := h.sectName s hs
  rw [secName, h1, Option.getD_some]
  omega

theorem sh1_length {o : Obj} (h : Writable o) : 0 < (sh1 o).length ∧ (sh1 o).length ≤ 251 * o.sections.length + 1 := by
  rw [sh1, tab_length, List.map_map]
  have := sum_le o.sections ((fun n => n.length + 1) ∘ secName) 251 (fun s hs => by
    have := secName_le h hs
    simp only [Function.comp]; omega)
  simp only [List.length_cons, List.length_nil]
  omega

theorem sh5_length {o : Obj} (h : Writable o) : (sh5 o).length ≤ 507 * o.sections.length + 100 := by
  have h1 := (sh1_length h).2
  have h2 := sum_le o.sections ((fun n => n.length + 1) ∘ relaName) 256 (fun s hs => by
    have := secName_le h hs
    have e : (str ".rela").length = 5 := by decide
    simp only [Function.comp, relaName, List.length_append, e]; omega)
  have e1 : (str ".symtab").length = 7 := by decide
  have e2 : (str ".strtab").length = 7 := by decide
  have e3 : (str ".shstrtab").length = 9 := by decide
  simp only [sh5, sh3, List.length_append, tab_length, List.map_map, sh2, e1, e2, e3, List.length_cons, List.length_nil]
  omega

theorem objSects_length (junk : Nat → Byte) (o : Obj) : (objSects junk o).length = 2 * o.sections.length + 4 := by
  simp [objSects, progs_length, relaSects_length]; omega

theorem contents_obj {junk : Nat → Byte} {o : Obj} (h : Writable o) : contents (objSects junk o) < 2 ^ 63 := by
  have h1 := sh5_length h
  have h2 := h.small
  rw [sum_add o.sections (fun s => s.data.length) (fun s => 24 * s.relocs.length)] at h2
  have h3 := h.strings
  have h4 := h.nsym
  have h5 := h.nsect
  have h6 := (table_spec junk o).1
  have h7 : (tab [0] (o.symbols.map symName)).length = 1 + (o.symbols.map fun y => (y.name.getD []).length + 1).sum := by
    rw [tab_length, List.map_map]; rfl
  rw [objSects, contents_cons, contents_append, contents_cons, contents_append, contents_progs, contents_relas, contents_cons,
    contents_cons, contents_nil]
  have h8 : (symSect junk o).data = table junk o := rfl
  simp only [h8, h6, h7, List.length_nil]
  omega

theorem objFile_fits {junk : Nat → Byte} {o : Obj} (h : Writable o) : Fits (objFile junk o) where
  null := by
    intro s hs
    simp only [objFile, objSects, List.getElem?_cons_zero, Option.some.injEq] at hs
    subst hs
    exact ⟨rfl, rfl⟩
  aligns := by intro s hs; cases hs
  nsect := by
    have := h.nsect
    rw [objFile, objSects_length]; omega
  nseg := by simp [objFile]
  small := by
    have h1 := contents_obj (junk := junk) h
    have h2 := h.nsect
    have e : (objFile junk o).sections = objSects junk o := rfl
    have e2 : (objFile junk o).segments = [] := rfl
    rw [phOffset, e, e2, objSects_length]
    simp only [List.length_nil, List.map_nil, List.sum_nil]
    omega

/-! ### Reading the sections -/

/-- What is read of a section. -/
def readSection (s : Section) : Section := { name := s.name, data := s.data }

theorem progbits_skip {sh : List Byte} : ∀ {es rest : List ESect} {ss : List Section} {m : List (Option Nat)},
    (∀ e ∈ es, e.hdr.type ≠ 1) → progbits sh (es ++ rest) ss m = progbits sh rest ss (m ++ List.replicate es.length none) := by
  intro es
  induction es with
  | nil => intro rest ss m _; simp
  | cons e es ih =>
    intro rest ss m h
    rw [List.cons_append, progbits, if_pos (h e (by simp)), ih (fun x hx => h x (by simp [hx]))]
    simp [List.replicate_succ]

theorem progbits_progs {sh : List Byte} : ∀ {l : List Section} {base post : List Byte} {rest : List ESect} {ss : List Section}
    {m : List (Option Nat)}, (∀ s ∈ l, ∃ n, s.name = some n ∧ 0 ∉ n) → 0 < base.length → (tab base (l.map secName)).length < 2 ^ 32 →
    sh = tab base (l.map secName) ++ post →
    progbits sh ((progs base l).map sized ++ rest) ss m =
      progbits sh rest (ss ++ l.map readSection) (m ++ (List.range' ss.length l.length).map some) := by
  intro l
  induction l with
  | nil => intro base post rest ss m _ _ _ _; simp [progs]
  | cons s l ih =>
    intro base post rest ss m hn hb hlt hsh
    obtain ⟨n, hnn, h0⟩ := hn s (by simp)
    have hsn : secName s = n := by simp [secName, hnn]
    have hlen := tab_length ((s :: l).map secName) base
    rw [progs, List.map_cons, List.cons_append, progbits]
    have e1 : (sized (prog base.length s)).hdr.type = 1 := rfl
    have e2 : (sized (prog base.length s)).hdr.name = BitVec.ofNat 32 base.length := rfl
    have e3 : (sized (prog base.length s)).data = s.data := rfl
    have e4 : (BitVec.ofNat 32 base.length).toNat = base.length := by
      rw [BitVec.toNat_ofNat, Nat.mod_eq_of_lt (by omega)]
    have e5 : BitVec.ofNat 32 base.length ≠ 0 := by
      intro e
      have := congrArg BitVec.toNat e
      have hz : (0 : BitVec 32).toNat = 0 := rfl
      rw [e4, hz] at this
      omega
    have hc := tab_cstr (ns := (s :: l).map secName) (base := base) (i := 0) (n := n) (by simp [hsn]) h0 post
    rw [List.take_zero, tab, ← hsh] at hc
    rw [if_neg (by rw [e1]; simp), e2, if_neg e5, e4, hc, Res.bind_ok, Res.bind_ok, e3]
    dsimp only
    rw [ih (base := base ++ secName s ++ [0]) (post := post) (fun t ht => hn t (by simp [ht])) (by simp; omega) hlt hsh]
    simp [readSection, hnn, List.range'_succ]

theorem relaSects_type {junk : Nat → Byte} {mapping : List Nat} {symIdx : Nat} : ∀ {ss : List Section} {base : List Byte}
    {j : Nat}, ∀ e ∈ (relaSects junk mapping symIdx base ss j).map sized, e.hdr.type = 4 := by
  intro ss
  induction ss with
  | nil => intro base j e h; cases h
  | cons x ss ih =>
    intro base j e h
    rcases List.mem_cons.1 h with rfl | h
    · rfl
    · exact ih e h

theorem progs_type : ∀ {ss : List Section} {base : List Byte}, ∀ e ∈ (progs base ss).map sized, e.hdr.type = 1 := by
  intro ss
  induction ss with
  | nil => intro base e h; cases h
  | cons x ss ih =>
    intro base e h
    rcases List.mem_cons.1 h with rfl | h
    · rfl
    · exact ih e h

/-- The index of each section of the file. -/
def sectMap (n : Nat) : List (Option Nat) := none :: ((List.range' 0 n).map some ++ List.replicate (n + 3) none)

theorem sectMap_get {n i : Nat} (h : i < n) : (sectMap n)[i + 1]? = some (some i) := by
  rw [sectMap, List.getElem?_cons_succ, List.getElem?_append_left (by simpa using h), List.getElem?_map,
    List.getElem?_range' (by omega)]
  simp

theorem objSects_sized (junk : Nat → Byte) (o : Obj) : (objSects junk o).map sized =
    [sized { hdr := { name := 0, type := 0 } }] ++ ((progs [0] o.sections).map sized ++ (sized (symSect junk o) ::
    ((relaSects junk (symMap o) (o.sections.length + 1) (sh2 o) o.sections 0).map sized ++
      [sized { hdr := { name := BitVec.ofNat 32 (sh3 o).length, type := 3 }, data := tab [0] (o.symbols.map symName) },
       sized { hdr := { name := BitVec.ofNat 32 (sh3 o ++ str ".strtab" ++ [0]).length, type := 3 }, data := sh5 o }]))) := by
  simp [objSects]

theorem progbits_ok {junk : Nat → Byte} {o : Obj} (h : Writable o) :
    progbits (sh5 o) ((objSects junk o).map sized) [] [] =
      .ok (o.sections.map readSection, sectMap o.sections.length) := by
  rw [objSects_sized, progbits_skip (by intro e he; simp only [List.mem_singleton] at he; subst he; simp [sized])]
  have hsh : ∃ post, sh5 o = tab [0] (o.sections.map secName) ++ post := by
    obtain ⟨p, hp⟩ := tab_pre (o.sections.map relaName) (sh2 o)
    exact ⟨str ".symtab" ++ [0] ++ p ++ (str ".strtab" ++ [0] ++ str ".shstrtab" ++ [0]), by
      rw [sh5, sh3, hp, sh2, sh1]; simp⟩
  obtain ⟨post, hp⟩ := hsh
  rw [progbits_progs (post := post) (fun s hs => by
    obtain ⟨n, h1, h2, _⟩ := h.sectName s hs
    exact ⟨n, h1, h2⟩) (by simp) (by
      have h1 := (sh1_length h).2
      have h2 := h.nsect
      have h3 : sh1 o = tab [0] (o.sections.map secName) := rfl
      rw [← h3]; omega) hp]
  have := progbits_skip (sh := sh5 o) (es := sized (symSect junk o) ::
    ((relaSects junk (symMap o) (o.sections.length + 1) (sh2 o) o.sections 0).map sized ++
      [sized { hdr := { name := BitVec.ofNat 32 (sh3 o).length, type := 3 }, data := tab [0] (o.symbols.map symName) },
       sized { hdr := { name := BitVec.ofNat 32 (sh3 o ++ str ".strtab" ++ [0]).length, type := 3 }, data := sh5 o }]))
    (rest := []) (ss := [] ++ o.sections.map readSection)
    (m := [] ++ List.replicate 1 none ++ (List.range' 0 o.sections.length).map some) (by
      intro e he
      rcases List.mem_cons.1 he with rfl | he
      · simp [sized, symSect]
      · rcases List.mem_append.1 he with he | he
        · rw [relaSects_type e he]; decide
        · simp only [List.mem_cons, List.not_mem_nil, or_false] at he
          rcases he with rfl | rfl <;> simp [sized])
  rw [List.append_nil] at this
  refine Eq.trans this ?_
  simp [progbits, sectMap, relaSects_length]

theorem findStrings_skip {all : List ESect} : ∀ {es rest : List ESect} {found : Option (List Byte)},
    (∀ e ∈ es, e.hdr.type ≠ 2) → findStrings all (es ++ rest) found = findStrings all rest found := by
  intro es
  induction es with
  | nil => intro rest found _; rfl
  | cons e es ih =>
    intro rest found h
    rw [List.cons_append, findStrings.eq_def]
    dsimp only
    rw [if_pos (h e (by simp)), ih (fun x hx => h x (by simp [hx]))]

theorem findStrings_ok {junk : Nat → Byte} {o : Obj} (h : Writable o) :
    findStrings ((objSects junk o).map sized) ((objSects junk o).map sized) none =
      .ok (some (tab [0] (o.symbols.map symName))) := by
  have hget : ((objSects junk o).map sized)[2 * o.sections.length + 2]? =
      some (sized { hdr := { name := BitVec.ofNat 32 (sh3 o).length, type := 3 }, data := tab [0] (o.symbols.map symName) }) := by
    rw [objSects_sized, List.getElem?_append_right (by simp), List.getElem?_append_right (by simp [progs_length]; omega)]
    simp only [List.length_map, List.length_singleton, progs_length]
    rw [show 2 * o.sections.length + 2 - 1 - o.sections.length = o.sections.length + 1 by omega, List.getElem?_cons_succ,
      List.getElem?_append_right (by simp [relaSects_length])]
    simp [relaSects_length]
  generalize hall : (objSects junk o).map sized = all at hget
  have hall' := hall
  rw [objSects_sized] at hall
  conv => lhs; arg 2; rw [← hall]
  rw [findStrings_skip (by intro e he; simp only [List.mem_singleton] at he; subst he; simp [sized]),
    findStrings_skip (by intro e he; rw [progs_type e he]; decide), findStrings.eq_def]
  dsimp only
  have e1 : (sized (symSect junk o)).hdr.type = 2 := rfl
  have e2 : (sized (symSect junk o)).hdr.link.toNat = 2 * o.sections.length + 2 := by
    show (BitVec.ofNat 32 (2 * o.sections.length + 2)).toNat = _
    have := h.nsect
    rw [BitVec.toNat_ofNat, Nat.mod_eq_of_lt (by omega)]
  rw [if_neg (by rw [e1]; simp), e2, hget]
  dsimp only
  rw [if_pos (by simp [sized]), findStrings_skip (by intro e he; rw [relaSects_type e he]; decide)]
  rw [findStrings.eq_def]
  dsimp only
  rw [if_pos (by simp [sized]), findStrings.eq_def]
  dsimp only
  rw [if_pos (by simp [sized]), findStrings.eq_def]
  rfl

/-! ### Reading the symbols -/

theorem at_entry {d : List Byte} {p : Nat} {name : BitVec 32} {info : BitVec 8} {shndx : BitVec 16} {value size : BitVec 64}
    (h : At d p (entry name info shndx value size)) :
    read32 d p = .ok name ∧ read8 d (p + 4) = .ok info ∧ read8 d (p + 5) = .ok 0 ∧ read16 d (p + 6) = .ok shndx ∧
    read64 d (p + 8) = .ok value ∧ read64 d (p + 16) = .ok size := by
  unfold entry at h
  obtain ⟨h, h6⟩ := at_split h
  obtain ⟨h, h5⟩ := at_split h
  obtain ⟨h, h4⟩ := at_split h
  obtain ⟨h, h3⟩ := at_split h
  obtain ⟨h1, h2⟩ := at_split h
  simp only [List.length_append, leBytes_length] at h2 h3 h4 h5 h6
  exact ⟨at_32 h1, at_byte h2, at_byte (v := 0) h3, at_16 h4, at_64 h5, at_64 h6⟩

theorem readSymbols_skip {strings : List Byte} {mp : List (Option Nat)} {d : List Byte} : ∀ {k k' j : Nat} {ys : List Symbol}
    {ms : List (Option Nat)}, (∀ i, i < k → ∃ a b c, At d (24 * (j + i)) (entry 0 3 a b c)) →
    readSymbols strings mp d 24 (k + k') j ys ms = readSymbols strings mp d 24 k' (j + k) ys (ms ++ List.replicate k none) := by
  intro k
  induction k with
  | zero => intro k' j ys ms _; simp
  | succ k ih =>
    intro k' j ys ms h
    obtain ⟨a, b, c, h0⟩ := h 0 (by omega)
    rw [Nat.add_zero, Nat.mul_comm] at h0
    obtain ⟨r1, r2, r3, r4, r5, r6⟩ := at_entry h0
    rw [show k + 1 + k' = (k + k') + 1 by omega, readSymbols, r1, Res.bind_ok, r2, Res.bind_ok, r3, Res.bind_ok, r4, Res.bind_ok,
      r5, Res.bind_ok, r6, Res.bind_ok, if_pos (by decide), ih]
    · rw [show j + 1 + k = j + (k + 1) by omega]
      simp [List.replicate_succ]
    · intro i hi
      have := h (i + 1) (by omega)
      rwa [show j + (i + 1) = j + 1 + i by omega] at this

theorem readSymbols_ok {strings : List Byte} {mp : List (Option Nat)} {d : List Byte} : ∀ {P : List Symbol} {j : Nat} {ys : List Symbol}
    {ms : List (Option Nat)}, (∀ (i : Nat) y, P[i]? = some y → ∃ off n, At d (24 * (j + i)) (symEntry off y) ∧
      0 < off ∧ off < 2 ^ 32 ∧ y.name = some n ∧ cstrAt strings off = .ok n ∧ mp[(shndx y).toNat]? = some y.sect) →
    readSymbols strings mp d 24 P.length j ys ms = .ok (ys ++ P, ms ++ (List.range' ys.length P.length).map some) := by
  intro P
  induction P with
  | nil => intro j ys ms _; simp [readSymbols]
  | cons y P ih =>
    intro j ys ms h
    obtain ⟨off, n, h0, hp, hlt, hn, hc, hm⟩ := h 0 y rfl
    rw [Nat.add_zero, Nat.mul_comm] at h0
    obtain ⟨r1, r2, r3, r4, r5, r6⟩ := at_entry h0
    have e4 : (BitVec.ofNat 32 off).toNat = off := by
      rw [BitVec.toNat_ofNat, Nat.mod_eq_of_lt hlt]
    have e5 : BitVec.ofNat 32 off ≠ 0 := by
      intro e
      have := congrArg BitVec.toNat e
      have hz : (0 : BitVec 32).toNat = 0 := rfl
      rw [e4, hz] at this
      omega
    rw [List.length_cons, readSymbols, r1, Res.bind_ok, r2, Res.bind_ok, r3, Res.bind_ok, r4, Res.bind_ok,
      r5, Res.bind_ok, r6, Res.bind_ok, if_neg (by cases y.global <;> decide), if_neg e5, e4, hc, Res.bind_ok, Res.bind_ok, hm]
    dsimp only
    rw [ih (by
      intro i x hx
      have := h (i + 1) x hx
      rwa [show j + (i + 1) = j + 1 + i by omega] at this)]
    have hy : ({ name := some n, value := y.value, size := y.size,
                 global := decide ((if y.global then (16 : BitVec 8) else 0) &&& 16 ≠ 0), sect := y.sect } : Symbol) = y := by
      cases y with
      | mk name value size global sect =>
        simp only at hn
        subst hn
        cases global <;> simp
    rw [hy]
    simp [List.range'_succ]

/-- The index of each entry of the symbol table. -/
def entMap (o : Obj) : List (Option Nat) :=
  none :: (List.replicate o.sections.length none ++ (List.range' 0 o.symbols.length).map some)

theorem entMap_get {o : Obj} {k : Nat} (h : k < o.symbols.length) :
    (entMap o)[1 + o.sections.length + k]? = some (some k) := by
  rw [entMap, show 1 + o.sections.length + k = (o.sections.length + k) + 1 by omega, List.getElem?_cons_succ,
    List.getElem?_append_right (by simp)]
  simp [h]

theorem symtabs_skip {st : List Byte} {mp : List (Option Nat)} : ∀ {es rest : List ESect} {ys : List Symbol}
    {m : Option (List (Option Nat))}, (∀ e ∈ es, e.hdr.type ≠ 2) → symtabs st mp (es ++ rest) ys m = symtabs st mp rest ys m := by
  intro es
  induction es with
  | nil => intro rest ys m _; rfl
  | cons e es ih =>
    intro rest ys m h
    rw [List.cons_append, symtabs, if_pos (h e (by simp)), ih (fun x hx => h x (by simp [hx]))]

theorem symtabs_ok {junk : Nat → Byte} {o : Obj} (h : Writable o) :
    symtabs (tab [0] (o.symbols.map symName)) (sectMap o.sections.length) ((objSects junk o).map sized) [] none =
      .ok (sorted o.symbols, some (entMap o)) := by
  rw [objSects_sized, symtabs_skip (by intro e he; simp only [List.mem_singleton] at he; subst he; simp [sized]),
    symtabs_skip (by intro e he; rw [progs_type e he]; decide), symtabs]
  obtain ⟨t1, t2, t3⟩ := table_spec junk o
  have e1 : (sized (symSect junk o)).hdr.type = 2 := rfl
  have e2 : (sized (symSect junk o)).hdr.entsize = 24 := rfl
  have e3 : (sized (symSect junk o)).hdr.size.toNat = 24 * (o.sections.length + o.symbols.length + 1) := by
    show (BitVec.ofNat 64 (table junk o).length).toNat = _
    have := h.nsym
    rw [t1, BitVec.toNat_ofNat, Nat.mod_eq_of_lt (by omega)]
  have e4 : (sized (symSect junk o)).data = table junk o := rfl
  have e5 : (24 : BitVec 64).toNat = 24 := rfl
  rw [if_neg (by rw [e1]; simp), e2, if_neg (by decide), e3, e5, e4, Nat.mul_div_cancel_left _ (by omega)]
  dsimp only
  rw [Nat.add_sub_cancel]
  rw [readSymbols_skip (by
    intro i hi
    have := t2 i _ (List.getElem?_eq_getElem hi)
    rw [Nat.add_comm i 1] at this
    exact ⟨_, _, _, this⟩)]
  have hlt := h.strings
  rw [show o.symbols.length = (sorted o.symbols).length from (sorted_length _).symm, readSymbols_ok (by
    intro k y hk
    obtain ⟨i, hi, hr⟩ := sorted_inv hk
    obtain ⟨n, hn, h0⟩ := h.symName y (List.mem_of_getElem? hi)
    have hat := t3 i y hi
    rw [hr] at hat
    have hsn : symName y = n := by simp [symName, hn]
    refine ⟨_, n, hat, ?_, ?_, hn, ?_, ?_⟩
    · rw [tab_length, List.length_singleton]; omega
    · have hle : (tab [0] ((o.symbols.take i).map symName)).length ≤ (tab [0] (o.symbols.map symName)).length := by
        have e := tab_append ((o.symbols.take i).map symName) ((o.symbols.drop i).map symName) [0]
        rw [← List.map_append, List.take_append_drop] at e
        obtain ⟨p, hp⟩ := tab_pre ((o.symbols.drop i).map symName) (tab [0] ((o.symbols.take i).map symName))
        rw [e, hp]
        simp
      have h7 : (tab [0] (o.symbols.map symName)).length = 1 + (o.symbols.map fun y => (y.name.getD []).length + 1).sum := by
        rw [tab_length, List.map_map]; rfl
      omega
    · have := tab_cstr (ns := o.symbols.map symName) (base := [0]) (i := i) (n := n) (by rw [List.getElem?_map, hi]; simp [hsn]) h0 []
      rwa [List.append_nil, ← List.map_take] at this
    · cases hs : y.sect with
      | none => simp [shndx, hs, sectMap]
      | some s =>
        have hss := h.symSect y (List.mem_of_getElem? hi) s hs
        have hnn := h.nsect
        simp only [shndx, hs]
        rw [BitVec.toNat_ofNat, Nat.mod_eq_of_lt (by omega), Nat.add_comm 1 s]
        exact sectMap_get hss), Res.bind_ok]
  dsimp only
  have := symtabs_skip (st := tab [0] (o.symbols.map symName)) (mp := sectMap o.sections.length)
    (es := (relaSects junk (symMap o) (o.sections.length + 1) (sh2 o) o.sections 0).map sized ++
      [sized { hdr := { name := BitVec.ofNat 32 (sh3 o).length, type := 3 }, data := tab [0] (o.symbols.map symName) },
       sized { hdr := { name := BitVec.ofNat 32 (sh3 o ++ str ".strtab" ++ [0]).length, type := 3 }, data := sh5 o }])
    (rest := []) (ys := [] ++ sorted o.symbols) (m := some ([none] ++ List.replicate o.sections.length none ++
      (List.range' ([] : List Symbol).length (sorted o.symbols).length).map some)) (by
      intro e he
      rcases List.mem_append.1 he with he | he
      · rw [relaSects_type e he]; decide
      · simp only [List.mem_cons, List.not_mem_nil, or_false] at he
        rcases he with rfl | rfl <;> simp [sized])
  rw [List.append_nil] at this
  refine Eq.trans this ?_
  simp [symtabs, entMap, sorted_length]

/-! ### Reading the relocations -/

theorem info_ok {sym : Nat} (t : RelType) (h : sym < 2 ^ 32) :
    relType ((BitVec.ofNat 64 sym <<< 32) + elfType t) = .ok t ∧
    ((((BitVec.ofNat 64 sym <<< 32) + elfType t) >>> 32) &&& 0xffff).toNat = sym % 65536 := by
  have hs : ((BitVec.ofNat 64 sym <<< 32) + elfType t).toNat = sym * 2 ^ 32 + (elfType t).toNat := by
    rw [BitVec.toNat_add, BitVec.toNat_shiftLeft, BitVec.toNat_ofNat, Nat.shiftLeft_eq]
    have : (elfType t).toNat < 12 := by cases t <;> decide
    omega
  have hm : ∀ x : BitVec 64, (x &&& 0xffff).toNat = x.toNat % 65536 := by
    intro x
    rw [BitVec.toNat_and]
    exact Nat.and_two_pow_sub_one_eq_mod x.toNat 16
  have ht : (elfType t).toNat < 12 := by cases t <;> decide
  constructor
  · have he : ((BitVec.ofNat 64 sym <<< 32) + elfType t) &&& 0xffff = elfType t := by
      apply BitVec.eq_of_toNat_eq
      rw [hm, hs]
      omega
    unfold relType
    rw [he]
    cases t <;> rfl
  · rw [hm, BitVec.toNat_ushiftRight, hs, Nat.shiftRight_eq_div_pow]
    omega

theorem readRelas_ok {ms : List (Option Nat)} {d : List Byte} {sym : Nat → Nat} {σ : Nat → Nat} : ∀ {rs : List Relocation} {j : Nat}
    {acc : List Relocation}, (∀ (i : Nat) r, rs[i]? = some r → At d (24 * (j + i)) (relEntry (sym r.idx) r) ∧
      sym r.idx < 2 ^ 32 ∧ ms[sym r.idx % 65536]? = some (some (σ r.idx))) →
    readRelas (some ms) d 24 rs.length j acc = .ok (acc ++ rs.map fun r => { r with idx := σ r.idx }) := by
  intro rs
  induction rs with
  | nil => intro j acc _; simp [readRelas]
  | cons r rs ih =>
    intro j acc h
    obtain ⟨h0, hlt, hm⟩ := h 0 r rfl
    rw [Nat.add_zero] at h0
    unfold relEntry at h0
    obtain ⟨h0, h3⟩ := at_split h0
    obtain ⟨h1, h2⟩ := at_split h0
    simp only [List.length_append, leBytes_length] at h2 h3
    obtain ⟨i1, i2⟩ := info_ok r.type hlt
    rw [List.length_cons, readRelas, at_64 h1, Res.bind_ok, at_64 h2, Res.bind_ok, at_64 h3, Res.bind_ok, i1, Res.bind_ok]
    dsimp only
    rw [i2, hm]
    dsimp only
    rw [ih (by
      intro i x hx
      have := h (i + 1) x hx
      rwa [show j + (i + 1) = j + 1 + i by omega] at this)]
    simp

theorem relas_skip {mp : List (Option Nat)} {m : Option (List (Option Nat))} : ∀ {es rest : List ESect} {ss : List Section},
    (∀ e ∈ es, e.hdr.type ≠ 4) → relas mp m (es ++ rest) ss = relas mp m rest ss := by
  intro es
  induction es with
  | nil => intro rest ss _; rfl
  | cons e es ih =>
    intro rest ss h
    rw [List.cons_append, relas, if_pos (h e (by simp)), ih (fun x hx => h x (by simp [hx]))]

/-- What is read of a section with its relocations. -/
def readWhole (σ : Nat → Nat) (s : Section) : Section :=
  { s with alignment := 0, relocs := s.relocs.map fun r => { r with idx := σ r.idx } }

/-- The relocations are read as ones for the symbols `σ`. -/
def Reads (o : Obj) (σ : Nat → Nat) : Prop := ∀ s ∈ o.sections, ∀ r ∈ s.relocs,
  (entMap o)[(1 + o.sections.length + rank o.symbols r.idx) % 65536]? = some (some (σ r.idx))

theorem reads_rank {o : Obj} (h : Writable o) (hi : o.sections.length + o.symbols.length + 1 ≤ 2 ^ 16) : Reads o (rank o.symbols) := by
  intro s hs r hr
  have hri := h.relSym s hs r hr
  have hr : rank o.symbols r.idx < o.symbols.length := by
    have := sorted_rank (List.getElem?_eq_getElem hri)
    have := (List.getElem?_eq_some_iff.1 this).1
    rwa [sorted_length] at this
  rw [Nat.mod_eq_of_lt (by omega)]
  exact entMap_get hr

theorem relas_rela {junk : Nat → Byte} {o : Obj} (h : Writable o) {σ : Nat → Nat} (hσ : Reads o σ) : ∀ {l : List Section} {base : List Byte} {done : List Section} {rest : List ESect},
    done ++ l = o.sections →
    relas (sectMap o.sections.length) (some (entMap o))
      ((relaSects junk (symMap o) (o.sections.length + 1) base l done.length).map sized ++ rest)
      (done.map (readWhole (σ)) ++ l.map readSection) =
    relas (sectMap o.sections.length) (some (entMap o)) rest (o.sections.map (readWhole (σ))) := by
  intro l
  induction l with
  | nil =>
    intro base done rest hd
    rw [List.append_nil] at hd
    subst hd
    simp [relaSects]
  | cons s l ih =>
    intro base done rest hd
    have hlen : done.length < o.sections.length := by rw [← hd]; simp
    have hmem : s ∈ o.sections := by rw [← hd]; simp
    rw [relaSects, List.map_cons, List.cons_append, relas]
    obtain ⟨d1, d2⟩ := relData_spec junk (symMap o) s.relocs
    have hsm := h.small
    have hns := h.nsect
    have e1 : (sized (rela junk (symMap o) (o.sections.length + 1) base.length done.length s)).hdr.type = 4 := rfl
    have e2 : (sized (rela junk (symMap o) (o.sections.length + 1) base.length done.length s)).hdr.info.toNat = done.length + 1 := by
      show (BitVec.ofNat 32 (done.length + 1)).toNat = _
      rw [BitVec.toNat_ofNat, Nat.mod_eq_of_lt (by omega)]
    have e3 : (sized (rela junk (symMap o) (o.sections.length + 1) base.length done.length s)).hdr.entsize = 24 := rfl
    have e4 : (sized (rela junk (symMap o) (o.sections.length + 1) base.length done.length s)).hdr.size.toNat = 24 * s.relocs.length := by
      show (BitVec.ofNat 64 (relData junk (symMap o) s.relocs).length).toNat = _
      have : s.data.length + 24 * s.relocs.length ≤ (o.sections.map fun s => s.data.length + 24 * s.relocs.length).sum := by
        rw [← hd]; simp; omega
      rw [d1, BitVec.toNat_ofNat, Nat.mod_eq_of_lt (by omega)]
    have e5 : (sized (rela junk (symMap o) (o.sections.length + 1) base.length done.length s)).data = relData junk (symMap o) s.relocs := rfl
    have e6 : (24 : BitVec 64).toNat = 24 := rfl
    rw [if_neg (by rw [e1]; simp), e2, sectMap_get hlen]
    dsimp only
    have hg : (done.map (readWhole (σ)) ++ (s :: l).map readSection)[done.length]? = some (readSection s) := by
      rw [List.getElem?_append_right (by simp)]
      simp
    rw [hg]
    dsimp only
    rw [e3, if_neg (by decide), e4, e5, e6, Nat.mul_div_cancel_left _ (by omega)]
    have hrd := readRelas_ok (ms := entMap o) (d := relData junk (symMap o) s.relocs) (sym := fun i => (symMap o)[i]?.getD 0)
      (σ := σ) (rs := s.relocs) (j := 0) (acc := (readSection s).relocs) (by
        intro i r hi
        have hri := h.relSym s hmem r (List.mem_of_getElem? hi)
        have hk := rank_idx (a := 1 + o.sections.length) (List.getElem?_eq_getElem hri)
        rw [show 1 + o.sections.length + o.symbols.countP (fun z => !z.global) =
          1 + o.symbols.countP (fun y => !y.global) + o.sections.length by omega] at hk
        have hk : (symMap o)[r.idx]? = some (1 + o.sections.length + rank o.symbols r.idx) := hk
        have hr : rank o.symbols r.idx < o.symbols.length := by
          have := sorted_rank (List.getElem?_eq_getElem hri)
          have := (List.getElem?_eq_some_iff.1 this).1
          rwa [sorted_length] at this
        have hnsym := h.nsym
        rw [Nat.zero_add]
        refine ⟨d2 i r hi, ?_, ?_⟩
        · rw [hk, Option.getD_some]; omega
        · rw [hk, Option.getD_some]; exact hσ s hmem r (List.mem_of_getElem? hi))
    rw [hrd, Res.bind_ok]
    have hset : ((done.map (readWhole (σ)) ++ (s :: l).map readSection).set done.length
        { readSection s with relocs := (readSection s).relocs ++ s.relocs.map fun r => { r with idx := σ r.idx } }) =
        (done ++ [s]).map (readWhole (σ)) ++ l.map readSection := by
      rw [List.set_append_right _ _ (by simp)]
      simp [readSection, readWhole]
    rw [hset]
    have := ih (base := base ++ (str ".rela" ++ secName s) ++ [0]) (done := done ++ [s]) (rest := rest) (by rw [← hd]; simp)
    rwa [List.length_append, List.length_singleton] at this

theorem relas_ok {junk : Nat → Byte} {o : Obj} (h : Writable o) {σ : Nat → Nat} (hσ : Reads o σ) :
    relas (sectMap o.sections.length) (some (entMap o)) ((objSects junk o).map sized) (o.sections.map readSection) =
      .ok (o.sections.map (readWhole (σ))) := by
  rw [objSects_sized, relas_skip (by intro e he; simp only [List.mem_singleton] at he; subst he; simp [sized]),
    relas_skip (by intro e he; rw [progs_type e he]; decide), relas]
  have e1 : (sized (symSect junk o)).hdr.type = 2 := rfl
  rw [if_pos (by rw [e1]; decide)]
  have := relas_rela (junk := junk) h hσ (l := o.sections) (base := sh2 o) (done := [])
    (rest := [sized { hdr := { name := BitVec.ofNat 32 (sh3 o).length, type := 3 }, data := tab [0] (o.symbols.map symName) },
       sized { hdr := { name := BitVec.ofNat 32 (sh3 o ++ str ".strtab" ++ [0]).length, type := 3 }, data := sh5 o }]) rfl
  refine Eq.trans this ?_
  rw [relas, if_pos (by simp [sized]), relas, if_pos (by simp [sized]), relas]

/-- What is read of an object. -/
def readBack (o : Obj) (σ : Nat → Nat) : Obj :=
  { sections := o.sections.map (readWhole (σ)), symbols := sorted o.symbols }

theorem round_trip {junk : Nat → Byte} {o : Obj} (h : Writable o) {σ : Nat → Nat} (hσ : Reads o σ) :
    ∃ file offs, writeObject junk o = .ok file ∧ Layout (objFile junk o) file offs ∧ readObject file = .ok (some (readBack o σ)) := by
  have hf := objFile_fits (junk := junk) h
  obtain ⟨g, file, offs, h1, h2, h3, _, _⟩ := write_ok hf
  refine ⟨file, offs, by rw [writeObject, elfFromObject_ok h, h1, Res.bind_ok, h2], h3, ?_⟩
  have hns := h.nsect
  have hidx : (objFile junk o).hdr.shstrndx.toNat = 2 * o.sections.length + 3 := by
    show (BitVec.ofNat 16 (2 * o.sections.length + 3)).toNat = _
    rw [BitVec.toNat_ofNat, Nat.mod_eq_of_lt (by omega)]
  have hne : (objFile junk o).hdr.shstrndx ≠ 0 := by
    intro e
    rw [e] at hidx
    simp at hidx
  have ht : (objFile junk o).sections[(objFile junk o).hdr.shstrndx.toNat]? =
      some { hdr := { name := BitVec.ofNat 32 (sh3 o ++ str ".strtab" ++ [0]).length, type := 3 }, data := sh5 o } := by
    rw [hidx]
    show (objSects junk o)[_]? = _
    rw [objSects, List.getElem?_cons_succ, List.getElem?_append_right (by simp [progs_length]; omega)]
    rw [progs_length, show 2 * o.sections.length + 2 - o.sections.length = (o.sections.length + 1) + 1 by omega, List.getElem?_cons_succ,
      List.getElem?_append_right (by simp [relaSects_length])]
    simp [relaSects_length]
  refine readObject_ok hf h3 (by simp [objFile, objSects]) rfl ht hne rfl (findStrings_ok h) ?_
  unfold objectFromElf
  dsimp only
  have e : (objFile junk o).sections = objSects junk o := rfl
  rw [e, progbits_ok h, Res.bind_ok]
  dsimp only
  rw [Option.getD_some, symtabs_ok h, Res.bind_ok]
  dsimp only
  rw [relas_ok h hσ, Res.bind_ok]
  rfl

theorem readBack_same (o : Obj) : Same o (readBack o (rank o.symbols)) (rank o.symbols) where
  sections := rfl
  count := sorted_length _
  symbols := fun _ _ h => sorted_rank h
  inj := fun _ _ hi hj h => rank_inj hi hj h

/-! ### The file as the format describes it -/

theorem isSym_of {d : List Byte} {k : Nat} {name : BitVec 32} {info : BitVec 8} {shndx : BitVec 16} {value size : BitVec 64}
    (h : At d (24 * k) (entry name info shndx value size)) :
    IsSym d k name.toNat info.toNat shndx.toNat value.toNat size.toNat := by
  unfold entry at h
  obtain ⟨h, h6⟩ := at_split h
  obtain ⟨h, h5⟩ := at_split h
  obtain ⟨h, h4⟩ := at_split h
  obtain ⟨h, h3⟩ := at_split h
  obtain ⟨h1, h2⟩ := at_split h
  simp only [List.length_append, leBytes_length] at h2 h3 h4 h5 h6
  exact ⟨⟨name.isLt, h1⟩, ⟨info.isLt, h2⟩, ⟨by decide, h3⟩, ⟨shndx.isLt, h4⟩, ⟨value.isLt, h5⟩, ⟨size.isLt, h6⟩⟩

theorem tab_at {ns : List Name} {base : List Byte} {i : Nat} {n : Name} (h : ns[i]? = some n) (post : List Byte) :
    StrAt (tab base ns ++ post) (tab base (ns.take i)).length n := by
  have e : ns = ns.take i ++ n :: ns.drop (i + 1) := by
    obtain ⟨hi, hn⟩ := List.getElem?_eq_some_iff.1 h
    rw [← hn, ← List.drop_eq_getElem_cons hi, List.take_append_drop]
  have e2 : tab base ns = tab base (ns.take i) ++ (n ++ [0]) ++ ((tab (tab base (ns.take i) ++ n ++ [0]) (ns.drop (i + 1))).drop
      (tab base (ns.take i) ++ n ++ [0]).length) := by
    conv => lhs; rw [e, tab_append, tab]
    obtain ⟨p, hp⟩ := tab_pre (ns.drop (i + 1)) (tab base (ns.take i) ++ n ++ [0])
    rw [hp]
    simp
  unfold StrAt
  rw [e2]
  exact at_ext (at_mid _ _ _) post

theorem table_null (junk : Nat → Byte) (o : Obj) : At (table junk o) 0 (List.replicate 24 0) := by
  have hd : ((List.range ((o.sections.length + o.symbols.length + 1) * 24)).map junk).length =
      24 * (o.sections.length + o.symbols.length + 1) := by simp [Nat.mul_comm]
  have hlen := (table_spec junk o).1
  refine ⟨by rw [hlen]; simp; omega, ?_⟩
  intro k hk
  have hk : k < 24 := by simpa using hk
  rw [Nat.zero_add]
  unfold table tableRows
  show (applyWrites (rows _) (patch _ (24 * 0) _))[k]? = _
  have hidx : ∀ e ∈ sectRows o.sections 0 ++ symRows [0] o.symbols (1 + o.sections.length)
      (1 + o.symbols.countP (fun y => !y.global) + o.sections.length),
      e.2.length = 24 ∧ 0 < e.1 ∧ e.1 < o.sections.length + o.symbols.length + 1 := by
    intro e he
    rcases List.mem_append.1 he with he | he
    · have h1 : e.1 ∈ (sectRows o.sections 0).map Prod.fst := List.mem_map.2 ⟨e, he, rfl⟩
      rw [sectRows_fst] at h1
      have := List.mem_range'_1.1 h1
      exact ⟨sectRows_length e he, by omega, by omega⟩
    · have h1 : e.1 ∈ symMap o := by
        rw [symMap, ← symRows_fst _ [0]]; exact List.mem_map.2 ⟨e, he, rfl⟩
      have := symMap_lt h1
      exact ⟨symRows_length e he, by omega, by omega⟩
  have hpl : (patch ((List.range ((o.sections.length + o.symbols.length + 1) * 24)).map junk) (24 * 0) (List.replicate 24 0)).length =
      24 * (o.sections.length + o.symbols.length + 1) := by
    rw [patch_length _ _ _ (by rw [hd]; simp; omega), hd]
  refine Eq.trans (applyWrites_out _ ?_ ?_) ?_
  · intro w hw
    obtain ⟨e, he, rfl⟩ := List.mem_map.1 hw
    have := hidx e he
    rw [hpl]
    dsimp only
    omega
  · intro w hw
    obtain ⟨e, he, rfl⟩ := List.mem_map.1 hw
    have := hidx e he
    dsimp only
    omega
  · have := patch_get_in ((List.range ((o.sections.length + o.symbols.length + 1) * 24)).map junk) (24 * 0) (List.replicate 24 0) k
      (by rw [hd]; simp; omega) (by simpa using hk)
    rwa [Nat.mul_zero, Nat.zero_add] at this

theorem objFile_isObject {junk : Nat → Byte} {o : Obj} (h : Writable o) :
    IsObject o (objFile junk o) (fun i => 1 + o.sections.length + rank o.symbols i) where
  type := rfl
  segments := rfl
  count := objSects_length junk o
  null := ⟨_, rfl, rfl, rfl⟩
  progs := by
    intro i s hi
    have hget : (objFile junk o).sections[i + 1]? = some (prog (tab [0] ((o.sections.take i).map secName)).length s) := by
      show (objSects junk o)[i + 1]? = _
      rw [objSects, List.getElem?_cons_succ, List.getElem?_append_left (by
        rw [progs_length]; exact (List.getElem?_eq_some_iff.1 hi).1)]
      exact progs_get hi
    refine ⟨_, hget, rfl, rfl, rfl, ?_⟩
    have hat := tab_at (ns := o.sections.map secName) (base := [0]) (i := i) (n := secName s) (by rw [List.getElem?_map, hi]; rfl)
    have hsh : ∃ post, sh5 o = tab [0] (o.sections.map secName) ++ post := by
      obtain ⟨p, hp⟩ := tab_pre (o.sections.map relaName) (sh2 o)
      exact ⟨str ".symtab" ++ [0] ++ p ++ (str ".strtab" ++ [0] ++ str ".shstrtab" ++ [0]), by
        rw [sh5, sh3, hp, sh2, sh1]; simp⟩
    obtain ⟨post, hp⟩ := hsh
    have hat := hat post
    rw [← hp] at hat
    have hlt : (tab [0] ((o.sections.take i).map secName)).length < 2 ^ 32 := by
      rw [← List.map_take] at hat
      have h1 := hat.1
      have h2 := sh5_length h
      have h3 := h.nsect
      rw [List.length_append] at h1
      omega
    show StrAt (sh5 o) (BitVec.ofNat 32 _).toNat _
    rw [BitVec.toNat_ofNat, Nat.mod_eq_of_lt hlt, List.map_take]
    exact hat
  table := by
    obtain ⟨t1, t2, t3⟩ := table_spec junk o
    have hnn := h.nsect
    have hget : (objFile junk o).sections[o.sections.length + 1]? = some (symSect junk o) := by
      show (objSects junk o)[o.sections.length + 1]? = _
      rw [objSects, List.getElem?_cons_succ, List.getElem?_append_right (by rw [progs_length]; omega), progs_length, Nat.sub_self]
      rfl
    have hinfo : (symSect junk o).hdr.info.toNat = 1 + o.symbols.countP (fun y => !y.global) + o.sections.length := by
      show (BitVec.ofNat 32 _).toNat = _
      have := h.nsym
      have := counts o.symbols
      rw [BitVec.toNat_ofNat, Nat.mod_eq_of_lt (by omega)]
    refine ⟨_, hget, rfl, rfl, ?_, t1, ?_, ?_, ?_, by rw [hinfo]; omega⟩
    · show (BitVec.ofNat 32 (2 * o.sections.length + 2)).toNat = _
      rw [BitVec.toNat_ofNat, Nat.mod_eq_of_lt (by omega)]
    · have := table_null junk o
      have e : List.replicate 24 (0 : Byte) = entry 0 0 0 0 0 := by decide
      rw [e] at this
      exact isSym_of (k := 0) this
    · intro i s hi
      have := isSym_of (t2 i s hi)
      have hil := (List.getElem?_eq_some_iff.1 hi).1
      have hsz : s.data.length < 2 ^ 64 := by
        have hc := contents_obj (junk := junk) h
        have hg : (objSects junk o)[i + 1]? = some (prog (tab [0] ((o.sections.take i).map secName)).length s) := by
          rw [objSects, List.getElem?_cons_succ, List.getElem?_append_left (by
            rw [progs_length]; exact hil)]
          exact progs_get hi
        have h4 := contents_take hg
        have hd : (prog (tab [0] ((o.sections.take i).map secName)).length s).data = s.data := rfl
        rw [hd] at h4
        omega
      rw [BitVec.toNat_ofNat, BitVec.toNat_ofNat, Nat.mod_eq_of_lt (by omega), Nat.mod_eq_of_lt hsz] at this
      exact this
    · intro i y hi
      constructor
      · refine ⟨(tab [0] ((o.symbols.take i).map symName)).length, ?_, ?_⟩
        · have hat := tab_at (ns := o.symbols.map symName) (base := [0]) (i := i) (n := symName y) (by rw [List.getElem?_map, hi]; rfl) []
          rw [List.append_nil, ← List.map_take] at hat
          exact hat
        · have hs := isSym_of (t3 i y hi)
          have hlt : (tab [0] ((o.symbols.take i).map symName)).length < 2 ^ 32 := by
            have hat := (tab_at (ns := o.symbols.map symName) (base := [0]) (i := i) (n := symName y) (by rw [List.getElem?_map, hi]; rfl) []).1
            rw [List.append_nil, ← List.map_take, List.length_append] at hat
            have h7 : (tab [0] (o.symbols.map symName)).length = 1 + (o.symbols.map fun y => (y.name.getD []).length + 1).sum := by
              rw [tab_length, List.map_map]; rfl
            have := h.strings
            omega
          rw [BitVec.toNat_ofNat, Nat.mod_eq_of_lt hlt] at hs
          have e1 : (if y.global then (16 : BitVec 8) else 0).toNat = if y.global then 16 else 0 := by cases y.global <;> rfl
          have e2 : (shndx y).toNat = (match y.sect with | none => 0 | some s => s + 1) := by
            cases hss : y.sect with
            | none => simp [shndx, hss]
            | some s =>
              have := h.symSect y (List.mem_of_getElem? hi) s hss
              simp only [shndx, hss]
              rw [BitVec.toNat_ofNat, Nat.mod_eq_of_lt (by omega), Nat.add_comm]
          rw [e1, e2] at hs
          exact hs
      · rw [hinfo]
        unfold rank
        rw [hi]
        dsimp only
        cases hg : y.global with
        | true => simp; omega
        | false =>
          have := filter_get (p := fun z : Symbol => !z.global) hi (by simp [hg])
          have := (List.getElem?_eq_some_iff.1 this).1
          rw [← List.countP_eq_length_filter] at this
          simp
          omega
  range := by
    intro i hi
    have := sorted_rank (List.getElem?_eq_getElem hi)
    have := (List.getElem?_eq_some_iff.1 this).1
    rw [sorted_length] at this
    omega
  inj := by
    intro i j hi hj e
    exact rank_inj hi hj (by omega)
  relas := by
    intro i s hi
    have hnn := h.nsect
    have hil := (List.getElem?_eq_some_iff.1 hi).1
    obtain ⟨off, hoff⟩ := relaSects_get (junk := junk) (mapping := symMap o) (symIdx := o.sections.length + 1) (base := sh2 o)
      (j := 0) hi
    rw [Nat.zero_add] at hoff
    have hget : (objFile junk o).sections[o.sections.length + 2 + i]? =
        some (rela junk (symMap o) (o.sections.length + 1) off i s) := by
      show (objSects junk o)[_]? = _
      rw [show o.sections.length + 2 + i = (o.sections.length + (i + 1)) + 1 by omega, objSects, List.getElem?_cons_succ,
        List.getElem?_append_right (by rw [progs_length]; omega), progs_length, Nat.add_sub_cancel_left, List.getElem?_cons_succ,
        List.getElem?_append_left (by rw [relaSects_length]; exact hil)]
      exact hoff
    obtain ⟨d1, d2⟩ := relData_spec junk (symMap o) s.relocs
    refine ⟨_, hget, rfl, rfl, ?_, ?_, d1, ?_⟩
    · show (BitVec.ofNat 32 (o.sections.length + 1)).toNat = _
      rw [BitVec.toNat_ofNat, Nat.mod_eq_of_lt (by omega)]
    · show (BitVec.ofNat 32 (i + 1)).toNat = _
      rw [BitVec.toNat_ofNat, Nat.mod_eq_of_lt (by omega)]
    · intro j r hj
      have hri := h.relSym s (List.mem_of_getElem? hi) r (List.mem_of_getElem? hj)
      have hk := rank_idx (a := 1 + o.sections.length) (List.getElem?_eq_getElem hri)
      rw [show 1 + o.sections.length + o.symbols.countP (fun z => !z.global) =
        1 + o.symbols.countP (fun y => !y.global) + o.sections.length by omega] at hk
      have hk : (symMap o)[r.idx]? = some (1 + o.sections.length + rank o.symbols r.idx) := hk
      have hr : rank o.symbols r.idx < o.symbols.length := by
        have := sorted_rank (List.getElem?_eq_getElem hri)
        have := (List.getElem?_eq_some_iff.1 this).1
        rwa [sorted_length] at this
      have hnsym := h.nsym
      have h0 := d2 j r hj
      rw [hk, Option.getD_some] at h0
      unfold relEntry at h0
      obtain ⟨h0, h3⟩ := at_split h0
      obtain ⟨h1, h2⟩ := at_split h0
      simp only [List.length_append, leBytes_length] at h2 h3
      have hi : (BitVec.ofNat 64 (1 + o.sections.length + rank o.symbols r.idx) <<< 32 + elfType r.type).toNat =
          (1 + o.sections.length + rank o.symbols r.idx) * 2 ^ 32 + relNumber r.type := by
        rw [BitVec.toNat_add, BitVec.toNat_shiftLeft, BitVec.toNat_ofNat, Nat.shiftLeft_eq]
        have : (elfType r.type).toNat = relNumber r.type := by cases r.type <;> rfl
        have : relNumber r.type < 12 := by cases r.type <;> decide
        omega
      refine ⟨⟨BitVec.isLt _, h1⟩, ⟨?_, ?_⟩, ⟨BitVec.isLt _, h3⟩⟩
      · rw [← hi]; exact BitVec.isLt _
      · rw [← hi]; exact h2
  strtab := by
    refine ⟨{ hdr := { name := BitVec.ofNat 32 (sh3 o).length, type := 3 }, data := tab [0] (o.symbols.map symName) }, ?_, rfl, rfl⟩
    show (objSects junk o)[_]? = _
    rw [objSects, List.getElem?_cons_succ, List.getElem?_append_right (by rw [progs_length]; omega)]
    rw [progs_length, show 2 * o.sections.length + 1 - o.sections.length = o.sections.length + 1 by omega, List.getElem?_cons_succ,
      List.getElem?_append_right (by simp [relaSects_length])]
    simp [relaSects_length]
  shstrtab := by
    have hns := h.nsect
    have hidx : (objFile junk o).hdr.shstrndx.toNat = 2 * o.sections.length + 3 := by
      show (BitVec.ofNat 16 (2 * o.sections.length + 3)).toNat = _
      rw [BitVec.toNat_ofNat, Nat.mod_eq_of_lt (by omega)]
    refine ⟨{ hdr := { name := BitVec.ofNat 32 (sh3 o ++ str ".strtab" ++ [0]).length, type := 3 }, data := sh5 o }, ?_, rfl, rfl⟩
    rw [hidx]
    show (objSects junk o)[_]? = _
    rw [objSects, List.getElem?_cons_succ, List.getElem?_append_right (by rw [progs_length]; omega)]
    rw [progs_length, show 2 * o.sections.length + 2 - o.sections.length = (o.sections.length + 1) + 1 by omega, List.getElem?_cons_succ,
      List.getElem?_append_right (by simp [relaSects_length])]
    simp [relaSects_length]

end Verif.Elf
