import Verif.ElfLemmas
import Verif.LinkerLemmas
/-!
Lemmas about ELF files: the tables that `elf_from_object` builds.
-/
namespace Verif.Elf
open Verif Verif.Object Verif.Bytes Verif.ElfSpec Verif.Linker

/-! ### String tables -/

/-- A string table after strings have been added. -/
def tab (base : List Byte) : List Name → List Byte
  | [] => base
  | n :: ns => tab (base ++ n ++ [0]) ns

theorem tab_pre : ∀ (ns : List Name) (base : List Byte), ∃ post, tab base ns = base ++ post := by
  intro ns
  induction ns with
  | nil => intro base; exact ⟨[], by simp [tab]⟩
  | cons n ns ih =>
    intro base
    obtain ⟨post, h⟩ := ih (base ++ n ++ [0])
    exact ⟨n ++ [0] ++ post, by rw [tab, h]; simp⟩

theorem tab_length : ∀ (ns : List Name) (base : List Byte),
    (tab base ns).length = base.length + (ns.map fun n => n.length + 1).sum := by
  intro ns
  induction ns with
  | nil => intro base; simp [tab]
  | cons n ns ih => intro base; rw [tab, ih]; simp; omega

theorem cstrAt_here {n post : List Byte} (h : 0 ∉ n) : cstrAt (n ++ 0 :: post) 0 = .ok n := by
  induction n with
  | nil => simp [cstrAt]
  | cons b n ih =>
    have hb : b ≠ 0 := fun e => h (by simp [e])
    rw [List.cons_append, cstrAt, if_neg hb, ih (fun hm => h (List.mem_cons_of_mem _ hm))]
    rfl

theorem cstrAt_pre (pre : List Byte) {n post : List Byte} (h : 0 ∉ n) :
    cstrAt (pre ++ (n ++ 0 :: post)) pre.length = .ok n := by
  induction pre with
  | nil => exact cstrAt_here h
  | cons b pre ih => rw [List.cons_append, List.length_cons, cstrAt]; exact ih

theorem tab_cstr : ∀ {ns : List Name} {base : List Byte} {i : Nat} {n : Name}, ns[i]? = some n → 0 ∉ n →
    ∀ post, cstrAt (tab base ns ++ post) (tab base (ns.take i)).length = .ok n := by
  intro ns
  induction ns with
  | nil => intro base i n h; cases h
  | cons x ns ih =>
    intro base i n hi h0 post
    cases i with
    | zero =>
      simp only [List.getElem?_cons_zero, Option.some.injEq] at hi
      subst hi
      obtain ⟨p, hp⟩ := tab_pre ns (base ++ x ++ [0])
      rw [tab, hp, List.take_zero, tab]
      have := cstrAt_pre base (post := p ++ post) h0
      simpa using this
    | succ i =>
      rw [List.take_succ_cons, tab, tab]
      exact ih hi h0 post

theorem tab_append : ∀ (ns ms : List Name) (base : List Byte), tab base (ns ++ ms) = tab (tab base ns) ms := by
  intro ns
  induction ns with
  | nil => intro ms base; rfl
  | cons n ns ih => intro ms base; rw [List.cons_append, tab, tab, ih]

/-! ### Sections -/

/-- The name of a section. -/
def secName (s : Section) : Name := s.name.getD []

/-- The name of a symbol. -/
def symName (y : Symbol) : Name := y.name.getD []

/-- The ELF section of a section, whose name is at an offset. -/
def prog (off : Nat) (s : Section) : ESect :=
  { hdr := { name := BitVec.ofNat 32 off, type := 1, flags := 2 ||| 4, addralign := BitVec.ofNat 64 s.alignment }
    data := s.data }

/-- The ELF sections of sections. -/
def progs (base : List Byte) : List Section → List ESect
  | [] => []
  | s :: ss => prog base.length s :: progs (base ++ secName s ++ [0]) ss

theorem addSections_ok : ∀ {ss : List Section} {f : File}, (∀ s ∈ ss, s.name ≠ none) →
    addSections ss f = .ok { f with shstrings := tab f.shstrings (ss.map secName)
                                    sections := f.sections ++ progs f.shstrings ss } := by
  intro ss
  induction ss with
  | nil => intro f _; simp [addSections, tab, progs]
  | cons s ss ih =>
    intro f h
    obtain ⟨n, hn⟩ := Option.ne_none_iff_exists'.1 (h s (by simp))
    rw [addSections, hn]
    dsimp only
    rw [ih (fun t ht => h t (by simp [ht]))]
    have e : secName s = n := by simp [secName, hn]
    simp [registerShstring, tab, progs, prog, e]

theorem progs_length : ∀ (ss : List Section) (base : List Byte), (progs base ss).length = ss.length := by
  intro ss
  induction ss with
  | nil => intro base; rfl
  | cons s ss ih => intro base; simp [progs, ih]

theorem progs_get : ∀ {ss : List Section} {base : List Byte} {i : Nat} {s : Section}, ss[i]? = some s →
    (progs base ss)[i]? = some (prog (tab base ((ss.take i).map secName)).length s) := by
  intro ss
  induction ss with
  | nil => intro base i s h; cases h
  | cons x ss ih =>
    intro base i s h
    cases i with
    | zero =>
      simp only [List.getElem?_cons_zero, Option.some.injEq] at h
      subst h
      simp [progs, tab]
    | succ i =>
      have h : ss[i]? = some s := h
      rw [progs, List.take_succ_cons, List.map_cons, tab]
      exact ih h

/-! ### The symbol table -/

/-- The bytes of an entry. -/
def entry (name : BitVec 32) (info : BitVec 8) (shndx : BitVec 16) (value size : BitVec 64) : List Byte :=
  leBytes 4 name.toNat ++ leBytes 1 info.toNat ++ leBytes 1 0 ++ leBytes 2 shndx.toNat ++ leBytes 8 value.toNat ++
    leBytes 8 size.toNat

theorem entry_length (name : BitVec 32) (info : BitVec 8) (shndx : BitVec 16) (value size : BitVec 64) :
    (entry name info shndx value size).length = 24 := by simp [entry]

theorem patch_snoc {m : List Byte} {off off' : Nat} {as bs : List Byte} (e : off' = off + as.length)
    (h : off + as.length + bs.length ≤ m.length) : patch (patch m off as) off' bs = patch m off (as ++ bs) := by
  subst e
  exact patch_patch m off as bs h

theorem writeSymbol_ok {data : List Byte} {p : Nat} {name : BitVec 32} {info : BitVec 8} {shndx : BitVec 16}
    {value size : BitVec 64} (h : p + 24 ≤ data.length) :
    writeSymbol data p name info shndx value size = .ok (patch data p (entry name info shndx value size)) := by
  have t32 : (name.setWidth 64).toNat = name.toNat := by
    rw [BitVec.toNat_setWidth]; have := name.isLt; omega
  have t8 : (info.setWidth 64).toNat = info.toNat := by
    rw [BitVec.toNat_setWidth]; have := info.isLt; omega
  have t16 : (shndx.setWidth 64).toNat = shndx.toNat := by
    rw [BitVec.toNat_setWidth]; have := shndx.isLt; omega
  unfold writeSymbol
  have L : ∀ q bs, q + bs.length ≤ data.length → (patch data q bs).length = data.length := fun q bs hq =>
    patch_length data q bs hq
  rw [write32_eq _ _ _ (by omega), Res.bind_ok, t32]
  rw [write8_eq _ _ _ (by rw [L _ _ (by simp; omega)]; omega), Res.bind_ok, t8,
    patch_snoc (by simp) (by simp; omega)]
  rw [write8_eq _ _ _ (by rw [L _ _ (by simp; omega)]; omega), Res.bind_ok, patch_snoc (by simp) (by simp; omega)]
  rw [write16_eq _ _ _ (by rw [L _ _ (by simp; omega)]; omega), Res.bind_ok, t16,
    patch_snoc (by simp) (by simp; omega)]
  rw [write64_eq _ _ _ (by rw [L _ _ (by simp; omega)]; omega), Res.bind_ok, patch_snoc (by simp) (by simp; omega)]
  rw [write64_eq _ _ _ (by rw [L _ _ (by simp; omega)]; omega), patch_snoc (by simp) (by simp; omega)]
  rfl

/-- The writes of a table: entries of 24 bytes at indices. -/
def rows (es : List (Nat × List Byte)) : List (Nat × List Byte) := es.map fun e => (24 * e.1, e.2)

theorem rows_at {es : List (Nat × List Byte)} {d : List Byte} (hl : ∀ e ∈ es, e.2.length = 24 ∧ 24 * e.1 + 24 ≤ d.length)
    (hn : (es.map Prod.fst).Nodup) :
    (applyWrites (rows es) d).length = d.length ∧ ∀ e ∈ es, At (applyWrites (rows es) d) (24 * e.1) e.2 := by
  have hw : ∀ w ∈ rows es, w.1 + w.2.length ≤ d.length := by
    intro w hw
    obtain ⟨e, he, rfl⟩ := List.mem_map.1 hw
    have := hl e he
    dsimp only
    omega
  have hlen := applyWrites_length (rows es) hw
  refine ⟨hlen, ?_⟩
  intro e he
  have hmem : (24 * e.1, e.2) ∈ rows es := List.mem_map.2 ⟨e, he, rfl⟩
  refine ⟨by rw [hlen]; exact hw _ hmem, ?_⟩
  intro k hk
  have hp : (rows es).Pairwise Apart := by
    have hall : ∀ e ∈ es, e.2.length = 24 := fun e he => (hl e he).1
    clear hw hlen hmem hl
    induction es with
    | nil => exact List.Pairwise.nil
    | cons a es ih =>
      have hn' := List.nodup_cons.1 hn
      refine List.pairwise_cons.2 ⟨?_, ?_⟩
      · intro w hw
        obtain ⟨b, hb, rfl⟩ := List.mem_map.1 hw
        have h1 := hall a (by simp)
        have h2 := hall b (by simp [hb])
        have hne : a.1 ≠ b.1 := fun e => hn'.1 (by rw [e]; exact List.mem_map.2 ⟨b, hb, rfl⟩)
        unfold Apart
        dsimp only
        omega
      · exact List.pairwise_map.2 (by
          have hn2 : (es.map Prod.fst).Nodup := hn'.2
          have hall2 : ∀ e ∈ es, e.2.length = 24 := fun e he => hall e (by simp [he])
          clear ih hn hn' hall he
          induction es with
          | nil => exact List.Pairwise.nil
          | cons c es ih =>
            have hc := List.nodup_cons.1 hn2
            refine List.pairwise_cons.2 ⟨?_, ih hc.2 (fun e he => hall2 e (by simp [he]))⟩
            intro b hb
            have h1 := hall2 c (by simp)
            have h2 := hall2 b (by simp [hb])
            have hne : c.1 ≠ b.1 := fun e => hc.1 (by rw [e]; exact List.mem_map.2 ⟨b, hb, rfl⟩)
            unfold Apart
            dsimp only
            omega)
  exact applyWrites_in (rows es) hw hp hmem hk

/-- The entries of the sections. -/
def sectRows : List Section → Nat → List (Nat × List Byte)
  | [], _ => []
  | s :: ss, i => (i + 1, entry 0 3 (BitVec.ofNat 16 (i + 1)) 0 (BitVec.ofNat 64 s.data.length)) :: sectRows ss (i + 1)

theorem sectionSymbols_ok : ∀ {ss : List Section} {i : Nat} {data : List Byte},
    24 * (i + ss.length + 1) ≤ data.length →
    sectionSymbols ss i data = .ok (applyWrites (rows (sectRows ss i)) data) := by
  intro ss
  induction ss with
  | nil => intro i data _; rfl
  | cons s ss ih =>
    intro i data h
    rw [List.length_cons] at h
    rw [sectionSymbols, writeSymbol_ok (by omega), Res.bind_ok, ih]
    · rfl
    · rw [patch_length _ _ _ (by rw [entry_length]; omega)]
      omega

/-- The section index of a symbol. -/
def shndx (y : Symbol) : BitVec 16 :=
  match y.sect with
  | none => 0
  | some s => BitVec.ofNat 16 (1 + s)

/-- The entry of a symbol whose name is at an offset. -/
def symEntry (off : Nat) (y : Symbol) : List Byte :=
  entry (BitVec.ofNat 32 off) (if y.global then 16 else 0) (shndx y) y.value y.size

/-- The indices of the symbols. -/
def idxs : List Symbol → Nat → Nat → List Nat
  | [], _, _ => []
  | y :: ys, loc, glob =>
    (if y.global then glob else loc) ::
      idxs ys (if y.global then loc else loc + 1) (if y.global then glob + 1 else glob)

/-- The entries of the symbols. -/
def symRows (base : List Byte) : List Symbol → Nat → Nat → List (Nat × List Byte)
  | [], _, _ => []
  | y :: ys, loc, glob =>
    (if y.global then glob else loc, symEntry base.length y) ::
      symRows (base ++ symName y ++ [0]) ys (if y.global then loc else loc + 1) (if y.global then glob + 1 else glob)

theorem symRows_fst : ∀ (ys : List Symbol) (base : List Byte) (l g : Nat), (symRows base ys l g).map Prod.fst = idxs ys l g := by
  intro ys
  induction ys with
  | nil => intro base l g; rfl
  | cons y ys ih => intro base l g; simp [symRows, idxs, ih]

theorem symRows_length : ∀ {ys : List Symbol} {base : List Byte} {l g : Nat}, ∀ e ∈ symRows base ys l g, e.2.length = 24 := by
  intro ys
  induction ys with
  | nil => intro base l g e h; cases h
  | cons y ys ih =>
    intro base l g e h
    rcases List.mem_cons.1 h with rfl | h
    · exact entry_length _ _ _ _ _
    · exact ih e h

theorem addSymbols_ok : ∀ {ys : List Symbol} {st : SymState}, (∀ y ∈ ys, y.name ≠ none) →
    (∀ i ∈ idxs ys st.loc st.glob, 24 * i + 24 ≤ st.data.length) →
    ∃ l g, addSymbols ys st = .ok
      { file := { st.file with strings := tab st.file.strings (ys.map symName) }
        data := applyWrites (rows (symRows st.file.strings ys st.loc st.glob)) st.data
        loc := l, glob := g, mapping := st.mapping ++ idxs ys st.loc st.glob } := by
  intro ys
  induction ys with
  | nil => intro st _ _; exact ⟨st.loc, st.glob, by simp [addSymbols, tab, symRows, rows, applyWrites, idxs]⟩
  | cons y ys ih =>
    intro st hn hb
    obtain ⟨n, hnn⟩ := Option.ne_none_iff_exists'.1 (hn y (by simp))
    have e : symName y = n := by simp [symName, hnn]
    rw [addSymbols, hnn]
    dsimp only
    have hb0 : 24 * (if y.global then st.glob else st.loc) + 24 ≤ st.data.length := hb _ (by simp [idxs])
    rw [writeSymbol_ok hb0, Res.bind_ok]
    obtain ⟨l, g, h⟩ := ih (st := { file := (registerString st.file n).1
                                    data := patch st.data (24 * (if y.global then st.glob else st.loc))
                                      (symEntry st.file.strings.length y)
                                    loc := if y.global then st.loc else st.loc + 1
                                    glob := if y.global then st.glob + 1 else st.glob
                                    mapping := st.mapping ++ [if y.global then st.glob else st.loc] })
      (fun z hz => hn z (by simp [hz])) (by
        intro i hi
        rw [patch_length _ _ _ (by rw [symEntry, entry_length]; exact hb0)]
        exact hb i (by rw [idxs]; exact List.mem_cons_of_mem _ hi))
    refine ⟨l, g, Eq.trans h ?_⟩
    simp [registerString, tab, symRows, rows, applyWrites, idxs, e]

theorem idxs_get : ∀ {ys : List Symbol} {l g i : Nat} {y : Symbol}, ys[i]? = some y →
    (idxs ys l g)[i]? = some (if y.global then g + (ys.take i).countP (fun z => z.global)
      else l + (ys.take i).countP (fun z => !z.global)) := by
  intro ys
  induction ys with
  | nil => intro l g i y h; cases h
  | cons x ys ih =>
    intro l g i y h
    cases i with
    | zero =>
      simp only [List.getElem?_cons_zero, Option.some.injEq] at h
      subst h
      simp [idxs]
    | succ i =>
      have h : ys[i]? = some y := h
      rw [idxs, List.getElem?_cons_succ, ih h, List.take_succ_cons, List.countP_cons, List.countP_cons]
      cases x.global <;> cases y.global <;> simp <;> omega

theorem idxs_length : ∀ (ys : List Symbol) (l g : Nat), (idxs ys l g).length = ys.length := by
  intro ys
  induction ys with
  | nil => intro l g; rfl
  | cons y ys ih => intro l g; simp [idxs, ih]

theorem symRows_get : ∀ {ys : List Symbol} {base : List Byte} {l g i : Nat} {y : Symbol}, ys[i]? = some y →
    ∃ k, (idxs ys l g)[i]? = some k ∧ (k, symEntry (tab base ((ys.take i).map symName)).length y) ∈ symRows base ys l g := by
  intro ys
  induction ys with
  | nil => intro base l g i y h; cases h
  | cons x ys ih =>
    intro base l g i y h
    cases i with
    | zero =>
      simp only [List.getElem?_cons_zero, Option.some.injEq] at h
      subst h
      exact ⟨_, rfl, by simp [symRows, tab]⟩
    | succ i =>
      have h : ys[i]? = some y := h
      obtain ⟨k, h1, h2⟩ := ih (base := base ++ symName x ++ [0]) (l := if x.global then l else l + 1)
        (g := if x.global then g + 1 else g) h
      exact ⟨k, h1, by rw [symRows, List.take_succ_cons, List.map_cons, tab]; exact List.mem_cons_of_mem _ h2⟩

theorem idxs_range : ∀ {ys : List Symbol} {l g k : Nat}, k ∈ idxs ys l g →
    (l ≤ k ∧ k < l + ys.countP (fun z => !z.global)) ∨ (g ≤ k ∧ k < g + ys.countP (fun z => z.global)) := by
  intro ys
  induction ys with
  | nil => intro l g k h; cases h
  | cons y ys ih =>
    intro l g k h
    rw [List.countP_cons, List.countP_cons]
    rw [idxs] at h
    cases hg : y.global with
    | true =>
      simp only [hg, if_true] at h
      rcases List.mem_cons.1 h with rfl | h
      · right; simp
      · rcases ih h with h | h
        · left; simp; omega
        · right; simp; omega
    | false =>
      simp only [hg, Bool.false_eq_true, if_false] at h
      rcases List.mem_cons.1 h with rfl | h
      · left; simp
      · rcases ih h with h | h
        · left; simp; omega
        · right; simp; omega

theorem idxs_nodup : ∀ {ys : List Symbol} {l g : Nat}, l + ys.countP (fun z => !z.global) ≤ g → (idxs ys l g).Nodup := by
  intro ys
  induction ys with
  | nil => intro l g _; exact List.Pairwise.nil
  | cons y ys ih =>
    intro l g h
    rw [List.countP_cons] at h
    rw [idxs]
    cases hg : y.global with
    | true =>
      simp only [hg, Bool.not_true, Bool.false_eq_true, if_false] at h
      simp only [if_true]
      refine List.nodup_cons.2 ⟨?_, ih (by omega)⟩
      intro hm
      have := idxs_range hm
      omega
    | false =>
      simp only [hg, Bool.not_false, if_true] at h
      simp only [Bool.false_eq_true, if_false]
      refine List.nodup_cons.2 ⟨?_, ih (by omega)⟩
      intro hm
      have := idxs_range hm
      omega

/-! ### Filters -/

theorem filter_get {α : Type} {p : α → Bool} : ∀ {ys : List α} {i : Nat} {y : α}, ys[i]? = some y → p y = true →
    (ys.filter p)[(ys.take i).countP p]? = some y := by
  intro ys
  induction ys with
  | nil => intro i y h; cases h
  | cons x ys ih =>
    intro i y h hp
    cases i with
    | zero =>
      simp only [List.getElem?_cons_zero, Option.some.injEq] at h
      subst h
      simp [List.filter_cons, hp]
    | succ i =>
      have h : ys[i]? = some y := h
      have := ih h hp
      rw [List.take_succ_cons, List.countP_cons, List.filter_cons]
      cases hx : p x with
      | true => simpa using this
      | false => simpa using this

theorem filter_inv {α : Type} {p : α → Bool} : ∀ {ys : List α} {k : Nat} {y : α}, (ys.filter p)[k]? = some y →
    ∃ i, ys[i]? = some y ∧ p y = true ∧ (ys.take i).countP p = k := by
  intro ys
  induction ys with
  | nil => intro k y h; cases h
  | cons x ys ih =>
    intro k y h
    rw [List.filter_cons] at h
    cases hx : p x with
    | true =>
      rw [hx] at h
      simp only [if_true] at h
      cases k with
      | zero =>
        simp only [List.getElem?_cons_zero, Option.some.injEq] at h
        subst h
        exact ⟨0, rfl, hx, by simp⟩
      | succ k =>
        obtain ⟨i, h1, h2, h3⟩ := ih (show (ys.filter p)[k]? = some y from h)
        exact ⟨i + 1, h1, h2, by rw [List.take_succ_cons, List.countP_cons, h3, hx]; rfl⟩
    | false =>
      rw [hx] at h
      simp only [Bool.false_eq_true, if_false] at h
      obtain ⟨i, h1, h2, h3⟩ := ih h
      exact ⟨i + 1, h1, h2, by rw [List.take_succ_cons, List.countP_cons, h3, hx]; rfl⟩

/-- The symbols in the order of the table. -/
def sorted (ys : List Symbol) : List Symbol := ys.filter (fun z => !z.global) ++ ys.filter (fun z => z.global)

/-- Where a symbol goes. -/
def rank (ys : List Symbol) (i : Nat) : Nat :=
  match ys[i]? with
  | none => 0
  | some y => if y.global then ys.countP (fun z => !z.global) + (ys.take i).countP (fun z => z.global)
    else (ys.take i).countP (fun z => !z.global)

theorem rank_idx {ys : List Symbol} {i a : Nat} {y : Symbol} (h : ys[i]? = some y) :
    (idxs ys a (a + ys.countP (fun z => !z.global)))[i]? = some (a + rank ys i) := by
  rw [idxs_get h, rank, h]
  dsimp only
  cases y.global <;> simp; omega

theorem sorted_rank {ys : List Symbol} {i : Nat} {y : Symbol} (h : ys[i]? = some y) :
    (sorted ys)[rank ys i]? = some y := by
  unfold rank sorted
  rw [h]
  dsimp only
  cases hg : y.global with
  | true =>
    rw [if_pos rfl, List.getElem?_append_right (by rw [← List.countP_eq_length_filter]; omega),
      ← List.countP_eq_length_filter, Nat.add_sub_cancel_left]
    exact filter_get h hg
  | false =>
    have := filter_get (p := fun z : Symbol => !z.global) h (by simp [hg])
    rw [if_neg (by simp), List.getElem?_append_left]
    · exact this
    · exact (List.getElem?_eq_some_iff.1 this).1

theorem sorted_inv {ys : List Symbol} {k : Nat} {y : Symbol} (h : (sorted ys)[k]? = some y) :
    ∃ i, ys[i]? = some y ∧ rank ys i = k := by
  unfold sorted at h
  by_cases hk : k < (ys.filter (fun z => !z.global)).length
  · rw [List.getElem?_append_left hk] at h
    obtain ⟨i, h1, h2, h3⟩ := filter_inv h
    refine ⟨i, h1, ?_⟩
    unfold rank
    rw [h1]
    dsimp only
    rw [if_neg (by simpa using h2)]
    exact h3
  · rw [List.getElem?_append_right (by omega)] at h
    obtain ⟨i, h1, h2, h3⟩ := filter_inv h
    refine ⟨i, h1, ?_⟩
    unfold rank
    rw [h1]
    dsimp only
    rw [if_pos h2, h3, List.countP_eq_length_filter]
    omega

theorem sorted_length (ys : List Symbol) : (sorted ys).length = ys.length := by
  unfold sorted
  rw [List.length_append, ← List.countP_eq_length_filter, ← List.countP_eq_length_filter]
  induction ys with
  | nil => rfl
  | cons y ys ih =>
    rw [List.countP_cons, List.countP_cons, List.length_cons]
    cases y.global <;> simp <;> omega

theorem rank_inj {ys : List Symbol} {i j : Nat} (hi : i < ys.length) (hj : j < ys.length)
    (h : rank ys i = rank ys j) : i = j := by
  have h1 := rank_idx (a := 0) (List.getElem?_eq_getElem hi)
  have h2 := rank_idx (a := 0) (List.getElem?_eq_getElem hj)
  rw [h] at h1
  have hn := idxs_nodup (ys := ys) (l := 0) (g := 0 + ys.countP (fun z => !z.global)) (Nat.le_refl _)
  obtain ⟨q1, e1⟩ := List.getElem?_eq_some_iff.1 h1
  obtain ⟨q2, e2⟩ := List.getElem?_eq_some_iff.1 h2
  by_cases hij : i = j
  · exact hij
  · rcases Nat.lt_or_gt_of_ne hij with hlt | hlt
    · exact absurd (e1.trans e2.symm) (List.pairwise_iff_getElem.1 hn _ _ q1 q2 hlt)
    · exact absurd (e2.trans e1.symm) (List.pairwise_iff_getElem.1 hn _ _ q2 q1 hlt)

/-! ### Relocations -/

/-- The bytes of a relocation for the symbol of an index. -/
def relEntry (sym : Nat) (r : Relocation) : List Byte :=
  leBytes 8 r.offset.toNat ++ leBytes 8 ((BitVec.ofNat 64 sym <<< 32) + elfType r.type).toNat ++ leBytes 8 r.add.toNat

/-- The entries of relocations. -/
def relRows (mapping : List Nat) : List Relocation → Nat → List (Nat × List Byte)
  | [], _ => []
  | r :: rs, j => (j, relEntry (mapping[r.idx]?.getD 0) r) :: relRows mapping rs (j + 1)

theorem addRelas_ok {mapping : List Nat} : ∀ {rs : List Relocation} {j : Nat} {data : List Byte},
    (∀ r ∈ rs, r.idx < mapping.length) → 24 * (j + rs.length) ≤ data.length →
    addRelas mapping rs j data = .ok (applyWrites (rows (relRows mapping rs j)) data) := by
  intro rs
  induction rs with
  | nil => intro j data _ _; rfl
  | cons r rs ih =>
    intro j data hm h
    rw [List.length_cons] at h
    have hr := List.getElem?_eq_getElem (hm r (by simp))
    rw [addRelas, hr]
    dsimp only
    have L : ∀ q bs, q + bs.length ≤ data.length → (patch data q bs).length = data.length := fun q bs hq =>
      patch_length data q bs hq
    rw [write64_eq _ _ _ (by omega), Res.bind_ok]
    rw [write64_eq _ _ _ (by rw [L _ _ (by simp; omega)]; omega), Res.bind_ok, patch_snoc (by simp) (by simp; omega)]
    rw [write64_eq _ _ _ (by rw [L _ _ (by simp; omega)]; omega), Res.bind_ok, patch_snoc (by simp) (by simp; omega)]
    rw [ih (fun q hq => hm q (by simp [hq])) (by rw [L _ _ (by simp; omega)]; omega)]
    simp only [relRows, rows, List.map_cons, applyWrites, List.foldl_cons, hr, relEntry, Option.getD_some]

theorem relRows_fst (mapping : List Nat) : ∀ (rs : List Relocation) (j : Nat),
    (relRows mapping rs j).map Prod.fst = List.range' j rs.length := by
  intro rs
  induction rs with
  | nil => intro j; rfl
  | cons r rs ih => intro j; simp [relRows, ih, List.range'_succ]

theorem relRows_length {mapping : List Nat} : ∀ {rs : List Relocation} {j : Nat}, ∀ e ∈ relRows mapping rs j,
    e.2.length = 24 ∧ e.1 < j + rs.length := by
  intro rs
  induction rs with
  | nil => intro j e h; cases h
  | cons r rs ih =>
    intro j e h
    rcases List.mem_cons.1 h with rfl | h
    · simp [relEntry]
    · have := ih e h
      rw [List.length_cons]
      omega

theorem relRows_get {mapping : List Nat} : ∀ {rs : List Relocation} {j i : Nat} {r : Relocation}, rs[i]? = some r →
    (j + i, relEntry (mapping[r.idx]?.getD 0) r) ∈ relRows mapping rs j := by
  intro rs
  induction rs with
  | nil => intro j i r h; cases h
  | cons x rs ih =>
    intro j i r h
    cases i with
    | zero =>
      simp only [List.getElem?_cons_zero, Option.some.injEq] at h
      subst h
      simp [relRows]
    | succ i =>
      have := ih (j := j + 1) (show rs[i]? = some r from h)
      rw [relRows]
      refine List.mem_cons_of_mem _ ?_
      rwa [show j + (i + 1) = j + 1 + i by omega]

/-- The data of a relocation section. -/
def relData (junk : Nat → Byte) (mapping : List Nat) (rs : List Relocation) : List Byte :=
  applyWrites (rows (relRows mapping rs 0)) ((List.range (24 * rs.length)).map junk)

theorem relData_spec (junk : Nat → Byte) (mapping : List Nat) (rs : List Relocation) :
    (relData junk mapping rs).length = 24 * rs.length ∧
    ∀ (i : Nat) r, rs[i]? = some r → At (relData junk mapping rs) (24 * i) (relEntry (mapping[r.idx]?.getD 0) r) := by
  have := rows_at (es := relRows mapping rs 0) (d := (List.range (24 * rs.length)).map junk) (by
    intro e he
    have := relRows_length e he
    refine ⟨this.1, ?_⟩
    rw [List.length_map, List.length_range]
    omega) (by rw [relRows_fst]; exact List.nodup_range')
  rw [List.length_map, List.length_range] at this
  refine ⟨this.1, ?_⟩
  intro i r hi
  have := this.2 _ (relRows_get (j := 0) hi)
  rwa [Nat.zero_add] at this

/-- The relocation section of a section. -/
def rela (junk : Nat → Byte) (mapping : List Nat) (symIdx off i : Nat) (s : Section) : ESect :=
  { hdr := { name := BitVec.ofNat 32 off, type := 4, flags := 64, link := BitVec.ofNat 32 symIdx,
             info := BitVec.ofNat 32 (i + 1), entsize := 24 }
    data := relData junk mapping s.relocs }

/-- The relocation sections. -/
def relaSects (junk : Nat → Byte) (mapping : List Nat) (symIdx : Nat) (base : List Byte) : List Section → Nat → List ESect
  | [], _ => []
  | s :: ss, i => rela junk mapping symIdx base.length i s ::
      relaSects junk mapping symIdx (base ++ (str ".rela" ++ secName s) ++ [0]) ss (i + 1)

/-- The name of a relocation section. -/
def relaName (s : Section) : Name := str ".rela" ++ secName s

theorem addRelaSections_ok {junk : Nat → Byte} {mapping : List Nat} {symIdx : Nat} : ∀ {ss : List Section} {i : Nat} {f : File},
    (∀ s ∈ ss, ∃ n, s.name = some n ∧ n.length + 5 < 256) → (∀ s ∈ ss, ∀ r ∈ s.relocs, r.idx < mapping.length) →
    addRelaSections junk mapping symIdx ss i f = .ok { f with
      shstrings := tab f.shstrings (ss.map relaName)
      sections := f.sections ++ relaSects junk mapping symIdx f.shstrings ss i } := by
  intro ss
  induction ss with
  | nil => intro i f _ _; simp [addRelaSections, tab, relaSects]
  | cons s ss ih =>
    intro i f h hm
    obtain ⟨n, hn, hl⟩ := h s (by simp)
    have e : secName s = n := by simp [secName, hn]
    rw [addRelaSections, hn]
    dsimp only
    rw [if_neg (by omega), addRelas_ok (hm s (by simp)) (by simp), Res.bind_ok,
      ih (fun t ht => h t (by simp [ht])) (fun t ht => hm t (by simp [ht]))]
    simp [registerShstring, tab, relaSects, rela, relaName, relData, e]

theorem relaSects_get {junk : Nat → Byte} {mapping : List Nat} {symIdx : Nat} : ∀ {ss : List Section} {base : List Byte}
    {j i : Nat} {s : Section}, ss[i]? = some s →
    ∃ off, (relaSects junk mapping symIdx base ss j)[i]? = some (rela junk mapping symIdx off (j + i) s) := by
  intro ss
  induction ss with
  | nil => intro base j i s h; cases h
  | cons x ss ih =>
    intro base j i s h
    cases i with
    | zero =>
      simp only [List.getElem?_cons_zero, Option.some.injEq] at h
      subst h
      exact ⟨_, rfl⟩
    | succ i =>
      have h : ss[i]? = some s := h
      obtain ⟨off, g⟩ := ih (j := j + 1) h
      exact ⟨off, by rw [show j + (i + 1) = j + 1 + i by omega]; exact g⟩

theorem relaSects_length {junk : Nat → Byte} {mapping : List Nat} {symIdx : Nat} : ∀ (ss : List Section) (base : List Byte)
    (j : Nat), (relaSects junk mapping symIdx base ss j).length = ss.length := by
  intro ss
  induction ss with
  | nil => intro base j; rfl
  | cons x ss ih => intro base j; simp [relaSects, ih]

end Verif.Elf
