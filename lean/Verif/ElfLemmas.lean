import Verif.ElfSpec
import Verif.BytesProps
/-!
Lemmas about ELF files: the layout.
-/
namespace Verif.Elf
open Verif Verif.Object Verif.Bytes Verif.ElfSpec

/-! ### Bytes at an offset -/

theorem at_split {file : List Byte} {off : Nat} {a b : List Byte} (h : At file off (a ++ b)) :
    At file off a ∧ At file (off + a.length) b := by
  obtain ⟨h1, h2⟩ := h
  rw [List.length_append] at h1 h2
  refine ⟨⟨by omega, ?_⟩, by omega, ?_⟩
  · intro k hk
    rw [h2 k (by omega), List.getElem?_append_left hk]
  · intro k hk
    rw [Nat.add_assoc, h2 (a.length + k) (by omega), List.getElem?_append_right (by omega)]
    congr 1
    omega

theorem at_mid (pre bs post : List Byte) : At (pre ++ bs ++ post) pre.length bs := by
  refine ⟨by simp, ?_⟩
  intro k hk
  rw [List.append_assoc, List.getElem?_append_right (by omega), List.getElem?_append_left (by omega)]
  congr 1
  omega

theorem at_end (pre bs : List Byte) : At (pre ++ bs) pre.length bs := by
  have := at_mid pre bs []
  rwa [List.append_nil] at this

theorem at_ext {file : List Byte} {off : Nat} {bs : List Byte} (h : At file off bs) (post : List Byte) :
    At (file ++ post) off bs := by
  refine ⟨by simp; have := h.1; omega, ?_⟩
  intro k hk
  have := h.1
  rw [List.getElem?_append_left (by omega)]
  exact h.2 k hk

theorem at_off {file : List Byte} {off off' : Nat} {bs : List Byte} (h : At file off bs) (e : off = off') :
    At file off' bs := e ▸ h

theorem num_word {file : List Byte} {off off' : Nat} {w : BitVec 16} {v : Nat} (h : At file off (fileWord w))
    (e : off = off') (hv : w.toNat = v) : Num file off' 2 v := by
  subst e hv
  refine ⟨w.isLt, ?_⟩
  rw [← fileWord_eq]; exact h

theorem num_long {file : List Byte} {off off' : Nat} {w : BitVec 32} {v : Nat} (h : At file off (fileLong w))
    (e : off = off') (hv : w.toNat = v) : Num file off' 4 v := by
  subst e hv
  refine ⟨w.isLt, ?_⟩
  rw [← fileLong_eq]; exact h

theorem num_quad {file : List Byte} {off off' : Nat} {w : BitVec 64} {v : Nat} (h : At file off (fileQuad w))
    (e : off = off') (hv : w.toNat = v) : Num file off' 8 v := by
  subst e hv
  refine ⟨w.isLt, ?_⟩
  rw [← fileQuad_eq]; exact h

@[simp] theorem fileWord_length (w : BitVec 16) : (fileWord w).length = 2 := by simp [fileWord_eq]
@[simp] theorem fileLong_length (w : BitVec 32) : (fileLong w).length = 4 := by simp [fileLong_eq]
@[simp] theorem fileQuad_length (w : BitVec 64) : (fileQuad w).length = 8 := by simp [fileQuad_eq]
@[simp] theorem ident_length : ident.length = 16 := by decide

/-! ### Headers -/

theorem headerBytes_length (f : File) : (headerBytes f).length = 64 := by simp [headerBytes]
theorem sectionHeaderBytes_length (s : ESect) : (sectionHeaderBytes s).length = 64 := by simp [sectionHeaderBytes]
theorem programHeaderBytes_length (s : ESeg) : (programHeaderBytes s).length = 56 := by simp [programHeaderBytes]

theorem isHeader {f : File} {file : List Byte} (h : At file 0 (headerBytes f)) (h1 : f.sections.length < 2 ^ 16)
    (h2 : f.segments.length < 2 ^ 16) :
    IsHeader file f.hdr.type.toNat f.hdr.entry.toNat f.hdr.phoff.toNat f.hdr.shoff.toNat f.segments.length
      f.sections.length f.hdr.shstrndx.toNat := by
  unfold headerBytes at h
  obtain ⟨h, a13⟩ := at_split h
  obtain ⟨h, a12⟩ := at_split h
  obtain ⟨h, a11⟩ := at_split h
  obtain ⟨h, a10⟩ := at_split h
  obtain ⟨h, a9⟩ := at_split h
  obtain ⟨h, a8⟩ := at_split h
  obtain ⟨h, a7⟩ := at_split h
  obtain ⟨h, a6⟩ := at_split h
  obtain ⟨h, a5⟩ := at_split h
  obtain ⟨h, a4⟩ := at_split h
  obtain ⟨h, a3⟩ := at_split h
  obtain ⟨h, a2⟩ := at_split h
  obtain ⟨h, a1⟩ := at_split h
  constructor
  · exact h
  · exact num_word a1 (by simp) rfl
  · exact num_word a2 (by simp) rfl
  · exact num_long a3 (by simp) rfl
  · exact num_quad a4 (by simp) rfl
  · exact num_quad a5 (by simp) rfl
  · exact num_quad a6 (by simp) rfl
  · exact num_long a7 (by simp) rfl
  · exact num_word a8 (by simp) rfl
  · refine num_word a9 (by simp) ?_
    by_cases hz : f.segments.length = 0
    · rw [if_neg (by omega), if_pos hz]; rfl
    · rw [if_pos hz, if_neg hz]; rfl
  · exact num_word a10 (by simp) (by rw [BitVec.toNat_ofNat]; omega)
  · refine num_word a11 (by simp) ?_
    by_cases hz : f.sections.length = 0
    · rw [if_neg (by omega), if_pos hz]; rfl
    · rw [if_pos hz, if_neg hz]; rfl
  · exact num_word a12 (by simp) (by rw [BitVec.toNat_ofNat]; omega)
  · exact num_word a13 (by simp) rfl

theorem isSection {s : ESect} {file : List Byte} {p : Nat} (h : At file p (sectionHeaderBytes s))
    (hs : s.data.length < 2 ^ 64) : IsSection file p s.hdr s.hdr.offset.toNat s.data.length := by
  unfold sectionHeaderBytes at h
  obtain ⟨h, a9⟩ := at_split h
  obtain ⟨h, a8⟩ := at_split h
  obtain ⟨h, a7⟩ := at_split h
  obtain ⟨h, a6⟩ := at_split h
  obtain ⟨h, a5⟩ := at_split h
  obtain ⟨h, a4⟩ := at_split h
  obtain ⟨h, a3⟩ := at_split h
  obtain ⟨h, a2⟩ := at_split h
  obtain ⟨h, a1⟩ := at_split h
  constructor
  · exact num_long h rfl rfl
  · exact num_long a1 (by simp) rfl
  · exact num_quad a2 (by simp) rfl
  · exact num_quad a3 (by simp) rfl
  · exact num_quad a4 (by simp) rfl
  · exact num_quad a5 (by simp) (by rw [BitVec.toNat_ofNat]; omega)
  · exact num_long a6 (by simp) rfl
  · exact num_long a7 (by simp) rfl
  · exact num_quad a8 (by simp) rfl
  · exact num_quad a9 (by simp) rfl

theorem isSegment {s : ESeg} {file : List Byte} {p : Nat} (h : At file p (programHeaderBytes s))
    (hs : s.data.length < 2 ^ 64) : IsSegment file p s.hdr s.hdr.offset.toNat s.data.length := by
  unfold programHeaderBytes at h
  obtain ⟨h, a7⟩ := at_split h
  obtain ⟨h, a6⟩ := at_split h
  obtain ⟨h, a5⟩ := at_split h
  obtain ⟨h, a4⟩ := at_split h
  obtain ⟨h, a3⟩ := at_split h
  obtain ⟨h, a2⟩ := at_split h
  obtain ⟨h, a1⟩ := at_split h
  constructor
  · exact num_long h rfl rfl
  · exact num_long a1 (by simp) rfl
  · exact num_quad a2 (by simp) rfl
  · exact num_quad a3 (by simp) rfl
  · exact num_quad a4 (by simp) rfl
  · exact num_quad a5 (by simp) (by rw [BitVec.toNat_ofNat]; omega)
  · exact num_quad a6 (by simp) rfl
  · exact num_quad a7 (by simp) rfl

/-- A table of entries of the same size. -/
theorem at_table {α : Type} {file : List Byte} {g : α → List Byte} {n : Nat} (hg : ∀ a, (g a).length = n) :
    ∀ {l : List α} {p i : Nat} {a : α}, At file p (l.map g).flatten → l[i]? = some a → At file (p + n * i) (g a) := by
  intro l
  induction l with
  | nil => intro p i a _ h; cases h
  | cons x l ih =>
    intro p i a h hi
    obtain ⟨h1, h2⟩ := at_split (a := g x) (b := (l.map g).flatten) h
    cases i with
    | zero =>
      simp only [List.getElem?_cons_zero, Option.some.injEq] at hi
      subst hi
      exact at_off h1 (by omega)
    | succ i =>
      have hi : l[i]? = some a := hi
      exact at_off (ih h2 hi) (by rw [hg, Nat.mul_succ]; omega)

/-! ### Sections -/

theorem contents_cons (s : ESect) (ss : List ESect) : contents (s :: ss) = s.data.length + contents ss := by
  simp [contents]

theorem contents_nil : contents [] = 0 := rfl

theorem contents_take {ss : List ESect} : ∀ {i : Nat} {s : ESect}, ss[i]? = some s →
    contents (ss.take i) + s.data.length ≤ contents ss := by
  induction ss with
  | nil => intro i s h; cases h
  | cons x ss ih =>
    intro i s h
    cases i with
    | zero =>
      simp only [List.getElem?_cons_zero, Option.some.injEq] at h
      subst h
      rw [List.take_zero, contents_nil, contents_cons]; omega
    | succ i =>
      have h : ss[i]? = some s := h
      have := ih h
      rw [List.take_succ_cons, contents_cons, contents_cons]; omega

theorem contents_take_lt {ss : List ESect} {i j : Nat} {s : ESect} (h : ss[i]? = some s) (hij : i < j) :
    contents (ss.take i) + s.data.length ≤ contents (ss.take j) := by
  have h' : (ss.take j)[i]? = some s := by rw [List.getElem?_take, if_pos hij]; exact h
  have := contents_take h'
  rwa [List.take_take, Nat.min_eq_left (by omega)] at this

theorem placeSections_get : ∀ {ss : List ESect} {a : BitVec 64} {i : Nat} {s : ESect}, ss[i]? = some s →
    a.toNat + contents ss < 2 ^ 64 →
    (placeSections ss a).1[i]? =
      some { s with hdr := { s.hdr with offset := BitVec.ofNat 64 (a.toNat + contents (ss.take i)) } } := by
  intro ss
  induction ss with
  | nil => intro a i s h; cases h
  | cons x ss ih =>
    intro a i s h hlt
    rw [contents_cons] at hlt
    cases i with
    | zero =>
      simp only [List.getElem?_cons_zero, Option.some.injEq] at h
      subst h
      simp [placeSections, contents_nil]
    | succ i =>
      have h : ss[i]? = some s := h
      have e : (a + BitVec.ofNat 64 x.data.length).toNat = a.toNat + x.data.length := by
        rw [BitVec.toNat_add, BitVec.toNat_ofNat]; omega
      have := ih (a := a + BitVec.ofNat 64 x.data.length) h (by omega)
      show (placeSections ss _).1[i]? = _
      rw [this, e, List.take_succ_cons, contents_cons, Nat.add_assoc]

theorem placeSections_length : ∀ (ss : List ESect) (a : BitVec 64), (placeSections ss a).1.length = ss.length := by
  intro ss
  induction ss with
  | nil => intro a; rfl
  | cons x ss ih => intro a; simp [placeSections, ih]

theorem placeSections_end : ∀ {ss : List ESect} {a : BitVec 64}, a.toNat + contents ss < 2 ^ 64 →
    (placeSections ss a).2.toNat = a.toNat + contents ss := by
  intro ss
  induction ss with
  | nil => intro a _; rfl
  | cons x ss ih =>
    intro a hlt
    rw [contents_cons] at hlt ⊢
    have e : (a + BitVec.ofNat 64 x.data.length).toNat = a.toNat + x.data.length := by
      rw [BitVec.toNat_add, BitVec.toNat_ofNat]; omega
    show (placeSections ss _).2.toNat = _
    rw [ih (by omega), e, Nat.add_assoc]

theorem fileSkip_here (out : List Byte) : fileSkip out out.length = .ok out := by
  simp [fileSkip, fileZero]

theorem writeContents_ok : ∀ {ss : List ESect} {a : BitVec 64} {out : List Byte}, out.length = a.toNat →
    a.toNat + contents ss < 2 ^ 64 →
    writeContents (placeSections ss a).1 out = .ok (out ++ (ss.map fun s => s.data).flatten) := by
  intro ss
  induction ss with
  | nil => intro a out _ _; simp [placeSections, writeContents]
  | cons x ss ih =>
    intro a out ho hlt
    rw [contents_cons] at hlt
    have e : (a + BitVec.ofNat 64 x.data.length).toNat = a.toNat + x.data.length := by
      rw [BitVec.toNat_add, BitVec.toNat_ofNat]; omega
    show writeContents (_ :: (placeSections ss (a + BitVec.ofNat 64 x.data.length)).1) out = _
    rw [writeContents]
    by_cases hz : x.data.length = 0
    · rw [if_pos hz, ih (by omega) (by omega)]
      simp [List.length_eq_zero_iff.1 hz]
    · rw [if_neg hz]
      show (do let out ← fileSkip out a.toNat; writeContents _ (out ++ x.data)) = _
      rw [← ho, fileSkip_here, Res.bind_ok, ih (by rw [List.length_append]; omega) (by omega)]
      simp

theorem contents_flat (ss : List ESect) : (ss.map fun s => s.data).flatten.length = contents ss := by
  induction ss with
  | nil => rfl
  | cons s ss ih => rw [contents_cons, ← ih]; simp

theorem at_flat {ss : List ESect} {file : List Byte} : ∀ {i p : Nat} {s : ESect},
    At file p (ss.map fun s => s.data).flatten → ss[i]? = some s → At file (p + contents (ss.take i)) s.data := by
  induction ss with
  | nil => intro i p s _ h; cases h
  | cons x ss ih =>
    intro i p s h hi
    obtain ⟨h1, h2⟩ := at_split (a := x.data) (b := (ss.map fun s => s.data).flatten) h
    cases i with
    | zero =>
      simp only [List.getElem?_cons_zero, Option.some.injEq] at hi
      subst hi
      exact h1
    | succ i =>
      have hi : ss[i]? = some s := hi
      exact at_off (ih h2 hi) (by rw [List.take_succ_cons, contents_cons, Nat.add_assoc])

/-! ### Segments -/

theorem roundUp_first {num div : Nat} (h : 0 < div) :
    ∃ o, roundUp num div = .ok o ∧ num ≤ o ∧ o < num + div ∧ div ∣ o := by
  unfold roundUp
  rw [if_neg (by omega)]
  dsimp only
  have hm := Nat.mod_lt num h
  by_cases hz : num % div = 0
  · rw [if_neg (by omega)]
    exact ⟨num, rfl, by omega, by omega, Nat.dvd_of_mod_eq_zero hz⟩
  · rw [if_pos hz]
    refine ⟨_, rfl, by omega, by omega, ?_⟩
    have e : num + (div - num % div) = div * (num / div + 1) := by
      have := Nat.div_add_mod num div
      rw [Nat.mul_add, Nat.mul_one]
      omega
    rw [e]
    exact Nat.dvd_mul_right _ _

/-- A segment at an offset. -/
def segAt (s : ESeg) (o : Nat) : ESeg := { s with hdr := { s.hdr with offset := BitVec.ofNat 64 o } }

/-- An upper bound of the room that segments need. -/
def room (ss : List ESeg) : Nat := (ss.map fun s => s.data.length + s.hdr.align.toNat).sum

theorem room_cons (s : ESeg) (ss : List ESeg) : room (s :: ss) = s.data.length + s.hdr.align.toNat + room ss := by
  simp [room]

theorem placeSegments_ok : ∀ {ss : List ESeg} {a : BitVec 64}, (∀ s ∈ ss, 0 < s.hdr.align.toNat) →
    a.toNat + room ss < 2 ^ 64 →
    ∃ offs, placeSegments ss a = .ok (List.zipWith segAt ss offs) ∧ SegOffsets ss a.toNat offs ∧
      offs.length = ss.length ∧ (∀ o ∈ offs, o < 2 ^ 64) := by
  intro ss
  induction ss with
  | nil => intro a _ _; exact ⟨[], rfl, rfl, rfl, by simp⟩
  | cons x ss ih =>
    intro a hal hlt
    rw [room_cons] at hlt
    obtain ⟨o, h1, h2, h3, h4⟩ := roundUp_first (num := a.toNat) (hal x (by simp))
    have hdl := x.hdr.align.isLt
    have eo : (BitVec.ofNat 64 o).toNat = o := by rw [BitVec.toNat_ofNat]; omega
    have e : (BitVec.ofNat 64 o + BitVec.ofNat 64 x.data.length).toNat = o + x.data.length := by
      rw [BitVec.toNat_add, BitVec.toNat_ofNat, BitVec.toNat_ofNat]; omega
    obtain ⟨offs, g1, g2, g3, g4⟩ := ih (a := BitVec.ofNat 64 o + BitVec.ofNat 64 x.data.length)
      (fun s h => hal s (by simp [h])) (by rw [e]; omega)
    refine ⟨o :: offs, ?_, ⟨o, offs, rfl, h2, h3, h4, by rw [← e]; exact g2⟩, by simp [g3], ?_⟩
    · rw [placeSegments, h1, Res.bind_ok]
      dsimp only
      rw [g1]
      rfl
    · intro p hp
      rcases List.mem_cons.1 hp with rfl | hp
      · omega
      · exact g4 p hp

theorem writeSegContents_ok : ∀ {ss : List ESeg} {offs : List Nat} {a : Nat} {out : List Byte}, out.length ≤ a →
    SegOffsets ss a offs → (∀ o ∈ offs, o < 2 ^ 64) →
    ∃ ext, writeSegContents (List.zipWith segAt ss offs) out = .ok (out ++ ext) ∧
      ∀ (i : Nat) s o, ss[i]? = some s → offs[i]? = some o → s.data ≠ [] → At (out ++ ext) o s.data := by
  intro ss
  induction ss with
  | nil =>
    rintro offs a out _ rfl _
    refine ⟨[], by simp [writeSegContents], ?_⟩
    intro i s o h
    cases h
  | cons x ss ih =>
    rintro offs a out ho ⟨o, os, rfl, h1, h2, h3, h4⟩ hlt
    show ∃ ext, writeSegContents (segAt x o :: List.zipWith segAt ss os) out = _ ∧ _
    rw [writeSegContents]
    have eo : (segAt x o).hdr.offset.toNat = o := by
      show (BitVec.ofNat 64 o).toNat = o
      have := hlt o (by simp)
      rw [BitVec.toNat_ofNat]; omega
    have ed : (segAt x o).data = x.data := rfl
    rw [ed]
    by_cases hz : x.data.length = 0
    · rw [if_pos hz]
      obtain ⟨ext, g1, g2⟩ := ih (a := o + x.data.length) (out := out) (by omega) h4 (fun p hp => hlt p (by simp [hp]))
      refine ⟨ext, g1, ?_⟩
      intro i s p hi hp hne
      cases i with
      | zero =>
        simp only [List.getElem?_cons_zero, Option.some.injEq] at hi
        subst hi
        exact absurd (List.length_eq_zero_iff.1 hz) hne
      | succ i => exact g2 i s p hi hp hne
    · rw [if_neg hz, eo, fileSkip, if_pos (by omega), Res.bind_ok]
      have hl : (out ++ fileZero (o - out.length)).length = o := by simp [fileZero]; omega
      obtain ⟨ext, g1, g2⟩ := ih (a := o + x.data.length) (out := out ++ fileZero (o - out.length) ++ x.data)
        (by rw [List.length_append, hl]; omega) h4 (fun p hp => hlt p (by simp [hp]))
      refine ⟨fileZero (o - out.length) ++ x.data ++ ext, ?_, ?_⟩
      · show writeSegContents _ (out ++ fileZero (o - out.length) ++ x.data) = _
        rw [g1]
        simp
      · intro i s p hi hp hne
        have eq : out ++ (fileZero (o - out.length) ++ x.data ++ ext) =
            out ++ fileZero (o - out.length) ++ x.data ++ ext := by simp
        rw [eq]
        cases i with
        | zero =>
          simp only [List.getElem?_cons_zero, Option.some.injEq] at hi hp
          subst hi hp
          exact at_off (at_mid _ _ _) hl
        | succ i => exact g2 i s p hi hp hne

theorem segOffsets_ge : ∀ {ss : List ESeg} {a : Nat} {offs : List Nat} {i o : Nat}, SegOffsets ss a offs →
    offs[i]? = some o → a ≤ o := by
  intro ss
  induction ss with
  | nil => rintro a offs i o rfl h; cases h
  | cons x ss ih =>
    rintro a offs i o ⟨p, os, rfl, h1, h2, h3, h4⟩ h
    cases i with
    | zero =>
      simp only [List.getElem?_cons_zero, Option.some.injEq] at h
      omega
    | succ i =>
      have := ih h4 h
      omega

theorem segOffsets_lt : ∀ {ss : List ESeg} {a : Nat} {offs : List Nat} {i j o p : Nat} {s : ESeg},
    SegOffsets ss a offs → ss[i]? = some s → offs[i]? = some o → offs[j]? = some p → i < j → o + s.data.length ≤ p := by
  intro ss
  induction ss with
  | nil => intro a offs i j o p s _ h; cases h
  | cons x ss ih =>
    rintro a offs i j o p s ⟨q, os, rfl, h1, h2, h3, h4⟩ hs ho hp hij
    cases j with
    | zero => omega
    | succ j =>
      cases i with
      | zero =>
        simp only [List.getElem?_cons_zero, Option.some.injEq] at hs ho
        subst hs ho
        exact segOffsets_ge h4 hp
      | succ i => exact ih h4 hs ho hp (by omega)

/-! ### The whole file -/

/-- The sections after allocation. -/
def placed (f : File) : List ESect :=
  match f.sections with
  | [] => []
  | s :: ss => s :: (placeSections ss (64 + BitVec.ofNat 64 (64 * (ss.length + 1)))).1

theorem placed_length (f : File) : (placed f).length = f.sections.length := by
  unfold placed
  split
  · rename_i h; rw [h]
  · rename_i s ss h; rw [h]; simp [placeSections_length]

theorem write_ok {f : File} (h : Fits f) :
    ∃ g file offs, allocate f = .ok g ∧ elfWrite g = .ok file ∧ Layout f file offs ∧
      g.shstrings = f.shstrings ∧ g.strings = f.strings := by
  have hsm := h.small
  have hroom : (f.segments.map fun s => s.data.length + s.hdr.align.toNat).sum = room f.segments := rfl
  rw [hroom] at hsm
  unfold phOffset at hsm
  -- after the sections
  have hA : ∃ address : BitVec 64, address.toNat = phOffset f ∧
      allocate f = (match f.segments with
        | [] => .ok { f with hdr := { f.hdr with shoff := if f.sections = [] then f.hdr.shoff else 64 }, sections := placed f }
        | gs => do
          let segs ← placeSegments gs (address + BitVec.ofNat 64 (7 * 8 * gs.length))
          .ok { f with hdr := { f.hdr with shoff := if f.sections = [] then f.hdr.shoff else 64, phoff := address },
                       sections := placed f, segments := segs }) := by
    unfold allocate placed phOffset
    cases hs : f.sections with
    | nil =>
      refine ⟨64, rfl, ?_⟩
      cases f
      simp only at hs
      subst hs
      rfl
    | cons s ss =>
      have hn := (h.null s (by rw [hs]; rfl)).1
      rw [hs] at hsm
      rw [contents_cons, hn] at hsm
      simp only [List.length_cons, List.length_nil] at hsm
      have e0 : ((64 : BitVec 64) + BitVec.ofNat 64 (64 * (ss.length + 1))).toNat = 64 + 64 * (ss.length + 1) := by
        rw [BitVec.toNat_add, BitVec.toNat_ofNat]
        have : (64 : BitVec 64).toNat = 64 := rfl
        omega
      refine ⟨(placeSections ss (64 + BitVec.ofNat 64 (64 * (ss.length + 1)))).2, ?_, ?_⟩
      · rw [placeSections_end (by rw [e0]; omega), e0, contents_cons, hn]
        simp
      · simp only [List.cons_ne_nil, if_false]
        cases f
        rfl
  obtain ⟨address, hadr, hal⟩ := hA
  have hph : phOffset f = 64 + 64 * f.sections.length + contents f.sections := rfl
  have e1 : (address + BitVec.ofNat 64 (7 * 8 * f.segments.length)).toNat = phOffset f + 56 * f.segments.length := by
    rw [BitVec.toNat_add, BitVec.toNat_ofNat, hadr]; omega
  obtain ⟨offs, hps, hso, hsl, hs64⟩ := placeSegments_ok (a := address + BitVec.ofNat 64 (7 * 8 * f.segments.length))
    h.aligns (by rw [e1]; omega)
  rw [e1] at hso
  -- the allocated file
  have hg : ∃ g, allocate f = .ok g ∧ g.sections = placed f ∧ g.segments = List.zipWith segAt f.segments offs ∧
      g.hdr.type = f.hdr.type ∧ g.hdr.entry = f.hdr.entry ∧ g.hdr.shstrndx = f.hdr.shstrndx ∧
      g.hdr.shoff = (if f.sections = [] then f.hdr.shoff else 64) ∧
      g.hdr.phoff = (if f.segments = [] then f.hdr.phoff else address) ∧ g.shstrings = f.shstrings ∧
      g.strings = f.strings := by
    rw [hal]
    cases hseg : f.segments with
    | nil => exact ⟨_, rfl, rfl, by simp [hseg], rfl, rfl, rfl, rfl, rfl, rfl, rfl⟩
    | cons x xs =>
      rw [hseg] at hps
      dsimp only
      rw [hps]
      exact ⟨_, rfl, rfl, rfl, rfl, rfl, rfl, rfl, rfl, rfl, rfl⟩
  obtain ⟨g, hga, gs, gg, gt, ge, gx, gsh, gph, gs1, gs2⟩ := hg
  have glen : g.sections.length = f.sections.length := by rw [gs, placed_length]
  have gglen : g.segments.length = f.segments.length := by rw [gg, List.length_zipWith, hsl, Nat.min_self]
  -- the sections are written
  have hsec : ∃ out, writeSections g (headerBytes g) = .ok out ∧
      out = headerBytes g ++ ((placed f).map sectionHeaderBytes).flatten ++ (f.sections.map fun s => s.data).flatten := by
    refine ⟨_, ?_, rfl⟩
    unfold writeSections
    rw [glen]
    cases hs : f.sections with
    | nil => simp [placed, hs]
    | cons s ss =>
      have hn := (h.null s (by rw [hs]; rfl)).1
      have eo : g.hdr.shoff.toNat = (headerBytes g).length := by
        rw [gsh, hs, headerBytes_length]; rfl
      simp only [List.length_cons, Nat.succ_ne_zero, if_false, Nat.add_eq_zero_iff, Nat.one_ne_zero, and_false]
      rw [eo, fileSkip_here, Res.bind_ok, gs]
      have hp : placed f = s :: (placeSections ss (64 + BitVec.ofNat 64 (64 * (ss.length + 1)))).1 := by
        unfold placed; rw [hs]
      have e0 : ((64 : BitVec 64) + BitVec.ofNat 64 (64 * (ss.length + 1))).toNat = 64 + 64 * (ss.length + 1) := by
        rw [hs] at hsm
        simp only [List.length_cons] at hsm
        rw [BitVec.toNat_add, BitVec.toNat_ofNat]
        have : (64 : BitVec 64).toNat = 64 := rfl
        omega
      have hl64 : ((placed f).map sectionHeaderBytes).flatten.length = 64 * (ss.length + 1) := by
        have : ∀ l : List ESect, (l.map sectionHeaderBytes).flatten.length = 64 * l.length := by
          intro l
          induction l with
          | nil => rfl
          | cons a l ih => simp [sectionHeaderBytes_length, ih]; omega
        rw [this, placed_length, hs]
        rfl
      have step : writeContents (placed f) (headerBytes g ++ ((placed f).map sectionHeaderBytes).flatten) =
          writeContents (placeSections ss (64 + BitVec.ofNat 64 (64 * (ss.length + 1)))).1
            (headerBytes g ++ ((placed f).map sectionHeaderBytes).flatten) := by
        conv => lhs; arg 1; rw [hp]
        rw [writeContents, if_pos (by rw [hn]; rfl)]
      rw [step, writeContents_ok]
      · simp [hn]
      · rw [List.length_append, headerBytes_length, hl64, e0]
      · rw [e0]
        rw [hs, contents_cons] at hsm
        simp only [List.length_cons] at hsm
        omega
  obtain ⟨out, hout, hoe⟩ := hsec
  have hl64 : ((placed f).map sectionHeaderBytes).flatten.length = 64 * f.sections.length := by
    have : ∀ l : List ESect, (l.map sectionHeaderBytes).flatten.length = 64 * l.length := by
      intro l
      induction l with
      | nil => rfl
      | cons a l ih => simp [sectionHeaderBytes_length, ih]; omega
    rw [this, placed_length]
  have hol : out.length = phOffset f := by
    rw [hoe, List.length_append, List.length_append, headerBytes_length, hl64, contents_flat, hph]
  -- the segments are written
  have hsg : ∃ ext, writeSegments g out = .ok (out ++ ext) ∧
      ∀ (i : Nat) s o, f.segments[i]? = some s → offs[i]? = some o →
        At (out ++ ext) (phOffset f + 56 * i) (programHeaderBytes (segAt s o)) ∧ (s.data ≠ [] → At (out ++ ext) o s.data) := by
    unfold writeSegments
    rw [gglen]
    by_cases hz : f.segments.length = 0
    · rw [if_pos hz]
      refine ⟨[], by rw [List.append_nil], ?_⟩
      intro i s o hi
      rw [List.length_eq_zero_iff.1 hz] at hi
      cases hi
    · rw [if_neg hz]
      have hne : f.segments ≠ [] := fun hc => hz (by rw [hc]; rfl)
      have eo : g.hdr.phoff.toNat = out.length := by rw [gph, if_neg hne, hadr, hol]
      rw [eo, fileSkip_here, Res.bind_ok, gg]
      have hl56 : ((List.zipWith segAt f.segments offs).map programHeaderBytes).flatten.length = 56 * f.segments.length := by
        have : ∀ l : List ESeg, (l.map programHeaderBytes).flatten.length = 56 * l.length := by
          intro l
          induction l with
          | nil => rfl
          | cons a l ih => simp [programHeaderBytes_length, ih]; omega
        rw [this, List.length_zipWith, hsl, Nat.min_self]
      obtain ⟨ext, k1, k2⟩ := writeSegContents_ok (ss := f.segments) (offs := offs)
        (a := phOffset f + 56 * f.segments.length)
        (out := out ++ ((List.zipWith segAt f.segments offs).map programHeaderBytes).flatten)
        (by rw [List.length_append, hol, hl56]; omega) hso hs64
      refine ⟨((List.zipWith segAt f.segments offs).map programHeaderBytes).flatten ++ ext, by rw [k1, List.append_assoc], ?_⟩
      intro i s o hi ho
      have hzi : (List.zipWith segAt f.segments offs)[i]? = some (segAt s o) := by
        rw [List.getElem?_zipWith, hi, ho]
      constructor
      · have := at_table programHeaderBytes_length (at_ext (at_end out _) ext) hzi
        rw [List.append_assoc] at this
        exact at_off this (by rw [hol])
      · intro hne
        have := k2 i s o hi ho hne
        rwa [List.append_assoc] at this
  obtain ⟨ext, hw, hseg⟩ := hsg
  refine ⟨g, out ++ ext, offs, hga, ?_, ?_, gs1, gs2⟩
  · unfold elfWrite
    rw [hout, Res.bind_ok, hw]
  · have hhead : At (out ++ ext) 0 (headerBytes g) := by
      rw [hoe]
      have := at_mid [] (headerBytes g) (((placed f).map sectionHeaderBytes).flatten ++
        ((f.sections.map fun s => s.data).flatten ++ ext))
      simpa using this
    have hheads : At (out ++ ext) 64 ((placed f).map sectionHeaderBytes).flatten := by
      rw [hoe]
      have := at_mid (headerBytes g) ((placed f).map sectionHeaderBytes).flatten
        ((f.sections.map fun s => s.data).flatten ++ ext)
      rw [headerBytes_length] at this
      simpa using this
    have hflat : At (out ++ ext) (64 + 64 * f.sections.length) (f.sections.map fun s => s.data).flatten := by
      rw [hoe]
      have := at_mid (headerBytes g ++ ((placed f).map sectionHeaderBytes).flatten)
        (f.sections.map fun s => s.data).flatten ext
      rw [List.length_append, headerBytes_length, hl64] at this
      exact this
    refine ⟨?_, ?_, hso, ?_⟩
    · have := isHeader hhead (by rw [glen]; exact h.nsect) (by rw [gglen]; exact h.nseg)
      rw [glen, gglen, gt, ge, gx, gsh, gph] at this
      have e3 : (if f.segments = [] then f.hdr.phoff else address).toNat =
          if f.segments = [] then f.hdr.phoff.toNat else phOffset f := by
        split
        · rfl
        · exact hadr
      have e4 : (if f.sections = [] then f.hdr.shoff else (64 : BitVec 64)).toNat =
          if f.sections = [] then f.hdr.shoff.toNat else 64 := by
        split <;> rfl
      rw [e3, e4] at this
      exact this
    · intro i s hi
      have hct := contents_take hi
      constructor
      · have hpl : ∃ p : ESect, (placed f)[i]? = some p ∧ p.data = s.data ∧
            p.hdr = { s.hdr with offset := BitVec.ofNat 64 (if i = 0 then 0 else secOffset f i) } := by
          unfold placed
          cases hs : f.sections with
          | nil => rw [hs] at hi; cases hi
          | cons x xs =>
            obtain ⟨hn, hn0⟩ := h.null x (by rw [hs]; rfl)
            cases i with
            | zero =>
              rw [hs] at hi
              simp only [List.getElem?_cons_zero, Option.some.injEq] at hi
              subst hi
              refine ⟨x, rfl, rfl, ?_⟩
              rw [if_pos rfl]
              cases hx : x.hdr
              rw [hx] at hn0
              simp only at hn0
              rw [hn0]
              rfl
            | succ i =>
              rw [hs] at hi
              have hi : xs[i]? = some s := hi
              rw [hs, contents_cons] at hsm
              simp only [List.length_cons] at hsm
              have e0 : ((64 : BitVec 64) + BitVec.ofNat 64 (64 * (xs.length + 1))).toNat = 64 + 64 * (xs.length + 1) := by
                rw [BitVec.toNat_add, BitVec.toNat_ofNat]
                have : (64 : BitVec 64).toNat = 64 := rfl
                omega
              refine ⟨_, placeSections_get hi (by rw [e0]; omega), rfl, ?_⟩
              rw [if_neg (by omega), e0]
              unfold secOffset
              rw [hs, List.take_succ_cons, contents_cons, hn]
              simp
        obtain ⟨p, hp, hpd, hph2⟩ := hpl
        have hso64 : (if i = 0 then 0 else secOffset f i) < 2 ^ 64 := by
          split
          · omega
          · unfold secOffset; omega
        have := isSection (at_table sectionHeaderBytes_length hheads hp) (by rw [hpd]; omega)
        rw [hpd, hph2] at this
        dsimp only at this
        rw [BitVec.toNat_ofNat, Nat.mod_eq_of_lt hso64] at this
        exact ⟨this.1, this.2, this.3, this.4, this.5, this.6, this.7, this.8, this.9, this.10⟩
      · intro _
        exact at_flat hflat hi
    · intro i s o hi ho
      obtain ⟨k1, k2⟩ := hseg i s o hi ho
      refine ⟨?_, k2⟩
      have hso64 := hs64 o (List.mem_of_getElem? ho)
      have hds : s.data.length < 2 ^ 64 := by
        have : s.data.length ≤ room f.segments := by
          have hm := List.mem_of_getElem? hi
          have : ∀ l : List ESeg, s ∈ l → s.data.length ≤ room l := by
            intro l
            induction l with
            | nil => intro h; cases h
            | cons a l ih =>
              intro h
              rw [room_cons]
              rcases List.mem_cons.1 h with rfl | h
              · omega
              · have := ih h; omega
          exact this _ hm
        omega
      have := isSegment k1 hds
      have eo : (segAt s o).hdr.offset.toNat = o := by
        show (BitVec.ofNat 64 o).toNat = o
        rw [BitVec.toNat_ofNat, Nat.mod_eq_of_lt hso64]
      rw [eo] at this
      exact ⟨this.1, this.2, this.3, this.4, this.5, this.6, this.7, this.8⟩

end Verif.Elf
