import Verif.CoffSpec
import Verif.ElfLemmas
import Verif.LinkerLemmas
/-!
Lemmas about COFF files.
-/
namespace Verif.Coff
open Verif Verif.Object Verif.Bytes Verif.ElfSpec Verif.CoffSpec Verif.Elf Verif.Linker

/-! ### Relocations -/

/-- The bytes of the field of a relocation. -/
def fieldBytes (r : Relocation) : List Byte :=
  leBytes (relSize r.type) ((implicit r) % (256 : Int) ^ relSize r.type).toNat

/-- The writes of relocations. -/
def ws (rs : List Relocation) : List (Nat × List Byte) :=
  (rs.filter fun r => decide (implicit r ≠ 0)).map fun r => (r.offset.toNat, fieldBytes r)

/-- The relocation in the file. -/
def relOf (r : Relocation) : Rel :=
  { va := r.offset.setWidth 32, sym := BitVec.ofNat 32 r.idx, type := BitVec.ofNat 16 (CoffSpec.relNumber r.type) }

theorem relKind_ok {r : Relocation} (h : -2 ^ 31 ≤ r.add.toInt ∧ implicit r < 2 ^ 31) :
    ∃ a, relKind r = .ok (BitVec.ofNat 16 (CoffSpec.relNumber r.type), a, relSize r.type) ∧ a.toInt = implicit r := by
  have hlt : r.add.toInt < 2 ^ 31 := by
    have := h.2
    unfold implicit at this
    split at this <;> omega
  have ha : (r.add.setWidth 32).toInt = r.add.toInt := by
    rw [BitVec.toInt_setWidth]
    have h1 := BitVec.toInt_eq_toNat_bmod r.add
    rw [Int.bmod_def]
    have e : (r.add.toNat : Int) % (2 ^ 64 : Nat) = r.add.toNat := by
      have := r.add.isLt
      omega
    rw [Int.bmod_def, e] at h1
    have := r.add.isLt
    split at h1 <;> split <;> omega
  unfold relKind CoffSpec.relNumber relSize
  have h2 := h.2
  unfold implicit at h2 ⊢
  cases ht : r.type with
  | r32 => exact ⟨_, rfl, by simp only [ha]⟩
  | r64 => exact ⟨_, rfl, by simp only [ha]⟩
  | r32rel =>
    rw [ht] at h2
    dsimp only at h2
    refine ⟨r.add.setWidth 32 + 4, ?_, ?_⟩
    · dsimp only
      rw [if_neg (by rw [ha]; omega)]
      rfl
    · rw [BitVec.toInt_add, ha]
      have : (4 : BitVec 32).toInt = 4 := by decide
      rw [this, Int.bmod_def]
      dsimp only
      split <;> omega

theorem signExtend_toNat (a : BitVec 32) : ((a.signExtend 64).toNat : Int) = a.toInt % 2 ^ 64 := by
  have h := BitVec.toInt_eq_toNat_bmod (a.signExtend 64)
  rw [BitVec.toInt_signExtend_of_le (by omega), Int.bmod_def] at h
  have h1 := (a.signExtend 64).isLt
  have h2 : ((a.signExtend 64).toNat : Int) % (2 ^ 64 : Nat) = (a.signExtend 64).toNat := by omega
  rw [h2] at h
  split at h <;> omega

theorem addRelocs_ok : ∀ {rs : List Relocation} {data : List Byte},
    (∀ r ∈ rs, -2 ^ 31 ≤ r.add.toInt ∧ implicit r < 2 ^ 31) → (∀ r ∈ rs, r.offset.toNat + relSize r.type ≤ data.length) →
    data.length < 2 ^ 31 →
    addRelocs rs data = .ok (applyWrites (ws rs) data, rs.map relOf) := by
  intro rs
  induction rs with
  | nil => intro data _ _ _; rfl
  | cons r rs ih =>
    intro data ha hb hl
    have har := ha r (by simp)
    have hbr := hb r (by simp)
    obtain ⟨a, hk, hai⟩ := relKind_ok har
    have hlt : r.add.toInt < 2 ^ 31 := by
      have := har.2
      unfold implicit at this
      split at this <;> omega
    rw [addRelocs, if_neg (by omega), if_neg (by omega), hk, Res.bind_ok]
    dsimp only
    by_cases hz : implicit r = 0
    · have a0 : a = 0 := by
        apply BitVec.eq_of_toInt_eq
        rw [hai, hz]
        rfl
      rw [if_pos a0, Res.bind_ok, ih (fun q hq => ha q (by simp [hq])) (fun q hq => hb q (by simp [hq])) hl, Res.bind_ok]
      simp [ws, hz, relOf]
    · have a0 : a ≠ 0 := by
        intro e
        apply hz
        rw [← hai, e]
        rfl
      rw [if_neg a0]
      have hw : (if relSize r.type = 4 then write32 data r.offset.toNat (a.signExtend 64)
          else write64 data r.offset.toNat (a.signExtend 64)) = .ok (patch data r.offset.toNat (fieldBytes r)) := by
        have hs := signExtend_toNat a
        rw [hai] at hs
        unfold fieldBytes
        cases ht : r.type with
        | r64 =>
          rw [ht] at hbr
          have hbr : r.offset.toNat + 8 ≤ data.length := hbr
          rw [if_neg (by decide), write64_eq _ _ _ hbr]
          have e : (implicit r % (256 : Int) ^ 8).toNat = (a.signExtend 64).toNat := by
            rw [show (256 : Int) ^ 8 = 2 ^ 64 by decide, ← hs]; rfl
          show _ = Res.ok (patch data r.offset.toNat (leBytes 8 (implicit r % (256 : Int) ^ 8).toNat))
          rw [e]
        | r32 =>
          rw [ht] at hbr
          have hbr : r.offset.toNat + 4 ≤ data.length := hbr
          rw [if_pos (by decide), write32_eq _ _ _ hbr]
          have e : (implicit r % (256 : Int) ^ 4).toNat = (a.signExtend 64).toNat % 256 ^ 4 := by
            rw [show (256 : Int) ^ 4 = 2 ^ 32 by decide, show (256 : Nat) ^ 4 = 2 ^ 32 by decide]
            omega
          show _ = Res.ok (patch data r.offset.toNat (leBytes 4 (implicit r % (256 : Int) ^ 4).toNat))
          rw [e, leBytes_mod _ _ _ (Nat.le_refl _)]
        | r32rel =>
          rw [ht] at hbr
          have hbr : r.offset.toNat + 4 ≤ data.length := hbr
          rw [if_pos (by decide), write32_eq _ _ _ hbr]
          have e : (implicit r % (256 : Int) ^ 4).toNat = (a.signExtend 64).toNat % 256 ^ 4 := by
            rw [show (256 : Int) ^ 4 = 2 ^ 32 by decide, show (256 : Nat) ^ 4 = 2 ^ 32 by decide]
            omega
          show _ = Res.ok (patch data r.offset.toNat (leBytes 4 (implicit r % (256 : Int) ^ 4).toNat))
          rw [e, leBytes_mod _ _ _ (Nat.le_refl _)]
      have hfl : (fieldBytes r).length = relSize r.type := by simp [fieldBytes]
      have hpl := patch_length data r.offset.toNat (fieldBytes r) (by rw [hfl]; exact hbr)
      have hi := ih (data := patch data r.offset.toNat (fieldBytes r)) (fun q hq => ha q (by simp [hq]))
        (by rw [hpl]; exact fun q hq => hb q (by simp [hq])) (by rw [hpl]; exact hl)
      by_cases h4 : relSize r.type = 4
      · rw [if_pos h4] at hw ⊢
        rw [hw, Res.bind_ok, hi, Res.bind_ok]
        simp [ws, hz, relOf, applyWrites]
      · rw [if_neg h4] at hw ⊢
        rw [hw, Res.bind_ok, hi, Res.bind_ok]
        simp [ws, hz, relOf, applyWrites]

theorem fieldBytes_length (r : Relocation) : (fieldBytes r).length = relSize r.type := by simp [fieldBytes]

theorem ws_mem {rs : List Relocation} {w : Nat × List Byte} (h : w ∈ ws rs) :
    ∃ r ∈ rs, implicit r ≠ 0 ∧ w = (r.offset.toNat, fieldBytes r) := by
  unfold ws at h
  obtain ⟨r, hr, rfl⟩ := List.mem_map.1 h
  have := List.mem_filter.1 hr
  exact ⟨r, this.1, by simpa using this.2, rfl⟩

/-- The contents of a section in the file. -/
def dataOf (s : Section) : List Byte := applyWrites (ws s.relocs) s.data

theorem dataOf_isData {o : Obj} (h : CoffSpec.Writable o) {s : Section} (hs : s ∈ o.sections) : IsData s (dataOf s) := by
  have hb : ∀ w ∈ ws s.relocs, w.1 + w.2.length ≤ s.data.length := by
    intro w hw
    obtain ⟨r, hr, _, rfl⟩ := ws_mem hw
    dsimp only
    rw [fieldBytes_length]
    exact (h.field s hs r hr).1
  have hp : (ws s.relocs).Pairwise Apart := by
    unfold ws
    refine List.pairwise_map.2 ?_
    refine List.Pairwise.imp ?_ ((h.apart s hs).filter _)
    intro a b hab
    unfold Apart
    dsimp only
    rw [fieldBytes_length, fieldBytes_length]
    exact hab
  have hlen : (dataOf s).length = s.data.length := applyWrites_length _ hb
  refine ⟨hlen, ?_, ?_⟩
  · intro r hr
    have hf := h.field s hs r hr
    refine ⟨by rw [hlen, leBytes_length]; exact hf.1, ?_⟩
    intro k hk
    rw [leBytes_length] at hk
    by_cases hz : implicit r = 0
    · have hout : (dataOf s)[r.offset.toNat + k]? = s.data[r.offset.toNat + k]? := by
        refine applyWrites_out _ hb ?_
        intro w hw
        obtain ⟨q, hq, hqz, rfl⟩ := ws_mem hw
        dsimp only
        rw [fieldBytes_length]
        have hne : r ≠ q := fun e => hqz (e ▸ hz)
        have := (h.apart s hs)
        have hap : r.offset.toNat + relSize r.type ≤ q.offset.toNat ∨ q.offset.toNat + relSize q.type ≤ r.offset.toNat := by
          obtain ⟨i, hi, ei⟩ := List.mem_iff_getElem.1 hr
          obtain ⟨j, hj, ej⟩ := List.mem_iff_getElem.1 hq
          rcases Nat.lt_trichotomy i j with hij | hij | hij
          · have := List.pairwise_iff_getElem.1 this i j hi hj hij
            rwa [ei, ej] at this
          · subst hij
            exact absurd (ei.symm.trans ej) hne
          · have := List.pairwise_iff_getElem.1 this j i hj hi hij
            rw [ei, ej] at this
            exact this.symm
        omega
      rw [hout, hf.2 k hk, hz]
      have e0 : ((0 : Int) % 256 ^ relSize r.type).toNat = 0 := by simp
      rw [e0]
      have : ∀ n, leBytes n 0 = List.replicate n 0 := by
        intro n
        induction n with
        | zero => rfl
        | succ n ih => rw [leBytes, ih]; rfl
      rw [this, List.getElem?_replicate, if_pos hk]
    · have hm : (r.offset.toNat, fieldBytes r) ∈ ws s.relocs :=
        List.mem_map.2 ⟨r, List.mem_filter.2 ⟨hr, by simpa using hz⟩, rfl⟩
      exact applyWrites_in _ hb hp hm (by rw [fieldBytes_length]; exact hk)
  · intro p hpo
    refine applyWrites_out _ hb ?_
    intro w hw
    obtain ⟨q, hq, hqz, rfl⟩ := ws_mem hw
    dsimp only
    rw [fieldBytes_length]
    exact hpo q hq

/-! ### Sections -/

/-- The flag of an alignment. -/
def flagOf (a : Nat) : BitVec 32 :=
  match alignFlag a with
  | .ok f => f
  | _ => 0

/-- The section in the file. -/
def sectOf (s : Section) : Sect :=
  { hdr := { name := pad8 (s.name.getD []), virtualSize := BitVec.ofNat 32 s.data.length, rawSize := BitVec.ofNat 32 s.data.length,
             nrel := BitVec.ofNat 16 s.relocs.length, chars := 0xE0000020 ||| flagOf s.alignment }
    data := dataOf s, relocs := s.relocs.map relOf }

theorem alignFlag_ok {a : Nat} (h : a = 0 ∨ ∃ k, k < 14 ∧ a = 2 ^ k) :
    alignFlag a = .ok (flagOf a) ∧ ∃ k, (0xE0000020 ||| flagOf a).toNat = 0xE0000020 + k * 2 ^ 20 ∧
      ((a = 0 ∧ k = 0) ∨ (0 < k ∧ k < 15 ∧ a = 2 ^ (k - 1))) := by
  rcases h with rfl | ⟨k, hk, rfl⟩
  · exact ⟨rfl, 0, by decide, .inl ⟨rfl, rfl⟩⟩
  · have : ∀ k < 14, alignFlag (2 ^ k) = .ok (flagOf (2 ^ k)) ∧ (0xE0000020 ||| flagOf (2 ^ k)).toNat = 0xE0000020 + (k + 1) * 2 ^ 20 := by
      decide +kernel
    exact ⟨(this k hk).1, k + 1, (this k hk).2, .inr ⟨by omega, by omega, by simp⟩⟩

theorem addSections_ok {o : Obj} (h : CoffSpec.Writable o) {strings : List Byte} : ∀ {ss : List Section}, (∀ s ∈ ss, s ∈ o.sections) →
    (∀ s ∈ ss, (s.name.getD []).length ≤ 8) → addSections ss strings = .ok (strings, ss.map sectOf) := by
  intro ss
  induction ss with
  | nil => intro _ _; rfl
  | cons s ss ih =>
    intro hm hn
    have hs := hm s (by simp)
    have hsn := hn s (by simp)
    have hname : sectName strings s.name = .ok (strings, pad8 (s.name.getD [])) := by
      cases hn : s.name with
      | none => rfl
      | some n =>
        rw [hn, Option.getD_some] at hsn
        rw [sectName, if_neg (by omega)]
        rfl
    have hnr : (BitVec.ofNat 16 s.relocs.length).toNat = s.relocs.length := by
      rw [BitVec.toNat_ofNat, Nat.mod_eq_of_lt (h.nrel s hs)]
    rw [addSections, (alignFlag_ok (h.align s hs)).1, Res.bind_ok, hname, Res.bind_ok]
    dsimp only
    rw [hnr, List.take_length, addRelocs_ok (h.add s hs) (fun r hr => (h.field s hs r hr).1) (h.dataSize s hs), Res.bind_ok,
      ih (fun t ht => hm t (by simp [ht])) (fun t ht => hn t (by simp [ht])), Res.bind_ok]
    rfl

/-! ### Symbols -/

/-- The strings after symbols. -/
def strs (base : List Byte) : List Symbol → List Byte
  | [] => base
  | y :: ys => strs (if 8 < (y.name.getD []).length then base ++ y.name.getD [] ++ [0] else base) ys

/-- The name of a symbol in the file. -/
def nameOf (base : List Byte) (y : Symbol) : List Byte :=
  if 8 < (y.name.getD []).length then List.replicate 4 0 ++ leBytes 4 (base.length + 4) else pad8 (y.name.getD [])

/-- The symbol in the file. -/
def symOf (base : List Byte) (y : Symbol) : Sym :=
  { name := nameOf base y, value := y.value.setWidth 32, sect := (match y.sect with | none => 0 | some s => BitVec.ofNat 16 (s + 1)),
    cls := if y.global then 2 else 3 }

/-- The symbols in the file. -/
def syms (base : List Byte) : List Symbol → List Sym
  | [] => []
  | y :: ys => symOf base y :: syms (if 8 < (y.name.getD []).length then base ++ y.name.getD [] ++ [0] else base) ys

theorem strs_length_le : ∀ (ys : List Symbol) (base : List Byte),
    base.length ≤ (strs base ys).length ∧ (strs base ys).length ≤ base.length + (ys.map fun y => (y.name.getD []).length + 1).sum := by
  intro ys
  induction ys with
  | nil => intro base; simp [strs]
  | cons y ys ih =>
    intro base
    rw [strs, List.map_cons, List.sum_cons]
    split
    · have := ih (base ++ y.name.getD [] ++ [0])
      simp only [List.length_append, List.length_singleton] at this
      omega
    · have := ih base
      omega

theorem strs_pre : ∀ (ys : List Symbol) (base : List Byte), ∃ post, strs base ys = base ++ post := by
  intro ys
  induction ys with
  | nil => intro base; exact ⟨[], by simp [strs]⟩
  | cons y ys ih =>
    intro base
    rw [strs]
    split
    · obtain ⟨p, hp⟩ := ih (base ++ y.name.getD [] ++ [0])
      exact ⟨y.name.getD [] ++ [0] ++ p, by rw [hp]; simp⟩
    · exact ih base

theorem strs_append : ∀ (ys zs : List Symbol) (base : List Byte), strs base (ys ++ zs) = strs (strs base ys) zs := by
  intro ys
  induction ys with
  | nil => intro zs base; rfl
  | cons y ys ih => intro zs base; rw [List.cons_append, strs, ih]; rfl

theorem symName_ok {strings : List Byte} {y : Symbol} (h : strings.length + 4 < 2 ^ 64) : symName strings y.name =
    .ok (if 8 < (y.name.getD []).length then strings ++ y.name.getD [] ++ [0] else strings, nameOf strings y) := by
  unfold nameOf
  cases hn : y.name with
  | none => rfl
  | some n =>
    rw [Option.getD_some, symName]
    by_cases hl : 8 < n.length
    · rw [if_pos hl, if_pos hl, if_pos hl]
      dsimp only
      rw [write32_eq _ _ _ (by simp), Res.bind_ok]
      simp only [register, BitVec.toNat_ofNat]
      rw [Nat.mod_eq_of_lt h]
      rfl
    · rw [if_neg hl, if_neg hl, if_neg hl]

theorem addSymbols_ok : ∀ {ys : List Symbol} {strings : List Byte}, (strs strings ys).length + 4 < 2 ^ 64 →
    addSymbols ys strings = .ok (strs strings ys, syms strings ys) := by
  intro ys
  induction ys with
  | nil => intro strings _; rfl
  | cons y ys ih =>
    intro strings h
    have h0 := (strs_length_le (y :: ys) strings).1
    rw [addSymbols, symName_ok (by omega), Res.bind_ok]
    dsimp only
    rw [strs] at h
    rw [ih h, Res.bind_ok]
    rfl

theorem syms_length : ∀ (ys : List Symbol) (base : List Byte), (syms base ys).length = ys.length := by
  intro ys
  induction ys with
  | nil => intro base; rfl
  | cons y ys ih => intro base; simp [syms, ih]

theorem syms_get : ∀ {ys : List Symbol} {base : List Byte} {i : Nat} {y : Symbol}, ys[i]? = some y →
    (syms base ys)[i]? = some (symOf (strs base (ys.take i)) y) := by
  intro ys
  induction ys with
  | nil => intro base i y h; cases h
  | cons x ys ih =>
    intro base i y h
    cases i with
    | zero =>
      simp only [List.getElem?_cons_zero, Option.some.injEq] at h
      subst h
      simp [syms, strs]
    | succ i =>
      have h : ys[i]? = some y := h
      rw [syms, List.take_succ_cons, strs]
      exact ih h

/-! ### Positions -/

/-- The room for a section. -/
def roomOf (c : Sect) : Nat := c.hdr.rawSize.toNat + 10 * c.hdr.nrel.toNat

theorem place_get : ∀ {cs : List Sect} {a : BitVec 32} {i : Nat} {c : Sect}, cs[i]? = some c →
    a.toNat + (cs.map roomOf).sum < 2 ^ 32 →
    ∃ p q : BitVec 32, (place cs a)[i]? = some { c with hdr := { c.hdr with rawPtr := p, relPtr := q } } ∧
      p.toNat = a.toNat + ((cs.take i).map roomOf).sum ∧ q.toNat = p.toNat + c.hdr.rawSize.toNat := by
  intro cs
  induction cs with
  | nil => intro a i c h; cases h
  | cons x cs ih =>
    intro a i c h hlt
    rw [List.map_cons, List.sum_cons] at hlt
    have hx : roomOf x = x.hdr.rawSize.toNat + 10 * x.hdr.nrel.toNat := rfl
    cases i with
    | zero =>
      simp only [List.getElem?_cons_zero, Option.some.injEq] at h
      subst h
      refine ⟨a, a + x.hdr.rawSize, rfl, by simp, ?_⟩
      rw [BitVec.toNat_add]
      omega
    | succ i =>
      have h : cs[i]? = some c := h
      have ha : (a + x.hdr.rawSize + BitVec.ofNat 32 (x.hdr.nrel.toNat * (4 + 4 + 2))).toNat = a.toNat + roomOf x := by
        rw [BitVec.toNat_add, BitVec.toNat_add, BitVec.toNat_ofNat]
        omega
      obtain ⟨p, q, h1, h2, h3⟩ := ih (a := a + x.hdr.rawSize + BitVec.ofNat 32 (x.hdr.nrel.toNat * (4 + 4 + 2))) h (by rw [ha]; omega)
      refine ⟨p, q, h1, ?_, h3⟩
      rw [h2, ha, List.take_succ_cons, List.map_cons, List.sum_cons]
      omega

theorem place_length : ∀ (cs : List Sect) (a : BitVec 32), (place cs a).length = cs.length := by
  intro cs
  induction cs with
  | nil => intro a; rfl
  | cons c cs ih => intro a; simp [place, ih]

theorem place_body {cs : List Sect} : ∀ {a : BitVec 32}, ((place cs a).map bodyBytes) = cs.map bodyBytes := by
  induction cs with
  | nil => intro a; rfl
  | cons c cs ih => intro a; rw [place, List.map_cons, List.map_cons, ih]; rfl

theorem at_flatMap {α : Type} {file : List Byte} {g : α → List Byte} : ∀ {l : List α} {p i : Nat} {a : α},
    At file p (l.map g).flatten → l[i]? = some a → At file (p + ((l.take i).map fun x => (g x).length).sum) (g a) := by
  intro l
  induction l with
  | nil => intro p i a _ h; cases h
  | cons x l ih =>
    intro p i a h hi
    obtain ⟨h1, h2⟩ := at_split (a := g x) (b := (l.map g).flatten) h
    cases i with
    | zero =>
      simp only [List.getElem?_cons_zero, Option.some.injEq] at hi
      subst hi
      exact at_off h1 (by simp)
    | succ i =>
      have hi : l[i]? = some a := hi
      refine at_off (ih h2 hi) ?_
      rw [List.take_succ_cons, List.map_cons, List.sum_cons]
      omega

theorem at_rows {α : Type} {file : List Byte} {g : α → List Byte} {n : Nat} {l : List α} (hg : ∀ a ∈ l, (g a).length = n)
    {p i : Nat} {a : α} (h : At file p (l.map g).flatten) (hi : l[i]? = some a) : At file (p + n * i) (g a) := by
  refine at_off (at_flatMap h hi) ?_
  have hlt : i < l.length := (List.getElem?_eq_some_iff.1 hi).1
  have : ((l.take i).map fun x => (g x).length) = List.replicate i n := by
    refine List.eq_replicate_iff.2 ⟨by simp; omega, ?_⟩
    intro b hb
    obtain ⟨x, hx, rfl⟩ := List.mem_map.1 hb
    exact hg x (List.mem_of_mem_take hx)
  rw [this]
  simp [Nat.mul_comm]

theorem rows_length {α : Type} {g : α → List Byte} {n : Nat} : ∀ {l : List α} (_ : ∀ a ∈ l, (g a).length = n),
    ((l.map g).flatten).length = n * l.length := by
  intro l
  induction l with
  | nil => intro _; rfl
  | cons a l ih =>
    intro h
    rw [List.map_cons, List.flatten_cons, List.length_append, h a (by simp), ih (fun b hb => h b (by simp [hb])), List.length_cons]
    rw [Nat.mul_add]
    omega

/-! ### The file -/

theorem pad8_length {n : Name} (h : n.length ≤ 8) : (pad8 n).length = 8 := by
  unfold pad8
  simp only [List.length_append, List.length_take, List.length_replicate]
  omega

theorem nameOf_length (base : List Byte) (y : Symbol) : (nameOf base y).length = 8 := by
  unfold nameOf
  split
  · simp
  · exact pad8_length (by omega)

theorem syms_name : ∀ {ys : List Symbol} {base : List Byte}, ∀ z ∈ syms base ys, z.name.length = 8 := by
  intro ys
  induction ys with
  | nil => intro base z h; cases h
  | cons y ys ih =>
    intro base z h
    rw [syms] at h
    rcases List.mem_cons.1 h with rfl | h
    · exact nameOf_length base y
    · exact ih z h

/-- The file before the positions are known. -/
def fileOf (o : Obj) : File :=
  { nsect := BitVec.ofNat 16 o.sections.length, nsym := BitVec.ofNat 32 o.symbols.length, sections := o.sections.map sectOf
    symbols := syms [0] o.symbols, strings := strs [0] o.symbols }

/-- The room for the sections of an object. -/
def room (ss : List Section) : Nat := (ss.map fun s => s.data.length + 10 * s.relocs.length).sum

/-- Where the contents of a section are. -/
def rawOf (o : Obj) (i : Nat) : Nat :=
  20 + 40 * o.sections.length + 18 * o.symbols.length + 4 + (strs [0] o.symbols).length + room (o.sections.take i)

theorem small_strs {o : Obj} (h : CoffSpec.Writable o) :
    20 + 40 * o.sections.length + 18 * o.symbols.length + 4 + (strs [0] o.symbols).length + room o.sections < 2 ^ 32 := by
  have := h.small
  have h1 := (strs_length_le o.symbols [0]).2
  simp only [List.length_singleton] at h1
  unfold room
  omega

theorem coffFromObject_ok {o : Obj} (h : CoffSpec.Writable o) (hn : ∀ s ∈ o.sections, (s.name.getD []).length ≤ 8) :
    coffFromObject o = .ok (fileOf o) := by
  have hs := small_strs h
  have h1 := h.nsect
  have e1 : (BitVec.ofNat 16 o.sections.length).toNat = o.sections.length := by
    rw [BitVec.toNat_ofNat, Nat.mod_eq_of_lt (by omega)]
  have e2 : (BitVec.ofNat 32 o.symbols.length).toNat = o.symbols.length := by
    rw [BitVec.toNat_ofNat, Nat.mod_eq_of_lt (by omega)]
  unfold coffFromObject
  dsimp only
  rw [e1, e2, List.take_length, List.take_length, addSections_ok h (fun s hs => hs) hn, Res.bind_ok]
  dsimp only
  rw [show (register [] []).1 = [0] from rfl, addSymbols_ok (by omega), Res.bind_ok]
  rfl

theorem sectOf_room {o : Obj} (h : CoffSpec.Writable o) {s : Section} (hs : s ∈ o.sections) :
    roomOf (sectOf s) = s.data.length + 10 * s.relocs.length ∧ (sectOf s).hdr.rawSize.toNat = s.data.length ∧
      (sectOf s).hdr.nrel.toNat = s.relocs.length := by
  have h1 := h.nrel s hs
  have h2 := h.dataSize s hs
  have e1 : (BitVec.ofNat 16 s.relocs.length).toNat = s.relocs.length := by
    rw [BitVec.toNat_ofNat, Nat.mod_eq_of_lt (by omega)]
  have e2 : (BitVec.ofNat 32 s.data.length).toNat = s.data.length := by
    rw [BitVec.toNat_ofNat, Nat.mod_eq_of_lt (by omega)]
  refine ⟨?_, e2, e1⟩
  unfold roomOf sectOf
  dsimp only
  rw [e1, e2]

theorem room_map {o : Obj} (h : CoffSpec.Writable o) : ∀ {ss : List Section}, (∀ s ∈ ss, s ∈ o.sections) →
    ((ss.map sectOf).map roomOf).sum = room ss := by
  intro ss
  induction ss with
  | nil => intro _; rfl
  | cons s ss ih =>
    intro hm
    unfold room at *
    rw [List.map_cons, List.map_cons, List.map_cons, List.sum_cons, List.sum_cons, (sectOf_room h (hm s (by simp))).1,
      ih (fun t ht => hm t (by simp [ht]))]

theorem relocBytes_length (r : Rel) : (relocBytes r).length = 10 := by simp [relocBytes]

theorem body_length {o : Obj} (h : CoffSpec.Writable o) {s : Section} (hs : s ∈ o.sections) :
    (bodyBytes (sectOf s)) = dataOf s ++ ((s.relocs.map relOf).map relocBytes).flatten ∧
      (bodyBytes (sectOf s)).length = s.data.length + 10 * s.relocs.length := by
  have hd := (dataOf_isData h hs).length
  have e : bodyBytes (sectOf s) = dataOf s ++ ((s.relocs.map relOf).map relocBytes).flatten := by
    unfold bodyBytes
    rw [(sectOf_room h hs).2.1]
    show (dataOf s).take s.data.length ++ _ = _
    rw [← hd, List.take_length]
    rfl
  refine ⟨e, ?_⟩
  rw [e, List.length_append, hd, rows_length (n := 10) (fun a _ => relocBytes_length a)]
  simp

theorem bodies_length {o : Obj} (h : CoffSpec.Writable o) : ∀ {ss : List Section}, (∀ s ∈ ss, s ∈ o.sections) →
    (((ss.map sectOf).map fun c => (bodyBytes c).length)).sum = room ss := by
  intro ss
  induction ss with
  | nil => intro _; rfl
  | cons s ss ih =>
    intro hm
    unfold room at *
    rw [List.map_cons, List.map_cons, List.map_cons, List.sum_cons, List.sum_cons, (body_length h (hm s (by simp))).2,
      ih (fun t ht => hm t (by simp [ht]))]

theorem flatten_length' {l : List (List Byte)} : l.flatten.length = (l.map List.length).sum := List.length_flatten

end Verif.Coff
