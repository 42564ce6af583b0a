import Verif.CoffLemmas
/-!
The parts of a COFF file at their places.
-/
namespace Verif.Coff
open Verif Verif.Object Verif.Bytes Verif.ElfSpec Verif.CoffSpec Verif.Elf Verif.Linker

theorem num_byte {file : List Byte} {off off' : Nat} {w : BitVec 8} {v : Nat} (h : At file off (fileByte w))
    (e : off = off') (hv : w.toNat = v) : Num file off' 1 v := by
  subst e hv
  refine ⟨w.isLt, ?_⟩
  have : leBytes 1 w.toNat = fileByte w := by
    unfold leBytes leBytes fileByte
    rw [BitVec.ofNat_toNat, BitVec.setWidth_eq]
  rw [this]
  exact h

theorem short_name {file : List Byte} {p q : Nat} {n : Name} (h : At file p (pad8 n)) (hn : n.length ≤ 8) (e : p = q) :
    ShortName file q n := by
  subst e
  refine ⟨hn, ?_⟩
  unfold pad8 at h
  rwa [List.take_of_length_le hn] at h

/-- The addresses that `coff_allocate` computes. -/
theorem allocate_eq {o : Obj} (h : CoffSpec.Writable o) : ∃ (p a : BitVec 32),
    allocate (fileOf o) = { fileOf o with symPtr := p, sections := place (o.sections.map sectOf) a } ∧
    p.toNat = 20 + 40 * o.sections.length ∧ a.toNat = rawOf o 0 := by
  have hs := small_strs h
  have h1 := h.nsect
  have e1 : (BitVec.ofNat 16 o.sections.length).toNat = o.sections.length := by
    rw [BitVec.toNat_ofNat, Nat.mod_eq_of_lt (by omega)]
  refine ⟨_, _, rfl, ?_, ?_⟩
  · rw [BitVec.toNat_add, BitVec.toNat_ofNat, BitVec.toNat_ofNat]
    show (5 * 4 % 2 ^ 32 + (8 + 8 * 4) * (BitVec.ofNat 16 o.sections.length).toNat % 2 ^ 32) % 2 ^ 32 = _
    rw [e1]
    omega
  · rw [BitVec.toNat_add, BitVec.toNat_add, BitVec.toNat_add, BitVec.toNat_mul, BitVec.toNat_ofNat, BitVec.toNat_ofNat,
      BitVec.toNat_ofNat, BitVec.toNat_ofNat]
    show (((5 * 4 % 2 ^ 32 + (8 + 8 * 4) * (BitVec.ofNat 16 o.sections.length).toNat % 2 ^ 32) % 2 ^ 32 +
      (8 + 4 + 2 + 2 + 1 + 1) % 2 ^ 32 * (BitVec.ofNat 32 o.symbols.length).toNat % 2 ^ 32) % 2 ^ 32 +
      (4 + (strs [0] o.symbols).length) % 2 ^ 32) % 2 ^ 32 = _
    rw [e1, BitVec.toNat_ofNat]
    unfold rawOf room
    simp only [List.take_zero, List.map_nil, List.sum_nil]
    omega

theorem rawOf_le {o : Obj} (i : Nat) : rawOf o i ≤ 20 + 40 * o.sections.length + 18 * o.symbols.length + 4 + (strs [0] o.symbols).length + room o.sections := by
  have : room o.sections = room (o.sections.take i) + room (o.sections.drop i) := by
    unfold room
    rw [← List.sum_append, ← List.map_append, List.take_append_drop]
  unfold rawOf
  omega

theorem room_take {ss : List Section} {i : Nat} {s : Section} (h : ss[i]? = some s) :
    room (ss.take (i + 1)) = room (ss.take i) + s.data.length + 10 * s.relocs.length := by
  unfold room
  rw [List.take_add_one, h]
  simp only [Option.toList_some, List.map_append, List.sum_append, List.map_cons, List.map_nil, List.sum_cons, List.sum_nil]
  omega

theorem symbols_at {o : Obj} (h : CoffSpec.Writable o) {file : List Byte} {p q : Nat}
    (hy : At file p ((syms [0] o.symbols).map symbolBytes).flatten) (hs : At file (q + 4) (strs [0] o.symbols)) {i : Nat} {y : Symbol}
    (hi : o.symbols[i]? = some y) : IsSymbol file q (p + 18 * i) y := by
  have hsm := small_strs h
  have hm := List.mem_of_getElem? hi
  have hlen : ∀ z ∈ syms [0] o.symbols, (symbolBytes z).length = 18 := by
    intro z hz
    have := syms_name z hz
    simp [symbolBytes, this, fileByte]
  have hat := at_rows hlen hy (syms_get hi)
  unfold symbolBytes symOf at hat
  dsimp only at hat
  obtain ⟨hat, haux⟩ := at_split hat
  obtain ⟨hat, hcls⟩ := at_split hat
  obtain ⟨hat, htype⟩ := at_split hat
  obtain ⟨hat, hsect⟩ := at_split hat
  obtain ⟨hname, hvalue⟩ := at_split hat
  simp only [List.length_append, nameOf_length, fileLong_length, fileWord_length] at haux hcls htype hsect hvalue
  have hns := h.nsect
  refine ⟨?_, num_long hvalue (by omega) ?_, num_word hsect (by omega) ?_, num_word htype (by omega) (by decide), num_byte hcls (by omega) ?_,
    num_byte haux (by simp [fileByte]) (by decide)⟩
  · unfold nameOf at hname
    by_cases hl : 8 < (y.name.getD []).length
    · rw [if_pos hl] at hname
      obtain ⟨h0, h1⟩ := at_split hname
      simp only [List.length_replicate] at h1
      refine .inr ⟨hl, ⟨by decide, h0⟩, (strs [0] (o.symbols.take i)).length + 4, ⟨?_, h1⟩, ?_⟩
      · have : (strs [0] (o.symbols.take i)).length ≤ (strs [0] o.symbols).length := by
          have e : strs [0] o.symbols = strs (strs [0] (o.symbols.take i)) (o.symbols.drop i) := by
            rw [← strs_append, List.take_append_drop]
          rw [e]
          exact (strs_length_le _ _).1
        omega
      · have e : strs [0] o.symbols = strs (strs [0] (o.symbols.take i)) (o.symbols.drop i) := by
          rw [← strs_append, List.take_append_drop]
        have hd : o.symbols.drop i = y :: o.symbols.drop (i + 1) := by
          obtain ⟨hlt, he⟩ := List.getElem?_eq_some_iff.1 hi
          rw [← he]
          exact List.drop_eq_getElem_cons hlt
        rw [hd, strs, if_pos hl] at e
        obtain ⟨post, hp⟩ := strs_pre (o.symbols.drop (i + 1)) (strs [0] (o.symbols.take i) ++ y.name.getD [] ++ [0])
        rw [hp] at e
        rw [e, List.append_assoc (strs [0] (o.symbols.take i))] at hs
        have := (at_split (at_split hs).1).2
        exact at_off this (by omega)
    · rw [if_neg hl] at hname
      exact .inl (short_name hname (by omega) rfl)
  · rw [BitVec.toNat_setWidth, Nat.mod_eq_of_lt (h.value y hm)]
  · cases hsc : y.sect with
    | none => rfl
    | some s =>
      have := h.sect y hm s hsc
      simp only [BitVec.toNat_ofNat]
      rw [Nat.mod_eq_of_lt (by omega)]
  · cases y.global <;> rfl

theorem relocs_at {o : Obj} (h : CoffSpec.Writable o) {file : List Byte} {p : Nat} {s : Section} (hs : s ∈ o.sections)
    (hr : At file p ((s.relocs.map relOf).map relocBytes).flatten) {j : Nat} {r : Relocation} (hj : s.relocs[j]? = some r) :
    IsRel file (p + 10 * j) r := by
  have hsm := small_strs h
  have hm := List.mem_of_getElem? hj
  have hat := at_rows (n := 10) (a := relOf r) (i := j) (fun a _ => relocBytes_length a) hr (by rw [List.getElem?_map, hj]; rfl)
  unfold relocBytes relOf at hat
  dsimp only at hat
  obtain ⟨hat, htype⟩ := at_split hat
  obtain ⟨hva, hsym⟩ := at_split hat
  simp only [List.length_append, fileLong_length] at htype hsym
  have h1 := (h.field s hs r hm).1
  have h2 := h.dataSize s hs
  have h3 := h.index s hs r hm
  refine ⟨num_long hva rfl ?_, num_long hsym (by omega) ?_, num_word htype (by omega) ?_⟩
  · rw [BitVec.toNat_setWidth, Nat.mod_eq_of_lt (by omega)]
  · rw [BitVec.toNat_ofNat, Nat.mod_eq_of_lt (by omega)]
  · cases r.type <;> rfl

theorem file_isCoff {o : Obj} (h : CoffSpec.Writable o) (hn : ∀ s ∈ o.sections, (s.name.getD []).length ≤ 8) :
    ∃ file, writeObject o = .ok file ∧ IsCoff o file (strs [0] o.symbols).length (rawOf o) := by
  have hsm := small_strs h
  have hns := h.nsect
  have e1 : (BitVec.ofNat 16 o.sections.length).toNat = o.sections.length := by
    rw [BitVec.toNat_ofNat, Nat.mod_eq_of_lt (by omega)]
  have e2 : (BitVec.ofNat 32 o.symbols.length).toNat = o.symbols.length := by
    rw [BitVec.toNat_ofNat, Nat.mod_eq_of_lt (by omega)]
  obtain ⟨sp, a, hall, hsp, ha⟩ := allocate_eq h
  refine ⟨_, by unfold writeObject; rw [coffFromObject_ok h hn, Res.bind_ok], ?_⟩
  rw [hall]
  generalize hF : coffWrite _ = file
  have hfile : At file 0 file := ⟨by omega, by simp⟩
  unfold coffWrite at hF
  dsimp only [fileOf] at hF
  have hfile : ∀ bs, bs = file → At file 0 bs := by intro bs e; rw [e]; exact hfile
  have hfile := hfile _ hF
  obtain ⟨hfile, hbody⟩ := at_split hfile
  obtain ⟨hfile, hstr⟩ := at_split hfile
  obtain ⟨hfile, hstrl⟩ := at_split hfile
  obtain ⟨hfile, hsyms⟩ := at_split hfile
  obtain ⟨hhdr, hsecs⟩ := at_split hfile
  have hsecl : ∀ c ∈ place (o.sections.map sectOf) a, (sectionHeaderBytes c).length = 40 := by
    intro c hc
    obtain ⟨i, hi⟩ := List.mem_iff_getElem?.1 hc
    have hlt := (List.getElem?_eq_some_iff.1 hi).1
    rw [place_length] at hlt
    have hg := List.getElem?_eq_getElem hlt
    rw [List.getElem?_map] at hg
    obtain ⟨s, hs, hse⟩ := Option.map_eq_some_iff.1 hg
    obtain ⟨p, q, h1, -, -⟩ := place_get (a := a) (cs := o.sections.map sectOf) (i := i) (c := sectOf s)
      (by rw [List.getElem?_map, hs]; rfl) (by rw [room_map h (fun _ hs => hs), ha]; unfold rawOf room at *; simp at *; omega)
    rw [hi, Option.some.injEq] at h1
    rw [h1]
    have := pad8_length (hn s (List.mem_of_getElem? hs))
    simp [sectionHeaderBytes, sectOf, this]
  have hsyml : ∀ z ∈ syms [0] o.symbols, (symbolBytes z).length = 18 := by
    intro z hz
    have := syms_name z hz
    simp [symbolBytes, this, fileByte]
  have lh : ∀ f : File, (headerBytes f).length = 20 := by intro f; simp [headerBytes]
  have ls := rows_length hsecl
  have ly := rows_length hsyml
  rw [place_length, List.length_map] at ls
  rw [syms_length] at ly
  simp only [List.length_append, lh, ls, ly, fileLong_length, Nat.zero_add] at hbody hstr hstrl hsyms hsecs
  have hflen : file.length = rawOf o o.sections.length := by
    rw [← hF]
    simp only [List.length_append, lh, ls, ly, fileLong_length]
    rw [place_body, List.length_flatten, List.map_map]
    have := bodies_length h (ss := o.sections) (fun _ hs => hs)
    have e : (List.map (List.length ∘ bodyBytes) (List.map sectOf o.sections)).sum = room o.sections := this
    rw [e]
    unfold rawOf
    rw [List.take_length]
  unfold headerBytes at hhdr
  dsimp only at hhdr
  obtain ⟨hhdr, c7⟩ := at_split hhdr
  obtain ⟨hhdr, c6⟩ := at_split hhdr
  obtain ⟨hhdr, c5⟩ := at_split hhdr
  obtain ⟨hhdr, c4⟩ := at_split hhdr
  obtain ⟨hhdr, c3⟩ := at_split hhdr
  obtain ⟨c1, c2⟩ := at_split hhdr
  simp only [List.length_append, fileLong_length, fileWord_length] at c2 c3 c4 c5 c6 c7
  refine ⟨num_word c1 rfl (by decide), num_word c2 (by omega) e1, num_long c3 (by omega) (by decide), num_long c4 (by omega) hsp,
    num_long c5 (by omega) e2, num_word c6 (by omega) (by decide), num_word c7 (by omega) (by decide), ?_, ?_, ?_, ?_, ?_, hflen⟩
  · intro i s hi
    have hm := List.mem_of_getElem? hi
    have hci : (o.sections.map sectOf)[i]? = some (sectOf s) := by rw [List.getElem?_map, hi]; rfl
    obtain ⟨p, q, h1, hp, hq⟩ := place_get (a := a) hci
      (by rw [room_map h (fun _ hs => hs), ha]; unfold rawOf room at *; simp at *; omega)
    rw [← List.map_take, room_map h (fun t ht => List.mem_of_mem_take ht), ha] at hp
    have hp : p.toNat = rawOf o i := by
      rw [hp]
      unfold rawOf room
      simp
    rw [(sectOf_room h hm).2.1, hp] at hq
    have hat := at_rows hsecl hsecs h1
    unfold sectionHeaderBytes at hat
    dsimp only at hat
    obtain ⟨hat, d10⟩ := at_split hat
    obtain ⟨hat, d9⟩ := at_split hat
    obtain ⟨hat, d8⟩ := at_split hat
    obtain ⟨hat, d7⟩ := at_split hat
    obtain ⟨hat, d6⟩ := at_split hat
    obtain ⟨hat, d5⟩ := at_split hat
    obtain ⟨hat, d4⟩ := at_split hat
    obtain ⟨hat, d3⟩ := at_split hat
    obtain ⟨d1, d2⟩ := at_split hat
    have en : (sectOf s).hdr.name.length = 8 := pad8_length (hn s hm)
    simp only [List.length_append, fileLong_length, fileWord_length, en] at d2 d3 d4 d5 d6 d7 d8 d9 d10
    obtain ⟨hal, k, hk1, hk2⟩ := alignFlag_ok (h.align s hm)
    have hb := at_flatMap (g := bodyBytes) hbody h1
    have hb : At file (rawOf o i) (bodyBytes (sectOf s)) := by
      refine at_off hb ?_
      have e : ((place (o.sections.map sectOf) a).take i).map (fun x => (bodyBytes x).length) =
          ((o.sections.take i).map sectOf).map (fun x => (bodyBytes x).length) := by
        have e0 := congrArg (fun l => (l.map List.length).take i) (place_body (cs := o.sections.map sectOf) (a := a))
        rw [List.map_map, List.map_map, ← List.map_take, ← List.map_take, ← List.map_take] at e0
        exact e0
      rw [e, bodies_length h (fun t ht => List.mem_of_mem_take ht)]
      unfold rawOf
      omega
    rw [(body_length h hm).1] at hb
    obtain ⟨hb1, hb2⟩ := at_split hb
    rw [(dataOf_isData h hm).length] at hb2
    exact ⟨.inl (short_name d1 (hn s hm) rfl), num_long d2 (by omega) (sectOf_room h hm).2.1, num_long d3 (by omega) (by decide),
      num_long d4 (by omega) (sectOf_room h hm).2.1, num_long d5 (by omega) hp, num_long d6 (by omega) hq, num_long d7 (by omega) (by decide),
      num_word d8 (by omega) (sectOf_room h hm).2.2, num_word d9 (by omega) (by decide), ⟨k, num_long d10 (by omega) hk1, hk2⟩,
      ⟨dataOf s, dataOf_isData h hm, hb1⟩, fun j r hj => relocs_at h hm hb2 hj⟩
  · intro i y hi
    exact symbols_at h hsyms (at_off hstr (by omega)) hi
  · refine num_long hstrl (by omega) ?_
    rw [BitVec.toNat_ofNat, Nat.mod_eq_of_lt (by omega)]
    omega
  · unfold rawOf room
    simp
  · intro i s hi
    unfold rawOf
    rw [room_take hi]
    omega

end Verif.Coff
