import Verif.ObjectNameLemmas
/-!
Properties C45, C46 and C47: the object under construction, symbols and label names, and string
constants (src/linker/object.c, src/codegen/rodata.c).
-/
namespace Verif.Object
open Verif Verif.ObjectSpec

/-! ### C45 -/

/-- C45.  Any sequence of assembler calls whose labels have names succeeds, and the finished object
shows the view of the calls: the content of a section is everything emitted while it was current, in
order; a symbol is where it was defined last; references keep their place, kind, addend and name;
positions are padded with the fewest zeros that align them. -/
theorem object_accumulates {es : List Entry} {ops : List Op} {calls : List Call} (h : CallsOf es ops calls) :
    ∃ o, run es objectStart ops = .ok o ∧ Shows (objectFinish o) (view calls) := by
  obtain ⟨o, e, hg⟩ := good_run good_start h
  refine ⟨o, e, hg.1.1, ?_, hg.1.3, ?_, ?_, ?_⟩
  · intro s hs
    obtain ⟨n, h1, h2, h3, h4⟩ := hg.1.2 s hs
    refine ⟨n, h1, h2, refsOf_mono ?_ h3, h4⟩
    intro i y hy
    refine ⟨_, by show (o.symbols.map _)[i]? = _; rw [List.getElem?_map, hy]; rfl, ?_⟩
    dsimp only
    split <;> rfl
  · refine List.pairwise_map.2 (hg.1.4.imp ?_)
    intro a b hab
    split <;> split <;> exact hab
  · intro s hs
    obtain ⟨y, hy, rfl⟩ := List.mem_map.1 hs
    obtain ⟨n, h1, h2⟩ := hg.1.5 y hy
    refine ⟨n, by split <;> exact h1, ?_⟩
    show DefOf o.sections _ _
    cases hd : (view calls).defs n with
    | none =>
      have h2 : DefOf _ _ ((view calls).defs n) := h2
      rw [hd] at h2
      have h2 : y.sect = none := h2
      rw [if_pos h2]
      exact h2
    | some d =>
      have h2 : DefOf _ _ ((view calls).defs n) := h2
      rw [hd] at h2
      obtain ⟨i, t, k1, k2⟩ := h2
      rw [if_neg (by rw [k1]; simp)]
      exact ⟨i, t, k1, k2⟩
  · intro n hn
    obtain ⟨s, hs, h1⟩ := hg.1.6 n hn
    refine ⟨_, List.mem_map.2 ⟨s, hs, rfl⟩, ?_⟩
    split <;> exact h1

/-- Calls for a function and a variable that refers to it. -/
def sampleOps : List Op :=
  [.write [0x90], .align 16, .label true 0, .write [0xc3], .sect (str ".data"), .align 8, .label true 1,
   .reloc 0 0 5 .r64, .quad 0, .sect (str ".text"), .write [0x90]]

example : CallsOf [⟨.labelName, str "main"⟩, ⟨.labelName, str "x"⟩] sampleOps
    [.emit [0x90], .align 16, .define (str "main") true, .emit [0xc3], .sect (str ".data"), .align 8,
     .define (str "x") true, .refer ⟨.r64, str "main", 0, 5⟩, .emit (quadBytes 0), .sect (str ".text"),
     .emit [0x90]] :=
  ⟨rfl, ⟨rfl, by decide⟩, ⟨_, rfl, by decide, rfl⟩, rfl, rfl, ⟨rfl, by decide⟩, ⟨_, rfl, by decide, rfl⟩,
   ⟨_, rfl, by decide, rfl⟩, rfl, rfl, rfl, trivial⟩

/-- C45, alignment of positions: after an alignment request the position in the current section is a
multiple of it, and fewer than that many bytes were added. -/
theorem align_position (v : View) (n : Nat) (hn : 0 < n) :
    ((ObjectSpec.step v (.align n)).content v.cur).length % n = 0 ∧
    ((ObjectSpec.step v (.align n)).content v.cur).length < (v.content v.cur).length + n := by
  show (upd v.content v.cur _ v.cur).length % n = 0 ∧ (upd v.content v.cur _ v.cur).length < _
  rw [upd_same, List.length_append, List.length_replicate, padding]
  split
  · next h => rw [Nat.add_zero]; exact ⟨h, by omega⟩
  · next h =>
    have hlt := Nat.mod_lt (v.content v.cur).length hn
    refine ⟨?_, by omega⟩
    have h1 := Nat.div_add_mod (v.content v.cur).length n
    rw [show (v.content v.cur).length + (n - (v.content v.cur).length % n)
      = n * ((v.content v.cur).length / n) + n by omega, Nat.add_mod_right, Nat.mul_mod_right]

/-- C45, alignment of sections, restricted: the largest request in every section is made at a
position that is not aligned to it yet.  The full statement has no `hpad`. -/
theorem section_alignment_partial {es : List Entry} {ops : List Op} {calls : List Call} (h : CallsOf es ops calls)
    (hpad : ∀ n, (view calls).pad n = (view calls).req n) :
    ∃ o, run es objectStart ops = .ok o ∧ Aligned (objectFinish o) (view calls) := by
  obtain ⟨o, e, hs⟩ := object_accumulates h
  refine ⟨o, e, ?_⟩
  intro s hmem n hn
  obtain ⟨m, h1, _, _, h4⟩ := hs.2 s hmem
  rw [hn] at h1
  injection h1 with h1
  subst h1
  rw [h4, hpad]
  exact Nat.le_refl _

example : (view [.emit [0x90], .align 16]).pad (str ".text") = 16 ∧
    (view [.emit [0x90], .align 16]).req (str ".text") = 16 := by decide

/-- C45 fails for section alignment: a request at the start of a section (as for the first variable
of `.data`) leaves the section with alignment 0. -/
theorem section_alignment_violated :
    ∃ ops calls o, CallsOf [] ops calls ∧ run [] objectStart ops = .ok o ∧
      ¬ Aligned (objectFinish o) (view calls) := by
  refine ⟨[.sect (str ".data"), .align 16, .write [1]], [.sect (str ".data"), .align 16, .emit [1]],
    ⟨[⟨some (str ".text"), 0, [], []⟩, ⟨some (str ".data"), 0, [1], []⟩], [], 1⟩,
    ⟨rfl, ⟨rfl, by decide⟩, rfl, trivial⟩, by decide, ?_⟩
  intro h
  exact absurd (h ⟨some (str ".data"), 0, [1], []⟩ (by decide) (str ".data") rfl) (by decide)

/-! ### C46 -/

/-- C46, symbols: two references to labels, with any calls in between, get the same symbol exactly
if the labels have the same name. -/
theorem symbols_interned {es : List Entry} {ops₁ ops₂ : List Op} {o o₁ o₂ o₃ : Obj} {id₁ id₂ : Int} {n₁ n₂ : Name}
    {i j : Nat} (hops : ∀ op ∈ ops₁ ++ ops₂, OpOk op) (h₁ : id₁ ≠ -1) (h₂ : id₂ ≠ -1)
    (hrun : run es objectStart ops₁ = .ok o) (hn₁ : getLabel es id₁ = .ok n₁) (hi : getSymbol es o id₁ = .ok (o₁, i))
    (hrun₂ : run es o₁ ops₂ = .ok o₂) (hn₂ : getLabel es id₂ = .ok n₂) (hj : getSymbol es o₂ id₂ = .ok (o₃, j)) :
    i = j ↔ n₁ = n₂ := by
  obtain ⟨_, p1⟩ := keeps_run (fun op h => hops op (by simp [h])) (List.Pairwise.nil) hrun
  obtain ⟨_, p2, s, hs, hsn⟩ := getSymbol_spec p1 h₁ hn₁ hi
  obtain ⟨k2, p3⟩ := keeps_run (fun op h => hops op (by simp [h])) p2 hrun₂
  obtain ⟨k3, p4, t, ht, htn⟩ := getSymbol_spec p3 h₂ hn₂ hj
  obtain ⟨u, hu, hun⟩ := (k2.trans k3) i s hs
  constructor
  · rintro rfl
    rw [hu] at ht
    injection ht with ht
    subst ht
    rw [hun, hsn] at htn
    injection htn
  · rintro rfl
    exact pairwise_idx p4 hu ht (by rw [hun, hsn, htn])

/-- Two labels. -/
def sampleEntries : List Entry := [⟨.labelName, str "main"⟩, ⟨.str, str "hi"⟩]

/-- The first reference to a label of these entries. -/
def sampleObj : Obj := match getSymbol sampleEntries objectStart 0 with
  | .ok (o, _) => o
  | _ => {}

example : run sampleEntries objectStart [] = .ok objectStart ∧ getLabel sampleEntries 0 = .ok (str "main") ∧
    getSymbol sampleEntries objectStart 0 = .ok (sampleObj, 0) ∧
    (∃ o, run sampleEntries sampleObj [.label true 0, .reloc 0 0 0 .r32rel] = .ok o) ∧
    getLabel sampleEntries 1 = .ok (str ".Ls1") :=
  ⟨rfl, by decide +kernel, by decide +kernel, ⟨_, rfl⟩, by decide +kernel⟩

/-- C46, names of labels: after registering any strings and any label names (identifiers, and the
names of static variables in block scope), two labels with the same name are the same label. -/
theorem label_names_distinct {reqs : List (EntryType × Name)}
    (hreqs : ∀ r ∈ reqs, r.1 = .labelName → LabelName r.2) {i j : Int} {n : Name}
    (hi : getLabel (registered [] reqs) i = .ok n) (hj : getLabel (registered [] reqs) j = .ok n) : i = j := by
  obtain ⟨h1, _, h3⟩ := registered_spec reqs (es := []) List.Pairwise.nil
  refine getLabel_inj h1 ?_ hi hj
  intro e he ht
  rcases h3 e he with he | he
  · cases he
  · exact hreqs _ he ht

example : (∀ r ∈ [(EntryType.str, str "a"), (.labelName, str "main"), (.labelName, localVarName 3 (str "x"))],
    r.1 = .labelName → LabelName r.2) ∧
    getLabel (registered [] [(.str, str "a"), (.labelName, str "main"), (.labelName, localVarName 3 (str "x"))]) 2
      = .ok (str ".LVAR3x") := by
  refine ⟨?_, by decide +kernel⟩
  intro r hr ht
  simp only [List.mem_cons, List.not_mem_nil, or_false] at hr
  rcases hr with rfl | rfl | rfl
  · cases ht
  · exact .inl ⟨by decide, by decide, by decide⟩
  · exact .inr ⟨3, str "x", ⟨by decide, by decide, by decide⟩, rfl⟩

/-- C46, names of labels: a static variable in block scope has its own label for every number and
every name. -/
theorem local_names_distinct {m n : Nat} {a b : Name} (ha : Ident a) (hb : Ident b) :
    localVarName m a = localVarName n b ↔ m = n ∧ a = b :=
  ⟨localVarName_inj ha hb, by rintro ⟨rfl, rfl⟩; rfl⟩

example : Ident (str "x") ∧ Ident (str "x1") ∧ localVarName 1 (str "x") ≠ localVarName 11 (str "x1") :=
  ⟨⟨by decide, by decide, by decide⟩, ⟨by decide, by decide, by decide⟩, by decide +kernel⟩

/-- A limit: a label name of 64 characters stops the compiler (identifiers have at
least 63 significant characters inside, 31 outside of a translation unit, but longer ones are valid). -/
theorem long_name_rejected :
    LabelName (List.replicate 64 (ch 'a')) ∧
    getLabel (registered [] [(.labelName, List.replicate 64 (ch 'a'))]) 0 = .fail :=
  ⟨.inl ⟨by decide, by decide, by decide⟩, by decide +kernel⟩

/-! ### C47 -/

/-- C47, interning: after any registrations, two strings get the same label exactly if they are
equal, whatever is registered in between. -/
theorem strings_interned (reqs₁ reqs₂ : List (EntryType × Name)) (s t : Name) :
    let r₁ := labelRegister (registered [] reqs₁) .str s
    let r₂ := labelRegister (registered r₁.1 reqs₂) .str t
    r₁.2 = r₂.2 ↔ s = t := by
  obtain ⟨h1, _, _⟩ := registered_spec reqs₁ (es := []) List.Pairwise.nil
  obtain ⟨k1, k2, k3, _⟩ := labelRegister_spec h1 .str s
  obtain ⟨l1, l2, _⟩ := registered_spec reqs₂ k1
  obtain ⟨m1, m2, m3, _⟩ := labelRegister_spec l1 .str t
  have hs := prefix_idx (l2.trans m3) k2
  constructor
  · intro h
    rw [h, m2] at hs
    injection hs with hs
    injection hs with _ hs
    exact hs.symm
  · rintro rfl
    exact pairwise_idx (f := fun x => x) m1 hs m2 rfl

/-- C47, content: in the view of calls that contain `rodata_codegen` once and define no string label
themselves, the label of every registered string is local and in `.rodata`, where exactly the
string's bytes and a NUL are.  (`object_accumulates` carries views over to objects.) -/
theorem strings_emitted {es : List Entry} (hlen : es.length ≤ 2 ^ 31) {pre post : List Op} {cpre cpost : List Call}
    (hpre : CallsOf es pre cpre) (hpost : CallsOf es post cpost) {k : Nat} {s : Name}
    (hk : es[k]? = some ⟨.str, s⟩) (hdef : ∀ g, Call.define (str ".Ls" ++ dec k) g ∉ cpost) :
    ∃ calls d, CallsOf es (pre ++ rodataCodegen es ++ post) calls ∧ getLabel es k = .ok (str ".Ls" ++ dec k) ∧
      (view calls).defs (str ".Ls" ++ dec k) = some d ∧ d.sect = str ".rodata" ∧ d.global = false ∧
      Occurs ((view calls).content (str ".rodata")) (s ++ [0]) d.pos := by
  have hro : CallsOf es (rodataCodegen es) (.sect (str ".rodata") :: rodataCalls es 0) :=
    ⟨rfl, rodataEntries_calls hlen es 0 (fun j => by rw [Nat.zero_add])⟩
  have hh : Holds (view (cpre ++ (.sect (str ".rodata") :: rodataCalls es 0) ++ cpost)) (str ".Ls" ++ dec k) (s ++ [0]) := by
    unfold view
    rw [List.foldl_append, List.foldl_append]
    apply holds_foldl
    · have := rodata_holds es 0 (v := ObjectSpec.step (cpre.foldl ObjectSpec.step start) (.sect (str ".rodata"))) rfl k s hk
      rw [Nat.zero_add] at this
      exact this
    · intro c hc g e
      exact hdef g (by rw [← e]; exact hc)
  obtain ⟨d, h1, h2, h3, h4⟩ := hh
  have hlt := (List.getElem?_eq_some_iff.1 hk).1
  exact ⟨_, d, callsOf_append (callsOf_append hpre hro) hpost, getLabel_str hk (by omega), h1, h2, h3, h4⟩

example : CallsOf sampleEntries [.label true 0, .write [0xc3]] [.define (str "main") true, .emit [0xc3]] ∧
    sampleEntries[1]? = some ⟨.str, str "hi"⟩ ∧
    rodataCodegen sampleEntries = [.sect (str ".rodata"), .label false 1, .write (str "hi"), .write [0]] :=
  ⟨⟨⟨_, rfl, by decide, rfl⟩, rfl, trivial⟩, rfl, rfl⟩

end Verif.Object
