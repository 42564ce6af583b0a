import Verif.StaticInitLemmas
/-!
Properties C48 and C82: static initialisers and static variables (src/codegen/rodata.c).
-/
namespace Verif.StaticInit
open Verif Verif.Object Verif.ObjectSpec Verif.StaticInitSpec

/-! ### C48 -/

/-- C48, restricted: for an initialiser whose parts lie inside an object of `total` bytes and do not
overlap, and that has no string longer than its array, the code that is emitted puts exactly `total`
bytes with the image of the initialiser into the current section.  The full statement has no
`hl`. -/
theorem static_initialiser_partial {es : List Entry} {total : Nat} {n : Node} (h : InitOk es total n)
    (hl : NoLongString n) : ∃ ops calls bytes refs, codegenInitializer total n = .ok ops ∧ CallsOf es ops calls ∧
      Image es total (leaves 0 (-1) (-1) n) bytes refs ∧
      ∀ v, calls.foldl ObjectSpec.step v = emitted v bytes refs :=
  codegenInitializer_ok h hl

/-- `struct { char c; int a : 3, b : 5; char s[4]; char *p; } = { 'x', 2, -1, "hi", &main + 4 }`. -/
def sampleInit : Node :=
  .entry 0 0 (-1) (.const 1 120) <| .entry 4 0 3 (.const 4 2) <| .entry 4 3 5 (.const 4 (-1)) <|
    .entry 8 0 (-1) (.string [104, 105, 0] 4) <| .entry 16 0 (-1) (.address 0 4) .last

example : InitOk [⟨.labelName, str "main"⟩] 24 sampleInit ∧ NoLongString sampleInit := by
  refine ⟨⟨?_, ?_, ?_⟩, ?_⟩
  · simp only [Fits, sampleInit]; decide
  · simp [leaves, sampleInit, Disjoint, Leaf.Owns]
    refine ⟨⟨?_, ?_, ?_, ?_⟩, ⟨?_, ?_, ?_⟩, ⟨?_, ?_⟩, ?_⟩ <;> intros <;> omega
  · intro i l o hm
    simp [leaves, sampleInit] at hm
    obtain ⟨_, rfl, _⟩ := hm
    exact ⟨str "main", rfl⟩
  · simp [NoLongString, sampleInit]

/-- C48 fails for a string that fills its array exactly: `static char s[3] = "abc";` writes the
terminating NUL behind the buffer of the compiler. -/
theorem static_string_violated :
    InitOk [] 3 (.string [97, 98, 99, 0] 3) ∧ codegenInitializer 3 (.string [97, 98, 99, 0] 3) = .ub := by
  refine ⟨⟨Nat.le_refl 3, ?_, ?_⟩, by decide⟩
  · exact List.pairwise_singleton ..
  · intro i l o hm
    simp [leaves] at hm

/-- An initialiser that is no constant is not diagnosed: `static int x = f();` is zero. -/
theorem nonconstant_ignored :
    codegenInitializer 4 .other = codegenInitializer 4 .empty := rfl

/-! ### C82 -/

/-- C82, restricted: a static variable without compound literals whose address is taken in its
initialiser is defined in `.data` at an aligned position with its own binding, and the image of its
initialiser (zeros if there is none) is there, at the end of the section.  The full statement
allows `pending` for `hpend` too. -/
theorem static_var_partial {es : List Entry} {align total : Nat} {g : Bool} {label : Int} {n : Name} {init : Option Node}
    {pending : Pending} (ha : 0 < align) (hlabel : label ≠ -1) (hname : getLabel es label = .ok n)
    (hinit : ∀ x, init = some x → InitOk es total x ∧ NoLongString x) (hpend : pending = []) :
    ∃ ops calls bytes refs, codegenStaticVar align g label total init pending = .ok ops ∧ CallsOf es ops calls ∧
      Image es total (match init with | none => [] | some x => leaves 0 (-1) (-1) x) bytes refs ∧
      ∀ v, ∃ d a R, (calls.foldl ObjectSpec.step v).defs n = some d ∧ d.sect = str ".data" ∧ d.global = g ∧
        d.pos % align = 0 ∧ (calls.foldl ObjectSpec.step v).content (str ".data") = a ++ bytes ∧ a.length = d.pos ∧
        (calls.foldl ObjectSpec.step v).refs (str ".data") =
          R ++ refs.map fun r => { r with offset := d.pos + r.offset } := by
  subst hpend
  have tail : ∀ {body : List Op} {calls : List Call} {bytes : List Byte} {refs : List Ref}, CallsOf es body calls →
      (∀ v, calls.foldl ObjectSpec.step v = emitted v bytes refs) →
      let cs := .sect (str ".data") :: .align align :: .define n g :: (calls ++ [.sect (str ".text")])
      CallsOf es (.sect (str ".data") :: .align align :: .label g label :: (body ++ [.sect (str ".text")])) cs ∧
      ∀ v, ∃ d a R, (cs.foldl ObjectSpec.step v).defs n = some d ∧ d.sect = str ".data" ∧ d.global = g ∧
        d.pos % align = 0 ∧ (cs.foldl ObjectSpec.step v).content (str ".data") = a ++ bytes ∧ a.length = d.pos ∧
        (cs.foldl ObjectSpec.step v).refs (str ".data") =
          R ++ refs.map fun r => { r with offset := d.pos + r.offset } := by
    intro body calls bytes refs hc hv
    refine ⟨⟨rfl, ⟨rfl, ha⟩, ⟨n, hname, hlabel, rfl⟩, callsOf_append hc ⟨rfl, trivial⟩⟩, fun v => ?_⟩
    rw [List.foldl_cons, List.foldl_cons, List.foldl_cons, List.foldl_append, hv, List.foldl_cons, List.foldl_nil]
    let w := ObjectSpec.step (ObjectSpec.step v (.sect (str ".data"))) (.align align)
    refine ⟨⟨w.cur, (w.content w.cur).length, g⟩, w.content (str ".data"), w.refs (str ".data"),
      upd_same _ _ _, rfl, rfl, ?_, ?_, rfl, ?_⟩
    · have hpos : ∀ l : Nat, (l + padding l align) % align = 0 := by
        intro l
        unfold padding
        split
        · next h => rw [Nat.add_zero]; exact h
        · next h =>
          have hlt := Nat.mod_lt l ha
          have h1 := Nat.div_add_mod l align
          rw [show l + (align - l % align) = align * (l / align) + align by omega, Nat.add_mod_right,
            Nat.mul_mod_right]
      have := hpos ((v.content (str ".data")).length)
      show (upd v.content (str ".data") (v.content (str ".data") ++ List.replicate
        (padding (v.content (str ".data")).length align) 0) (str ".data")).length % align = 0
      rw [upd_same, List.length_append, List.length_replicate]
      exact this
    · exact upd_same w.content (str ".data") _
    · exact upd_same w.refs (str ".data") _
  cases init with
  | none =>
    have hz : ∀ v, ([Call.emit (List.replicate total 0)] : List Call).foldl ObjectSpec.step v =
        emitted v (List.replicate total 0) [] := fun v => emit_emitted v _
    obtain ⟨hc, hv⟩ := tail (body := [.zero total]) (calls := [.emit (List.replicate total 0)]) ⟨rfl, trivial⟩ hz
    refine ⟨_, _, List.replicate total 0, [], rfl, hc, ⟨by simp, ?_, ?_, ?_, List.Pairwise.nil⟩, hv⟩
    · intro pos len f hm; cases hm
    · intro p _
      unfold bitOf
      rw [List.getElem?_replicate]
      split <;> simp
    · intro r
      constructor
      · intro h; cases h
      · rintro ⟨l, h, _⟩; cases h
  | some x =>
    obtain ⟨h1, h2⟩ := hinit x rfl
    obtain ⟨ops, calls, bytes, refs, e, hc, him, hv⟩ := codegenInitializer_ok h1 h2
    obtain ⟨hc', hv'⟩ := tail hc hv
    refine ⟨_, _, bytes, refs, ?_, hc', him, hv'⟩
    unfold codegenStaticVar
    dsimp only
    rw [codegenPending, Res.bind_ok, e, Res.bind_ok, Res.bind_ok]
    rfl

example : InitOk [⟨.labelName, str "x"⟩] 4 (.const 4 7) ∧
    codegenStaticVar 4 true 0 4 (some (.const 4 7)) [] = .ok [.sect (str ".data"), .align 4, .label true 0,
      .write [7], .write [0], .write [0], .write [0], .sect (str ".text")] := by
  refine ⟨⟨⟨.inr (.inr (.inl rfl)), by decide, .inl rfl⟩, List.pairwise_singleton .., ?_⟩, by decide +kernel⟩
  intro i l o hm
  simp [leaves] at hm

/-- C82 fails for a compound literal in the initialiser: for `char *p = (char[3]){ 1, 2, 3 };` the
literal is emitted between the alignment and the variable, so that `p` is at position 3. -/
theorem static_var_violated :
    ∃ ops calls d, codegenStaticVar 8 true 0 8 (some (.address (-2) 0)) [(-2, 3, .string [1, 2, 3] 3)] = .ok ops ∧
      CallsOf [⟨.labelName, str "p"⟩] ops calls ∧ InitOk [⟨.labelName, str "p"⟩] 8 (.address (-2) 0) ∧
      (view calls).defs (str "p") = some d ∧ d.pos % 8 ≠ 0 := by
  refine ⟨[.sect (str ".data"), .align 8, .label false (-2), .write [1], .write [2], .write [3], .label true 0,
      .reloc (-2) 0 0 .r64, .quad 0, .sect (str ".text")],
    [.sect (str ".data"), .align 8, .define (str ".L2") false, .emit [1], .emit [2], .emit [3],
      .define (str "p") true, .refer ⟨.r64, str ".L2", 0, 0⟩, .emit (quadBytes 0), .sect (str ".text")],
    ⟨str ".data", 3, true⟩, by decide +kernel, ?_, ?_, by decide +kernel, by decide⟩
  · have hl : getLabel [⟨.labelName, str "p"⟩] (-2) = .ok (str ".L2") := by decide +kernel
    exact ⟨rfl, ⟨rfl, by decide⟩, ⟨_, hl, by decide, rfl⟩, rfl, rfl, rfl, ⟨_, rfl, by decide, rfl⟩,
      ⟨_, hl, by decide, rfl⟩, rfl, rfl, trivial⟩
  · refine ⟨⟨by decide, by decide⟩, List.pairwise_singleton .., ?_⟩
    intro i l o hm
    have := List.mem_singleton.1 hm
    injection this with _ e1 _
    subst e1
    exact ⟨str ".L2", by decide +kernel⟩

end Verif.StaticInit
