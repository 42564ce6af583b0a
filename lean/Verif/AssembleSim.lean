import Verif.AssembleLemmas
import Verif.BytesProps
/-! Lemmas for C97: the image of assembled lines. -/
namespace Verif.Assemble
open Verif Asm AssembleSpec EncodeSpec ObjectSpec LinkerSpec
open Verif.Encode (Operand Rel encodings assembleInstruction pad4)
open Verif.FuncCode (Item)
open Verif.Object (Obj Name Section Entry upd_same upd_other)

/-! ### Views grow -/

theorem step_grows (v : View) (c : Call) (n : Name) : ∃ bs rs, (ObjectSpec.step v c).content n = v.content n ++ bs ∧
    (ObjectSpec.step v c).refs n = v.refs n ++ rs ∧ ∀ f ∈ rs, (v.content n).length ≤ f.offset := by
  cases c with
  | sect m => exact ⟨[], [], by simp [ObjectSpec.step], by simp [ObjectSpec.step], by simp⟩
  | emit bs =>
    by_cases h : n = v.cur
    · subst h
      exact ⟨bs, [], upd_same .., by simp [ObjectSpec.step], by simp⟩
    · exact ⟨[], [], by simp [ObjectSpec.step, upd_other _ _ h], by simp [ObjectSpec.step], by simp⟩
  | align k =>
    by_cases h : n = v.cur
    · subst h
      exact ⟨_, [], upd_same .., by simp [ObjectSpec.step], by simp⟩
    · exact ⟨[], [], by simp [ObjectSpec.step, upd_other _ _ h], by simp [ObjectSpec.step], by simp⟩
  | define m g => exact ⟨[], [], by simp [ObjectSpec.step], by simp [ObjectSpec.step], by simp⟩
  | refer r =>
    by_cases h : n = v.cur
    · subst h
      exact ⟨[], _, by simp [ObjectSpec.step], upd_same .., by simp⟩
    · exact ⟨[], [], by simp [ObjectSpec.step], by simp [ObjectSpec.step, upd_other _ _ h], by simp⟩

theorem view_append (a b : List Call) : view (a ++ b) = b.foldl ObjectSpec.step (view a) := by
  unfold view
  rw [List.foldl_append]

theorem foldl_grows (n : Name) : ∀ (cs : List Call) (v : View), ∃ bs rs,
    (cs.foldl ObjectSpec.step v).content n = v.content n ++ bs ∧
    (cs.foldl ObjectSpec.step v).refs n = v.refs n ++ rs ∧ ∀ f ∈ rs, (v.content n).length ≤ f.offset := by
  intro cs
  induction cs with
  | nil => intro v; exact ⟨[], [], by simp, by simp, by simp⟩
  | cons c cs ih =>
    intro v
    obtain ⟨b1, r1, h1, h2, h3⟩ := step_grows v c n
    obtain ⟨b2, r2, k1, k2, k3⟩ := ih (ObjectSpec.step v c)
    refine ⟨b1 ++ b2, r1 ++ r2, ?_, ?_, ?_⟩
    · rw [List.foldl_cons, k1, h1, List.append_assoc]
    · rw [List.foldl_cons, k2, h2, List.append_assoc]
    · intro f hf
      rcases List.mem_append.1 hf with hf | hf
      · exact h3 f hf
      · have := k3 f hf
        rw [h1, List.length_append] at this
        omega

theorem foldl_defs {n : Name} : ∀ {cs : List Call} {v : View}, (∀ g, Call.define n g ∉ cs) →
    (cs.foldl ObjectSpec.step v).defs n = v.defs n := by
  intro cs
  induction cs with
  | nil => intro v _; rfl
  | cons c cs ih =>
    intro v h
    rw [List.foldl_cons, ih (fun g hg => h g (List.mem_cons_of_mem _ hg))]
    cases c with
    | define m g =>
      have : n ≠ m := by
        rintro rfl
        exact h g (by simp)
      exact upd_other _ _ this
    | _ => rfl

/-! ### Calls -/

theorem callsOf_split {es : List Entry} : ∀ {a b : List Object.Op} {c : List Call}, CallsOf es (a ++ b) c →
    ∃ c1 c2, c = c1 ++ c2 ∧ CallsOf es a c1 ∧ CallsOf es b c2 := by
  intro a
  induction a with
  | nil => intro b c h; exact ⟨[], c, rfl, trivial, h⟩
  | cons x a ih =>
    intro b c h
    cases c with
    | nil => exact h.elim
    | cons y c =>
      obtain ⟨c1, c2, rfl, h1, h2⟩ := ih h.2
      exact ⟨y :: c1, c2, rfl, ⟨h.1, h1⟩, h2⟩

theorem callsOf_one {es : List Entry} {op : Object.Op} {c : List Call} (h : CallsOf es [op] c) :
    ∃ x, c = [x] ∧ CallOf es op x := by
  match c, h with
  | [x], h => exact ⟨x, rfl, h.1⟩

/-! ### The bytes of a section in the image -/

/-- Object `a`, whose section `s` is named `n`, in an executable. -/
structure Ctx (os : List Obj) (a : Nat) (o : Obj) (v : View) (e : Linker.Executable) (s : Nat) (n : Name) : Prop where
  obj : os[a]? = some o
  shows : Shows o v
  linkable : Linkable os
  linked : Linker.linkerLink os = .ok e
  inside : Inside v
  sec : ∃ t, o.sections[s]? = some t ∧ t.name = some n

theorem refsOf_left {ys : List Object.Symbol} : ∀ {rs : List Object.Relocation} {fs : List Ref}, RefsOf ys rs fs →
    ∀ r ∈ rs, ∃ f ∈ fs, RefOf ys r f := by
  intro rs
  induction rs with
  | nil => intro fs _ r hr; cases hr
  | cons x rs ih =>
    intro fs h r hr
    cases fs with
    | nil => exact h.elim
    | cons f fs =>
      rcases List.mem_cons.1 hr with h1 | h1
      · subst h1; exact ⟨f, by simp, h.1⟩
      · obtain ⟨g, hg, h2⟩ := ih h.2 r h1
        exact ⟨g, List.mem_cons_of_mem _ hg, h2⟩

theorem refsOf_right {ys : List Object.Symbol} : ∀ {rs : List Object.Relocation} {fs : List Ref}, RefsOf ys rs fs →
    ∀ f ∈ fs, ∃ r ∈ rs, RefOf ys r f := by
  intro rs
  induction rs with
  | nil => intro fs h f hf; cases fs with
    | nil => cases hf
    | cons => exact h.elim
  | cons x rs ih =>
    intro fs h f hf
    cases fs with
    | nil => exact h.elim
    | cons g fs =>
      rcases List.mem_cons.1 hf with h1 | h1
      · subst h1; exact ⟨x, by simp, h.1⟩
      · obtain ⟨r, hr, h2⟩ := ih h.2 f h1
        exact ⟨r, List.mem_cons_of_mem _ hr, h2⟩

section
variable {os : List Obj} {a : Nat} {o : Obj} {v : View} {e : Linker.Executable} {s : Nat} {n : Name}

theorem Ctx.data (h : Ctx os a o v e s n) : ∃ t, o.sections[s]? = some t ∧ t.name = some n ∧ t.data = v.content n ∧
    RefsOf o.symbols t.relocs (v.refs n) ∧ start os a s + (v.content n).length ≤ e.data.length ∧
    0x10000 + e.data.length < 2 ^ 64 := by
  obtain ⟨t, ht, hn⟩ := h.sec
  obtain ⟨m, h1, h2, h3, _⟩ := h.shows.sections t (List.mem_of_getElem? ht)
  rw [hn] at h1
  injection h1 with h1
  subst h1
  obtain ⟨e', he, _, hp, _, hle⟩ := Linker.sections_placed h.linkable
  rw [h.linked] at he
  injection he with he
  subst he
  refine ⟨t, ht, hn, h2, h3, ?_, ?_⟩
  · rw [← h2]
    exact hle a s t (by unfold sect; rw [h.obj]; exact ht)
  · rw [hp.size]; exact h.linkable.small

theorem Ctx.plain (h : Ctx os a o v e s n) {i : Nat} (hi : i < (v.content n).length)
    (hf : ∀ f ∈ v.refs n, i < f.offset ∨ f.offset + width f.type ≤ i) :
    e.data[start os a s + i]? = (v.content n)[i]? := by
  obtain ⟨t, ht, hn, hd, hr, hle, hsm⟩ := h.data
  obtain ⟨e', he, _, hp, _, _⟩ := Linker.sections_placed h.linkable
  rw [h.linked] at he
  injection he with he
  subst he
  rw [hp.rest a s t (by unfold sect; rw [h.obj]; exact ht) i (by rw [hd]; exact hi) ?_, hd]
  intro r hrm hin
  obtain ⟨f, hf1, g1, g2, _⟩ := refsOf_left hr r hrm
  have := h.inside n f hf1
  have hoff : r.offset.toNat = f.offset := by
    rw [g2, BitVec.toNat_ofNat]
    exact Nat.mod_eq_of_lt (by omega)
  unfold InField at hin
  rw [hoff, g1] at hin
  rcases hf f hf1 with h1 | h1 <;> omega

theorem Ctx.field (h : Ctx os a o v e s n) {f : Ref} (hf : f ∈ v.refs n) {x : BitVec 64} (hx : At os a f.name x)
    {k : Nat} (hk : k < width f.type) :
    e.data[start os a s + f.offset + k]? = (Bytes.leBytes (width f.type)
      (fieldValue f.type x f.add (addr os a s + BitVec.ofNat 64 f.offset)).toNat)[k]? := by
  obtain ⟨t, ht, hn, hd, hr, hle, hsm⟩ := h.data
  obtain ⟨r, hrm, g1, g2, g3, y, hy, hyn⟩ := refsOf_right hr f hf
  have hin := h.inside n f hf
  have hoff : r.offset.toNat = f.offset := by
    rw [g2, BitVec.toNat_ofNat]
    exact Nat.mod_eq_of_lt (by omega)
  obtain ⟨o', y', b, t', s', k1, k2, k3, k4, k5, k6, rfl⟩ := hx
  rw [h.obj] at k1
  injection k1 with k1
  subst k1
  obtain ⟨j, hj⟩ := List.mem_iff_getElem?.1 k2
  have := Object.pairwise_idx (f := fun s : Object.Symbol => s.name) h.shows.symNames hy hj (by rw [hyn, k3])
  subst this
  rw [hy] at hj
  injection hj with hj
  subst hj
  have := Linker.field_value h.linkable h.linked h.obj ht hrm hy k4 rfl k5 k6 k (by rw [g1]; exact hk)
  rw [hoff, g1, g2, g3] at this
  exact this

/-- A label defined at offset `d` of the section. -/
theorem Ctx.label (h : Ctx os a o v e s n) {m : Name} {p : Nat} {g : Bool} (hd : v.defs m = some ⟨n, p, g⟩)
    {x : BitVec 64} (hx : At os a m x) : x = 0x10000 + BitVec.ofNat 64 (start os a s + p) := by
  obtain ⟨o', y, b, t, s', k1, k2, k3, k4, k5, k6, rfl⟩ := hx
  rw [h.obj] at k1
  injection k1 with k1
  subst k1
  obtain ⟨m', h1, h2⟩ := h.shows.symbols y k2
  rw [k3] at h1
  injection h1 with h1
  subst h1
  rw [hd] at h2
  obtain ⟨i, t', q1, q2, q3, q4, _⟩ := h2
  obtain ⟨t2, ht2, hn2⟩ := h.sec
  have := Object.pairwise_idx (f := fun s : Section => s.name) h.shows.sectNames q2 ht2 (by rw [q3, hn2])
  subst this
  obtain ⟨rfl, rfl, _⟩ := h.linkable.unique _ _ _ _ _ _ _ _ _ h.obj k2 k4 (.own q1)
  rw [q4]
  unfold addr
  rw [BitVec.ofNat_add, BitVec.add_assoc]

end

/-! ### One instruction -/

theorem leBytes_field (n : Nat) (x : BitVec 64) : Bytes.leBytes n x.toNat = fieldBytes n x := by
  apply List.ext_getElem?
  intro i
  by_cases h : i < n
  · rw [Bytes.leBytes_get _ _ _ h]
    simp [fieldBytes, h]
  · rw [List.getElem?_eq_none (by simp; omega), List.getElem?_eq_none (by simp [fieldBytes]; omega)]

theorem patch_get {x : BitVec 64} {bs : List Byte} {r : Rel} (h : r.offset + r.size ≤ bs.length) (i : Nat) :
    (patch x bs r)[i]? = if r.offset ≤ i ∧ i < r.offset + r.size then (fieldBytes r.size x)[i - r.offset]? else bs[i]? := by
  have hl : (fieldBytes r.size x).length = r.size := by simp [fieldBytes]
  unfold patch
  by_cases h1 : i < r.offset
  · rw [if_neg (by omega), List.append_assoc, List.getElem?_append_left (by simp; omega), List.getElem?_take,
      if_pos h1]
  · by_cases h2 : i < r.offset + r.size
    · rw [if_pos (by omega), List.append_assoc, List.getElem?_append_right (by simp; omega),
        List.getElem?_append_left (by simp; omega)]
      congr 1
      simp
      omega
    · rw [if_neg (by omega), List.getElem?_append_right (by simp; omega), List.getElem?_drop]
      congr 1
      simp
      omega

/-- The reference that a relocation becomes. -/
def refOf (nm : Nat → Name) (len : Nat) (r : Rel) : Ref :=
  if r.relative then ⟨.r32rel, nm r.label, r.offset, BitVec.ofInt 64 (-((len : Int) - r.offset))⟩
  else if r.size = 8 then ⟨.r64, nm r.label, r.offset, r.imm⟩
  else ⟨.r32, nm r.label, r.offset, r.imm⟩

/-- The relocations that the assembler takes. -/
def Taken (r : Rel) : Prop := (r.relative = true ∧ r.size = 4) ∨ (r.relative = false ∧ (r.size = 4 ∨ r.size = 8))

theorem asmRel_inv {ids : Nat → Int} {len : Nat} {r : Rel} {op : Object.Op} (h : asmRel ids len r = .ok op) :
    Taken r ∧ ∀ es c nm, CallOf es op c → Object.getLabel es (ids r.label) = .ok (nm r.label) →
      c = .refer (refOf nm len r) := by
  unfold asmRel at h
  split at h
  · next hs =>
    split at h
    · cases h
    · next hr =>
      injection h with h
      subst h
      refine ⟨.inr ⟨by simpa using hr, .inr hs⟩, ?_⟩
      intro es c nm ⟨m, h1, h2, h3⟩ hn
      rw [hn] at h1
      injection h1 with h1
      rw [h3, ← h1, refOf, if_neg hr, if_pos hs]
  · next hs =>
    split at h
    · next hr =>
      injection h with h
      subst h
      refine ⟨.inl ⟨hr, hs⟩, ?_⟩
      intro es c nm ⟨m, h1, h2, h3⟩ hn
      rw [hn] at h1
      injection h1 with h1
      rw [h3, ← h1, refOf, if_pos hr]
    · next hr =>
      injection h with h
      subst h
      refine ⟨.inr ⟨by simpa using hr, .inl hs⟩, ?_⟩
      intro es c nm ⟨m, h1, h2, h3⟩ hn
      rw [hn] at h1
      injection h1 with h1
      rw [h3, ← h1, refOf, if_neg hr, if_neg (by omega)]
  · cases h

/-- The value that a relocation of an instruction at address `at` should store. -/
def valueOf (A : Nat → BitVec 64) (here : BitVec 64) (len : Nat) (r : Rel) : BitVec 64 :=
  if r.relative then A r.label - (here + BitVec.ofNat 64 len) else A r.label + r.imm

theorem width_refOf {nm : Nat → Name} {len : Nat} {r : Rel} (h : Taken r) : width (refOf nm len r).type = r.size := by
  unfold refOf
  rcases h with ⟨h1, h2⟩ | ⟨h1, h2 | h2⟩
  · rw [if_pos h1, h2]; rfl
  · rw [if_neg (by simp [h1]), if_neg (by omega), h2]; rfl
  · rw [if_neg (by simp [h1]), if_pos h2, h2]; rfl

theorem refOf_offset {nm : Nat → Name} {len : Nat} {r : Rel} : (refOf nm len r).offset = r.offset := by
  unfold refOf; split
  · rfl
  · split <;> rfl

theorem refOf_name {nm : Nat → Name} {len : Nat} {r : Rel} : (refOf nm len r).name = nm r.label := by
  unfold refOf; split
  · rfl
  · split <;> rfl

theorem value_refOf {nm : Nat → Name} {A : Nat → BitVec 64} {len p : Nat} {r : Rel} {base : BitVec 64} :
    fieldValue (refOf nm len r).type (A r.label) (refOf nm len r).add (base + BitVec.ofNat 64 (p + r.offset)) =
      valueOf A (base + BitVec.ofNat 64 p) len r := by
  unfold refOf valueOf
  split
  · show A r.label + _ - _ = _
    have h1 : BitVec.ofInt 64 (-((len : Int) - r.offset)) = BitVec.ofNat 64 r.offset - BitVec.ofNat 64 len := by
      rw [show -((len : Int) - r.offset) = (r.offset : Int) + -(len : Int) by omega, BitVec.ofInt_add, BitVec.ofInt_neg, BitVec.sub_eq_add_neg]
      rfl
    rw [h1, BitVec.ofNat_add]
    generalize BitVec.ofNat 64 len = x
    generalize BitVec.ofNat 64 r.offset = y
    generalize BitVec.ofNat 64 p = z
    generalize A r.label = w
    have h : w + (y - x) - (base + (z + y)) = w + y - x - base - z - y := by
      simp only [BitVec.sub_eq_add_neg, BitVec.neg_add]
      ac_rfl
    have h2 : w + y - x - base - z - y = w - (base + z + x) + (y - y) := by
      simp only [BitVec.sub_eq_add_neg, BitVec.neg_add]
      ac_rfl
    rw [h, h2, BitVec.sub_self, BitVec.add_zero]
  · split <;> rfl

section
variable {os : List Obj} {a : Nat} {o : Obj} {e : Linker.Executable} {s : Nat} {n : Name} {nm : Nat → Name}
  {A : Nat → BitVec 64}

/-- The bytes of an instruction in the image. -/
theorem ins_bytes {cpre cpost : List Call} {rels : List Rel} {bytes : List Byte}
    (h : Ctx os a o (view (cpre ++ (rels.map fun r => Call.refer (refOf nm bytes.length r)) ++ [.emit bytes] ++ cpost)) e s n)
    (hc : (view cpre).cur = n) (hin : Inside (view cpre)) (h1 : rels.length ≤ 1)
    (ht : ∀ r ∈ rels, Taken r ∧ r.offset + r.size ≤ bytes.length ∧ At os a (nm r.label) (A r.label)) (x : BitVec 64)
    (hx : ∀ r ∈ rels, x = valueOf A (0x10000 + BitVec.ofNat 64 (start os a s + ((view cpre).content n).length))
      bytes.length r) :
    e.data.drop (start os a s + ((view cpre).content n).length) = patchAll x bytes rels ++
      e.data.drop (start os a s + ((view cpre).content n).length + bytes.length) := by
  have hlenP : (patchAll x bytes rels).length = bytes.length := Encode.patchAll_length fun r hr => (ht r hr).2.1
  -- the final view
  obtain ⟨tb, tr, g1, g2, g3⟩ := foldl_grows n cpost
    (view (cpre ++ (rels.map fun r => Call.refer (refOf nm bytes.length r)) ++ [.emit bytes]))
  rw [← view_append] at g1 g2
  have hv : (view (cpre ++ (rels.map fun r => Call.refer (refOf nm bytes.length r)) ++ [.emit bytes])).content n =
        (view cpre).content n ++ bytes ∧
      (view (cpre ++ (rels.map fun r => Call.refer (refOf nm bytes.length r)) ++ [.emit bytes])).refs n =
        (view cpre).refs n ++ rels.map fun r => { refOf nm bytes.length r with
          offset := ((view cpre).content n).length + r.offset } := by
    rw [view_append, view_append]
    match rels, h1 with
    | [], _ =>
      subst hc
      exact ⟨upd_same .., by simp [ObjectSpec.step]⟩
    | [r], _ =>
      subst hc
      refine ⟨upd_same .., ?_⟩
      show upd _ _ _ _ = _
      rw [upd_same, refOf_offset]
      rfl
  rw [hv.1] at g1 g3
  rw [hv.2] at g2
  have hsz := h.data
  obtain ⟨_, _, _, _, _, hle, hsm⟩ := hsz
  rw [g1, List.length_append, List.length_append] at hle
  generalize hp : ((view cpre).content n).length = p at *
  apply List.ext_getElem?
  intro i
  rw [List.getElem?_drop]
  by_cases hi : i < bytes.length
  · rw [List.getElem?_append_left (by omega)]
    have hplain : (∀ r ∈ rels, i < r.offset ∨ r.offset + r.size ≤ i) →
        e.data[start os a s + (p + i)]? = bytes[i]? := by
      intro hr
      have := h.plain (i := p + i) (by rw [g1, List.length_append, List.length_append]; omega) (by
        rw [g2]
        intro f hf
        rcases List.mem_append.1 hf with hf | hf
        · rcases List.mem_append.1 hf with hf | hf
          · have := hin n f hf
            rw [hp] at this
            right; omega
          · obtain ⟨r, hr1, rfl⟩ := List.mem_map.1 hf
            show p + i < p + r.offset ∨ p + r.offset + width (refOf nm bytes.length r).type ≤ p + i
            rw [width_refOf (ht r hr1).1]
            rcases hr r hr1 with h | h <;> omega
        · have := g3 f hf
          rw [List.length_append] at this
          left; omega)
      rw [this, g1, List.append_assoc, List.getElem?_append_right (by omega), List.getElem?_append_left (by omega)]
      congr 1
      omega
    match rels, h1 with
    | [], _ =>
      rw [Nat.add_assoc, hplain (by simp)]
      rfl
    | [r], _ =>
      obtain ⟨t1, t2, t3⟩ := ht r (by simp)
      show _ = (patch x bytes r)[i]?
      rw [patch_get t2]
      split
      · next hr =>
        have hf := h.field (f := { refOf nm bytes.length r with offset := p + r.offset }) (by
          rw [g2]; simp) (x := A r.label) (by
          show At os a (refOf nm bytes.length r).name _
          rw [refOf_name]; exact t3) (k := i - r.offset) (by
          show _ < width (refOf nm bytes.length r).type
          rw [width_refOf t1]; omega)
        dsimp only at hf
        rw [leBytes_field, width_refOf t1] at hf
        rw [show start os a s + p + i = start os a s + (p + r.offset) + (i - r.offset) by omega, hf]
        congr 2
        rw [hx r (by simp), value_refOf]
        unfold addr
        rw [BitVec.ofNat_add, BitVec.add_assoc]
      · next hr => rw [Nat.add_assoc, hplain (by simp; omega)]
  · rw [List.getElem?_append_right (by omega), List.getElem?_drop, hlenP]
    congr 1
    omega

end

/-! ### Operands -/

theorem filterMap_one {α β : Type} {f : α → Option β} : ∀ {l : List α}, (l.filterMap f).length ≤ 1 →
    ∀ {a b : α}, a ∈ l → b ∈ l → f a ≠ none → f b ≠ none → a = b := by
  intro l
  induction l with
  | nil => intro _ a b ha; cases ha
  | cons x l ih =>
    intro h a b ha hb hfa hfb
    rw [List.filterMap_cons] at h
    cases hx : f x with
    | none =>
      rw [hx] at h
      have key : ∀ {c : α}, c ∈ x :: l → f c ≠ none → c ∈ l := by
        intro c hc hfc
        rcases List.mem_cons.1 hc with h1 | h1
        · rw [h1] at hfc; exact absurd hx hfc
        · exact h1
      exact ih h (key ha hfa) (key hb hfb) hfa hfb
    | some y =>
      rw [hx] at h
      have h0 : l.filterMap f = [] := List.eq_nil_of_length_eq_zero (by simpa using h)
      have key : ∀ {c : α}, c ∈ x :: l → f c ≠ none → c = x := by
        intro c hc hfc
        rcases List.mem_cons.1 hc with h1 | h1
        · exact h1
        · exact absurd (List.filterMap_eq_nil_iff.1 h0 c h1) hfc
      rw [key ha hfa, key hb hfb]

/-- The value of a label operand. -/
def labelValue (A : Nat → BitVec 64) (next : BitVec 64) : Opd → BitVec 64
  | .imm (some l) v => A l + BitVec.ofInt 64 v
  | .abs (some l) v => A l + BitVec.ofInt 64 v - next
  | _ => 0

theorem resolve_operand {A : Nat → BitVec 64} {next x : BitVec 64} {op : Opd} (h : labelOf op ≠ none → x = labelValue A next op) :
    resolve x (operand op) = located A next op := by
  cases op with
  | imm l v => cases l with
    | none => rfl
    | some l => rw [h (by simp [labelOf])]; rfl
  | abs l v => cases l with
    | none => rfl
    | some l => rw [h (by simp [labelOf])]; rfl
  | _ => rfl

theorem value_exists {ops : List Opd} (h : (ops.filterMap labelOf).length ≤ 1) (A : Nat → BitVec 64) (next : BitVec 64) :
    ∃ x, ∀ op ∈ ops, labelOf op ≠ none → x = labelValue A next op := by
  by_cases hx : ∃ op ∈ ops, labelOf op ≠ none
  · obtain ⟨op, h1, h2⟩ := hx
    exact ⟨labelValue A next op, fun op' h1' h2' => by rw [filterMap_one h h1 h1' h2 h2']⟩
  · exact ⟨0, fun op h1 h2 => absurd ⟨op, h1, h2⟩ hx⟩

theorem traits {A : Nat → BitVec 64} {next : BitVec 64} (op : Opd) :
    (PlainMem (located A next op) → PlainMem (operand op)) ∧ (NotUpper (located A next op) → NotUpper (operand op)) ∧
    isMem (located A next op) = isMem (operand op) ∧ (LowReg (located A next op) → LowReg (operand op)) := by
  cases op with
  | imm l v => cases l <;> exact ⟨fun h => h, fun h => h, rfl, fun h => h⟩
  | abs l v => cases l <;> exact ⟨fun h => h, fun h => h, rfl, fun h => h⟩
  | _ => exact ⟨fun h => h, fun h => h, rfl, fun h => h⟩

/-- The mnemonics are spelled as the manual spells them. -/
theorem mnName_spelling (m : Mn) : mnName m = AsmNames.spelling m := by
  cases m <;> rfl

theorem handled_operand {A : Nat → BitVec 64} {next : BitVec 64} {mn : String} {ops : List Opd}
    (h : Handled mn (ops.map (located A next))) : Handled mn (ops.map operand) := by
  obtain ⟨h1, h2⟩ := h
  constructor
  · intro o ho
    obtain ⟨op, hop, rfl⟩ := List.mem_map.1 ho
    obtain ⟨k1, k2⟩ := h1 _ (List.mem_map_of_mem hop)
    exact ⟨(traits op).1 k1, (traits op).2.1 k2⟩
  · rcases h2 with h2 | h2 | h2
    · left
      obtain ⟨o, ho, hm⟩ := List.any_eq_true.1 h2
      obtain ⟨op, hop, rfl⟩ := List.mem_map.1 ho
      exact List.any_eq_true.2 ⟨_, List.mem_map_of_mem hop, by rw [← (traits (A := A) (next := next) op).2.2.1]; exact hm⟩
    · exact .inr (.inl h2)
    · right; right
      intro o ho
      obtain ⟨op, hop, rfl⟩ := List.mem_map.1 ho
      exact (traits op).2.2.2 (h2 _ (List.mem_map_of_mem hop))

theorem asmIns_inv {ids : Nat → Int} {i : Ins} {ops : List Object.Op} (h : asmIns ids i = .ok ops) :
    ∃ bytes rels os, assembleInstruction encodings (mnName i.mn) (pad4 .empty (i.ops.map operand).reverse) =
      .ok (some (bytes, rels)) ∧ asmRels ids bytes.length rels = .ok os ∧ ops = os ++ [.write bytes] := by
  unfold asmIns at h
  obtain ⟨r, h1, h2⟩ := Res.bind_eq_ok.1 h
  cases r with
  | none => cases h2
  | some r =>
    obtain ⟨bytes, rels⟩ := r
    obtain ⟨os, h3, h4⟩ := Res.bind_eq_ok.1 h2
    injection h4 with h4
    exact ⟨bytes, rels, os, h1, h3, h4.symm⟩

theorem asmRels_inv {ids : Nat → Int} {len : Nat} {es : List Entry} {nm : Nat → Name} : ∀ {rels : List Rel} {os : List Object.Op}
    {cs : List Call}, asmRels ids len rels = .ok os → CallsOf es os cs →
    (∀ r ∈ rels, Object.getLabel es (ids r.label) = .ok (nm r.label)) →
    (∀ r ∈ rels, Taken r) ∧ cs = rels.map fun r => .refer (refOf nm len r) := by
  intro rels
  induction rels with
  | nil =>
    intro os cs h hc _
    injection h with h
    subst h
    cases cs with
    | nil => exact ⟨by simp, rfl⟩
    | cons => exact hc.elim
  | cons r rels ih =>
    intro os cs h hc hn
    obtain ⟨o, h1, h2⟩ := Res.bind_eq_ok.1 h
    obtain ⟨os', h3, h4⟩ := Res.bind_eq_ok.1 h2
    injection h4 with h4
    subst h4
    cases cs with
    | nil => exact hc.elim
    | cons c cs =>
      obtain ⟨k1, k2⟩ := ih h3 hc.2 fun r hr => hn r (List.mem_cons_of_mem _ hr)
      obtain ⟨q1, q2⟩ := asmRel_inv h1
      refine ⟨?_, ?_⟩
      · intro r' hr'
        rcases List.mem_cons.1 hr' with e | hr'
        · rw [e]; exact q1
        · exact k1 r' hr'
      · rw [k2, q2 es c nm hc.1 (hn r (by simp))]
        rfl

theorem mem_pad4 {l : List Operand} {x : Operand} (h : x ∈ pad4 .empty l) (hx : x ≠ .empty) : x ∈ l := by
  have := List.mem_of_mem_take h
  rcases List.mem_append.1 this with h | h
  · exact h
  · simp at h; exact absurd h hx

theorem operand_imm {op : Opd} {l : Nat} {v : BitVec 64} (h : operand op = .imm (some l) v) :
    ∃ w, op = .imm (some l) w ∧ v = BitVec.ofInt 64 w := by
  cases op with
  | imm l' w => simp only [operand, Operand.imm.injEq] at h; obtain ⟨rfl, rfl⟩ := h; exact ⟨w, rfl, rfl⟩
  | _ => simp [operand] at h

theorem operand_abs {op : Opd} {l : Nat} {v : BitVec 64} (h : operand op = .abs (some l) v) :
    ∃ w, op = .abs (some l) w := by
  cases op with
  | abs l' w => simp only [operand, Operand.abs.injEq] at h; obtain ⟨rfl, rfl⟩ := h; exact ⟨w, rfl⟩
  | _ => simp [operand] at h

theorem mem_operands {ops : List Opd} {x : Operand} (h : x ∈ pad4 .empty (ops.map operand).reverse) (hx : x ≠ .empty) :
    ∃ op ∈ ops, operand op = x := by
  have := mem_pad4 h hx
  rw [List.mem_reverse, List.mem_map] at this
  exact this

section
variable {os : List Obj} {a : Nat} {o : Obj} {e : Linker.Executable} {s : Nat} {n : Name} {nm : Nat → Name}
  {A : Nat → BitVec 64} {es : List Entry} {ids : Nat → Int}

theorem ins_laid {cpre ci cpost : List Call} {i : Ins} {ops : List Object.Op} (h : Ctx os a o (view (cpre ++ ci ++ cpost)) e s n)
    (hc : (view cpre).cur = n) (hin : Inside (view cpre)) (ha : asmIns ids i = .ok ops) (hcs : CallsOf es ops ci)
    (hs : Sound i) (hn : ∀ l ∈ mentioned (.ins i), Object.getLabel es (ids l) = .ok (nm l) ∧ At os a (nm l) (A l))
    (hsm : ∀ l v, .imm (some l) v ∈ i.ops → (A l + BitVec.ofInt 64 v).toNat < 2 ^ 31) :
    ∃ m len, 0 < len ∧ ((view (cpre ++ ci)).content n).length = ((view cpre).content n).length + len ∧
      (view (cpre ++ ci)).cur = n ∧ Inside (view (cpre ++ ci)) ∧
      Means A (0x10000 + BitVec.ofNat 64 (start os a s + ((view cpre).content n).length + len)) i m ∧
      decode (e.data.drop (start os a s + ((view cpre).content n).length)) =
        some (m, e.data.drop (start os a s + ((view cpre).content n).length + len)) ∧
      start os a s + ((view cpre).content n).length + len ≤ e.data.length := by
  obtain ⟨bytes, rels, ros, h1, h2, rfl⟩ := asmIns_inv ha
  obtain ⟨c1, c2, rfl, k1, k2⟩ := callsOf_split hcs
  obtain ⟨x', rfl, k3⟩ := callsOf_one k2
  have k3 : x' = .emit bytes := k3
  subst k3
  obtain ⟨q1, q2⟩ := relocs_of h1
  have hment : ∀ op ∈ i.ops, ∀ l, labelOf op = some l → l ∈ mentioned (.ins i) :=
    fun op hop l hl => List.mem_filterMap.2 ⟨op, hop, hl⟩
  have hrel : ∀ r ∈ rels, r.label ∈ mentioned (.ins i) := by
    intro r hr
    rcases (q1 r hr).1 with ⟨_, hm⟩ | ⟨_, _, v, hm⟩
    · obtain ⟨op, hop, he⟩ := mem_operands hm (by simp)
      obtain ⟨w, rfl, _⟩ := operand_imm he
      exact hment _ hop _ rfl
    · obtain ⟨op, hop, he⟩ := mem_operands hm (by simp)
      obtain ⟨w, rfl⟩ := operand_abs he
      exact hment _ hop _ rfl
  obtain ⟨t1, t2⟩ := asmRels_inv (nm := nm) h2 k1 fun r hr => (hn _ (hrel r hr)).1
  subst t2
  have hlen1 : rels.length ≤ 1 := by
    rcases q2 with q2 | ⟨x, y, v, w, m1, m2⟩
    · exact q2
    · obtain ⟨op, hop, he⟩ := mem_operands m1 (by simp)
      obtain ⟨op', hop', he'⟩ := mem_operands m2 (by simp)
      obtain ⟨w, rfl, _⟩ := operand_imm he
      obtain ⟨w', rfl⟩ := operand_abs he'
      exact absurd (filterMap_one hs.one hop hop' (by simp [labelOf]) (by simp [labelOf])) (by simp)
  rw [← List.append_assoc] at h ⊢
  generalize hp : start os a s + ((view cpre).content n).length = P at *
  obtain ⟨x, hx⟩ := value_exists hs.one A (0x10000 + BitVec.ofNat 64 (P + bytes.length))
  have hmap : (i.ops.map operand).reverse.map (resolve x) =
      i.ops.reverse.map (located A (0x10000 + BitVec.ofNat 64 (P + bytes.length))) := by
    rw [← List.map_reverse, List.map_map]
    apply List.map_congr_left
    intro op hop
    exact resolve_operand (hx op (List.mem_reverse.1 hop))
  obtain ⟨m, hm⟩ := hs.meaning A (0x10000 + BitVec.ofNat 64 (P + bytes.length)) hsm
  have hval : ∀ r ∈ rels, x = valueOf A (0x10000 + BitVec.ofNat 64 P) bytes.length r := by
    intro r hr
    unfold valueOf
    rcases (q1 r hr).1 with ⟨hf, hmem⟩ | ⟨hf, _, v, hmem⟩
    · obtain ⟨op, hop, he⟩ := mem_operands hmem (by simp)
      obtain ⟨w, rfl, hw⟩ := operand_imm he
      rw [if_neg (by simp [hf]), hx _ hop (by simp [labelOf]), hw]
      rfl
    · obtain ⟨op, hop, he⟩ := mem_operands hmem (by simp)
      obtain ⟨w, rfl⟩ := operand_abs he
      rw [if_pos hf, hx _ hop (by simp [labelOf]), hs.jump _ _ hop, BitVec.ofNat_add]
      show A r.label + 0#64 - _ = _
      rw [BitVec.add_zero, BitVec.add_assoc]
  have hfit : ∀ r ∈ rels, r.relative = false → FitsField r.size x := by
    intro r hr hf
    rcases (q1 r hr).1 with ⟨_, hmem⟩ | ⟨hf', _⟩
    · obtain ⟨op, hop, he⟩ := mem_operands hmem (by simp)
      obtain ⟨w, rfl, hw⟩ := operand_imm he
      have hb := hsm _ _ hop
      have hxe : x = A r.label + BitVec.ofInt 64 w := hx _ hop (by simp [labelOf])
      rw [← hxe] at hb
      have hxi : x.toInt = x.toNat := by
        rw [BitVec.toInt_eq_toNat_of_lt (by omega)]
      unfold FitsField
      rw [hxi]
      rcases t1 r hr with ⟨hh, _⟩ | ⟨_, hh | hh⟩
      · rw [hf] at hh; cases hh
      · rw [hh]; constructor <;> omega
      · rw [hh]; constructor <;> omega
    · rw [hf] at hf'; cases hf'
  have hb := ins_bytes (A := A) h hc hin hlen1 (fun r hr => ⟨t1 r hr, (q1 r hr).2, (hn _ (hrel r hr)).2⟩) x
    (by rw [hp]; exact hval)
  rw [hp] at hb
  have hD : Denotes (mnName i.mn) ((i.ops.map operand).reverse.map (resolve x)) m := by rw [hmap, mnName_spelling]; exact hm
  have hH : Handled (mnName i.mn) (i.ops.map operand).reverse := by
    rw [← List.map_reverse, mnName_spelling]; exact handled_operand hs.handled
  obtain ⟨d1, d2, d3⟩ := Encode.encode_partial _ _ x m bytes rels (e.data.drop (P + bytes.length)) h1 hH hD hfit
  have hpos : 0 < bytes.length := by
    refine Nat.pos_of_ne_zero fun h0 => ?_
    obtain ⟨d1, _⟩ := Encode.encode_partial _ _ x m bytes rels [] h1 hH hD hfit
    rw [h0] at d2
    rw [List.eq_nil_of_length_eq_zero d2] at d1
    exact absurd d1 (by simp [decode, prefixes, rexPrefix, opcode])
  have hview : (view (cpre ++ (rels.map fun r => Call.refer (refOf nm bytes.length r)) ++ [.emit bytes])).cur = n ∧
      (∀ k, (view (cpre ++ (rels.map fun r => Call.refer (refOf nm bytes.length r)) ++ [.emit bytes])).content k =
        if k = n then (view cpre).content n ++ bytes else (view cpre).content k) ∧
      (∀ k, (view (cpre ++ (rels.map fun r => Call.refer (refOf nm bytes.length r)) ++ [.emit bytes])).refs k =
        if k = n then (view cpre).refs n ++ rels.map (fun r => { refOf nm bytes.length r with
          offset := ((view cpre).content n).length + r.offset }) else (view cpre).refs k) := by
    rw [view_append, view_append]
    match rels, hlen1 with
    | [], _ =>
      subst hc
      refine ⟨rfl, fun k => ?_, fun k => ?_⟩
      · rfl
      · show (view cpre).refs k = _
        split
        · next h => rw [h]; simp
        · rfl
    | [r], _ =>
      subst hc
      refine ⟨rfl, fun k => rfl, fun k => ?_⟩
      show (if k = _ then _ else _) = _
      rw [refOf_offset]
      rfl
  refine ⟨m, bytes.length, hpos, ?_, hview.1, ?_, hm, ?_, ?_⟩
  · rw [hview.2.1, if_pos rfl, List.length_append]
  · intro k f hf
    rw [hview.2.2] at hf
    rw [hview.2.1]
    split at hf
    · next hk =>
      rw [if_pos hk, List.length_append]
      rcases List.mem_append.1 hf with hf | hf
      · have := hin n f hf
        omega
      · obtain ⟨r, hr, rfl⟩ := List.mem_map.1 hf
        show _ + r.offset + width (refOf nm bytes.length r).type ≤ _
        rw [width_refOf (t1 r hr)]
        have := (q1 r hr).2
        omega
    · next hk =>
      rw [if_neg hk]
      exact hin k f hf
  · rw [hb]; exact d1
  · obtain ⟨_, _, _, _, _, hle, _⟩ := h.data
    obtain ⟨tb, tr, g1, _, _⟩ := foldl_grows n cpost
      (view (cpre ++ (rels.map fun r => Call.refer (refOf nm bytes.length r)) ++ [.emit bytes]))
    rw [← view_append, hview.2.1, if_pos rfl] at g1
    rw [g1, List.length_append, List.length_append] at hle
    omega

/-- The labels that calls define. -/
theorem asmItems_defs {global : Nat → Bool} : ∀ {items : List Item} {ops : List Object.Op} {cs : List Call},
    asmItems ids global items = .ok ops → CallsOf es ops cs →
    (∀ l ∈ items.flatMap mentioned, Object.getLabel es (ids l) = .ok (nm l)) →
    ∀ m g, Call.define m g ∈ cs → ∃ l ∈ defined items, m = nm l := by
  intro items
  induction items with
  | nil =>
    intro ops cs h hc _ m g hm
    injection h with h
    subst h
    cases cs with
    | nil => cases hm
    | cons => exact hc.elim
  | cons x items ih =>
    intro ops cs h hc hn m g hm
    obtain ⟨o1, h1, h2⟩ := Res.bind_eq_ok.1 h
    obtain ⟨o2, h3, h4⟩ := Res.bind_eq_ok.1 h2
    injection h4 with h4
    subst h4
    obtain ⟨c1, c2, rfl, k1, k2⟩ := callsOf_split hc
    rcases List.mem_append.1 hm with hm | hm
    · cases x with
      | label l =>
        injection h1 with h1
        subst h1
        obtain ⟨y, rfl, n', e1, _, e2⟩ := callsOf_one k1
        rw [hn l (by simp [mentioned])] at e1
        injection e1 with e1
        rw [List.mem_singleton] at hm
        rw [← hm] at e2
        injection e2 with e2
        exact ⟨l, by simp [defined], by rw [e2, e1]⟩
      | ins i =>
        obtain ⟨bytes, rels, ros, q1, q2, rfl⟩ := asmIns_inv h1
        exfalso
        -- relocations and bytes define nothing
        have key : ∀ {ops : List Object.Op} {cs : List Call}, CallsOf es ops cs →
            (∀ op ∈ ops, ∀ g id, op ≠ .label g id) → Call.define m g ∉ cs := by
          intro ops
          induction ops with
          | nil => intro cs hc _; cases cs with
            | nil => simp
            | cons => exact hc.elim
          | cons op ops ih =>
            intro cs hc hop hm
            cases cs with
            | nil => exact hc.elim
            | cons c cs =>
              rcases List.mem_cons.1 hm with h | h
              · have := hc.1
                rw [← h] at this
                cases op with
                | label g id => exact hop _ (by simp) g id rfl
                | reloc id off add ty => obtain ⟨_, _, _, hh⟩ := this; cases hh
                | align k => cases this.1
                | _ => cases this
              · exact ih hc.2 (fun op h => hop op (List.mem_cons_of_mem _ h)) h
        refine key k1 ?_ hm
        intro op hop g id e
        subst e
        rcases List.mem_append.1 hop with hop | hop
        · have rk : ∀ {len : Nat} {rels : List Rel} {os : List Object.Op}, asmRels ids len rels = .ok os →
              Object.Op.label g id ∉ os := by
            intro len rels
            induction rels with
            | nil => intro os h; injection h with h; subst h; simp
            | cons r rels ih =>
              intro os h hm
              obtain ⟨o, h1, h2⟩ := Res.bind_eq_ok.1 h
              obtain ⟨os', h3, h4⟩ := Res.bind_eq_ok.1 h2
              injection h4 with h4
              subst h4
              rcases List.mem_cons.1 hm with h | h
              · subst h
                unfold asmRel at h1
                repeat' split at h1
                all_goals cases h1
              · exact ih h3 h
          exact rk q2 hop
        · simp at hop
    · obtain ⟨l, hl, e⟩ := ih h3 k2 (fun l hl => hn l (by rw [List.flatMap_cons]; exact List.mem_append_right _ hl)) m g hm
      refine ⟨l, ?_, e⟩
      unfold defined at hl ⊢
      rw [List.filterMap_cons]
      split
      · exact hl
      · exact List.mem_cons_of_mem _ hl

theorem items_laid {global : Nat → Bool} : ∀ {items : List Item} {cpre ci cpost : List Call} {ops : List Object.Op},
    Ctx os a o (view (cpre ++ ci ++ cpost)) e s n → (view cpre).cur = n → Inside (view cpre) →
    asmItems ids global items = .ok ops → CallsOf es ops ci → (∀ i, .ins i ∈ items → Sound i) →
    (∀ l ∈ items.flatMap mentioned, Object.getLabel es (ids l) = .ok (nm l) ∧ At os a (nm l) (A l)) →
    (∀ i l v, .ins i ∈ items → .imm (some l) v ∈ i.ops → (A l + BitVec.ofInt 64 v).toNat < 2 ^ 31) →
    (defined items).Pairwise (fun l k => nm l ≠ nm k) → (∀ l ∈ defined items, ∀ g, Call.define (nm l) g ∉ cpost) →
    Laid e.data A (start os a s + ((view cpre).content n).length) items
      (start os a s + ((view (cpre ++ ci)).content n).length) := by
  intro items
  induction items with
  | nil =>
    intro cpre ci cpost ops h _ _ ha hc _ _ _ _ _
    injection ha with ha
    subst ha
    cases ci with
    | nil => rw [List.append_nil]; exact .nil
    | cons => exact hc.elim
  | cons x items ih =>
    intro cpre ci cpost ops h hcur hin ha hc hs hn hsm hdis hpost
    obtain ⟨o1, h1, h2⟩ := Res.bind_eq_ok.1 ha
    obtain ⟨o2, h3, h4⟩ := Res.bind_eq_ok.1 h2
    injection h4 with h4
    subst h4
    obtain ⟨c1, c2, rfl, k1, k2⟩ := callsOf_split hc
    have hn2 : ∀ l ∈ items.flatMap mentioned, Object.getLabel es (ids l) = .ok (nm l) ∧ At os a (nm l) (A l) :=
      fun l hl => hn l (by rw [List.flatMap_cons]; exact List.mem_append_right _ hl)
    have hs2 : ∀ i, .ins i ∈ items → Sound i := fun i hi => hs i (List.mem_cons_of_mem _ hi)
    have hsm2 : ∀ i l v, .ins i ∈ items → .imm (some l) v ∈ i.ops → (A l + BitVec.ofInt 64 v).toNat < 2 ^ 31 :=
      fun i l v hi => hsm i l v (List.mem_cons_of_mem _ hi)
    cases x with
    | label l =>
      injection h1 with h1
      subst h1
      obtain ⟨y, rfl, n', e1, _, e2⟩ := callsOf_one k1
      subst e2
      have hl := hn l (by simp [mentioned])
      rw [hl.1] at e1
      injection e1 with e1
      subst e1
      have hd : defined (.label l :: items) = l :: defined items := rfl
      rw [hd] at hdis hpost
      obtain ⟨hd1, hd2⟩ := List.pairwise_cons.1 hdis
      have hdef : (view (cpre ++ (Call.define (nm l) (global l) :: c2) ++ cpost)).defs (nm l) =
          some ⟨n, ((view cpre).content n).length, global l⟩ := by
        rw [show cpre ++ (Call.define (nm l) (global l) :: c2) ++ cpost = (cpre ++ [.define (nm l) (global l)]) ++
          (c2 ++ cpost) by simp, view_append, foldl_defs, view_append]
        · show upd _ _ _ _ = _
          rw [upd_same, hcur]
        · intro g hg
          rcases List.mem_append.1 hg with hg | hg
          · obtain ⟨k, hk, hke⟩ := asmItems_defs h3 k2 (fun l hl => (hn2 l hl).1) _ _ hg
            exact hd1 k hk hke
          · exact hpost l (by simp) g hg
      refine .label (h.label hdef hl.2) ?_
      have e0 : ∀ z, (view (cpre ++ [Call.define (nm l) (global l)])).content z = (view cpre).content z := by
        intro z; rw [view_append]; rfl
      have := ih (cpre := cpre ++ [.define (nm l) (global l)]) (ci := c2) (cpost := cpost) (by simpa using h)
        (by rw [view_append]; exact hcur) (by
          intro z f hf
          rw [view_append] at hf
          rw [e0]
          exact hin z f hf) h3 k2 hs2 hn2 hsm2 hd2 (fun l hl => hpost l (List.mem_cons_of_mem _ hl))
      rw [e0] at this
      simpa using this
    | ins i =>
      have h1 : asmIns ids i = .ok o1 := h1
      have h' : Ctx os a o (view (cpre ++ c1 ++ (c2 ++ cpost))) e s n := by simpa using h
      obtain ⟨m, len, g0, g1, g2, g3, g4, g5, g6⟩ := ins_laid h' hcur hin h1 k1 (hs i (by simp))
        (fun l hl => hn l (by rw [List.flatMap_cons]; exact List.mem_append_left _ hl))
        (fun l v => hsm i l v (by simp))
      refine .ins g4 (by omega) g6 g5 ?_
      have := ih (cpre := cpre ++ c1) (ci := c2) (cpost := cpost) (by simpa using h) g2 g3 h3 k2 hs2 hn2 hsm2 hdis hpost
      rw [g1] at this
      simpa [Nat.add_assoc] using this

/-- The calls of lines whose labels have names. -/
theorem asmItems_calls {global : Nat → Bool} : ∀ {items : List Item} {ops : List Object.Op},
    asmItems ids global items = .ok ops →
    (∀ l ∈ items.flatMap mentioned, Object.getLabel es (ids l) = .ok (nm l) ∧ ids l ≠ -1) → ∃ cs, CallsOf es ops cs := by
  intro items
  induction items with
  | nil => intro ops h _; injection h with h; subst h; exact ⟨[], trivial⟩
  | cons x items ih =>
    intro ops h hn
    obtain ⟨o1, h1, h2⟩ := Res.bind_eq_ok.1 h
    obtain ⟨o2, h3, h4⟩ := Res.bind_eq_ok.1 h2
    injection h4 with h4
    subst h4
    obtain ⟨c2, k2⟩ := ih h3 fun l hl => hn l (by rw [List.flatMap_cons]; exact List.mem_append_right _ hl)
    have : ∃ c1, CallsOf es o1 c1 := by
      cases x with
      | label l =>
        injection h1 with h1
        subst h1
        have := hn l (by simp [mentioned])
        exact ⟨[_], ⟨nm l, this.1, this.2, rfl⟩, trivial⟩
      | ins i =>
        obtain ⟨bytes, rels, ros, q1, q2, rfl⟩ := asmIns_inv h1
        have hrel : ∀ r ∈ rels, r.label ∈ mentioned (.ins i) := by
          intro r hr
          rcases ((relocs_of q1).1 r hr).1 with ⟨_, hm⟩ | ⟨_, _, v, hm⟩
          · obtain ⟨op, hop, he⟩ := mem_operands hm (by simp)
            obtain ⟨w, rfl, _⟩ := operand_imm he
            exact List.mem_filterMap.2 ⟨_, hop, rfl⟩
          · obtain ⟨op, hop, he⟩ := mem_operands hm (by simp)
            obtain ⟨w, rfl⟩ := operand_abs he
            exact List.mem_filterMap.2 ⟨_, hop, rfl⟩
        have rk : ∀ {len : Nat} {rels : List Rel} {os : List Object.Op}, asmRels ids len rels = .ok os →
            (∀ r ∈ rels, r.label ∈ mentioned (.ins i)) → ∃ cs, CallsOf es os cs := by
          intro len rels
          induction rels with
          | nil => intro os h _; injection h with h; subst h; exact ⟨[], trivial⟩
          | cons r rels ih =>
            intro os h hr
            obtain ⟨o, h1, h2⟩ := Res.bind_eq_ok.1 h
            obtain ⟨os', h3, h4⟩ := Res.bind_eq_ok.1 h2
            injection h4 with h4
            subst h4
            obtain ⟨cs, hcs⟩ := ih h3 fun r h => hr r (List.mem_cons_of_mem _ h)
            have hl := hn r.label (by rw [List.flatMap_cons]; exact List.mem_append_left _ (hr r (by simp)))
            unfold asmRel at h1
            repeat' split at h1
            all_goals first
              | cases h1; done
              | (injection h1 with h1; subst h1; exact ⟨_ :: cs, ⟨nm r.label, hl.1, hl.2, rfl⟩, hcs⟩)
        obtain ⟨c, hc⟩ := rk q2 hrel
        exact ⟨c ++ [.emit bytes], Object.callsOf_append hc (show CallsOf es [.write bytes] [.emit bytes] from ⟨rfl, trivial⟩)⟩
    obtain ⟨c1, k1⟩ := this
    exact ⟨c1 ++ c2, Object.callsOf_append k1 k2⟩

end

end Verif.Assemble
