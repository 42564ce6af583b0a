import Verif.FuncBlock
/-!
Lemmas about the code of functions: the frame, entry and exit.
-/
namespace Verif.FuncCode
open Verif Asm X86 Codegen CodegenSpec Memory MemorySpec FuncSpec
open Verif.Call (Dest)
open Verif.CallSpec (regVal)
open Verif.Frame (Layout prologue epilogue Shape sub_toNat add_toNat wr_far align_facts)
open Verif.FrameSpec (Range)

/-! ### Places in the frame -/

theorem pairwise_sym {α : Type} {R : α → α → Prop} (hs : ∀ x y, R x y → R y x) (hr : ∀ x, R x x) {l : List α}
    (h : l.Pairwise R) {x y : α} (hx : x ∈ l) (hy : y ∈ l) : R x y := by
  induction h with
  | nil => cases hx
  | cons ha _ ih =>
    rcases List.mem_cons.1 hx with h1 | h1 <;> rcases List.mem_cons.1 hy with h2 | h2
    · rw [h1, h2]; exact hr _
    · rw [h1]; exact ha _ h2
    · rw [h2]; exact hs _ _ (ha _ h1)
    · exact ih h1 h2

theorem zip_values {γ : Type} (F : Verif.Frame.Node × Nat → Option γ) (l : List Node) (v a : List Nat) (ha : a.length = l.length) :
    ((l.map (·.frame)).zip v).filterMap F = (l.zip (v.zip a)).filterMap fun x => F (x.1.frame, x.2.1) := by
  induction l generalizing v a with
  | nil => simp
  | cons n l ih =>
    cases a with
    | nil => simp at ha
    | cons b a =>
      cases v with
      | nil => simp
      | cons c v =>
        simp only [List.map_cons, List.zip_cons_cons, List.filterMap_cons]
        rw [ih v a (by simpa using ha)]

theorem zip_allocs {γ : Type} (F : Verif.Frame.Node × Nat → Option γ) (l : List Node) (v a : List Nat) (hv : v.length = l.length) :
    ((l.map (·.frame)).zip a).filterMap F = (l.zip (v.zip a)).filterMap fun x => F (x.1.frame, x.2.2) := by
  induction l generalizing v a with
  | nil => simp
  | cons n l ih =>
    cases v with
    | nil => simp at hv
    | cons c v =>
      cases a with
      | nil => simp
      | cons b a =>
        simp only [List.map_cons, List.zip_cons_cons, List.filterMap_cons]
        rw [ih v a (by simpa using hv)]

/-- The ranges of a value and of an object. -/
def valueRange (x : Node × Nat × Nat) : Option Range := if x.1.size = 0 then none else some ⟨x.2.1, x.1.size⟩

def allocRange (x : Node × Nat × Nat) : Option Range :=
  match x.1.kind with
  | .alloc k _ => some ⟨x.2.2, k⟩
  | _ => none

theorem valueRanges_eq (f : Func) : Verif.FrameSpec.valueRanges (f.nodes.map (·.frame)) f.layout = f.places.filterMap valueRange := by
  rw [Verif.FrameSpec.valueRanges, zip_values _ _ _ _ (layout_lengths f).2]
  rfl

theorem allocRanges_eq (f : Func) : Verif.FrameSpec.allocRanges (f.nodes.map (·.frame)) f.layout = f.places.filterMap allocRange := by
  rw [Verif.FrameSpec.allocRanges, zip_allocs _ _ _ _ (layout_lengths f).1]
  show f.places.filterMap _ = _
  congr 1
  funext x
  rw [allocRange, Node.frame]
  cases x.1.kind <;> rfl

theorem disjoint_sym {a b : Range} (h : Verif.FrameSpec.Disjoint a b) : Verif.FrameSpec.Disjoint b a := h.symm

/-- The ranges of the frame. -/
structure Ranges (f : Func) : Prop where
  values : ∀ x ∈ f.places, ∀ y ∈ f.places, x.1.num ≠ y.1.num → ∀ a b, valueRange x = some a → valueRange y = some b →
    Verif.FrameSpec.Disjoint a b
  allocs : ∀ x ∈ f.places, ∀ y ∈ f.places, x.1.num ≠ y.1.num → ∀ a b, allocRange x = some a → allocRange y = some b →
    Verif.FrameSpec.Disjoint a b
  mixed : ∀ x ∈ f.places, ∀ y ∈ f.places, ∀ a b, valueRange x = some a → allocRange y = some b → Verif.FrameSpec.Disjoint a b
  saved : ∀ x ∈ f.places, ∀ a o, valueRange x = some a ∨ allocRange x = some a → f.layout.saved = some o →
    Verif.FrameSpec.Disjoint a ⟨o, 8⟩
  inside : ∀ x ∈ f.places, ∀ a, valueRange x = some a ∨ allocRange x = some a → Verif.FrameSpec.Inside f.layout.frame a
  slot : ∀ o, f.layout.saved = some o → 8 ≤ o ∧ o ≤ f.layout.frame

theorem ranges_of (f : Func) : Ranges f := by
  have hg := layout_good f
  have hd := hg.disjoint
  have hi := hg.inside
  unfold Verif.FrameSpec.ranges at hd hi
  rw [valueRanges_eq, allocRanges_eq] at hd hi
  have ho : ∀ o, f.layout.saved = some o → (⟨o, 8⟩ : Range) ∈ Verif.FrameSpec.otherRanges 0 f.layout := by
    intro o h
    simp [Verif.FrameSpec.otherRanges, h]
  rw [List.pairwise_append, List.pairwise_append, List.pairwise_append] at hd
  obtain ⟨⟨⟨dv, -, -⟩, da, dva⟩, -, dall⟩ := hd
  have mv : ∀ {x a}, x ∈ f.places → valueRange x = some a → a ∈ f.places.filterMap valueRange :=
    fun hx ha => List.mem_filterMap.2 ⟨_, hx, ha⟩
  have ma : ∀ {x a}, x ∈ f.places → allocRange x = some a → a ∈ f.places.filterMap allocRange :=
    fun hx ha => List.mem_filterMap.2 ⟨_, hx, ha⟩
  refine ⟨?_, ?_, ?_, ?_, ?_, ?_⟩
  · intro x hx y hy hne
    rw [List.pairwise_filterMap] at dv
    refine pairwise_sym (R := fun x y : Node × Nat × Nat => x.1.num ≠ y.1.num → ∀ a b, valueRange x = some a →
      valueRange y = some b → Verif.FrameSpec.Disjoint a b) ?_ ?_ (dv.imp ?_) hx hy hne
    · intro x y h hne a b ha hb
      exact disjoint_sym (h hne.symm b a hb ha)
    · intro x h; exact absurd rfl h
    · intro x y h _ a b ha hb
      exact h a ha b hb
  · intro x hx y hy hne
    rw [List.pairwise_filterMap] at da
    refine pairwise_sym (R := fun x y : Node × Nat × Nat => x.1.num ≠ y.1.num → ∀ a b, allocRange x = some a →
      allocRange y = some b → Verif.FrameSpec.Disjoint a b) ?_ ?_ (da.imp ?_) hx hy hne
    · intro x y h hne a b ha hb
      exact disjoint_sym (h hne.symm b a hb ha)
    · intro x h; exact absurd rfl h
    · intro x y h _ a b ha hb
      exact h a ha b hb
  · intro x hx y hy a b ha hb
    exact dva _ (List.mem_append_left _ (mv hx ha)) _ (ma hy hb)
  · intro x hx a o ha hs
    rcases ha with ha | ha
    · exact dall _ (List.mem_append_left _ (List.mem_append_left _ (mv hx ha))) _ (ho o hs)
    · exact dall _ (List.mem_append_right _ (ma hx ha)) _ (ho o hs)
  · intro x hx a ha
    refine hi _ (List.mem_append_left _ ?_)
    rcases ha with ha | ha
    · exact List.mem_append_left _ (List.mem_append_left _ (mv hx ha))
    · exact List.mem_append_right _ (ma hx ha)
  · intro o hs
    have := hi _ (List.mem_append_right _ (ho o hs))
    exact ⟨this.1, this.2⟩

theorem value_place (f : Func) (n : Nat) (h : size f n ≠ 0) :
    ∃ x ∈ f.places, x.1.num = n ∧ valueRange x = some ⟨(f.slot n).loc, size f n⟩ := by
  have hs := slot_size f n
  unfold Func.slot at hs ⊢
  cases hf : f.places.find? (·.1.num == n) with
  | none => rw [hf] at hs; exact absurd hs.symm h
  | some x =>
    rw [hf] at hs
    obtain ⟨x, v, a⟩ := x
    refine ⟨_, List.mem_of_find?_eq_some hf, by simpa using List.find?_some hf, ?_⟩
    simp only at hs
    rw [valueRange, if_neg (by rw [hs]; exact h), hs]

theorem find_node {f : Func} (hn : (f.nodes.map (·.num)).Nodup) {n : Node} (h : n ∈ f.nodes) :
    ∃ v a, f.places.find? (·.1.num == n.num) = some (n, v, a) := by
  have hl := layout_lengths f
  have hz := find_zip f.nodes (f.layout.values.zip f.layout.allocs) (by simp [hl.1, hl.2]) (·.num == n.num)
  have key : ∀ l : List Node, (l.map (·.num)).Nodup → n ∈ l → l.find? (·.num == n.num) = some n := by
    intro l
    induction l with
    | nil => intro _ h; cases h
    | cons a l ih =>
      intro hd hm
      rw [List.map_cons, List.nodup_cons] at hd
      rcases List.mem_cons.1 hm with rfl | hm
      · simp
      · rw [List.find?_cons_of_neg]
        · exact ih hd.2 hm
        · intro e
          exact hd.1 (List.mem_map.2 ⟨n, hm, by simpa using (beq_iff_eq.1 e).symm⟩)
  rw [key _ hn h] at hz
  obtain ⟨⟨x, v, a⟩, e1, e2⟩ := Option.map_eq_some_iff.1 hz
  simp only at e2
  subst e2
  exact ⟨v, a, e1⟩

theorem alloc_place {f : Func} (hn : (f.nodes.map (·.num)).Nodup) {n : Node} (h : n ∈ f.nodes) {k al : Nat}
    (hk : n.kind = .alloc k al) : ∃ x ∈ f.places, x.1 = n ∧ allocRange x = some ⟨f.object n.num, k⟩ := by
  obtain ⟨v, a, e⟩ := find_node hn h
  refine ⟨_, List.mem_of_find?_eq_some e, rfl, ?_⟩
  rw [allocRange, Func.object, e]
  simp only [hk]

theorem object_aligned {f : Func} (hn : (f.nodes.map (·.num)).Nodup) {n : Node} (h : n ∈ f.nodes) {k al : Nat}
    (hk : n.kind = .alloc k al) : al ∣ f.object n.num ∨ al = 0 := by
  obtain ⟨v, a, e⟩ := find_node hn h
  have hm := List.mem_of_find?_eq_some e
  have hz : ∀ (l : List Node) (vs as : List Nat), (n, v, a) ∈ l.zip (vs.zip as) → (n.frame, a) ∈ (l.map (·.frame)).zip as := by
    intro l
    induction l with
    | nil => intro vs as h; simp at h
    | cons m l ih =>
      intro vs as h
      cases vs with
      | nil => simp at h
      | cons c vs =>
        cases as with
        | nil => simp at h
        | cons d as =>
          simp only [List.zip_cons_cons, List.mem_cons, Prod.mk.injEq, List.map_cons] at h ⊢
          rcases h with ⟨h1, -, h2⟩ | h
          · exact .inl ⟨by rw [h1], h2⟩
          · exact .inr (ih vs as h)
  have := (layout_good f).aligned _ (hz _ _ _ hm) k al (by simp only [Node.frame, hk])
  rw [Func.object, e]
  exact this

theorem range_toNat {B : BitVec 64} {loc sz k fr : Nat} (hf : fr ≤ B.toNat) (h1 : sz ≤ loc) (h2 : loc ≤ fr) (hk : k < sz) :
    (B - BitVec.ofNat 64 loc + BitVec.ofNat 64 k).toNat = B.toNat - loc + k := by
  have := B.isLt
  have hs := sub_toNat B loc (by omega)
  rw [add_toNat _ _ (by rw [hs]; omega), hs]

/-! ### Entry and exit -/

theorem shape_of {f : Func} (h : FuncOk f) : Shape f.layout := by
  have ha : ∀ n ∈ f.nodes.map (·.frame), ∀ size a, n.kind = .alloc size a → a = 0 ∨ ∃ k, k ≤ 30 ∧ a = 2 ^ k := by
    intro n hn size a hk
    obtain ⟨m, hm, rfl⟩ := List.mem_map.1 hn
    have hok := h.nodes m hm
    cases hkm : m.kind <;> rw [Node.frame, hkm] at hk <;> simp at hk
    obtain ⟨rfl, rfl⟩ := hk
    rw [NodeOk, hkm] at hok
    exact hok.2
  refine ⟨(layout_good f).round, fun o ho => ?_⟩
  obtain ⟨h8, hle⟩ := (ranges_of f).slot o ho
  refine ⟨h8, hle, ?_⟩
  have hal : 16 < f.layout.align := by
    have h1 := (layout_good f).saved
    rw [ho] at h1
    simpa using h1
  have hx := (Verif.Frame.allocs_align ((Verif.Frame.values 0 (f.nodes.map (·.frame))).1 +
    Verif.Frame.vlas (f.nodes.map (·.frame)) * 8) 0 (f.nodes.map (·.frame))).2.2
  have e : (Verif.Frame.allocs ((Verif.Frame.values 0 (f.nodes.map (·.frame))).1 +
    Verif.Frame.vlas (f.nodes.map (·.frame)) * 8) 0 (f.nodes.map (·.frame))).2.1 = f.layout.align := rfl
  rw [e] at hx
  rcases hx with hx | ⟨n, hn, size, hk⟩
  · omega
  · rcases ha n hn size _ hk with h0 | ⟨k, hk1, hk2⟩
    · omega
    · refine ⟨k, hk1, ?_, hk2⟩
      rcases Nat.lt_or_ge 4 k with h4 | h4
      · exact h4
      · have := Nat.pow_le_pow_right (n := 2) (by decide) h4
        rw [hk2] at hal
        omega

/-- Two states with the same registers, except `%rsp` and `%rbp`. -/
def SameRegs (s s' : State) : Prop := (∀ r, r ≠ .rsp → r ≠ .rbp → s'.reg r = s.reg r) ∧ s'.xmm = s.xmm

theorem run_sub_regs (F : FP) (s : State) (n : Nat) :
    ∃ s', run F (if n ≠ 0 then [⟨.subq, [.imm none n, R8 .rsp]⟩] else []) s = .ok s' ∧
      s'.reg .rbp = s.reg .rbp ∧ s'.mem = s.mem ∧ SameRegs s s' := by
  by_cases h : n = 0
  · subst h
    exact ⟨s, rfl, rfl, rfl, fun _ _ _ => rfl, rfl⟩
  · rw [if_pos h]
    refine ⟨{ s.set .rsp (s.reg .rsp - BitVec.ofInt 64 n) with fl := none }, ?_, ?_, rfl, ?_, rfl⟩
    · rw [run_cons, exec_subq]
      simp [alu, legal, getOp, putOp, merge64]
    · simp
    · intro r h1 _; simp [h1]

theorem prologue_regs {l : Layout} (h : Shape l) (F : FP) (s : State) (hlow : l.frame + l.align + 8 ≤ (s.reg .rsp).toNat) :
    ∃ s1, run F (prologue l) s = .ok s1 ∧ SameRegs s s1 ∧ (s.reg .rsp).toNat ≤ (s1.reg .rbp).toNat + 8 + l.align ∧
      (l.saved = none → s1.reg .rbp = s.reg .rsp - 8) ∧
      ∀ x, (∀ i, i < 8 → x ≠ s.reg .rsp - 8 + BitVec.ofNat 64 i) →
        (∀ o, l.saved = some o → ∀ i, i < 8 → x ≠ s1.reg .rbp - BitVec.ofNat 64 o + BitVec.ofNat 64 i) → s1.mem x = s.mem x := by
  generalize hr : s.reg .rsp = r at *
  have hp : (r - 8).toNat = r.toNat - 8 := sub_toNat r 8 (by omega)
  have hpush : exec F ⟨.pushq, [R8 .rbp]⟩ s = .ok ((s.set .rsp (r - 8)).store (r - 8) 8 (s.reg .rbp).toNat) := by
    rw [R8, exec_pushq, hr]
  generalize (s.reg .rbp).toNat = b at *
  cases hs : l.saved with
  | none =>
    obtain ⟨s1, r1, b1, m1, g1⟩ := run_sub_regs F (((s.set .rsp (r - 8)).store (r - 8) 8 b).set .rbp (r - 8)) l.frame
    refine ⟨s1, ?_, ⟨?_, ?_⟩, ?_, ?_, ?_⟩
    · rw [prologue, hs]
      simp only [List.cons_append, List.nil_append, List.append_nil]
      rw [run_cons, hpush, Out.bind_ok, run_cons, Verif.Frame.exec_mov_sp, Out.bind_ok]
      simpa using r1
    · intro q h1 h2; rw [g1.1 q h1 h2]; simp [h1, h2]
    · rw [g1.2]; simp
    · rw [b1]; simp [hp]; omega
    · intro _; rw [b1]; simp
    · intro x hx _
      rw [m1]
      show wr s.mem (r - 8) 8 b x = _
      exact wr_out _ _ _ _ _ hx
  | some o =>
    obtain ⟨ho1, ho2, k, hk1, hk2, hk3⟩ := h.saved o hs
    obtain ⟨q, hq, hq1, hq2, hdv, hq16⟩ := align_facts (r - 8) k hk1 hk2
    rw [hp] at hq1 hq2
    rw [← hk3] at hq2 hdv hq
    clear hk3 hk1 hk2
    let t : State := { (((s.set .rsp (r - 8)).store (r - 8) 8 b).set .rbp (r - 8)).set .rsp q with fl := none }
    let u : State := (t.store (q - BitVec.ofNat 64 o) 8 (r - 8).toNat).set .rbp q
    have hc1 : exec F ⟨.movq, [R8 .rsp, R8 .rbp]⟩ ((s.set .rsp (r - 8)).store (r - 8) 8 b) =
        .ok (((s.set .rsp (r - 8)).store (r - 8) 8 b).set .rbp (r - 8)) := by
      rw [Verif.Frame.exec_mov_sp]; simp
    have hc2 : exec F ⟨.andq, [.imm none (-(l.align : Int)), R8 .rsp]⟩
        (((s.set .rsp (r - 8)).store (r - 8) 8 b).set .rbp (r - 8)) = .ok t := by
      rw [Verif.Frame.exec_and_sp]; simp only [t, ← hq]; simp
    have htb : t.reg .rbp = r - 8 := by simp [t]
    have htp : t.reg .rsp = q := by simp [t]
    have hc3 : exec F ⟨.movq, [R8 .rbp, .mem (-(o : Int)) .rsp]⟩ t = .ok (t.store (q - BitVec.ofNat 64 o) 8 (r - 8).toNat) := by
      rw [Verif.Frame.exec_save_bp, htb, htp]
    have hc4 : exec F ⟨.movq, [R8 .rsp, R8 .rbp]⟩ (t.store (q - BitVec.ofNat 64 o) 8 (r - 8).toNat) = .ok u := by
      rw [Verif.Frame.exec_mov_sp]; simp [u, htp]
    obtain ⟨s1, r1, b1, m1, g1⟩ := run_sub_regs F u l.frame
    have hub : u.reg .rbp = q := by simp [u]
    refine ⟨s1, ?_, ⟨?_, ?_⟩, ?_, ?_, ?_⟩
    · rw [prologue, hs]
      simp only [List.cons_append, List.nil_append]
      rw [run_cons, hpush, Out.bind_ok, run_cons, hc1, Out.bind_ok, run_cons, hc2, Out.bind_ok, run_cons, hc3,
        Out.bind_ok, run_cons, hc4, Out.bind_ok, r1]
    · intro q h1 h2; rw [g1.1 q h1 h2]; simp [u, t, h1, h2]
    · rw [g1.2]; simp [u, t]
    · rw [b1, hub]; omega
    · intro h; cases h
    · intro x hx hx'
      rw [b1, hub] at hx'
      rw [m1]
      show wr (wr s.mem (r - 8) 8 b) (q - BitVec.ofNat 64 o) 8 (r - 8).toNat x = _
      rw [wr_out _ _ _ _ _ (hx' o rfl), wr_out _ _ _ _ _ hx]

theorem epilogue_regs (l : Layout) (F : FP) (s : State) : ∃ c s1, epilogue l = c ++ [⟨.ret, []⟩] ∧ run F c s = .ok s1 ∧
    SameRegs s s1 ∧ s1.mem = s.mem := by
  cases hs : l.saved with
  | none =>
    refine ⟨[⟨.leave, []⟩], _, by rw [epilogue, hs]; rfl, by rw [run_cons, exec_leave]; rfl, ⟨?_, by simp⟩, by simp⟩
    intro r h1 h2; simp [h1, h2]
  | some o =>
    refine ⟨[⟨.movq, [.mem (-(o : Int)) .rbp, R8 .rbp]⟩, ⟨.leave, []⟩], _, by rw [epilogue, hs]; rfl,
      by rw [run_cons, Verif.Frame.exec_load_bp, Out.bind_ok, run_cons, exec_leave]; rfl, ⟨?_, by simp⟩, by simp⟩
    intro r h1 h2; simp [h1, h2]

/-! ### Geometry -/

/-- The bytes that are never written: from `%rbp` to the end of the return address, and the saved
stack pointer. -/
def Keep (l : Layout) (B : BitVec 64) (sp : Nat) (x : BitVec 64) : Prop :=
  (B.toNat ≤ x.toNat ∧ x.toNat < sp + 8) ∨ ∃ o, l.saved = some o ∧ ∃ i, i < 8 ∧ x = B - BitVec.ofNat 64 o + BitVec.ofNat 64 i

section
variable {f : Func} {B : BitVec 64} {lo sp : Nat}

/-- The place of the objects. -/
def locOf (f : Func) (B : BitVec 64) (n : Nat) : BitVec 64 := B - BitVec.ofNat 64 (f.object n)

theorem geo_of (h : FuncOk f) (hlow : lo + f.layout.frame ≤ B.toNat) (hsp : B.toNat + 8 ≤ sp) (hb : sp < 2 ^ 63)
    (hr : 16 ∣ B.toNat) {fp : FP} {sym : Nat → BitVec 64} {args : BitVec 64}
    {call : BitVec 64 → List (Dest × Nat × Nat) → Mem → Option ((Dest → Nat) × Mem)}
    (hargs : ∀ n ∈ f.nodes, readsStack n → args = B + 16) :
    Geo f ⟨fp, sym, locOf f B, Accessible f (locOf f B) lo sp, args, call⟩ B (Keep f.layout B sp) := by
  have R := ranges_of f
  have hBf := sub_toNat B f.layout.frame (by omega)
  have hval : ∀ n k, k < size f n → ∃ x ∈ f.places, x.1.num = n ∧ valueRange x = some ⟨(f.slot n).loc, size f n⟩ ∧
      size f n ≤ (f.slot n).loc ∧ (f.slot n).loc ≤ f.layout.frame ∧
      (place f B n + BitVec.ofNat 64 k).toNat = B.toNat - (f.slot n).loc + k := by
    intro n k hk
    obtain ⟨x, hx, e, hv⟩ := value_place f n (by omega)
    have := R.inside x hx _ (.inl hv)
    exact ⟨x, hx, e, hv, this.1, this.2, range_toNat (by omega) this.1 this.2 hk⟩
  have hall : ∀ n ∈ f.nodes, ∀ k al, n.kind = .alloc k al → ∃ x ∈ f.places, x.1 = n ∧
      allocRange x = some ⟨f.object n.num, k⟩ ∧ k ≤ f.object n.num ∧ f.object n.num ≤ f.layout.frame ∧
      (locOf f B n.num).toNat = B.toNat - f.object n.num := by
    intro n hn k al hk
    obtain ⟨x, hx, e, ha⟩ := alloc_place h.nums hn hk
    have := R.inside x hx _ (.inr ha)
    have h2 : f.object n.num ≤ f.layout.frame := this.2
    exact ⟨x, hx, e, ha, this.1, this.2, sub_toNat B _ (by omega)⟩
  have hsav : ∀ o, f.layout.saved = some o → ∀ i, i < 8 → (B - BitVec.ofNat 64 o + BitVec.ofNat 64 i).toNat = B.toNat - o + i := by
    intro o ho i hi
    have := R.slot o ho
    exact range_toNat (fr := f.layout.frame) (by omega) this.1 this.2 hi
  have hkeep : ∀ x, Keep f.layout B sp x → (B.toNat ≤ x.toNat ∧ x.toNat < sp + 8) ∨
      ∃ o, f.layout.saved = some o ∧ B.toNat - o ≤ x.toNat ∧ x.toNat < B.toNat - o + 8 := by
    intro x hx
    rcases hx with hx | ⟨o, ho, i, hi, rfl⟩
    · exact .inl hx
    · refine .inr ⟨o, ho, ?_⟩
      rw [hsav o ho i hi]; omega
  refine ⟨?_, ?_, ?_, ?_, ?_, ?_, ?_, ?_, fun _ _ _ _ _ => rfl, hargs⟩
  · intro n
    by_cases h0 : size f n = 0
    · omega
    · obtain ⟨x, -, -, -, h1, h2, -⟩ := hval n 0 (by omega)
      omega
  · intro n m hne i hi j hj e
    obtain ⟨x, hx, ex, vx, x1, x2, x3⟩ := hval n i hi
    obtain ⟨y, hy, ey, vy, y1, y2, y3⟩ := hval m j hj
    have hd := R.values x hx y hy (by rw [ex, ey]; exact hne) _ _ vx vy
    have := congrArg BitVec.toNat e
    rw [x3, y3] at this
    simp only [Verif.FrameSpec.Disjoint] at hd
    omega
  · intro n k hk hacc
    obtain ⟨x, hx, ex, vx, x1, x2, x3⟩ := hval n k hk
    simp only [Accessible] at hacc
    rw [x3] at hacc
    rcases hacc with h1 | h1 | ⟨m, hm, km, al, hkm, h1, h2⟩
    · omega
    · omega
    · obtain ⟨y, hy, ey, vy, y1, y2, y3⟩ := hall m hm km al hkm
      have hd := R.mixed x hx y hy _ _ vx vy
      rw [y3] at h1 h2
      simp only [Verif.FrameSpec.Disjoint] at hd
      omega
  · intro x hx hacc
    have hk := hkeep x hx
    simp only [Accessible] at hacc
    rcases hk with ⟨k1, k2⟩ | ⟨o, ho, k1, k2⟩
    · rcases hacc with h1 | h1 | ⟨m, hm, km, al, hkm, h1, h2⟩
      · omega
      · omega
      · obtain ⟨y, hy, ey, vy, y1, y2, y3⟩ := hall m hm km al hkm
        rw [y3] at h1 h2
        omega
    · have hso := R.slot o ho
      rcases hacc with h1 | h1 | ⟨m, hm, km, al, hkm, h1, h2⟩
      · omega
      · omega
      · obtain ⟨y, hy, ey, vy, y1, y2, y3⟩ := hall m hm km al hkm
        have hd := R.saved y hy _ o (.inr vy) ho
        rw [y3] at h1 h2
        simp only [Verif.FrameSpec.Disjoint] at hd
        omega
  · intro n k hk hx
    obtain ⟨x, hx', ex, vx, x1, x2, x3⟩ := hval n k hk
    have hk' := hkeep _ hx
    rw [x3] at hk'
    rcases hk' with ⟨k1, k2⟩ | ⟨o, ho, k1, k2⟩
    · omega
    · have hso := R.slot o ho
      have hd := R.saved x hx' _ o (.inl vx) ho
      simp only [Verif.FrameSpec.Disjoint] at hd
      omega
  · intro x hx
    rw [hBf]
    rcases hkeep x hx with ⟨k1, k2⟩ | ⟨o, ho, k1, k2⟩
    · omega
    · have hso := R.slot o ho
      omega
  · intro n k hk
    obtain ⟨x, hx', ex, vx, x1, x2, x3⟩ := hval n k hk
    rw [x3, hBf]
    omega
  · rw [hBf]
    exact Nat.dvd_sub hr (layout_good f).round

theorem objects_of (h : FuncOk f) (hlow : lo + f.layout.frame ≤ B.toNat) (hsp : B.toNat + 8 ≤ sp)
    (hr : Verif.FrameSpec.BaseAligned f.layout B) : Objects f (locOf f B) lo sp := by
  have R := ranges_of f
  have hall : ∀ n ∈ f.nodes, ∀ k al, n.kind = .alloc k al → ∃ x ∈ f.places, x.1 = n ∧
      allocRange x = some ⟨f.object n.num, k⟩ ∧ k ≤ f.object n.num ∧ f.object n.num ≤ f.layout.frame ∧
      (locOf f B n.num).toNat = B.toNat - f.object n.num := by
    intro n hn k al hk
    obtain ⟨x, hx, e, ha⟩ := alloc_place h.nums hn hk
    have := R.inside x hx _ (.inr ha)
    have h2 : f.object n.num ≤ f.layout.frame := this.2
    exact ⟨x, hx, e, ha, this.1, this.2, sub_toNat B _ (by omega)⟩
  refine ⟨?_, ?_, ?_⟩
  · intro n hn k al hk
    obtain ⟨x, hx, e, ha, h1, h2, h3⟩ := hall n hn k al hk
    rw [h3]; omega
  · intro n hn k al hk
    obtain ⟨x, hx, e, ha, h1, h2, h3⟩ := hall n hn k al hk
    rcases object_aligned h.nums hn hk with hd | h0
    · by_cases h0 : al = 0
      · exact .inl h0
      refine .inr ?_
      rw [h3]
      refine Nat.dvd_sub ?_ hd
      have hok := h.nodes n hn
      rw [NodeOk, hk] at hok
      rcases hok.2 with h0' | ⟨j, hj, rfl⟩
      · exact absurd h0' h0
      by_cases h4 : j ≤ 4
      · exact Nat.dvd_trans (Nat.pow_dvd_pow 2 h4) hr.1
      · have hle := (layout_good f).align n.frame (List.mem_map.2 ⟨n, hn, rfl⟩) k (2 ^ j) (by simp only [Node.frame, hk])
        have h16 : 16 < 2 ^ j := by
          have := Nat.pow_lt_pow_right (a := 2) (by decide) (show 4 < j by omega)
          simpa using this
        cases hs : f.layout.saved with
        | none =>
          have := (layout_good f).saved.1 hs
          omega
        | some o =>
          obtain ⟨-, -, i, hi, hi4, he⟩ := (shape_of h).saved o hs
          have := hr.2 (by rw [hs]; simp)
          refine Nat.dvd_trans ?_ this
          rw [he] at hle ⊢
          exact Nat.pow_dvd_pow 2 ((Nat.pow_le_pow_iff_right (by decide)).1 hle)
    · exact .inl h0
  · intro n hn k al hk m hm k' al' hk' hne
    obtain ⟨x, hx, ex, vx, x1, x2, x3⟩ := hall n hn k al hk
    obtain ⟨y, hy, ey, vy, y1, y2, y3⟩ := hall m hm k' al' hk'
    have hd := R.allocs x hx y hy (by rw [ex, ey]; exact hne) _ _ vx vy
    rw [x3, y3]
    simp only [Verif.FrameSpec.Disjoint] at hd
    omega

end

end Verif.FuncCode
