import Verif.FuncSim
/-!
Lemmas about the code of functions: joins and blocks.
-/
namespace Verif.FuncCode
open Verif Asm X86 Codegen CodegenSpec Memory MemorySpec FuncSpec
open Verif.Call (Dest)
open Verif.CallSpec (regVal)

section
variable {f : Func} {W : World} {B : BitVec 64} {keep : BitVec 64 → Prop} {m0 : Mem} {i i' : IS} {s : State}

/-! ### Joins -/

/-- The phi node with the places of its nodes. -/
def toPhi (slot : Nat → Slot) (p : PhiNode) : Phi.Phi := ⟨slot p.out, p.src.1.map slot, p.src.2.map slot⟩

theorem copies_filter (slot : Nat → Slot) (cur a b : Nat) (l : List PhiNode) :
    Phi.copies cur a b (l.map (toPhi slot)) =
      Phi.copies cur a b ((l.filter fun p => (slot p.out).size ≠ 0).map (toPhi slot)) := by
  induction l with
  | nil => rfl
  | cons p l ih =>
    rw [List.map_cons, Phi.copies]
    by_cases h : (slot p.out).size = 0
    · rw [if_pos (by simpa [toPhi] using h), List.filter_cons_of_neg (by simpa using h)]
      exact ih
    · rw [if_neg (by simpa [toPhi] using h), List.filter_cons_of_pos (by simpa using h), List.map_cons, Phi.copies,
        if_neg (by simpa [toPhi] using h), ih]

theorem phi_sim (F : FP) (g : Geo f W B keep) (hs : Sim f W B keep m0 i s) {cur : Nat} {t : Block}
    (hj : JoinOk (size f) cur t) (hn : NoSwap cur t) :
    ∃ c s', phiCode f.slot cur t = .ok c ∧ run F c s = .ok s' ∧ Sim f W B keep m0 (enter cur t i) s' := by
  have hss := slot_size f
  have had := hs.addr
  cases hp : t.preds with
  | none =>
    refine ⟨[], s, by rw [phiCode, hp], rfl, ?_⟩
    have : enter cur t i = i := by
      unfold enter
      rw [hj.plain hp]
      rfl
    rw [this]; exact hs
  | some ab =>
    obtain ⟨a, b⟩ := ab
    obtain ⟨hab, hcur⟩ := hj.preds a b hp
    obtain ⟨second, hsec⟩ : ∃ second : Bool, cur = if second then b else a := by
      rcases hcur with h | h
      · exact ⟨false, h⟩
      · exact ⟨true, h⟩
    let l := t.phis.filter fun p => (f.slot p.out).size ≠ 0
    have hch : ∀ p, PhiSpec.chosen second (toPhi f.slot p) = (source cur t p).map f.slot := by
      intro p
      rw [source, hp, hsec]
      cases second
      · simp [PhiSpec.chosen, toPhi]
      · simp [PhiSpec.chosen, toPhi, hab.symm]
    have hmv : PhiSpec.moves second (l.map (toPhi f.slot)) =
        l.filterMap fun p => (source cur t p).map fun v => (f.slot p.out, f.slot v) := by
      rw [PhiSpec.moves, List.filterMap_map]
      congr 1
      funext p
      simp only [Function.comp_def, hch, Option.map_map]
      rfl
    have hmem : ∀ m, m ∈ PhiSpec.moves second (l.map (toPhi f.slot)) ↔
        ∃ p ∈ t.phis, size f p.out ≠ 0 ∧ ∃ v, source cur t p = some v ∧ m = (f.slot p.out, f.slot v) := by
      intro m
      rw [hmv, List.mem_filterMap]
      constructor
      · rintro ⟨p, hpl, he⟩
        obtain ⟨v, hv, rfl⟩ := Option.map_eq_some_iff.1 he
        have := List.mem_filter.1 hpl
        exact ⟨p, this.1, by simpa [hss] using this.2, v, hv, rfl⟩
      · rintro ⟨p, hpl, h0, v, hv, rfl⟩
        exact ⟨p, List.mem_filter.2 ⟨hpl, by simpa [hss] using h0⟩, by rw [hv]; rfl⟩
    have hnodes : PhiSpec.Nodes s (PhiSpec.moves second (l.map (toPhi f.slot))) := by
      refine ⟨?_, ?_, ?_⟩
      · intro m hm
        obtain ⟨p, hpl, h0, v, hv, rfl⟩ := (hmem m).1 hm
        simp only [hss]
        rcases hj.scalar p hpl with h | h
        · exact absurd h h0
        · exact h
      · intro m hm
        obtain ⟨p, hpl, h0, v, hv, rfl⟩ := (hmem m).1 hm
        simp only [hss]
        exact hj.same p hpl v hv
      · rw [hmv, List.pairwise_filterMap]
        have := hj.outs
        rw [List.Nodup, List.pairwise_map] at this
        refine (this.filter _).imp fun {p q} hne m hm m' hm' => ?_
        obtain ⟨v, hv, rfl⟩ := Option.map_eq_some_iff.1 hm
        obtain ⟨v', hv', rfl⟩ := Option.map_eq_some_iff.1 hm'
        simp only [PhiSpec.Apart, had, hss]
        exact g.apart _ _ hne
    have hsrc : (PhiSpec.moves second (l.map (toPhi f.slot))).Pairwise fun m n => PhiSpec.Apart s n.2 m.1 := by
      rw [hmv, List.pairwise_filterMap]
      refine (List.Pairwise.filter _ hn).imp fun {p q} hne m hm m' hm' => ?_
      obtain ⟨v, hv, rfl⟩ := Option.map_eq_some_iff.1 hm
      obtain ⟨v', hv', rfl⟩ := Option.map_eq_some_iff.1 hm'
      simp only [PhiSpec.Apart, had, hss]
      refine g.apart _ _ fun e => hne ?_
      rw [hv', e]
    obtain ⟨c, s', e, r, p1, p2, p3, p4⟩ := Phi.join_partial F a b second (l.map (toPhi f.slot)) s hab
      (by
        intro p hpm
        obtain ⟨q, hq, rfl⟩ := List.mem_map.1 hpm
        simpa [toPhi] using (List.mem_filter.1 hq).2) hnodes hsrc
    refine ⟨c, s', ?_, r, ?_⟩
    · rw [phiCode, hp]
      show Phi.copies cur a b (t.phis.map (toPhi f.slot)) = _
      rw [copies_filter, hsec]
      exact e
    have hout : ∀ x, (∀ p ∈ t.phis, ∀ k, k < size f p.out → x ≠ place f B p.out + BitVec.ofNat 64 k) → s'.mem x = s.mem x := by
      intro x hx
      refine p4 x fun m hm k hk => ?_
      obtain ⟨p, hpl, h0, v, hv, rfl⟩ := (hmem m).1 hm
      simp only [had, hss] at hk ⊢
      exact hx p hpl k hk
    refine ⟨p1.trans hs.rbp, p2.trans hs.rsp, ?_, ?_, ?_⟩
    · intro n v hv
      simp only [enter] at hv
      cases hf : t.phis.find? (·.out == n) with
      | none =>
        rw [hf] at hv
        simp only at hv
        rw [← hs.vals n v hv]
        refine rd_congr fun k hk => hout _ fun p hpl j hj' => ?_
        have : p.out ≠ n := by simpa using List.find?_eq_none.1 hf p hpl
        exact g.apart n p.out this.symm k hk j hj'
      | some p =>
        rw [hf] at hv
        have hpl := List.mem_of_find?_eq_some hf
        have he : p.out = n := by simpa using List.find?_some hf
        subst he
        obtain ⟨u, hu, huv⟩ := Option.bind_eq_some_iff.1 hv
        have hus := hs.vals u v huv
        rw [hj.same p hpl u hu] at hus
        by_cases h0 : size f p.out = 0
        · rw [h0] at hus ⊢
          simpa [rd] using hus
        · have := p3 _ ((hmem _).2 ⟨p, hpl, h0, u, hu, rfl⟩)
          simp only [had, hss] at this
          rw [this, hus]
    · intro x hx
      rw [hout x fun p _ k hk e => g.own p.out k hk (e ▸ hx)]
      exact hs.mem x hx
    · intro x hx
      rw [hout x fun p _ k hk e => g.other p.out k hk (e ▸ hx)]
      exact hs.keep x hx

end

/-! ### Blocks -/

/-- The code of a block, and the label that follows it. -/
structure CodeOf (M : Machine) (f : Func) (b : Block) (k : Nat) (ci e : List Ins) (next : Option Nat) : Prop where
  ins : instructions f.slot f.object b.ins = .ok ci
  last : endCode f b next = .ok e
  code : CodeAt M k (.label b.label :: (ci ++ e).map .ins)
  next : ∀ l, next = some l → M.code[k + 1 + ci.length + e.length]? = some (.label l)

theorem block_ok {f : Func} {b : Block} {next : Option Nat} {c : List Item} (h : block f b next = .ok c) :
    ∃ ci e, instructions f.slot f.object b.ins = .ok ci ∧ endCode f b next = .ok e ∧ c = .label b.label :: (ci ++ e).map .ins := by
  rw [block] at h
  obtain ⟨ci, h1, h⟩ := Res.bind_eq_ok.1 h
  obtain ⟨e, h2, h⟩ := Res.bind_eq_ok.1 h
  cases h
  exact ⟨ci, e, h1, h2, rfl⟩

theorem blocks_head {f : Func} {b : Block} {bs : List Block} {c : List Item} (h : blocks f (b :: bs) = .ok c) :
    ∃ r, c = .label b.label :: r := by
  rw [blocks] at h
  obtain ⟨cb, h1, h⟩ := Res.bind_eq_ok.1 h
  obtain ⟨r, h2, h⟩ := Res.bind_eq_ok.1 h
  cases h
  obtain ⟨ci, e, -, -, rfl⟩ := block_ok h1
  exact ⟨_, rfl⟩

theorem blocks_at {M : Machine} {f : Func} {bs : List Block} {c : List Item} {k : Nat} (h : blocks f bs = .ok c)
    (hc : CodeAt M k c) : ∀ b ∈ bs, ∃ k' ci e next, CodeOf M f b k' ci e next := by
  induction bs generalizing c k with
  | nil => intro b hb; cases hb
  | cons b bs ih =>
    rw [blocks] at h
    obtain ⟨cb, h1, h⟩ := Res.bind_eq_ok.1 h
    obtain ⟨r, h2, h⟩ := Res.bind_eq_ok.1 h
    cases h
    obtain ⟨ha, hb⟩ := codeAt_append hc
    intro b' hb'
    rcases List.mem_cons.1 hb' with rfl | hb'
    · obtain ⟨ci, e, e1, e2, rfl⟩ := block_ok h1
      refine ⟨k, ci, e, _, e1, e2, ha, ?_⟩
      intro l hl
      cases bs with
      | nil => cases hl
      | cons b2 bs =>
        simp only [List.head?_cons, Option.map_some, Option.some.injEq] at hl
        obtain ⟨r', rfl⟩ := blocks_head h2
        have := codeAt_head hb
        rw [← hl, ← this]
        congr 1
        simp; omega
    · exact ih h2 hb b' hb'

theorem line_of {M : Machine} {k l : Nat} (hn : (labels M.code).Nodup) (h : M.code[k]? = some (.label l)) : M.line l = some k := by
  unfold Machine.line
  have key : ∀ (c : List Item) (k : Nat), (labels c).Nodup → c[k]? = some (.label l) →
      c.findIdx? (· == .label l) = some k := by
    intro c
    induction c with
    | nil => intro k _ h; simp at h
    | cons a c ih =>
      intro k hn h
      rw [List.findIdx?_cons]
      by_cases ha : a = .label l
      · subst ha
        cases k with
        | zero => simp
        | succ k =>
          exfalso
          have e : labels (Item.label l :: c) = l :: labels c := rfl
          rw [e, List.nodup_cons] at hn
          refine hn.1 ?_
          rw [List.getElem?_cons_succ] at h
          exact List.mem_filterMap.2 ⟨_, List.mem_of_getElem? h, rfl⟩
      · cases k with
        | zero => simp at h; exact absurd h ha
        | succ k =>
          rw [List.getElem?_cons_succ] at h
          have hn' : (labels c).Nodup := by
            cases a with
            | ins i => exact hn
            | label l' => exact (List.nodup_cons.1 hn).2
          rw [if_neg (by simpa using ha), ih k hn' h]
          rfl
  exact key _ _ hn h

theorem block_unique {f : Func} (h : FuncOk f) {l : Nat} {b b' : Block} (h1 : blockAt f l b) (h2 : blockAt f l b') : b = b' := by
  have hd := (List.nodup_cons.1 h.labels).2
  obtain ⟨m1, e1⟩ := h1
  obtain ⟨m2, e2⟩ := h2
  have key : ∀ bs : List Block, (bs.map (·.label)).Nodup → b ∈ bs → b' ∈ bs → b = b' := by
    intro bs
    induction bs with
    | nil => intro _ h; cases h
    | cons a bs ih =>
      intro hd m1 m2
      rw [List.map_cons, List.nodup_cons] at hd
      rcases List.mem_cons.1 m1 with h1 | h1 <;> rcases List.mem_cons.1 m2 with h2 | h2
      · rw [h1, h2]
      · exact (hd.1 (List.mem_map.2 ⟨b', h2, by rw [← h1, e1, e2]⟩)).elim
      · exact (hd.1 (List.mem_map.2 ⟨b, h1, by rw [← h2, e1, e2]⟩)).elim
      · exact ih hd.2 h1 h2
  exact key _ hd m1 m2

theorem find_block {f : Func} (h : FuncOk f) {l : Nat} {b : Block} (hb : blockAt f l b) :
    f.blocks.find? (·.label == l) = some b := by
  cases hf : f.blocks.find? (·.label == l) with
  | none => exact absurd (by simpa using hb.2) (List.find?_eq_none.1 hf b hb.1)
  | some t =>
    have ht : blockAt f l t := ⟨List.mem_of_find?_eq_some hf, by simpa using List.find?_some hf⟩
    rw [block_unique h hb ht]

theorem here_of {f : Func} (h : FuncOk f) {b : Block} (hb : b ∈ f.blocks) : ∀ n ∈ b.ins, Here f n := by
  intro n hn
  have hm : n ∈ f.nodes := List.mem_flatMap.2 ⟨b, hb, hn⟩
  exact ⟨hm, size_node h.nums hm, h.nodes n hm⟩

section
variable {M : Machine} {f : Func} {W : World} {B : BitVec 64} {keep : BitVec 64 → Prop} {m0 : Mem} {i i' : IS} {s : State}

/-- Everything that is known of the program in which the function runs. -/
structure Setting (M : Machine) (f : Func) (W : World) : Prop where
  ok : FuncOk f
  limits : Limits f
  labels : (labels M.code).Nodup
  sym : M.sym = W.sym
  fp : M.fp = W.fp
  calls : Calls M W
  blocks : ∀ b ∈ f.blocks, ∃ k ci e next, CodeOf M f b k ci e next

/-- The instructions of a block. -/
theorem body_sim (S : Setting M f W) (g : Geo f W B keep) {b : Block} {k : Nat} {ci e : List Ins} {next : Option Nat}
    (hb : b ∈ f.blocks) (hc : CodeOf M f b k ci e next) (hd : DoesAll W (size f) b.ins i i') (hs : Sim f W B keep m0 i s) :
    ∃ s', M.Steps k s (k + 1 + ci.length) s' ∧ Sim f W B keep m0 i' s' ∧ CodeAt M (k + 1 + ci.length) (e.map .ins) := by
  obtain ⟨h1, h2, h3, h4⟩ := hc
  have st : M.Step k s (k + 1) s := .label (codeAt_head h3)
  obtain ⟨a1, a2⟩ := codeAt_map (codeAt_tail h3)
  obtain ⟨s', st', hs'⟩ := instructions_sim g S.sym S.fp S.calls (here_of S.ok hb) hd hs h1 a1
  exact ⟨s', steps_trans (steps_one st) st', hs', a2⟩

/-- The end of a block with a branch. -/
theorem branch_sim (hs : Sim f W B keep m0 i s) {c lt lf kt kf k x : Nat} (hx : i.vals c = some x) (hc : Scalar (size f c))
    {e : List Ins} (he : (do
      let l ← scalarToReg (f.slot c) .rdi
      pure (l ++ [⟨.testq, [R8 .rdi, R8 .rdi]⟩, ⟨.je, [.abs (some lf) 0]⟩, ⟨.jmp, [.abs (some lt) 0]⟩] : List Ins)) = Res.ok e)
    (hat : CodeAt M k (e.map .ins)) (hkt : M.line lt = some kt) (hkf : M.line lf = some kf) :
    ∃ s', M.Steps k s (if x ≠ 0 then kt else kf) s' ∧ Sim f W B keep m0 i s' := by
  obtain ⟨l, e1, r1⟩ := run_load M.fp (f.slot c) .rdi (by rw [slot_size]; exact hc)
  rw [e1] at he
  cases he
  have hv := hs.vals c x hx
  have hx64 : x < 2 ^ 64 := by
    have := hs.lt hx
    refine Nat.lt_of_lt_of_le this ?_
    rcases hc with h | h | h | h <;> rw [h] <;> decide
  have hr := r1 s
  rw [hs.addr, slot_size, hv] at hr
  obtain ⟨a1, a2⟩ := codeAt_map hat
  have st1 := steps_run hr a1
  generalize ht : s.set .rdi (BitVec.ofNat 64 x) = t at st1 hr
  have htr : t.reg .rdi = BitVec.ofNat 64 x := by subst ht; simp
  have hst : Sim f W B keep m0 i t := by
    subst ht
    exact ⟨by simpa using hs.rbp, by simpa using hs.rsp, hs.vals, hs.mem, hs.keep⟩
  have h1 : exec M.fp ⟨.testq, [R8 .rdi, R8 .rdi]⟩ t = .ok { t with fl := some (testFlags (t.reg .rdi) (t.reg .rdi)) } := by
    simp [cmpIns, legal, getOp]
  have hzf : (testFlags (t.reg .rdi) (t.reg .rdi)).zf = decide (x = 0) := by
    simp only [testFlags, BitVec.and_self, htr]
    rw [Bool.eq_iff_iff]; simp only [beq_iff_eq, decide_eq_true_eq]
    rw [← BitVec.toNat_inj, BitVec.toNat_ofNat, Nat.mod_eq_of_lt hx64]; simp
  simp only [List.map_cons, List.map_nil] at a2
  have st2 := steps_one (M := M) (.exec (codeAt_head a2) h1)
  generalize hu : ({ t with fl := some (testFlags (t.reg .rdi) (t.reg .rdi)) } : State) = u at st2
  have hsu : Sim f W B keep m0 i u := by subst hu; exact ⟨hst.rbp, hst.rsp, hst.vals, hst.mem, hst.keep⟩
  have huf : u.fl = some (testFlags (t.reg .rdi) (t.reg .rdi)) := by subst hu; rfl
  have st3 := steps_one (M := M) (.je (codeAt_head (codeAt_tail a2)) hkf huf)
  refine ⟨u, ?_, hsu⟩
  have st := steps_trans (steps_trans st1 st2) st3
  rw [hzf] at st
  by_cases h0 : x = 0
  · simpa [h0] using st
  · have st4 := steps_one (M := M) (.jmp (s := u) (codeAt_head (codeAt_tail (codeAt_tail a2))) hkt)
    simp only [h0, decide_false, Bool.false_eq_true, if_false] at st
    simpa [h0] using steps_trans st st4

/-- From block to block. -/
theorem step_sim (S : Setting M f W) (g : Geo f W B keep) {l l' k : Nat} (hk : M.line l = some k)
    (h : Step W f l i l' i') (hs : Sim f W B keep m0 i s) :
    ∃ k' s', M.line l' = some k' ∧ M.Steps k s k' s' ∧ Sim f W B keep m0 i' s' := by
  have hat : ∀ b, blockAt f l b → ∃ ci e next, CodeOf M f b k ci e next := by
    intro b hb
    obtain ⟨k', ci, e, next, hc⟩ := S.blocks b hb.1
    have := line_of S.labels (codeAt_head hc.code)
    rw [hb.2, hk] at this
    cases this
    exact ⟨ci, e, next, hc⟩
  have hline : ∀ l b, blockAt f l b → ∃ k, M.line l = some k := by
    intro l b hb
    obtain ⟨k', ci, e, next, hc⟩ := S.blocks b hb.1
    have := line_of S.labels (codeAt_head hc.code)
    rw [hb.2] at this
    exact ⟨k', this⟩
  cases h with
  | @jump b _ i1 _ t hb hd hl ht =>
    obtain ⟨ci, e, next, hc⟩ := hat b hb
    obtain ⟨s1, st1, hs1, hae⟩ := body_sim S g hb.1 hc hd hs
    have he := hc.last
    rw [endCode, hl] at he
    simp only [find_block S.ok ht] at he
    obtain ⟨t', ht', hj⟩ := S.ok.jump b hb.1 _ hl
    obtain rfl := block_unique S.ok ht ht'
    obtain ⟨c, s2, e2, r2, hs2⟩ := phi_sim M.fp g hs1 hj (S.limits.swap b hb.1 _ _ hl ht)
    rw [e2, Res.bind_ok] at he
    cases he
    rw [hb.2] at hs2
    obtain ⟨a1, a2⟩ := codeAt_map hae
    have st2 := steps_trans st1 (steps_run r2 a1)
    obtain ⟨k', hk'⟩ := hline _ _ ht
    refine ⟨k', s2, hk', ?_, hs2⟩
    by_cases hn : next = some l'
    · simp only [hn, if_true, List.append_nil] at *
      have := line_of S.labels (hc.next _ rfl)
      rw [hk'] at this
      cases this
      exact st2
    · rw [if_neg hn] at a2
      exact steps_trans st2 (steps_one (M := M) (.jmp (codeAt_head a2) hk'))
  | @branch b _ i1 c lt lf x _ t hb hd hl hx hl' ht =>
    obtain ⟨ci, e, next, hc⟩ := hat b hb
    obtain ⟨s1, st1, hs1, hae⟩ := body_sim S g hb.1 hc hd hs
    have he := hc.last
    rw [endCode, hl] at he
    obtain ⟨hsc, ⟨tt, htt, pt⟩, ⟨tf, htf, pf⟩⟩ := S.ok.branch b hb.1 _ _ _ hl
    obtain ⟨kt, hkt⟩ := hline _ _ htt
    obtain ⟨kf, hkf⟩ := hline _ _ htf
    obtain ⟨s2, st2, hs2⟩ := branch_sim hs1 hx hsc he hae hkt hkf
    have hen : enter l t i1 = i1 := by
      have : t.phis = [] := by
        by_cases h0 : x = 0
        · rw [if_neg (by simpa using h0)] at hl'
          subst hl'
          rw [block_unique S.ok ht htf]; exact pf
        · rw [if_pos h0] at hl'
          subst hl'
          rw [block_unique S.ok ht htt]; exact pt
      unfold enter
      rw [this]
      rfl
    rw [hen]
    refine ⟨if x ≠ 0 then kt else kf, s2, ?_, steps_trans st1 st2, hs2⟩
    rw [hl']
    split <;> assumption

theorem steps_sim (S : Setting M f W) (g : Geo f W B keep) {l l' k : Nat} (hk : M.line l = some k)
    (h : Steps W f l i l' i') (hs : Sim f W B keep m0 i s) :
    ∃ k' s', M.line l' = some k' ∧ M.Steps k s k' s' ∧ Sim f W B keep m0 i' s' := by
  induction h with
  | refl => exact ⟨k, s, hk, .refl, hs⟩
  | tail _ h2 ih =>
    obtain ⟨k1, s1, e1, st1, hs1⟩ := ih
    obtain ⟨k2, s2, e2, st2, hs2⟩ := step_sim S g e1 h2 hs1
    exact ⟨k2, s2, e2, steps_trans st1 st2, hs2⟩

end

end Verif.FuncCode
