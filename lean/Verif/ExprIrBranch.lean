import Verif.ExprIrEqs
/-!
Lemmas for C92: the blocks of a conditional expression.
-/
namespace Verif.ExprIr
open Verif.ExprIrSpec

/-- What `evaluate` does to the nodes: it adds some, and ends in an open block. -/
structure Ext (st st' : St) : Prop where
  opened : Open st'
  grow : Grow st st'

theorem Ext.refl {st : St} (h : Open st) : Ext st st := ⟨h, Grow.refl st⟩
theorem Ext.trans {a b c : St} (ha : Open a) (h : Ext a b) (h' : Ext b c) : Ext a c := ⟨h'.opened, h.grow.trans ha h'.grow⟩
theorem Gen.ext {W : World} {st st' : St} {m m' : M} (h : Gen W st st' m m') : Ext st st' := ⟨h.opened, h.grow⟩
theorem ext_emit {st : St} (h : Open st) (s : Nat) (i : Nat → Ins) : Ext st (emit st s i).2 := ⟨emit_open h s i, emit_grow s i⟩

theorem select_open {st : St} (ho : Open st) (c : Nat) : Open (start (select st c).2.2 (st.next + 2)) := by
  obtain ⟨h1, h2, h3⟩ := ho
  refine ⟨Nat.lt_succ_self _, ?_, fun b hb => ?_⟩
  · show set st.uses st.cur _ (st.next + 2) = []
    rw [set_other _ _ (by omega)]
    exact (h3 _ (by omega)).2.1
  · have hb : st.next + 3 ≤ b := hb
    obtain ⟨a1, a2, a3⟩ := h3 b (by omega)
    refine ⟨a1, ?_, a3⟩
    show set st.uses st.cur _ b = []
    rw [set_other _ _ (by omega)]
    exact a2

theorem second_open {st st1 : St} (ho : Open st) (c : Nat) (h : Ext (start (select st c).2.2 (st.next + 2)) st1) :
    Open (start st1 (st.next + 1)) ∧ st1.code (st.next + 1) = [] := by
  have hs := ho.1
  have hn : st.next + 3 ≤ st1.next := h.grow.next
  obtain ⟨k1, k2, k3⟩ := h.grow.keep (st.next + 1) (by show st.next + 1 < st.next + 3; omega) (by show st.next + 1 ≠ st.next + 2; omega)
  have hu : st1.uses (st.next + 1) = [] := by
    rw [k2]
    show set st.uses st.cur _ (st.next + 1) = []
    rw [set_other _ _ (by omega)]
    exact (ho.2.2 _ (by omega)).2.1
  exact ⟨⟨by show st.next + 1 < st1.next; omega, hu, h.opened.2.2⟩, k1.trans (ho.2.2 _ (by omega)).1⟩

/-- The blocks of a conditional expression when both arms have been translated. -/
structure Joined (st st1 st2 stR : St) (c r t f : Nat) : Prop where
  opened : Open (start stR r)
  grow : Grow st (start stR r)
  cont1 : Contains stR st1
  cont2 : Contains stR st2
  branch : stR.uses st.cur = [.branch c t f]
  codeC : stR.code st.cur = st.code st.cur
  use1 : stR.uses st1.cur = [.region r 0]
  code1 : stR.code st1.cur = st1.code st1.cur
  use2 : stR.uses st2.cur = [.region r 1]
  code2 : stR.code st2.cur = st2.code st2.cur
  codeR : stR.code r = []
  size : ∀ n, n < st2.next → stR.size n = st2.size n
  next : st2.next ≤ stR.next

theorem joined {st st1 st2 : St} (ho : Open st) (c : Nat) (h1 : Ext (start (select st c).2.2 (st.next + 2)) st1)
    (h2 : Ext (start st1 (st.next + 1)) st2) :
    ∃ stR, region st2 st1.cur st2.cur = .ok (st2.next, stR) ∧
      Joined st st1 st2 stR c st2.next (st.next + 2) (st.next + 1) ∧ stR.next = st2.next + 1 := by
  have o0 := select_open ho c
  obtain ⟨o1', e1⟩ := second_open ho c h1
  have hc := ho.1
  have n1 : st.next + 3 ≤ st1.next := h1.grow.next
  have n2 : st1.next ≤ st2.next := h2.grow.next
  have c1 := h1.opened.1
  have c2 := h2.opened.1
  have m1 : st1.cur = st.next + 2 ∨ st.next + 3 ≤ st1.cur := h1.grow.moved
  have m2 : st2.cur = st.next + 1 ∨ st1.next ≤ st2.cur := h2.grow.moved
  have hne : st1.cur ≠ st2.cur := by omega
  obtain ⟨k1, k2, k3⟩ := h2.grow.keep st1.cur c1 (by show st1.cur ≠ st.next + 1; omega)
  change st2.code st1.cur = st1.code st1.cur at k1
  change st2.uses st1.cur = st1.uses st1.cur at k2
  have u1 : st2.uses st1.cur = [] := k2.trans h1.opened.2.1
  have u2 := h2.opened.2.1
  obtain ⟨r1, r2, r3⟩ := h2.opened.2.2 st2.next (Nat.le_refl _)
  -- the first arm leaves the block of the condition alone
  have q1 : ∀ b, b < st.next → st2.code b = st.code b ∧ st2.uses b = (if b = st.cur then [.branch c (st.next + 2) (st.next + 1)] else st.uses b)
      ∧ st2.preds b = st.preds b := by
    intro b hb
    obtain ⟨a1, a2, a3⟩ := h1.grow.keep b (by show b < st.next + 3; omega) (by show b ≠ st.next + 2; omega)
    obtain ⟨a4, a5, a6⟩ := h2.grow.keep b (by show b < st1.next; omega) (by show b ≠ st.next + 1; omega)
    refine ⟨a4.trans a1, (a5.trans a2).trans ?_, a6.trans a3⟩
    show set st.uses st.cur (st.uses st.cur ++ _) b = _
    unfold set
    split
    · rw [ho.2.1]; rfl
    · rfl
  let stR : St := { st2 with
    next := st2.next + 1
    uses := set (set st2.uses st1.cur [.region st2.next 0]) st2.cur [.region st2.next 1]
    preds := set (set st2.preds st2.next 1) st2.next 2 }
  refine ⟨stR, ?_, ⟨⟨?_, ?_, ?_⟩, ⟨?_, ?_, ?_, ?_, ?_⟩, ?_, ?_, ?_, ?_, ?_, ?_, ?_, ?_, ?_, ?_, ?_⟩, rfl⟩
  · unfold region newBlock connect
    simp only [r3, show (0 : Nat) < 2 by omega, if_true, Res.bind_ok, set_same, show (0 : Nat) + 1 < 2 by omega, u1,
      set_other _ _ hne.symm, u2, List.nil_append]
    rfl
  · exact Nat.lt_succ_self _
  · show set (set st2.uses st1.cur _) st2.cur _ st2.next = []
    rw [set_other _ _ (by omega), set_other _ _ (by omega)]
    exact r2
  · intro b hb
    have hb : st2.next + 1 ≤ b := hb
    obtain ⟨a1, a2, a3⟩ := h2.opened.2.2 b (by omega)
    refine ⟨a1, ?_, ?_⟩
    · show set (set st2.uses st1.cur _) st2.cur _ b = []
      rw [set_other _ _ (by omega), set_other _ _ (by omega)]
      exact a2
    · show set (set st2.preds st2.next 1) st2.next 2 b = 0
      rw [set_other _ _ (by omega), set_other _ _ (by omega)]
      exact a3
  · show st.next ≤ st2.next + 1; omega
  · intro n hn
    show st2.size n = st.size n
    have a1 := h1.grow.size n (show n < st.next + 3 by omega)
    have a2 := h2.grow.size n (show n < st1.next by omega)
    exact a2.trans a1
  · intro b hb hbc
    obtain ⟨a1, a2, a3⟩ := q1 b hb
    refine ⟨a1, ?_, ?_⟩
    · show set (set st2.uses st1.cur _) st2.cur _ b = _
      rw [set_other _ _ (by omega), set_other _ _ (by omega), a2, if_neg hbc]
    · show set (set st2.preds st2.next 1) st2.next 2 b = _
      rw [set_other _ _ (by omega), set_other _ _ (by omega), a3]
  · show st.code st.cur <+: st2.code st.cur
    rw [(q1 _ hc).1]
    exact List.prefix_refl _
  · exact .inr (by show st.next ≤ st2.next; omega)
  · refine contains_trans (b := st2) (contains_trans (b := start st1 (st.next + 1)) (contains_refl _) (h2.grow.contains o1')) ?_
    intro b
    refine ⟨List.prefix_refl _, fun hu => ⟨rfl, ?_⟩⟩
    show set (set st2.uses st1.cur _) st2.cur _ b = _
    rw [set_other _ _ (fun e => hu (by rw [e]; exact u2)), set_other _ _ (fun e => hu (by rw [e]; exact u1))]
  · intro b
    refine ⟨List.prefix_refl _, fun hu => ⟨rfl, ?_⟩⟩
    show set (set st2.uses st1.cur _) st2.cur _ b = _
    rw [set_other _ _ (fun e => hu (by rw [e]; exact u2)), set_other _ _ (fun e => hu (by rw [e]; exact u1))]
  · show set (set st2.uses st1.cur _) st2.cur _ st.cur = _
    rw [set_other _ _ (by omega), set_other _ _ (by omega), (q1 _ hc).2.1, if_pos rfl]
  · exact (q1 _ hc).1
  · show set (set st2.uses st1.cur _) st2.cur _ st1.cur = _
    rw [set_other _ _ hne, set_same]
  · exact k1
  · exact set_same _ _ _
  · rfl
  · exact r1
  · intro n _; rfl
  · exact Nat.le_succ _

/-- The same when the arms have no value. -/
theorem joined_void {st st1 st1' st2 : St} (ho : Open st) (c : Nat)
    (h1 : Ext (start (select (newBlock st).2 c).2.2 (st.next + 3)) st1)
    (e1 : connect st1 st1.cur st.next = .ok st1')
    (h2 : Ext (start st1' (st.next + 2)) st2) :
    ∃ stR, connect st2 st2.cur st.next = .ok stR ∧
      Joined st st1 st2 stR c st.next (st.next + 3) (st.next + 2) := by
  have hc := ho.1
  have n1 : st.next + 4 ≤ st1.next := h1.grow.next
  have c1 := h1.opened.1
  have c2 := h2.opened.1
  have m1 : st1.cur = st.next + 3 ∨ st.next + 4 ≤ st1.cur := h1.grow.moved
  have p1 : st1.preds st.next = 0 := by
    obtain ⟨_, _, k⟩ := h1.grow.keep st.next (by show st.next < st.next + 4; omega) (by show st.next ≠ st.next + 3; omega)
    exact k.trans (ho.2.2 _ (Nat.le_refl _)).2.2
  have u1 := h1.opened.2.1
  unfold connect at e1
  rw [p1, u1] at e1
  simp only [show (0 : Nat) < 2 by omega, if_true, List.nil_append] at e1
  injection e1 with e1
  have en : st1'.next = st1.next := by rw [← e1]
  have ecd : st1'.code = st1.code := by rw [← e1]
  have esz : st1'.size = st1.size := by rw [← e1]
  have eus : st1'.uses = set st1.uses st1.cur [.region st.next 0] := by rw [← e1]
  have epr : st1'.preds = set st1.preds st.next 1 := by rw [← e1]
  have n2 : st1.next ≤ st2.next := by rw [← en]; exact h2.grow.next
  have m2 : st2.cur = st.next + 2 ∨ st1.next ≤ st2.cur := by rw [← en]; exact h2.grow.moved
  have hne : st1.cur ≠ st2.cur := by omega
  have u2 := h2.opened.2.1
  -- what the second arm leaves alone
  have keep2 : ∀ b, b < st1.next → b ≠ st.next + 2 →
      st2.code b = st1.code b ∧ st2.uses b = set st1.uses st1.cur [.region st.next 0] b ∧ st2.preds b = set st1.preds st.next 1 b := by
    intro b hb hb'
    obtain ⟨a1, a2, a3⟩ := h2.grow.keep b (by rw [← en] at hb; exact hb) hb'
    rw [← ecd, ← eus, ← epr]
    exact ⟨a1, a2, a3⟩
  obtain ⟨k1, k2, k3⟩ := keep2 st1.cur c1 (by omega)
  rw [set_same] at k2
  have keep1 : ∀ b, b < st.next + 4 → b ≠ st.next + 3 → st1.code b = st.code b ∧
      st1.uses b = set st.uses st.cur (st.uses st.cur ++ [.branch c (st.next + 3) (st.next + 2)]) b ∧ st1.preds b = st.preds b := by
    intro b hb hb'
    exact h1.grow.keep b hb hb'
  have o1' : Open (start st1' (st.next + 2)) := by
    refine ⟨by show st.next + 2 < st1'.next; omega, ?_, fun b hb => ?_⟩
    · show st1'.uses (st.next + 2) = []
      rw [eus, set_other _ _ (by omega), (keep1 _ (by omega) (by omega)).2.1, set_other _ _ (by omega)]
      exact (ho.2.2 _ (by omega)).2.1
    · have hb : st1.next ≤ b := by rw [← en]; exact hb
      obtain ⟨a1, a2, a3⟩ := h1.opened.2.2 b hb
      refine ⟨by show st1'.code b = []; rw [ecd]; exact a1, ?_, ?_⟩
      · show st1'.uses b = []
        rw [eus, set_other _ _ (by omega)]; exact a2
      · show st1'.preds b = 0
        rw [epr, set_other _ _ (by omega)]; exact a3
  have q1 : ∀ b, b < st.next → st2.code b = st.code b ∧ st2.uses b = (if b = st.cur then [.branch c (st.next + 3) (st.next + 2)] else st.uses b)
      ∧ st2.preds b = st.preds b := by
    intro b hb
    obtain ⟨a1, a2, a3⟩ := keep1 b (by omega) (by omega)
    obtain ⟨a4, a5, a6⟩ := keep2 b (by omega) (by omega)
    rw [set_other _ _ (by omega)] at a5 a6
    refine ⟨a4.trans a1, (a5.trans a2).trans ?_, a6.trans a3⟩
    unfold set
    split
    · rw [ho.2.1]; rfl
    · rfl
  obtain ⟨b1, b2, b3⟩ := keep2 st.next (by omega) (by omega)
  obtain ⟨b4, b5, b6⟩ := keep1 st.next (by omega) (by omega)
  rw [set_same] at b3
  rw [set_other _ _ (by omega)] at b2
  rw [set_other _ _ (by omega)] at b5
  have hu0 := ho.2.2 st.next (Nat.le_refl _)
  have cont1 : Contains st2 st1 := by
    refine contains_trans (b := start st1' (st.next + 2)) ?_ (h2.grow.contains o1')
    intro b
    refine ⟨by show st1.code b <+: st1'.code b; rw [ecd]; exact List.prefix_refl _, fun hu => ⟨by show st1'.code b = _; rw [ecd], ?_⟩⟩
    show st1'.uses b = _
    rw [eus, set_other _ _ (fun e => hu (by rw [e]; exact u1))]
  have cont2 : Contains { st2 with uses := set st2.uses st2.cur [.region st.next 1], preds := set st2.preds st.next 2 } st2 := by
    intro b
    refine ⟨List.prefix_refl _, fun hu => ⟨rfl, set_other _ _ (fun e => hu (by rw [e]; exact u2))⟩⟩
  refine ⟨{ st2 with uses := set st2.uses st2.cur [.region st.next 1], preds := set st2.preds st.next 2 }, ?_,
    ⟨⟨?_, ?_, ?_⟩, ⟨?_, ?_, ?_, ?_, ?_⟩, contains_trans cont1 cont2, cont2, ?_, ?_, ?_, ?_, ?_, ?_, ?_, ?_, ?_⟩⟩
  · unfold connect
    rw [b3, u2]
    rfl
  · show st.next < st2.next; omega
  · show set st2.uses st2.cur _ st.next = []
    rw [set_other _ _ (by omega), b2, b5]
    exact hu0.2.1
  · intro b hb
    have hb : st2.next ≤ b := hb
    obtain ⟨a1, a2, a3⟩ := h2.opened.2.2 b hb
    refine ⟨a1, ?_, ?_⟩
    · show set st2.uses st2.cur _ b = []
      rw [set_other _ _ (by omega)]; exact a2
    · show set st2.preds st.next 2 b = 0
      rw [set_other _ _ (by omega)]; exact a3
  · show st.next ≤ st2.next; omega
  · intro n hn
    have a1 := h1.grow.size n (show n < st.next + 4 by omega)
    have a2 := h2.grow.size n (show n < st1'.next by omega)
    exact a2.trans ((congrFun esz n).trans a1)
  · intro b hb hbc
    obtain ⟨a1, a2, a3⟩ := q1 b hb
    refine ⟨a1, ?_, ?_⟩
    · show set st2.uses st2.cur _ b = _
      rw [set_other _ _ (by omega), a2, if_neg hbc]
    · show set st2.preds st.next 2 b = _
      rw [set_other _ _ (by omega), a3]
  · show st.code st.cur <+: st2.code st.cur
    rw [(q1 _ hc).1]
    exact List.prefix_refl _
  · exact .inr (Nat.le_refl _)
  · show set st2.uses st2.cur _ st.cur = _
    rw [set_other _ _ (by omega), (q1 _ hc).2.1, if_pos rfl]
  · exact (q1 _ hc).1
  · show set st2.uses st2.cur _ st1.cur = _
    rw [set_other _ _ hne, k2]
  · exact k1
  · exact set_same _ _ _
  · rfl
  · exact b1.trans (b4.trans hu0.1)
  · intro n _; rfl
  · exact Nat.le_refl _

/-- The block of a void conditional expression is opened for the second arm. -/
theorem void_open {st st1 : St} (ho : Open st) (c : Nat) (h1 : Ext (start (select (newBlock st).2 c).2.2 (st.next + 3)) st1) :
    ∃ st1', connect st1 st1.cur st.next = .ok st1' ∧ Open (start st1' (st.next + 2)) ∧ st1'.code (st.next + 2) = [] ∧
      st1'.next = st1.next ∧ st1'.size = st1.size := by
  have hc := ho.1
  have n1 : st.next + 4 ≤ st1.next := h1.grow.next
  have c1 := h1.opened.1
  have m1 : st1.cur = st.next + 3 ∨ st.next + 4 ≤ st1.cur := h1.grow.moved
  have p1 : st1.preds st.next = 0 := by
    obtain ⟨_, _, k⟩ := h1.grow.keep st.next (by show st.next < st.next + 4; omega) (by show st.next ≠ st.next + 3; omega)
    exact k.trans (ho.2.2 _ (Nat.le_refl _)).2.2
  have keep1 : ∀ b, b < st.next + 4 → b ≠ st.next + 3 → st1.code b = st.code b ∧
      st1.uses b = set st.uses st.cur (st.uses st.cur ++ [.branch c (st.next + 3) (st.next + 2)]) b ∧ st1.preds b = st.preds b := by
    intro b hb hb'
    exact h1.grow.keep b hb hb'
  refine ⟨{ st1 with
      uses := set st1.uses st1.cur (st1.uses st1.cur ++ [.region st.next 0])
      preds := set st1.preds st.next 1 }, by unfold connect; rw [p1]; rfl, ⟨?_, ?_, ?_⟩, ?_, rfl, rfl⟩
  · show st.next + 2 < st1.next; omega
  · show set st1.uses st1.cur _ (st.next + 2) = []
    rw [set_other _ _ (by omega), (keep1 _ (by omega) (by omega)).2.1, set_other _ _ (by omega)]
    exact (ho.2.2 _ (by omega)).2.1
  · intro b hb
    have hb : st1.next ≤ b := hb
    obtain ⟨a1, a2, a3⟩ := h1.opened.2.2 b hb
    refine ⟨a1, ?_, ?_⟩
    · show set st1.uses st1.cur _ b = []
      rw [set_other _ _ (by omega)]; exact a2
    · show set st1.preds st.next _ b = 0
      rw [set_other _ _ (by omega)]; exact a3
  · exact (keep1 _ (by omega) (by omega)).1.trans (ho.2.2 _ (by omega)).1

theorem newBlock_select_open {st : St} (ho : Open st) (c : Nat) : Open (start (select (newBlock st).2 c).2.2 (st.next + 3)) := by
  refine select_open (st := (newBlock st).2) ⟨Nat.lt_succ_of_lt ho.1, ho.2.1, fun b hb => ho.2.2 b (Nat.le_of_succ_le hb)⟩ c

/-- The machine through the first arm. -/
theorem Joined.first {W : World} {st st0 st1 st2 stR : St} {c r t f : Nat} (j : Joined st st1 st2 stR c r t f) {m m1 : M} {x : Nat}
    (hw : m.word c = some x) (hx : x ≠ 0) (h0 : st0.cur = t) (hc0 : st0.code t = []) (g : Gen W st0 st1 m m1)
    (hn : st.next ≤ st0.next) : Keeps st.next m m1 ∧
    ∀ G, Contains G stR → ∀ e, Steps W G ⟨st.cur, (st.code st.cur).length, e, m⟩ ⟨r, 0, 0, m1⟩ := by
  refine ⟨fun k hk => g.keep k (by omega), fun G hG e => ?_⟩
  have hb := (hG st.cur).2 (by rw [j.branch]; exact List.cons_ne_nil _ _)
  have s1 : Step W G ⟨st.cur, (st.code st.cur).length, e, m⟩ ⟨t, 0, 0, m⟩ := by
    have := Step.branch (W := W) (G := G) (b := st.cur) (entry := e) (m := m) (hb.2.trans j.branch) hw
    rw [hb.1, j.codeC, if_pos hx] at this
    exact this
  obtain ⟨e1, s2⟩ := g.run G (contains_trans j.cont1 hG) 0
  rw [h0, hc0] at s2
  have ha := (hG st1.cur).2 (by rw [j.use1]; exact List.cons_ne_nil _ _)
  have s3 : Step W G ⟨st1.cur, (st1.code st1.cur).length, e1, m1⟩ ⟨r, 0, 0, m1⟩ := by
    have := Step.goto (W := W) (G := G) (b := st1.cur) (entry := e1) (m := m1) (ha.2.trans j.use1)
    rw [ha.1, j.code1] at this
    exact this
  exact steps_trans (steps_one s1) (steps_trans s2 (steps_one s3))

/-- The machine through the second arm. -/
theorem Joined.second {W : World} {st st0 st1 st2 stR : St} {c r t f : Nat} (j : Joined st st1 st2 stR c r t f) {m m1 : M}
    (hw : m.word c = some 0) (h0 : st0.cur = f) (hc0 : st0.code f = []) (g : Gen W st0 st2 m m1)
    (hn : st.next ≤ st0.next) : Keeps st.next m m1 ∧
    ∀ G, Contains G stR → ∀ e, Steps W G ⟨st.cur, (st.code st.cur).length, e, m⟩ ⟨r, 0, 1, m1⟩ := by
  refine ⟨fun k hk => g.keep k (by omega), fun G hG e => ?_⟩
  have hb := (hG st.cur).2 (by rw [j.branch]; exact List.cons_ne_nil _ _)
  have s1 : Step W G ⟨st.cur, (st.code st.cur).length, e, m⟩ ⟨f, 0, 0, m⟩ := by
    have := Step.branch (W := W) (G := G) (b := st.cur) (entry := e) (m := m) (hb.2.trans j.branch) hw
    rw [hb.1, j.codeC, if_neg (fun h => h rfl)] at this
    exact this
  obtain ⟨e1, s2⟩ := g.run G (contains_trans j.cont2 hG) 0
  rw [h0, hc0] at s2
  have ha := (hG st2.cur).2 (by rw [j.use2]; exact List.cons_ne_nil _ _)
  have s3 : Step W G ⟨st2.cur, (st2.code st2.cur).length, e1, m1⟩ ⟨r, 0, 1, m1⟩ := by
    have := Step.goto (W := W) (G := G) (b := st2.cur) (entry := e1) (m := m1) (ha.2.trans j.use2)
    rw [ha.1, j.code2] at this
    exact this
  exact steps_trans (steps_one s1) (steps_trans s2 (steps_one s3))

/-- A graph that contains what was added after the arms were joined. -/
theorem Joined.gen {W : World} {st st1 st2 stR : St} {c r t f : Nat} (j : Joined st st1 st2 stR c r t f) {m m1 : M} {en : Nat}
    (h : Keeps st.next m m1 ∧ ∀ G, Contains G stR → ∀ e, Steps W G ⟨st.cur, (st.code st.cur).length, e, m⟩ ⟨r, 0, en, m1⟩) :
    Gen W st (start stR r) m m1 := by
  refine ⟨j.opened, j.grow, h.1, fun G hG e => ⟨en, ?_⟩⟩
  show Steps W G _ ⟨r, (stR.code r).length, en, m1⟩
  rw [j.codeR]
  exact h.2 G hG e

theorem Joined.phi {W : World} {st st1 st2 stR : St} {c r t f : Nat} (ho : Open st) (j : Joined st st1 st2 stR c r t f) {m m1 : M} {en : Nat}
    (h : Keeps st.next m m1 ∧ ∀ G, Contains G stR → ∀ e, Steps W G ⟨st.cur, (st.code st.cur).length, e, m⟩ ⟨r, 0, en, m1⟩)
    {a b s : Nat} {v : Val} (hv : m1.vals (if en = 0 then a else b) = some v) :
    Gen W st (emit (start stR r) s (fun k => .phi k a b)).2 m (m1.put stR.next v) := by
  have g := ext_emit j.opened s (fun k => .phi k a b)
  have hn : st.next ≤ stR.next := j.grow.next
  refine ⟨g.opened, j.grow.trans ho g.grow, ?_, fun G hG e => ⟨en, ?_⟩⟩
  · intro k hk
    exact ⟨(set_other _ _ (by omega)).trans (h.1 k hk).1, (h.1 k hk).2⟩
  · have hcd : (emit (start stR r) s (fun k => .phi k a b)).2.code r = [.phi stR.next a b] := by
      have := emit_code (start stR r) s (fun k => .phi k a b)
      change _ = stR.code r ++ _ at this
      rw [j.codeR] at this
      exact this
    show Steps W G _ ⟨r, ((emit (start stR r) s (fun k => .phi k a b)).2.code r).length, en, _⟩
    rw [hcd]
    refine steps_trans (h.2 G (show Contains G (start stR r) from contains_trans (g.grow.contains j.opened) hG) e) (steps_one ?_)
    refine .ins (i := .phi stR.next a b) (contains_at hG (by rw [hcd]; rfl)) ?_
    simp only [exec, hv]
    rfl

end Verif.ExprIr
