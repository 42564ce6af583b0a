import Verif.ScheduleOrderLemmas
import Verif.ScheduleProps
/-!
C86: the order of the instructions within their blocks.
-/
namespace Verif.Ir
open Verif Verif.IrSpec

theorem place_bound {g : Graph} {fs es : List Nat} {fuel : Nat} (h : Scheduled g fs es fuel) {ls : List (List Nat)} {i : Info} {p : Place}
    (h1 : blockTrees fuel g fs = .ok (ls, i)) (h2 : placeAll fuel g i = .ok p) : (∀ n, p.block n ≠ none → n < g.size) ∧
    (∀ b, b ∈ ls.flatten ↔ ∃ f, BlockOf g f b) ∧ ls.flatten.Nodup := by
  obtain ⟨ls', i', p', P, e1, e2, -, hP, ho, -, hl, hn⟩ := place_core h
  rw [h1] at e1
  injection e1 with e1
  injection e1 with e1 e1'
  subst e1 e1'
  rw [h2] at e2
  injection e2 with e2
  subst e2
  have hg := inv_built h.built
  refine ⟨?_, by simpa using hl, hn⟩
  intro n hb
  refine Decidable.byContradiction fun hlt => ?_
  have args : ∀ j, (g.node n).args j = none := by
    intro j
    cases ha : (g.node n).args j with
    | none => rfl
    | some a => exact absurd (hg.closed n j a ha).2.1 hlt
  have hpin : ¬Pinned g n := fun hx => h.ordinary.pinned n hx (args 0)
  have hlive : (g.node n).live = [] := by
    cases hl : (g.node n).live with
    | nil => rfl
    | cons u us =>
      obtain ⟨j, hj⟩ := (live_operand hg (c := n) (u := u)).1 (by rw [hl]; simp)
      exact absurd (hg.closed u j n hj).2.2 hlt
  have hPn : P n = none := by
    by_cases hi : isInstruction g n = .ok true
    · have := hP.fold n hpin hi
      rw [hlive, foldUses] at this
      injection this with this
      exact this.symm
    · exact hP.other n hpin hi
  rcases ho.le n with h3 | h3
  · exact hb h3
  · unfold withOwner at h3
    rw [args 0] at h3
    exact hb (h3.trans hPn)

/-- C86: the compiler lists the instructions of every block that control can reach: each instruction of the block once, operands before the instructions
that use them, and the instruction that replaces a state of memory after the others that use this state. The graph must be tame: no instruction
waits for itself through a phi of its block, what reads a state that is replaced in its block is not moved to another block. -/
theorem instruction_order_partial {g : Graph} {fs es : List Nat} {fuel : Nat} (h : Scheduled g fs es fuel) {ls : List (List Nat)} {i : Info} {p : Place}
    (h1 : blockTrees fuel g fs = .ok (ls, i)) (h2 : placeAll fuel g i = .ok p) (ht : Tame g p.block) : ∃ os, localSchedule fuel g i ls.flatten = .ok (p, os) ∧
    All2 (InOrder g p.block) ls.flatten os ∧ ∀ b, b ∈ ls.flatten ↔ ∃ f, BlockOf g f b := by
  obtain ⟨hb, hl, hn⟩ := place_bound h h1 h2
  obtain ⟨seen, os, e, ha⟩ := blocks_order (inv_built h.built) h.done hb ht (fuel := fuel) (by have := h.fuel; omega) ls.flatten (fun _ => false) hn
    (fun _ _ _ _ => rfl)
  refine ⟨os, ?_, ha, hl⟩
  unfold localSchedule
  rw [h2, Run.bind_ok, e]
  rfl

/-- C86: wherever an instruction is computed, its operands have been: they are in the list of the block before the instruction, or in that of a block that
control has gone through. For operands that are phis, and for the values that a phi gets, see C38 and C84. -/
theorem operands_available_partial {g : Graph} {fs es : List Nat} {fuel : Nat} (h : Scheduled g fs es fuel) {ls : List (List Nat)} {i : Info} {p : Place}
    (h1 : blockTrees fuel g fs = .ok (ls, i)) (h2 : placeAll fuel g i = .ok p) (ht : Tame g p.block) : ∃ os, localSchedule fuel g i ls.flatten = .ok (p, os) ∧
    ls.flatten.length = os.length ∧ ∀ b l n a, (b, l) ∈ ls.flatten.zip os → n ∈ l → (g.node n).kind ≠ .phi → Operand g n a → IsInstruction g a → ¬Pinned g a →
      Before l a n ∨ ∃ f d l', (d, l') ∈ ls.flatten.zip os ∧ a ∈ l' ∧ d ≠ b ∧ DominatesIn g f d b := by
  obtain ⟨os, e, ho, hl⟩ := instruction_order_partial h h1 h2 ht
  refine ⟨os, e, all2_length ho, ?_⟩
  intro b l n a hbl hn hk hop ha hpa
  obtain ⟨hbl', hin⟩ := all2_zip ho hbl
  obtain ⟨f, hf⟩ := (hl b).1 hbl'
  obtain ⟨hni, hnb⟩ := (hin.all n).1 hn
  have done : ∀ d, p.block a = some d → DominatesIn g f d b → Before l a n ∨ ∃ f d l', (d, l') ∈ ls.flatten.zip os ∧ a ∈ l' ∧ d ≠ b ∧ DominatesIn g f d b := by
    intro d hd hdom
    by_cases hdb : d = b
    · subst hdb
      exact .inl (hin.operands n a hn ((hin.all a).2 ⟨ha, hd⟩) hk hop)
    · obtain ⟨en, hen, hdb'⟩ := hdom
      obtain ⟨l', hl'⟩ := all2_find ho ((hl d).2 ⟨f, en, hen, dominator_walk hdb'⟩)
      exact .inr ⟨f, d, l', hl', ((all2_zip ho hl').2.all a).2 ⟨ha, hd⟩, hdb, en, hen, hdb'⟩
  obtain ⟨ls', i', p', P, e1, e2, -, hP, hok, hdl, -⟩ := place_core h
  rw [h1] at e1
  injection e1 with e1
  injection e1 with e1 e1'
  subst e1 e1'
  rw [h2] at e2
  injection e2 with e2
  subst e2
  by_cases hpr : (g.node n).kind = .project
  · -- a result of an instruction
    have ha0 : (g.node n).args 0 = some a := by
      obtain ⟨j, hj⟩ := hop
      by_cases hj0 : j = 0
      · rw [hj0] at hj; exact hj
      · rw [h.projections.single n hpr j hj0] at hj; cases hj
    have hif : (g.node a).kind ≠ .ifk := fun hx => hni.2.2 (.inr ⟨a, ⟨hpr, ha0⟩, .inl hx⟩)
    obtain ⟨ls', i', p', e3, e4, -, -, h6⟩ := placement_partial h
    rw [h1] at e3
    injection e3 with e3
    injection e3 with e3 e3'
    subst e3 e3'
    rw [h2] at e4
    injection e4 with e4
    subst e4
    have := h6 n a ⟨hpr, ha0⟩ ha.2.1 hif
    rw [hnb] at this
    exact .inl (hin.operands n a hn ((hin.all a).2 ⟨ha, this.symm⟩) hk hop)
  · have hPn : P n = some b := by
      rcases hok.le n with hx | hx
      · rw [hnb] at hx; cases hx
      · unfold withOwner at hx
        rw [hnb] at hx
        cases h0 : (g.node n).args 0 with
        | none => rw [h0] at hx; exact hx.symm
        | some q =>
          rw [h0] at hx
          dsimp only at hx
          rw [if_neg (fun hy => hpr hy.1)] at hx
          exact hx.symm
    have hpar : (g.node a).parent = some f := by rw [← h.ordinary.function n a hop ha.2.1, hP.parent n f b hPn hf]
    have need : Needs g p.block f a b := .user hop hk hpr hnb hf
    by_cases hmv : ∀ m, IsProjection g a m → (g.node m).kind = .function
    · obtain ⟨d, hd1, hd2⟩ := operands_dominate_partial h h1 h2 (n := a) ⟨hpa, ha.2.2, ha.2.1, hmv⟩ hpar (.inl need)
      exact done d hd1 hd2
    · have : ∃ m, IsProjection g a m ∧ (g.node m).kind ≠ .function := Classical.byContradiction fun hx => hmv fun m hm => Classical.byContradiction fun hy => hx ⟨m, hm, hy⟩
      obtain ⟨m, hm, hmf⟩ := this
      obtain ⟨k1, k2, k3, k4, k5⟩ := h.ordinary.project a m hm
      have hmi : (g.node m).kind ≠ .ifk := fun hx => ha.2.2 (.inr ⟨m, hm, .inl hx⟩)
      have hmpar : (g.node m).parent = some f := by rw [← h.ordinary.function a m ⟨0, hm.2⟩ hmf, hpar]
      obtain ⟨d, hd1, hd2⟩ := operands_dominate_partial h h1 h2 (n := m) ⟨fun hx => hx.elim k3 fun hx => hx.elim hmi k4, fun hx => hx.elim k5 (fun ⟨_, hx, _⟩ => k2 hx.1), hmf,
        fun x hx => absurd hx.1 k2⟩ hmpar (.inr ⟨a, hm, need⟩)
      obtain ⟨ls', i', p', e3, e4, -, -, h6⟩ := placement_partial h
      rw [h1] at e3
      injection e3 with e3
      injection e3 with e3 e3'
      subst e3 e3'
      rw [h2] at e4
      injection e4 with e4
      subst e4
      exact done d (by rw [h6 a m hm hmf hmi, hd1]) hd2

/-! ### Checks -/

/-- A check that branches are complete. -/
def branchesCheck (g : Graph) : Bool :=
  (List.range g.size).all fun i => (g.node i).kind ≠ .ifk || ((g.node i).args 0 ≠ none && (List.range 4).all fun j => j = 0 || match (g.node i).args j with
    | none => true
    | some v => isControl g v ≠ .ok true)

/-- A check that joins are joins of the blocks `W`. -/
def joinsCheck (g : Graph) (W : List Nat) : Bool :=
  (List.range g.size).all fun r => (g.node r).kind ≠ .region || (operands g r).all (· ∈ W)

/-- A check of the conditions on a graph with the function 0. -/
theorem scheduled_sound {g : Graph} (hb : Built g) (hc : complete g = true) (hrest : ∀ n, g.size ≤ n → (g.node n).kind = .dead ∧ (g.node n).visited = 0) {e fuel : Nat}
    {rank : List Nat} (hr : ∀ x ∈ rank, x ≤ g.size) (ho : ordinary g (fun n => rank.getD n 0) = true) (he : IsEntry g 0 e)
    (hbr : branchesCheck g = true)
    (hv : ∀ n < g.size, (g.node n).visited ≠ 7) (hf : ∀ f < g.size, (g.node f).kind = .function → f = 0) (hfuel : g.size * g.size + 2 * g.size + 1 < fuel)
    {W : List Nat} (hW : ∀ c ∈ W, Walk g e c) (hj : joinsCheck g W = true) :
    Scheduled g [0] [e] fuel := by
  have hcs := complete_sound hb hc hrest
  have hg := inv_built hb
  have lt : ∀ n, (g.node n).kind ≠ .dead → n < g.size := fun n hk => by
    refine Decidable.byContradiction fun hx => hk (hrest n (by omega)).1
  refine ⟨⟨hb, hcs.done, hcs.projections, ?_, ordinary_sound hb hcs.done (rank := fun n => rank.getD n 0) ?_ ho (fun n hn => (hrest n hn).1), ?_,
    .cons he .nil, ?_, List.pairwise_singleton _ _, hfuel⟩, ?_⟩
  · intro i hi
    simp only [branchesCheck, List.all_eq_true, List.mem_range, Bool.or_eq_true, Bool.and_eq_true, decide_eq_true_eq] at hbr
    obtain ⟨h1, h2⟩ := (hbr i (lt i (by rw [hi]; simp))).resolve_left (fun h => h hi)
    refine ⟨h1, ?_⟩
    intro j v hj hv hbv
    obtain ⟨h3, -, h4⟩ := hg.closed i j v hv
    have := (h2 j h3).resolve_left hj
    rw [hv] at this
    simp only [decide_eq_true_eq] at this
    exact this ((isControl_iff hcs.done v).2 hbv)
  · intro n
    by_cases h : n < rank.length
    · simp only [List.getD, List.getElem?_eq_getElem h, Option.getD_some]
      exact hr _ (List.getElem_mem h)
    · simp [List.getD, List.getElem?_eq_none (by omega : rank.length ≤ n)]
  · intro n
    by_cases h : n < g.size
    · exact hv n h
    · rw [(hrest n (by omega)).2]
      decide
  · intro f h1 h2
    rw [hf f h1 h2]
    simp
  · rintro f r c ⟨e', h1, h2⟩ hk ⟨j, hj'⟩
    have := hf f h1.1 h1.2.1
    subst this
    obtain ⟨h3, h4, h5⟩ := hg.closed r j c hj'
    simp only [joinsCheck, List.all_eq_true, List.mem_range, Bool.or_eq_true, decide_eq_true_eq] at hj
    exact ⟨e, he, hW c ((hj r h4).resolve_left (fun h => h hk) c ((operands_mem hg).2 ⟨j, hj'⟩))⟩

theorem before_iff {l : List Nat} {a n : Nat} : Before l a n ↔ ∃ i < l.length, l[i]? = some n ∧ a ∈ l.take i := by
  constructor
  · rintro ⟨x, y, rfl, ha⟩
    exact ⟨x.length, by simp, by simp, by simpa using ha⟩
  · rintro ⟨i, hi, h1, h2⟩
    refine ⟨l.take i, l.drop (i + 1), ?_, h2⟩
    rw [List.getElem?_eq_getElem hi] at h1
    injection h1 with h1
    rw [← h1, ← List.drop_eq_getElem_cons hi, List.take_append_drop]

instance (l : List Nat) (a n : Nat) : Decidable (Before l a n) := decidable_of_iff _ before_iff.symm

/-- A check that a list is a right order. -/
def inOrder (g : Graph) (block : Nat → Option Nat) (b : Nat) (l : List Nat) : Bool :=
  l.Nodup && ((List.range g.size).all fun n => (n ∈ l) = (isInstruction g n = .ok true ∧ block n = some b)) && (l.all (· < g.size)) &&
  (l.all fun n => l.all fun a => !((g.node n).kind ≠ .phi && a ∈ operands g n) || Before l a n) &&
  (l.all fun n => l.all fun u => match prevState g n with
    | none => true
    | some s => !(s ∈ operands g u && u ≠ n) || Before l u n)

theorem inOrder_sound {g : Graph} (hg : Inv g) (hd : Done g) {block : Nat → Option Nat} {b : Nat} {l : List Nat} (h : inOrder g block b l = true) :
    InOrder g block b l := by
  unfold inOrder at h
  simp only [Bool.and_eq_true, List.all_eq_true, decide_eq_true_eq, List.mem_range] at h
  obtain ⟨⟨⟨⟨h1, h2⟩, h3⟩, h4⟩, h5⟩ := h
  refine ⟨h1, ?_, ?_, ?_⟩
  · intro n
    obtain ⟨c, hc, hc'⟩ := isInstruction_total hd n
    constructor
    · intro hn
      have hx := hn
      rw [h2 n (h3 n hn)] at hx
      refine ⟨⟨h3 n hn, hc'.1 ?_⟩, hx.2⟩
      have := hx.1
      rw [hc] at this
      injection this
    · rintro ⟨⟨h6, h7⟩, h8⟩
      rw [h2 n h6, hc, hc'.2 h7]
      exact ⟨rfl, h8⟩
  · intro n a hn ha hk ho
    have := h4 n hn a ha
    rw [Bool.or_eq_true] at this
    refine this.elim (fun h => ?_) (fun h => by simpa using h)
    simp [hk, (operands_mem hg).2 ho] at h
  · intro n s u hn hu hr ho hne
    have := h5 n hn u hu
    rw [(prevState_iff g n s).2 hr] at this
    dsimp only at this
    rw [Bool.or_eq_true] at this
    refine this.elim (fun h => ?_) (fun h => by simpa using h)
    simp [hne, (operands_mem hg).2 ho] at h

/-- The blocks of a function, the orders of their instructions, and the blocks of the nodes. -/
def ordersOf (fuel : Nat) (g : Graph) (fs : List Nat) : Run (List Nat × List (List Nat) × List (Option Nat)) := do
  let t ← blockTrees fuel g fs
  let r ← localSchedule fuel g t.2 t.1.flatten
  .ok (t.1.flatten, r.2, (List.range g.size).map r.1.block)

theorem ordersOf_eq {g : Graph} {fs es : List Nat} {fuel : Nat} (h : Scheduled g fs es fuel) {bs : List Nat} {os : List (List Nat)} {bl : List (Option Nat)}
    (ho : ordersOf fuel g fs = .ok (bs, os, bl)) : ∃ ls i p, blockTrees fuel g fs = .ok (ls, i) ∧ placeAll fuel g i = .ok p ∧ ls.flatten = bs ∧
    localSchedule fuel g i bs = .ok (p, os) ∧ p.block = fun n => bl.getD n none := by
  obtain ⟨ls, i, p, -, h1, h2, -⟩ := place_core h
  obtain ⟨hb, -, -⟩ := place_bound h h1 h2
  unfold ordersOf at ho
  rw [h1, Run.bind_ok] at ho
  dsimp only at ho
  cases hl : localSchedule fuel g i ls.flatten with
  | fail => rw [hl] at ho; cases ho
  | ub => rw [hl] at ho; cases ho
  | more => rw [hl] at ho; cases ho
  | ok r =>
    rw [hl, Run.bind_ok] at ho
    injection ho with ho
    injection ho with h3 ho
    injection ho with h4 h5
    have hp : r.1 = p := by
      unfold localSchedule at hl
      rw [h2, Run.bind_ok] at hl
      obtain ⟨x, -, hx⟩ := bind_inv hl
      injection hx with hx
      rw [← hx]
    refine ⟨ls, i, p, h1, h2, h3, by rw [← h3, hl, ← h4, ← hp], ?_⟩
    funext n
    rw [← h5, hp]
    by_cases hn : n < g.size
    · simp [List.getD, hn]
    · have : p.block n = none := Decidable.byContradiction fun hx => hn (hb n hx)
      simp [List.getD, hn, this]

/-- A check that a graph is tame. -/
def tame (g : Graph) (block : Nat → Option Nat) (rank : Nat → Nat) : Bool :=
  (List.range g.size).all fun n => block n = none ||
    ((List.range g.size).all fun a => !(a ∈ operands g n && block a = block n) || rank a < rank n) &&
    match prevState g n with
    | none => true
    | some s => (List.range g.size).all fun u => !(s ∈ operands g u) ||
        if block s = block n then (block u = none || block u = block n) && (u = n || block u = none || rank u < rank n)
        else u = n || block u ≠ block n || (u < n && (List.range (u + 1)).all fun c => block c ≠ block n || rank c < rank n)

theorem tame_sound {g : Graph} (hg : Inv g) {block : Nat → Option Nat} (hb : ∀ n, block n ≠ none → n < g.size) {rank : Nat → Nat} (hr : ∀ n, rank n ≤ g.size)
    (h : tame g block rank = true) : Tame g block := by
  unfold tame at h
  simp only [List.all_eq_true, List.mem_range, Bool.or_eq_true, Bool.and_eq_true, decide_eq_true_eq, Bool.not_eq_true', Bool.and_eq_false_iff, decide_eq_false_iff_not] at h
  have h0 : ∀ n, block n ≠ none → _ := fun n hn => (h n (hb n hn)).resolve_left hn
  have op : ∀ n a, Operand g n a → block n ≠ none → block a = block n → rank a < rank n := by
    intro n a ho hn he
    obtain ⟨j, hj⟩ := ho
    have := (h0 n hn).1 a (hg.closed n j a hj).2.2
    rcases this with (h1 | h1) | h1
    · exact absurd ((operands_mem hg).2 ⟨j, hj⟩) h1
    · exact absurd he h1
    · exact h1
  have user : ∀ n s u, Replaces g n s → block n ≠ none → Operand g u s →
      (if block s = block n then (block u = none || block u = block n) && (u = n || block u = none || rank u < rank n)
        else u = n || block u ≠ block n || (u < n && (List.range (u + 1)).all fun c => block c ≠ block n || rank c < rank n) : Bool) = true := by
    intro n s u hrep hn ho
    have h1 := (h0 n hn).2
    rw [(prevState_iff g n s).2 hrep] at h1
    simp only [List.all_eq_true, List.mem_range, Bool.or_eq_true, Bool.not_eq_true', decide_eq_false_iff_not] at h1
    obtain ⟨j, hj⟩ := ho
    rcases h1 u (hg.closed u j s hj).2.1 with h2 | h2
    · exact absurd ((operands_mem hg).2 ⟨j, hj⟩) h2
    · exact h2
  have st : ∀ n s u, Replaces g n s → block n ≠ none → block s = block n → Operand g u s → u ≠ n → block u ≠ none → rank u < rank n := by
    intro n s u h1 h2 h3 h4 h5 h6
    have := user n s u h1 h2 h4
    rw [if_pos h3] at this
    simp only [Bool.and_eq_true, Bool.or_eq_true, decide_eq_true_eq] at this
    exact (this.2.resolve_left (fun h => h.elim h5 h6))
  refine ⟨⟨rank, hr, op, st⟩, ?_, ?_⟩
  · intro n s u h1 h2 h3 h4
    have := user n s u h1 h2 h4
    rw [if_pos h3] at this
    simp only [Bool.and_eq_true, Bool.or_eq_true, decide_eq_true_eq] at this
    exact this.1
  · intro n s u h1 h2 h3 h4 h5 h6
    have := user n s u h1 h2 h4
    rw [if_neg h3] at this
    simp only [Bool.and_eq_true, Bool.or_eq_true, decide_eq_true_eq, List.all_eq_true, List.mem_range, ne_eq, h5, h6, not_true_eq_false, false_or] at this
    refine ⟨this.1, ?_⟩
    intro c hc hbc hw
    have hlt := (this.2 c (by omega)).resolve_left (fun h => h hbc)
    have : block n = block c ∧ rank n ≤ rank c := by
      clear hlt
      have hcn : block c ≠ none := by rw [hbc]; exact h2
      clear hbc hc this h6 h5 h4 h3 h2 h1
      induction hw with
      | refl => exact ⟨rfl, Nat.le_refl _⟩
      | operand hw h1 h2 ih => exact ⟨h2.trans ih.1, Nat.le_trans (Nat.le_of_lt (op _ _ h1 (by rw [ih.1]; exact hcn) h2)) ih.2⟩
      | @state n s u hw h1 h2 h3 h4 ih =>
        refine ⟨h4.trans ih.1, ?_⟩
        by_cases hun : u = n
        · rw [hun]; exact ih.2
        · exact Nat.le_trans (Nat.le_of_lt (st _ _ _ h1 (by rw [ih.1]; exact hcn) h2 h3 hun (by rw [h4, ih.1]; exact hcn))) ih.2
    omega

/-! ### The graph of `int f(int *p, int v) { int x = *p; *p = v; return x + *p; }` -/

/-- The graph. -/
def mkSwap (fuel : Nat) : Run Graph := do
  let f := newFunction {}
  let e ← project fuel f.1 f.2 0 0
  let g ← blockStart fuel e.1 e.2
  let p := new g (.op 1) 8
  let v := new p.1 (.op 2) 4
  let s ← getState fuel v.1
  let x ← newWith fuel s.1 .load [some p.2, some s.2] 4
  let st ← newWith fuel x.1 .store [some p.2, some v.2, some s.2] 0
  let g ← Run.ofRes (setState st.1 st.2)
  let s ← getState fuel g
  let y ← newWith fuel s.1 .load [some p.2, some s.2] 4
  let a ← newWith fuel y.1 (.op 3) [some x.2, some y.2] 4
  let g ← ret fuel a.1 (some a.2)
  sealBlocks fuel g g.seals

theorem built_swap (fuel : Nat) : Builds (mkSwap fuel) id :=
  (builds_project (built_newFunction .empty) _ _ _ _).bind fun _ h =>
  (builds_blockStart h _ _).bind fun _ h => (builds_getState (.new (.new h)) _).bind fun _ h =>
  (builds_newWith h _ _ _ _).bind fun _ h => (builds_newWith h _ _ _ _).bind fun _ h => (builds_setState h _).bind fun _ h =>
  (builds_getState h _).bind fun _ h => (builds_newWith h _ _ _ _).bind fun _ h => (builds_newWith h _ _ _ _).bind fun _ h =>
  (builds_ret h _ _).bind fun _ h => builds_sealBlocks h

/-- The graph. -/
def swapGraph : Graph := graphOf (mkSwap 30)

set_option maxRecDepth 10000 in
theorem swap_scheduled : Scheduled swapGraph [0] [1] 200 := by
  have hs : swapGraph.size = 10 := by decide +kernel
  refine scheduled_sound (g := swapGraph) (built_graphOf (built_swap 30)) (by decide +kernel) ?_ (rank := [9, 8, 7, 7, 7, 2, 3, 2, 1, 0]) (by decide +kernel) (by decide +kernel)
    ⟨by decide +kernel, by decide +kernel, ⟨by decide +kernel, by decide +kernel⟩, by decide +kernel⟩ (by decide +kernel) (by decide +kernel) (by decide +kernel)
    (by decide +kernel) (W := []) (by simp) (by decide +kernel)
  intro n hn
  obtain ⟨m, rfl⟩ : ∃ m, n = m + 10 := ⟨n - 10, by omega⟩
  constructor <;> with_unfolding_all exact (id rfl)

set_option maxRecDepth 10000 in
/-- The first load comes before the store, the second one after it. -/
example : ∃ ls i p os, blockTrees 200 swapGraph [0] = .ok (ls, i) ∧ placeAll 200 swapGraph i = .ok p ∧ Tame swapGraph p.block ∧
    localSchedule 200 swapGraph i ls.flatten = .ok (p, os) ∧ os = [[2, 3, 4, 5, 6, 7, 8, 9]] ∧ All2 (InOrder swapGraph p.block) ls.flatten os := by
  obtain ⟨ls, i, p, h1, h2, h3, h4, h5⟩ := ordersOf_eq swap_scheduled (bs := [1]) (os := [[2, 3, 4, 5, 6, 7, 8, 9]])
    (bl := [none, none, some 1, some 1, some 1, some 1, some 1, some 1, some 1, some 1]) (by decide +kernel)
  have ht : Tame swapGraph p.block := by
    refine tame_sound (inv_built swap_scheduled.built) (place_bound swap_scheduled h1 h2).1 (rank := fun n => min n swapGraph.size) (fun n => Nat.min_le_right _ _) ?_
    rw [h5]
    decide +kernel
  obtain ⟨os, h6, h7, -⟩ := instruction_order_partial swap_scheduled h1 h2 ht
  rw [h3] at h6
  rw [h4] at h6
  injection h6 with h6
  injection h6 with _ h6
  exact ⟨ls, i, p, os, h1, h2, ht, by rw [h3, h4, h6], h6.symm, h7⟩

set_option maxRecDepth 10000 in
/-- The operands of the addition are computed before it. -/
example : Before [2, 3, 4, 5, 6, 7, 8, 9] 7 8 := by
  obtain ⟨ls, i, p, h1, h2, h3, h4, h5⟩ := ordersOf_eq swap_scheduled (bs := [1]) (os := [[2, 3, 4, 5, 6, 7, 8, 9]])
    (bl := [none, none, some 1, some 1, some 1, some 1, some 1, some 1, some 1, some 1]) (by decide +kernel)
  have ht : Tame swapGraph p.block := by
    refine tame_sound (inv_built swap_scheduled.built) (place_bound swap_scheduled h1 h2).1 (rank := fun n => min n swapGraph.size) (fun n => Nat.min_le_right _ _) ?_
    rw [h5]
    decide +kernel
  obtain ⟨os, h6, -, h7⟩ := operands_available_partial swap_scheduled h1 h2 ht
  rw [h3] at h6 h7
  rw [h4] at h6
  injection h6 with h6
  injection h6 with _ h6
  subst h6
  have hb : ¬IsBlock swapGraph 7 := by
    rw [← isControl_iff swap_scheduled.done]
    decide +kernel
  have hp : ¬Pinned swapGraph 7 := by
    unfold Pinned
    decide +kernel
  rcases h7 1 [2, 3, 4, 5, 6, 7, 8, 9] 8 7 (by simp) (by decide) (by decide +kernel) ⟨1, by decide +kernel⟩ ⟨by decide +kernel, by decide +kernel, hb⟩ hp with h | ⟨f, d, l', h8, -, h9, -⟩
  · exact h
  · simp at h8
    exact absurd h8.1 h9

/-! ### The graph of `int f(int x) { l: x = x * 3 + 1; if (x < 10) goto l; return x; }` -/

/-- The graph after `x` has become a phi. -/
def mkGoto (fuel : Nat) : Run Graph := do
  let f := newFunction {}
  let e ← project fuel f.1 f.2 0 0
  let g ← blockStart fuel e.1 e.2
  let x := new g (.op 1) 4
  let j := newBlock x.1
  let g ← goto fuel j.1 j.2
  let g ← blockStart fuel g j.2
  let m := new g (.op 2) 4
  let a ← newWith fuel m.1 (.op 3) [some m.2] 4
  let c ← newWith fuel a.1 (.op 4) [some a.2] 4
  let s ← ifSelection fuel c.1 c.2
  let g ← blockStart fuel s.1 s.2.1
  let g ← goto fuel g j.2
  let g ← blockStart fuel g s.2.2
  let g ← ret fuel g (some a.2)
  let g ← sealBlocks fuel g g.seals
  let p ← newWith fuel g .phi [some j.2, some x.2, some a.2] 4
  setArg fuel p.1 m.2 0 (some p.2)

theorem built_goto (fuel : Nat) : Builds (mkGoto fuel) id :=
  (builds_project (built_newFunction .empty) _ _ _ _).bind fun _ h =>
  (builds_blockStart h _ _).bind fun _ h => (builds_goto (built_newBlock (.new h)) _ _).bind fun _ h =>
  (builds_blockStart h _ _).bind fun _ h => (builds_newWith (.new h) _ _ _ _).bind fun _ h => (builds_newWith h _ _ _ _).bind fun _ h =>
  (builds_ifSelection h _ _).bind fun _ h => (builds_blockStart h _ _).bind fun _ h => (builds_goto h _ _).bind fun _ h =>
  (builds_blockStart h _ _).bind fun _ h => (builds_ret h _ _).bind fun _ h => (builds_sealBlocks h).bind fun _ h =>
  (builds_newWith h _ _ _ _).bind fun _ h => builds_setArg h _ _ _ _

/-- The graph. -/
def gotoGraph : Graph := graphOf (mkGoto 30)

set_option maxRecDepth 10000 in
theorem goto_scheduled : Scheduled gotoGraph [0] [1] 300 := by
  have hs : gotoGraph.size = 14 := by decide +kernel
  have he : IsEntry gotoGraph 0 1 := ⟨by decide +kernel, by decide +kernel, ⟨by decide +kernel, by decide +kernel⟩, by decide +kernel⟩
  have w4 : Walk gotoGraph 1 4 := .step .start (.inl ⟨by decide +kernel, 0, by decide +kernel⟩)
  have w10 : Walk gotoGraph 1 10 := .step w4 (.inr ⟨8, ⟨by decide +kernel, by decide +kernel⟩, by decide +kernel, by decide +kernel⟩)
  refine scheduled_sound (g := gotoGraph) (built_graphOf (built_goto 30)) (by decide +kernel) ?_ (rank := [9, 8, 8, 8, 5, 4, 3, 2, 1, 0, 0, 8, 0, 8]) (by decide +kernel) (by decide +kernel)
    he (by decide +kernel) (by decide +kernel) (by decide +kernel) (by decide +kernel) (W := [1, 10]) ?_ (by decide +kernel)
  · intro n hn
    obtain ⟨m, rfl⟩ : ∃ m, n = m + 14 := ⟨n - 14, by omega⟩
    constructor <;> with_unfolding_all exact (id rfl)
  · intro c hc
    rcases List.mem_cons.1 hc with rfl | hc
    · exact .start
    · rw [List.mem_singleton.1 hc]
      exact w10

set_option maxRecDepth 10000 in
/-- C86 is violated by loops made with `goto`: there is a right order, but the compiler puts the addition before the multiplication whose result it adds to. -/
theorem instruction_order_violated : ¬∀ (g : Graph) (fs es : List Nat) (fuel : Nat), Scheduled g fs es fuel → ∀ ls i p, blockTrees fuel g fs = .ok (ls, i) →
    placeAll fuel g i = .ok p → (∃ os, All2 (InOrder g p.block) ls.flatten os) →
    ∃ os, localSchedule fuel g i ls.flatten = .ok (p, os) ∧ All2 (InOrder g p.block) ls.flatten os := by
  intro hall
  obtain ⟨ls, i, p, h1, h2, h3, h4, h5⟩ := ordersOf_eq goto_scheduled (bs := [1, 4, 9, 10]) (os := [[2, 3], [6, 13, 5, 7, 8, 11], [12], []])
    (bl := [none, none, some 1, some 1, none, some 4, some 4, some 4, some 4, none, none, some 4, some 9, some 4]) (by decide +kernel)
  have hg := inv_built goto_scheduled.built
  obtain ⟨os, h6, h7⟩ := hall gotoGraph [0] [1] 300 goto_scheduled ls i p h1 h2 ⟨[[2, 3], [11, 13, 5, 6, 7, 8], [12], []], by
    rw [h3, h5]
    exact .cons (inOrder_sound hg goto_scheduled.done (by decide +kernel)) (.cons (inOrder_sound hg goto_scheduled.done (by decide +kernel))
      (.cons (inOrder_sound hg goto_scheduled.done (by decide +kernel)) (.cons (inOrder_sound hg goto_scheduled.done (by decide +kernel)) .nil)))⟩
  rw [h3] at h6 h7
  rw [h4] at h6
  injection h6 with h6
  injection h6 with _ h6
  subst h6
  cases h7 with
  | cons _ h7 => cases h7 with
    | cons h7 _ =>
      have := h7.operands 6 5 (by decide) (by decide) (by decide +kernel) ⟨0, by decide +kernel⟩
      revert this
      decide

/-! ### The graph of `int f(int *p, int c, int d) { int *q = p + 1, x = *q; *p = c; if (c) { *q = c; if (d) return x; return c; } return c; }` -/

/-- The graph. -/
def mkHoist (fuel : Nat) : Run Graph := do
  let f := newFunction {}
  let e ← project fuel f.1 f.2 0 0
  let g ← blockStart fuel e.1 e.2
  let p := new g (.op 1) 8
  let c := new p.1 (.op 2) 4
  let q ← newWith fuel c.1 (.op 3) [some p.2] 8
  let s ← getState fuel q.1
  let l ← newWith fuel s.1 .load [some q.2, some s.2] 4
  let st ← newWith fuel l.1 .store [some p.2, some c.2, some s.2] 0
  let g ← Run.ofRes (setState st.1 st.2)
  let b ← ifSelection fuel g c.2
  let g ← blockStart fuel b.1 b.2.1
  let s ← getState fuel g
  let st ← newWith fuel s.1 .store [some q.2, some c.2, some s.2] 0
  let g ← Run.ofRes (setState st.1 st.2)
  let d := new g (.op 4) 4
  let b' ← ifSelection fuel d.1 d.2
  let g ← blockStart fuel b'.1 b'.2.1
  let g ← ret fuel g (some l.2)
  let g ← blockStart fuel g b'.2.2
  let g ← ret fuel g (some c.2)
  let g ← blockStart fuel g b.2.2
  let g ← ret fuel g (some c.2)
  sealBlocks fuel g g.seals

theorem built_hoist (fuel : Nat) : Builds (mkHoist fuel) id :=
  (builds_project (built_newFunction .empty) _ _ _ _).bind fun _ h =>
  (builds_blockStart h _ _).bind fun _ h => (builds_newWith (.new (.new h)) _ _ _ _).bind fun _ h => (builds_getState h _).bind fun _ h =>
  (builds_newWith h _ _ _ _).bind fun _ h => (builds_newWith h _ _ _ _).bind fun _ h => (builds_setState h _).bind fun _ h =>
  (builds_ifSelection h _ _).bind fun _ h => (builds_blockStart h _ _).bind fun _ h => (builds_getState h _).bind fun _ h =>
  (builds_newWith h _ _ _ _).bind fun _ h => (builds_setState h _).bind fun _ h =>
  (builds_ifSelection (.new h) _ _).bind fun _ h => (builds_blockStart h _ _).bind fun _ h => (builds_ret h _ _).bind fun _ h =>
  (builds_blockStart h _ _).bind fun _ h => (builds_ret h _ _).bind fun _ h =>
  (builds_blockStart h _ _).bind fun _ h => (builds_ret h _ _).bind fun _ h => builds_sealBlocks h

/-- The graph. -/
def hoistGraph : Graph := graphOf (mkHoist 30)

set_option maxRecDepth 10000 in
theorem hoist_scheduled : Scheduled hoistGraph [0] [1] 500 := by
  have hs : hoistGraph.size = 19 := by decide +kernel
  refine scheduled_sound (g := hoistGraph) (built_graphOf (built_hoist 30)) (by decide +kernel) ?_ (rank := [19, 18, 18, 18, 18, 17, 16, 17, 17, 16, 16, 16, 16, 15, 14, 14, 0, 0, 0])
    (by decide +kernel) (by decide +kernel)
    ⟨by decide +kernel, by decide +kernel, ⟨by decide +kernel, by decide +kernel⟩, by decide +kernel⟩ (by decide +kernel) (by decide +kernel) (by decide +kernel)
    (by decide +kernel) (W := []) (by simp) (by decide +kernel)
  intro n hn
  obtain ⟨m, rfl⟩ : ∃ m, n = m + 19 := ⟨n - 19, by omega⟩
  constructor <;> with_unfolding_all exact (id rfl)

set_option maxRecDepth 10000 in
/-- C86 is violated by a value that is read before a store and needed in a later block only: the compiler puts the load before the store, but the address that
it loads from into the later block. -/
theorem operands_available_violated : ¬∀ (g : Graph) (fs es : List Nat) (fuel : Nat), Scheduled g fs es fuel → ∀ ls i p, blockTrees fuel g fs = .ok (ls, i) →
    placeAll fuel g i = .ok p → (∃ os, All2 (InOrder g p.block) ls.flatten os) → ∀ os, localSchedule fuel g i ls.flatten = .ok (p, os) →
    ∀ b l n a, (b, l) ∈ ls.flatten.zip os → n ∈ l → (g.node n).kind ≠ .phi → Operand g n a → IsInstruction g a → ¬Pinned g a →
      Before l a n ∨ ∃ f d l', (d, l') ∈ ls.flatten.zip os ∧ a ∈ l' ∧ d ≠ b ∧ DominatesIn g f d b := by
  intro hall
  obtain ⟨ls, i, p, h1, h2, h3, h4, h5⟩ := ordersOf_eq hoist_scheduled (bs := [1, 9, 10, 14, 15]) (os := [[2, 3, 4, 6, 7, 8], [18], [5, 11, 12, 13], [17], [16]])
    (bl := [none, none, some 1, some 1, some 1, some 10, some 15, some 1, some 1, none, none, some 10, some 10, some 10, none, none, some 15, some 14, some 9])
    (by decide +kernel)
  have hg := inv_built hoist_scheduled.built
  have hd := hoist_scheduled.done
  have := hall hoistGraph [0] [1] 500 hoist_scheduled ls i p h1 h2 ⟨[[2, 3, 4, 7, 8], [18], [5, 11, 12, 13], [17], [6, 16]], by
    rw [h3, h5]
    exact .cons (inOrder_sound hg hd (by decide +kernel)) (.cons (inOrder_sound hg hd (by decide +kernel)) (.cons (inOrder_sound hg hd (by decide +kernel))
      (.cons (inOrder_sound hg hd (by decide +kernel)) (.cons (inOrder_sound hg hd (by decide +kernel)) .nil))))⟩
    [[2, 3, 4, 6, 7, 8], [18], [5, 11, 12, 13], [17], [16]] (by rw [h3]; exact h4) 1 [2, 3, 4, 6, 7, 8] 6 5
  rw [h3] at this
  have hnb : ¬IsBlock hoistGraph 5 := by
    rw [← isControl_iff hd]
    decide +kernel
  have hnp : ¬Pinned hoistGraph 5 := by
    unfold Pinned
    decide +kernel
  rcases this (by decide) (by decide) (by decide +kernel) ⟨0, by decide +kernel⟩ ⟨by decide +kernel, by decide +kernel, hnb⟩ hnp with h | ⟨f, d, l', h6, h7, h8, en, h9, h10⟩
  · revert h
    decide
  · have : d = 10 := by
      have all : ∀ x ∈ [1, 9, 10, 14, 15].zip [[2, 3, 4, 6, 7, 8], [18], [5, 11, 12, 13], [17], [16]], 5 ∈ x.2 → x.1 = 10 := by decide
      exact all _ h6 h7
    subst this
    have hf : f = 0 := by
      have all : ∀ f < 19, (hoistGraph.node f).kind = .function → f = 0 := by decide +kernel
      have hs : hoistGraph.size = 19 := by decide +kernel
      exact all f (by have := h9.1; omega) h9.2.1
    subst hf
    have he : en = 1 := by
      obtain ⟨q, hq⟩ := hoist_scheduled.projections.entry 0 h9.1 h9.2.1
      have e1 := (hq.2 en).1 h9.2.2
      have e2 := (hq.2 1).1 ⟨⟨by decide +kernel, by decide +kernel⟩, by decide +kernel⟩
      rw [e1, e2]
    subst he
    exact h10.2 (.start (by decide))

end Verif.Ir
