import Verif.ScheduleSimLemmas
/-!
C84: the placement of instructions in blocks.
-/
namespace Verif.Ir
open Verif Verif.IrSpec

/-- What the placement is about: the graph at the end of the middle end, and its functions. -/
structure Finished (g : Graph) (fs es : List Nat) (fuel : Nat) : Prop where
  built : Built g
  done : Done g
  projections : Projections g
  branches : Branches g
  ordinary : Ordinary g
  visited : ∀ n, (g.node n).visited ≠ 7
  entries : All2 (IsEntry g) fs es
  all : ∀ f < g.size, (g.node f).kind = .function → f ∈ fs
  apart : Apart g es
  fuel : g.size * g.size + 2 * g.size + 1 < fuel

/-- The same for graphs without joins of code that control cannot reach. -/
structure Scheduled (g : Graph) (fs es : List Nat) (fuel : Nat) : Prop extends Finished g fs es fuel where
  reached : ∀ f r c, BlockOf g f r → (g.node r).kind = .region → Operand g r c → BlockOf g f c

theorem Scheduled.placeable {g : Graph} {fs es : List Nat} {fuel : Nat} (h : Scheduled g fs es fuel) : Placeable g := ⟨h.ordinary, h.reached⟩

theorem place_core {g : Graph} {fs es : List Nat} {fuel : Nat} (h : Scheduled g fs es fuel) : ∃ ls i p P, blockTrees fuel g fs = .ok (ls, i) ∧
    placeAll fuel g i = .ok p ∧ DomInfo g i fuel ∧ Placed g i fuel P ∧ Okay g P [] p ∧ (∀ m < g.size, Dealt g p m) ∧
    (∀ b, (∃ l ∈ ls, b ∈ l) ↔ ∃ f, BlockOf g f b) ∧ ls.flatten.Nodup := by
  obtain ⟨ls, i, h1, h2, h3, h4⟩ := domInfo h.built h.done h.projections h.branches h.visited h.entries h.all h.apart (fuel := fuel) (by have := h.fuel; omega)
  obtain ⟨rank, hb, hr⟩ := h.placeable.acyclic
  have hg := inv_built h.built
  have hP := placed hg h.done h.projections h.placeable h2 hr
  obtain ⟨p, h5, h6, h7⟩ := placeAll_ok hg h.done h.projections h.placeable hr hP (fun n => by
    have h1 := hb n
    have h2 := h.fuel
    have h3 : 0 ≤ g.size * g.size := Nat.zero_le _
    omega)
  exact ⟨ls, i, p, _, h1, h5, h2, hP, h6, h7, h3, h4⟩

/-- C84: the placement ends, and every instruction that can be moved is in the last block through which control goes on every way to every block
that needs it; an instruction that no block needs is in no block. Branches, returns and phis stay in their blocks, and the results of an instruction
that are projections of it are where it is. -/
theorem placement_partial {g : Graph} {fs es : List Nat} {fuel : Nat} (h : Scheduled g fs es fuel) : ∃ ls i p, blockTrees fuel g fs = .ok (ls, i) ∧
    placeAll fuel g i = .ok p ∧
    (∀ n f, Movable g n → (g.node n).parent = some f →
      ((∃ b, Demand g p.block f n b) → ∃ d, p.block n = some d ∧ BlockOf g f d ∧ Latest g p.block f n d) ∧
      ((¬∃ b, Demand g p.block f n b) → p.block n = none)) ∧
    (∀ n, Pinned g n → p.block n = (g.node n).args 0) ∧
    (∀ x n, IsProjection g x n → (g.node n).kind ≠ .function → (g.node n).kind ≠ .ifk → p.block x = p.block n) := by
  obtain ⟨ls, i, p, P, h1, h2, -, hP, h4, h5, -⟩ := place_core h
  have hg := inv_built h.built
  obtain ⟨rank, -, hr⟩ := h.placeable.acyclic
  exact ⟨ls, i, p, h1, h2, fun n f hm hpar => movable_block hg h.done h.projections h.placeable hr hP h4 h5 hm hpar, h4.pin,
    fun x n hx hf hif => projection_block hg h.done h.projections h.placeable hr hP h4 h5 hx hf hif⟩

/-- C84: control goes through the block of an instruction before it reaches an instruction that uses it, directly or through a projection, and for a
use in a phi before it reaches the block from which the phi takes the value. -/
theorem operands_dominate_partial {g : Graph} {fs es : List Nat} {fuel : Nat} (h : Scheduled g fs es fuel) {ls : List (List Nat)} {i : Info} {p : Place}
    (h1 : blockTrees fuel g fs = .ok (ls, i)) (h2 : placeAll fuel g i = .ok p) {n f b : Nat} (hm : Movable g n) (hpar : (g.node n).parent = some f)
    (hb : Demand g p.block f n b) : ∃ d, p.block n = some d ∧ DominatesIn g f d b := by
  obtain ⟨ls', i', p', e1, e2, h3, -⟩ := placement_partial h
  rw [h1] at e1
  injection e1 with e1
  injection e1 with e1 e1'
  subst e1'
  rw [h2] at e2
  injection e2 with e2
  subst e2
  obtain ⟨d, d1, -, d2⟩ := (h3 n f hm hpar).1 ⟨b, hb⟩
  exact ⟨d, d1, d2.dominates b hb⟩

/-! ### The graph of `void f(int c) { if (c) g(); }` -/

/-- A node that is pinned. -/
def isPinned (k : Kind) : Bool := k = .phi || k = .ifk || k = .ret

/-- A check of the conditions on one operand. -/
def ordinaryPair (g : Graph) (rank : Nat → Nat) (u j n : Nat) : Bool :=
  ((g.node u).kind ≠ .project || j ≠ 0 || (n < u && (g.node n).kind ≠ .project && (g.node n).kind ≠ .phi && (g.node n).kind ≠ .ret && (g.node n).kind ≠ .region)) &&
  (isControl g u ≠ .ok true || isControl g n = .ok true || (g.node n).kind = .function || (g.node n).kind = .ifk) &&
  (isPinned (g.node u).kind || isControl g u = .ok true || rank u < rank n) &&
  ((g.node n).kind = .function || (g.node u).parent = (g.node n).parent) &&
  ((g.node u).kind ≠ .project || (g.node n).kind ≠ .function || (g.node u).parent = some n)

/-- A check of the conditions on one node. -/
def ordinaryNode (g : Graph) (n : Nat) : Bool :=
  let q := g.node n
  (q.kind ≠ .phi || match q.args 0 with
    | some r => (g.node r).kind = .region
    | none => false) &&
  (!isPinned q.kind || q.args 0 ≠ none) && ((q.kind ≠ .region && q.kind ≠ .phi) || q.args 3 = none) && (q.kind ≠ .region || q.args 2 = none)

/-- A check of the conditions on a graph. -/
def ordinary (g : Graph) (rank : Nat → Nat) : Bool :=
  (List.range g.size).all fun u => ordinaryNode g u && (List.range 4).all fun j =>
    match (g.node u).args j with
    | none => true
    | some n => ordinaryPair g rank u j n

theorem isPinned_iff {g : Graph} {n : Nat} : isPinned (g.node n).kind = true ↔ Pinned g n := by
  unfold isPinned Pinned
  simp [or_assoc]

theorem ordinary_sound {g : Graph} (hb : Built g) (hd : Done g) {rank : Nat → Nat} (hr : ∀ n, rank n ≤ g.size) (h : ordinary g rank = true)
    (hn : ∀ n, g.size ≤ n → (g.node n).kind = .dead) : Ordinary g := by
  have hg := inv_built hb
  unfold ordinary at h
  rw [List.all_eq_true] at h
  have lt : ∀ n, (g.node n).kind ≠ .dead → n < g.size := fun n hk => by
    refine Decidable.byContradiction fun hx => hk (hn n (by omega))
  have node : ∀ n < g.size, ordinaryNode g n = true := fun n hx => by
    have := h n (List.mem_range.2 hx)
    rw [Bool.and_eq_true] at this
    exact this.1
  have pair : ∀ u n, Operand g u n → ∃ j, (g.node u).args j = some n ∧ ordinaryPair g rank u j n = true := by
    rintro u n ⟨j, hj⟩
    obtain ⟨h4, hu, -⟩ := hg.closed u j n hj
    have := h u (List.mem_range.2 hu)
    rw [Bool.and_eq_true, List.all_eq_true] at this
    have := this.2 j (List.mem_range.2 h4)
    rw [hj] at this
    exact ⟨j, hj, this⟩
  have pair0 : ∀ u n, (g.node u).args 0 = some n → ordinaryPair g rank u 0 n = true := by
    intro u n hj
    obtain ⟨h4, hu, -⟩ := hg.closed u 0 n hj
    have := h u (List.mem_range.2 hu)
    rw [Bool.and_eq_true, List.all_eq_true] at this
    have := this.2 0 (List.mem_range.2 h4)
    rw [hj] at this
    exact this
  simp only [ordinaryNode, Bool.and_eq_true, Bool.or_eq_true, decide_eq_true_eq, Bool.not_eq_true'] at node
  simp only [ordinaryPair, Bool.and_eq_true, Bool.or_eq_true, decide_eq_true_eq, isControl_iff hd, isPinned_iff] at pair pair0
  refine ⟨?_, ?_, ?_, ?_, ?_, ?_, ⟨rank, hr, ?_⟩, ?_, ?_⟩
  · intro n hk
    have := (node n (lt n (by rw [hk]; simp))).1.1.1.resolve_left (fun h => h hk)
    cases ha : (g.node n).args 0 with
    | none => rw [ha] at this; cases this
    | some r =>
      rw [ha] at this
      exact ⟨r, rfl, by simpa using this⟩
  · intro n hk
    have hlt := lt n (by rcases hk with h | h | h <;> rw [h] <;> simp)
    refine (node n hlt).1.1.2.resolve_left fun h => ?_
    rw [isPinned_iff.2 hk] at h
    cases h
  · intro n hk
    have hlt := lt n (by rcases hk with h | h <;> rw [h] <;> simp)
    refine (node n hlt).1.2.resolve_left ?_
    rintro ⟨h1, h2⟩
    rcases hk with h | h
    · exact h1 h
    · exact h2 h
  · intro n hk
    exact (node n (lt n (by rw [hk]; simp))).2.resolve_left (fun h => h hk)
  · intro q n hq
    rcases (pair0 q n hq.2).1.1.1.1 with (h | h) | h
    · exact absurd hq.1 h
    · exact absurd rfl h
    · exact ⟨h.1.1.1.1, h.1.1.1.2, h.1.1.2, h.1.2, h.2⟩
  · intro u n ho hu
    obtain ⟨j, -, h⟩ := pair u n ho
    rcases h.1.1.1.2 with ((h | h) | h) | h
    · exact absurd ((isControl_iff hd u).2 hu) h
    · exact .inl h
    · exact .inr (.inl h)
    · exact .inr (.inr h)
  · intro u n ho h1 h2
    obtain ⟨j, -, h⟩ := pair u n ho
    rcases h.1.1.2 with (h | h) | h
    · exact absurd h h1
    · exact absurd h h2
    · exact h
  · intro u n ho hk
    obtain ⟨j, -, h⟩ := pair u n ho
    exact h.1.2.resolve_left hk
  · intro f q hq hk
    rcases (pair0 q f hq.2).2 with (h | h) | h
    · exact absurd hq.1 h
    · exact absurd hk h
    · exact h

/-- A rank of the nodes of the graph of the branch. -/
def branchRank (n : Nat) : Nat := [5, 4, 3, 3, 4, 3, 2, 2, 3, 2, 1, 1, 0].getD n 0

set_option maxRecDepth 10000 in
theorem branch_scheduled : Scheduled branchGraph [0] [1] 200 := by
  have hs : branchGraph.size = 13 := by decide +kernel
  have hrest : ∀ n, branchGraph.size ≤ n → (branchGraph.node n).kind = .dead := fun n hn => (branch_rest n (by omega)).1
  have he : IsEntry branchGraph 0 1 := ⟨by decide +kernel, by decide +kernel, ⟨by decide +kernel, by decide +kernel⟩, by decide +kernel⟩
  refine ⟨⟨branch_complete.built, branch_complete.done, branch_complete.projections, branch_branches,
    ordinary_sound branch_complete.built branch_complete.done (rank := branchRank) ?_ (by decide +kernel) hrest, ?_, .cons he .nil, ?_,
    List.pairwise_singleton _ _, by decide +kernel⟩, ?_⟩
  · intro n
    rw [hs]
    by_cases h : n < 13
    · have all : ∀ n < 13, branchRank n ≤ 13 := by decide +kernel
      exact all n h
    · obtain ⟨m, rfl⟩ : ∃ m, n = m + 13 := ⟨n - 13, by omega⟩
      have : branchRank (m + 13) = 0 := rfl
      omega
  · intro n
    by_cases h : n < 13
    · have all : ∀ n < 13, (branchGraph.node n).visited ≠ 7 := by decide +kernel
      exact all n h
    · rw [(branch_rest n (by omega)).2]
      decide
  · intro f hf hk
    have all : ∀ f < 13, (branchGraph.node f).kind = .function → f = 0 := by decide +kernel
    rw [all f (by omega) hk]
    simp
  · rintro f r c ⟨e, hfe, hw⟩ hk ⟨j, hj⟩
    have hf : f = 0 := by
      have all : ∀ f < 13, (branchGraph.node f).kind = .function → f = 0 := by decide +kernel
      exact all f (by have := hfe.1; omega) hfe.2.1
    subst hf
    obtain ⟨hj4, hr, hc⟩ := (inv_built branch_complete.built).closed r j c hj
    have all : ∀ r < 13, ∀ j < 4, ∀ c < 13, ((branchGraph.node r).kind = .region ∧ (branchGraph.node r).args j = some c) → c = 6 ∨ c = 7 := by decide +kernel
    refine ⟨1, he, ?_⟩
    rcases all r (by omega) j hj4 c (by omega) ⟨hk, hj⟩ with rfl | rfl
    · exact .step .start (.inr ⟨5, ⟨by decide +kernel, by decide +kernel⟩, by decide +kernel, by decide +kernel⟩)
    · exact .step .start (.inr ⟨5, ⟨by decide +kernel, by decide +kernel⟩, by decide +kernel, by decide +kernel⟩)

/-- The blocks of the nodes. -/
def blocksOf (fuel : Nat) (g : Graph) (fs : List Nat) (ns : List Nat) : Run (List (Option Nat)) := do
  let t ← blockTrees fuel g fs
  let p ← placeAll fuel g t.2
  .ok (ns.map p.block)

/-- The address of `g` is computed on the side of the branch where it is called, and the state of memory at the start is needed on both sides. -/
example : blocksOf 200 branchGraph [0] [9, 8, 10, 2, 3, 5, 12] = .ok [some 7, some 7, some 7, some 1, some 1, some 1, some 4] := by decide +kernel

/-- Control goes through the block of the address before it reaches the call. -/
example : ∃ ls i p, blockTrees 200 branchGraph [0] = .ok (ls, i) ∧ placeAll 200 branchGraph i = .ok p ∧ p.block 11 = some 4 ∧ p.block 10 = p.block 9 := by
  obtain ⟨ls, i, p, h1, h2, -, h4, h5⟩ := placement_partial branch_scheduled
  refine ⟨ls, i, p, h1, h2, ?_, ?_⟩
  · rw [h4 11 (.inl (by decide +kernel))]
    decide +kernel
  · exact h5 10 9 ⟨by decide +kernel, by decide +kernel⟩ (by decide +kernel) (by decide +kernel)

/-! ### The graph of `int f(int c) { int a = 1, *p = 0; if (c) { return 5; p = &a; } … p … }` -/

/-- The graph after `p` has become a phi: the join has the block after the return as operand. -/
def mkSkip (fuel : Nat) : Run Graph := do
  let f := newFunction {}
  let e ← project fuel f.1 f.2 0 0
  let g ← blockStart fuel e.1 e.2
  let c := new g (.op 1) 4
  let a := new c.1 (.op 2) 8
  let z := new a.1 (.op 1) 8
  let s ← getState fuel z.1
  let st ← newWith fuel s.1 .store [some a.2, some z.2, some s.2] 0
  let g ← Run.ofRes (setState st.1 st.2)
  let j := newBlock g
  let s ← ifSelection fuel j.1 c.2
  let g ← blockStart fuel s.1 s.2.1
  let g ← ret fuel g none
  let d := newBlock g
  let g ← blockStart fuel d.1 d.2
  let g ← goto fuel g j.2
  let g ← blockStart fuel g s.2.2
  let g ← goto fuel g j.2
  let g ← blockStart fuel g j.2
  let p ← newWith fuel g .phi [some j.2, some a.2, some z.2] 8
  let g ← ret fuel p.1 (some p.2)
  sealBlocks fuel g g.seals

theorem built_skip (fuel : Nat) : Builds (mkSkip fuel) id :=
  (builds_project (built_newFunction .empty) _ _ _ _).bind fun _ h =>
  (builds_blockStart h _ _).bind fun _ h => (builds_getState (.new (.new (.new h))) _).bind fun _ h =>
  (builds_newWith h _ _ _ _).bind fun _ h => (builds_setState h _).bind fun _ h =>
  (builds_ifSelection (built_newBlock h) _ _).bind fun _ h =>
  (builds_blockStart h _ _).bind fun _ h => (builds_ret h _ _).bind fun _ h =>
  (builds_blockStart (built_newBlock h) _ _).bind fun _ h => (builds_goto h _ _).bind fun _ h =>
  (builds_blockStart h _ _).bind fun _ h => (builds_goto h _ _).bind fun _ h =>
  (builds_blockStart h _ _).bind fun _ h => (builds_newWith h _ _ _ _).bind fun _ h =>
  (builds_ret h _ _).bind fun _ h => builds_sealBlocks h

/-- The graph. -/
def skipGraph : Graph := graphOf (mkSkip 30)

/-- A rank of its nodes. -/
def skipRank (n : Nat) : Nat := [9, 8, 7, 7, 7, 7, 6, 8, 7, 2, 2, 0, 8, 0, 0, 0, 0].getD n 0

set_option maxRecDepth 10000 in
theorem skip_finished : Finished skipGraph [0] [1] 400 := by
  have hs : skipGraph.size = 17 := by decide +kernel
  have hrest : ∀ n, skipGraph.size ≤ n → (skipGraph.node n).kind = .dead ∧ (skipGraph.node n).visited = 0 := by
    intro n hn
    obtain ⟨m, rfl⟩ : ∃ m, n = m + 17 := ⟨n - 17, by omega⟩
    constructor <;> with_unfolding_all exact (id rfl)
  have hc : Complete skipGraph := complete_sound (built_graphOf (built_skip 30)) (by decide +kernel) hrest
  refine ⟨hc.built, hc.done, hc.projections, ?_, ordinary_sound hc.built hc.done (rank := skipRank) ?_ (by decide +kernel) (fun n hn => (hrest n hn).1), ?_,
    .cons ⟨by decide +kernel, by decide +kernel, ⟨by decide +kernel, by decide +kernel⟩, by decide +kernel⟩ .nil, ?_, List.pairwise_singleton _ _, by decide +kernel⟩
  · intro i hi
    have hlt : i < 17 := Decidable.byContradiction fun h => by
      rw [(hrest i (by omega)).1] at hi
      cases hi
    have all : ∀ i < 17, (skipGraph.node i).kind = .ifk → i = 8 := by decide +kernel
    rw [all i hlt hi]
    refine ⟨by decide +kernel, ?_⟩
    intro j v hj hv
    have hj4 := (inv_built hc.built).closed 8 j v hv
    have args : ∀ j < 4, j ≠ 0 → ∀ v < 17, (skipGraph.node 8).args j = some v → isControl skipGraph v ≠ .ok true := by decide +kernel
    exact fun hb => args j hj4.1 hj v (by have := hj4.2.2; omega) hv ((isControl_iff hc.done v).2 hb)
  · intro n
    rw [hs]
    by_cases h : n < 17
    · have all : ∀ n < 17, skipRank n ≤ 17 := by decide +kernel
      exact all n h
    · obtain ⟨m, rfl⟩ : ∃ m, n = m + 17 := ⟨n - 17, by omega⟩
      have : skipRank (m + 17) = 0 := rfl
      omega
  · intro n
    by_cases h : n < 17
    · have all : ∀ n < 17, (skipGraph.node n).visited ≠ 7 := by decide +kernel
      exact all n h
    · rw [(hrest n (by omega)).2]
      decide
  · intro f hf hk
    have all : ∀ f < 17, (skipGraph.node f).kind = .function → f = 0 := by decide +kernel
    rw [all f (by omega) hk]
    simp

set_option maxRecDepth 10000 in
/-- C84 is violated: when a join that control can reach has an operand that it cannot reach, the compiler looks for the common dominator of a
block without dominators, and reads through a null pointer. -/
theorem placement_violated : ¬∀ (g : Graph) (fs es : List Nat) (fuel : Nat), Finished g fs es fuel → ∃ ls i p, blockTrees fuel g fs = .ok (ls, i) ∧
    placeAll fuel g i = .ok p := by
  intro hall
  obtain ⟨ls, i, p, h1, h2⟩ := hall skipGraph [0] [1] 400 skip_finished
  have : blocksOf 400 skipGraph [0] [] = .ub := by decide +kernel
  unfold blocksOf at this
  rw [h1, Run.bind_ok, h2] at this
  cases this

end Verif.Ir
