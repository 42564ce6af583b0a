import Verif.RemoveDeadLemmas
import Verif.IrBuildLemmas
/-!
C56: the removal of dead nodes.
-/
namespace Verif.Ir
open Verif Verif.IrSpec

/-- A graph as it is when the optimiser runs: every node of a known kind has the operands that it needs, blocks are sealed, the nodes are
not marked and returns have no users. -/
structure Complete (g : Graph) : Prop where
  built : Built g
  done : Done g
  projections : Projections g
  unmarked : ∀ n, (g.node n).visited ≠ -1 ∧ (g.node n).visited ≠ -2
  last : ∀ r u, (g.node r).kind = .ret → ¬Operand g u r

/-- C56, except for the effects of blocks from which no return or join can be reached (full property: nothing that happens in a reachable block
is removed, violated by `dead_code_violated`). The removal ends; what the reachable returns and joins depend on keeps its kind and its operands;
every other node except for projections is dead and has no operands; the lists of users still mirror the operands. -/
theorem dead_code_partial {g : Graph} (hc : Complete g) {fuel : Nat} (hf : g.size < fuel) :
    ∃ h, removeDead fuel g = .ok h ∧ h.size = g.size ∧ Mirror h ∧
      (∀ n, Useful g n → (h.node n).kind = (g.node n).kind ∧ (h.node n).args = (g.node n).args) ∧
      (∀ n, n < g.size → ¬Useful g n → (g.node n).kind ≠ .project → (h.node n).kind = .dead ∧ ∀ i, (h.node n).args i = none) ∧
      (∀ n, (g.node n).kind = .project → (h.node n).kind = .project ∧ (h.node n).args = (g.node n).args) := by
  have hg := inv_built hc.built
  have hret : ∀ r, (g.node r).kind = .ret → (g.node r).live = [] := by
    intro r hr
    refine List.eq_nil_iff_forall_not_mem.2 fun u hu => ?_
    exact hc.last r u hr ((live_operand hg).1 hu)
  obtain ⟨h, u, e, hu, hi, _, hs, hk, ha⟩ := removeDead_result hg hc.done hc.projections hc.unmarked hret hf
  refine ⟨h, e, hs, hi.mirror, ?_, ?_, ?_⟩
  · intro n hn
    have : ¬(n < g.size ∧ n ∉ u ∧ (g.node n).kind ≠ .project) := fun hx => hx.2.1 ((hu n).2 hn)
    exact ⟨by rw [hk, if_neg this], funext fun i => by rw [ha, if_neg this]⟩
  · intro n hn hnu hp
    have : n < g.size ∧ n ∉ u ∧ (g.node n).kind ≠ .project := ⟨hn, fun hx => hnu ((hu n).1 hx), hp⟩
    exact ⟨by rw [hk, if_pos this], fun i => by rw [ha, if_pos this]⟩
  · intro n hp
    have : ¬(n < g.size ∧ n ∉ u ∧ (g.node n).kind ≠ .project) := fun hx => hx.2.2 hp
    exact ⟨by rw [hk, if_neg this, hp], funext fun i => by rw [ha, if_neg this]⟩

/-- C56. No node that is kept because it is useful has an operand that is removed. -/
theorem dead_code_operands {g : Graph} (hc : Complete g) {fuel : Nat} (hf : g.size < fuel) {h : Graph} (e : removeDead fuel g = .ok h) {u n : Nat}
    (hu : Useful g u) (ho : Operand h u n) : (h.node n).kind = (g.node n).kind := by
  obtain ⟨h', e', -, -, hk, -⟩ := dead_code_partial hc hf
  rw [e] at e'
  cases e'
  obtain ⟨i, hi⟩ := ho
  rw [(hk u hu).2] at hi
  exact (hk n (.operand hu ⟨i, hi⟩)).1

/-! ### The graph of `void f(void) { for (;;) g(); }` -/

/-- src/parser/function_parser.c `parse_for_statement`: the calls that build the graph. -/
def mkLoop (fuel : Nat) : Run Graph := do
  let f := newFunction {}
  let e ← project fuel f.1 f.2 0 0
  let g ← blockStart fuel e.1 e.2
  let i := newBlock g
  let c := newBlock i.1
  let a := newBlock c.1
  let b := newBlock a.1
  let d := newBlock b.1
  let g ← goto fuel d.1 i.2
  let g ← blockStart fuel g i.2
  let g ← goto fuel g c.2
  let g ← blockStart fuel g c.2
  let g ← goto fuel g b.2
  let g ← blockStart fuel g a.2
  let g ← goto fuel g c.2
  let g ← blockStart fuel g b.2
  let k := new g (.op 1) 8
  let s ← getState fuel k.1
  let call ← newWith fuel s.1 .call [some k.2, some s.2] 0
  let p ← project fuel call.1 call.2 0 0
  let g ← Run.ofRes (setState p.1 p.2)
  let g ← goto fuel g a.2
  let g ← blockStart fuel g d.2
  let g ← ret fuel g none
  sealBlocks fuel g g.seals

/-- The graph of `void f(int c) { if (c) g(); }`. -/
def mkBranch (fuel : Nat) : Run Graph := do
  let f := newFunction {}
  let e ← project fuel f.1 f.2 0 0
  let g ← blockStart fuel e.1 e.2
  let c := new g (.op 1) 4
  let j := newBlock c.1
  let s ← ifSelection fuel j.1 c.2
  let g ← blockStart fuel s.1 s.2.1
  let k := new g (.op 1) 8
  let t ← getState fuel k.1
  let call ← newWith fuel t.1 .call [some k.2, some t.2] 0
  let p ← project fuel call.1 call.2 0 0
  let g ← Run.ofRes (setState p.1 p.2)
  let g ← goto fuel g j.2
  let g ← blockStart fuel g s.2.2
  let g ← goto fuel g j.2
  let g ← blockStart fuel g j.2
  let g ← ret fuel g none
  sealBlocks fuel g g.seals

/-- The graph that a run yields. -/
def graphOf (r : Run Graph) : Graph :=
  match r with
  | .ok g => g
  | _ => {}

theorem built_graphOf {r : Run Graph} (h : Builds r id) : Built (graphOf r) := by
  cases r with
  | ok g => exact h g rfl
  | fail => exact .empty
  | ub => exact .empty
  | more => exact .empty

theorem built_loop (fuel : Nat) : Builds (mkLoop fuel) id :=
  (builds_project (built_newFunction .empty) _ _ _ _).bind fun _ h =>
  (builds_blockStart h _ _).bind fun _ h =>
  (builds_goto (built_newBlock (built_newBlock (built_newBlock (built_newBlock (built_newBlock h))))) _ _).bind fun _ h =>
  (builds_blockStart h _ _).bind fun _ h => (builds_goto h _ _).bind fun _ h =>
  (builds_blockStart h _ _).bind fun _ h => (builds_goto h _ _).bind fun _ h =>
  (builds_blockStart h _ _).bind fun _ h => (builds_goto h _ _).bind fun _ h =>
  (builds_blockStart h _ _).bind fun _ h => (builds_getState (.new h) _).bind fun _ h => (builds_newWith h _ _ _ _).bind fun _ h =>
  (builds_project h _ _ _ _).bind fun _ h => (builds_setState h _).bind fun _ h => (builds_goto h _ _).bind fun _ h =>
  (builds_blockStart h _ _).bind fun _ h => (builds_ret h _ _).bind fun _ h => builds_sealBlocks h

theorem built_branch (fuel : Nat) : Builds (mkBranch fuel) id :=
  (builds_project (built_newFunction .empty) _ _ _ _).bind fun _ h =>
  (builds_blockStart h _ _).bind fun _ h =>
  (builds_ifSelection (built_newBlock (.new h)) _ _).bind fun _ h =>
  (builds_blockStart h _ _).bind fun _ h => (builds_getState (.new h) _).bind fun _ h => (builds_newWith h _ _ _ _).bind fun _ h =>
  (builds_project h _ _ _ _).bind fun _ h => (builds_setState h _).bind fun _ h => (builds_goto h _ _).bind fun _ h =>
  (builds_blockStart h _ _).bind fun _ h => (builds_goto h _ _).bind fun _ h =>
  (builds_blockStart h _ _).bind fun _ h => (builds_ret h _ _).bind fun _ h => builds_sealBlocks h

/-- `u` is a projection of `n`. -/
def projectionOf (g : Graph) (u n : Nat) : Bool := (g.node u).kind = .project ∧ (g.node u).args 0 = some n

/-- A check of the conditions on the nodes of a graph. -/
def complete (g : Graph) : Bool :=
  (List.range g.size).all fun n =>
    let q := g.node n
    (q.kind ≠ .region || q.isSealed) && (q.kind ≠ .project || (q.args 0 ≠ none && q.projIdx < 4 && q.args 1 = none && q.args 2 = none && q.args 3 = none)) &&
    q.visited ≠ -1 && q.visited ≠ -2 && (q.kind ≠ .ret || q.live = []) &&
    (q.kind ≠ .ifk || match q.projects 0, q.projects 1 with
      | some a, some b => projectionOf g a n && projectionOf g b n && (List.range g.size).all fun u => !projectionOf g u n || u = a || u = b
      | _, _ => false) &&
    (q.kind ≠ .function || match q.projects 0 with
      | some a => projectionOf g a n && (g.node a).projIdx = 0 && (List.range g.size).all fun u => !projectionOf g u n || (g.node u).projIdx ≠ 0 || u = a
      | none => false)

theorem projectionOf_iff {g : Graph} {u n : Nat} : projectionOf g u n = true ↔ IsProjection g u n := by
  unfold projectionOf IsProjection
  simp

theorem complete_sound {g : Graph} (hb : Built g) (h : complete g = true)
    (hn : ∀ n, g.size ≤ n → (g.node n).kind = .dead ∧ (g.node n).visited = 0) : Complete g := by
  have hg := inv_built hb
  unfold complete at h
  rw [List.all_eq_true] at h
  have lt : ∀ n, (g.node n).kind ≠ .dead → n < g.size := fun n hk => by
    refine Decidable.byContradiction fun hx => hk (hn n (by omega)).1
  have all : ∀ n < g.size, _ := fun n hx => h n (List.mem_range.2 hx)
  simp only [Bool.and_eq_true, Bool.or_eq_true, decide_eq_true_eq] at all
  have single : ∀ u, (g.node u).kind = .project → ∀ i, i ≠ 0 → (g.node u).args i = none := by
    intro u hk i hi
    have := ((((((all u (lt u (by rw [hk]; simp))).1).1).1).1).1).2
    rcases this with h | h
    · exact absurd hk h
    · match i, hi with
      | 1, _ => exact h.1.1.2
      | 2, _ => exact h.1.2
      | 3, _ => exact h.2
      | i + 4, _ =>
        cases ha : (g.node u).args (i + 4) with
        | none => rfl
        | some a =>
          have := (hg.closed _ _ _ ha).1
          omega
  refine ⟨hb, ⟨?_, ?_, ?_⟩, ⟨?_, ?_, single⟩, ?_, ?_⟩
  · intro n hk
    exact ((((((all n (lt n (by rw [hk]; simp))).1).1).1).1).1).1.resolve_left (fun h => h hk)
  · intro n hk
    exact (((((((all n (lt n (by rw [hk]; simp))).1).1).1).1).1).2.resolve_left (fun h => h hk)).1.1.1.1
  · intro n hk
    exact (((((((all n (lt n (by rw [hk]; simp))).1).1).1).1).1).2.resolve_left (fun h => h hk)).1.1.1.2
  · intro n hlt hk
    have := (all n hlt).1.2.resolve_left (fun h => h hk)
    cases h0 : (g.node n).projects 0 with
    | none => rw [h0] at this; cases this
    | some a =>
      cases h1 : (g.node n).projects 1 with
      | none => rw [h0, h1] at this; cases this
      | some b =>
        rw [h0, h1] at this
        simp only [Bool.and_eq_true, projectionOf_iff, List.all_eq_true, List.mem_range, Bool.or_eq_true, Bool.not_eq_true', decide_eq_true_eq] at this
        refine ⟨a, b, rfl, rfl, fun u => ⟨fun hu => ?_, ?_⟩⟩
        · rcases this.2 u (lt u (by rw [hu.1]; simp)) with (h | h) | h
          · rw [projectionOf_iff.2 hu] at h; cases h
          · exact .inl h
          · exact .inr h
        · rintro (e | e)
          · rw [e]; exact this.1.1
          · rw [e]; exact this.1.2
  · intro n hlt hk
    have := (all n hlt).2.resolve_left (fun h => h hk)
    cases h0 : (g.node n).projects 0 with
    | none => rw [h0] at this; cases this
    | some a =>
      rw [h0] at this
      simp only [Bool.and_eq_true, projectionOf_iff, List.all_eq_true, List.mem_range, Bool.or_eq_true, Bool.not_eq_true', decide_eq_true_eq] at this
      refine ⟨a, rfl, fun u => ⟨fun hu => ?_, ?_⟩⟩
      · rcases this.2 u (lt u (by rw [hu.1.1]; simp)) with (h | h) | h
        · rw [projectionOf_iff.2 hu.1] at h; cases h
        · exact absurd hu.2 h
        · exact h
      · intro e
        rw [e]
        exact this.1
  · intro n
    by_cases hlt : n < g.size
    · exact ⟨(all n hlt).1.1.1.1.2, (all n hlt).1.1.1.2⟩
    · rw [(hn n (by omega)).2]
      decide
  · intro r u hk ho
    have := (all r (lt r (by rw [hk]; simp))).1.1.2.resolve_left (fun h => h hk)
    have hm := (live_operand hg).2 ho
    rw [this] at hm
    cases hm

/-- The graph of the loop. -/
def loopGraph : Graph := graphOf (mkLoop 20)

/-- The graph of the branch. -/
def branchGraph : Graph := graphOf (mkBranch 20)

set_option maxRecDepth 10000 in
theorem loop_complete : Complete loopGraph := by
  have hs : loopGraph.size = 17 := by decide +kernel
  refine complete_sound (built_graphOf (built_loop 20)) (by decide +kernel) ?_
  intro n hn
  obtain ⟨m, rfl⟩ : ∃ m, n = m + 17 := ⟨n - 17, by omega⟩
  constructor <;> with_unfolding_all exact (id rfl)

set_option maxRecDepth 10000 in
theorem branch_complete : Complete branchGraph := by
  have hs : branchGraph.size = 13 := by decide +kernel
  refine complete_sound (built_graphOf (built_branch 20)) (by decide +kernel) ?_
  intro n hn
  obtain ⟨m, rfl⟩ : ∃ m, n = m + 13 := ⟨n - 13, by omega⟩
  constructor <;> with_unfolding_all exact (id rfl)

set_option maxRecDepth 10000 in
/-- C56 is violated: `void f(void) { for (;;) g(); }` loses its call, although control reaches it and the state of memory at the end of the body
of the loop depends on it. -/
theorem dead_code_violated : ¬∀ (g h : Graph) (fuel : Nat), Complete g → g.size < fuel → removeDead fuel g = .ok h →
    ∀ n, Effect g n → (h.node n).kind = (g.node n).kind := by
  intro hall
  obtain ⟨h, e, -⟩ := dead_code_partial loop_complete (fuel := 18) (by decide +kernel)
  have r1 : Reachable loopGraph 1 := .entry (f := 0) (by decide +kernel) (by decide +kernel) ⟨by decide +kernel, by decide +kernel⟩ (by decide +kernel)
  have r3 : Reachable loopGraph 3 := .join r1 (by decide +kernel) ⟨0, by decide +kernel⟩
  have r4 : Reachable loopGraph 4 := .join r3 (by decide +kernel) ⟨0, by decide +kernel⟩
  have r6 : Reachable loopGraph 6 := .join r4 (by decide +kernel) ⟨0, by decide +kernel⟩
  have he : Effect loopGraph 10 := .operand (.state r6 (s := 11) (by decide +kernel)) ⟨0, by decide +kernel⟩
  have h1 := hall loopGraph h 18 loop_complete (by decide +kernel) e 10 he
  have hk : (loopGraph.node 10).kind = .call := by decide +kernel
  have hd : (graphOf (removeDead 18 loopGraph)).node 10 = h.node 10 := by rw [e]; rfl
  have hd' : ((graphOf (removeDead 18 loopGraph)).node 10).kind = .dead := by decide +kernel
  rw [hd, h1, hk] at hd'
  cases hd'

/-- In the graph of the branch the call is useful and stays. -/
theorem branch_call_useful : Useful branchGraph 9 := by
  have r1 : Reachable branchGraph 1 := .entry (f := 0) (by decide +kernel) (by decide +kernel) ⟨by decide +kernel, by decide +kernel⟩ (by decide +kernel)
  have r6 : Reachable branchGraph 6 := .branch (i := 5) r1 (by decide +kernel) ⟨0, by decide +kernel⟩ ⟨by decide +kernel, by decide +kernel⟩
  have r4 : Reachable branchGraph 4 := .join r6 (by decide +kernel) ⟨1, by decide +kernel⟩
  have u12 : Useful branchGraph 12 := .ret r4 (by decide +kernel) ⟨0, by decide +kernel⟩
  exact .operand (.operand (.operand u12 (n := 11) ⟨2, by decide +kernel⟩) (n := 10) ⟨1, by decide +kernel⟩) ⟨0, by decide +kernel⟩

example : ∃ h, removeDead 14 branchGraph = .ok h ∧ (h.node 9).kind = .call := by
  obtain ⟨h, e, -, -, hk, -⟩ := dead_code_partial branch_complete (fuel := 14) (by decide +kernel)
  exact ⟨h, e, by rw [(hk 9 branch_call_useful).1]; decide +kernel⟩

example : ∃ h, removeDead 18 loopGraph = .ok h ∧ ∀ n, Useful loopGraph n → (h.node n).kind = (loopGraph.node n).kind := by
  obtain ⟨h, e, -, -, hk, -⟩ := dead_code_partial loop_complete (fuel := 18) (by decide +kernel)
  exact ⟨h, e, fun n hn => (hk n hn).1⟩

example (h : Graph) (e : removeDead 14 branchGraph = .ok h) (ho : Operand h 9 8) : (h.node 8).kind = (branchGraph.node 8).kind :=
  dead_code_operands branch_complete (by decide +kernel) e branch_call_useful ho

end Verif.Ir
