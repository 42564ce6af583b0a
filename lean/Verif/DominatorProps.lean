import Verif.DominatorGraphLemmas
import Verif.RemoveDeadProps
/-!
C57: the dominator tree.
-/
namespace Verif.Ir
open Verif Verif.IrSpec

/-- The tree for the function with entry `e` whose blocks are listed in `l`. -/
structure DominatorTree (g : Graph) (e : Nat) (l : List Nat) (i : Info) : Prop where
  blocks : ∀ x, x ∈ l ↔ Walk g e x
  once : l.Nodup
  order : ∀ a b c, l = a ++ b :: c → a ≠ [] → ∃ y ∈ a, Edge g y b
  entry : i.idom e = some e ∧ i.depth e = 1
  idom : ∀ b, Walk g e b → b ≠ e → ∃ d, i.idom b = some d ∧ ImmediateDominator g e d b ∧ i.depth b = i.depth d + 1

/-- C57. For every graph of functions, the search ends and lists exactly the reachable blocks of every function, each once, and each but the entry after
one of its predecessors; the iteration ends, never dereferences a null pointer, and yields the immediate dominator of every reachable block, and
its depth in the tree. -/
theorem dominator_trees {g : Graph} (hb : Built g) (hd : Done g) (hp : Projections g) (hbr : Branches g) (hv : ∀ n, (g.node n).visited ≠ 7) {fs es : List Nat}
    (hfe : All2 (IsEntry g) fs es) (hap : Apart g es) {fuel : Nat} (hfu : g.size * g.size + 2 * g.size < fuel) :
    ∃ ls i, blockTrees fuel g fs = .ok (ls, i) ∧ All2 (fun e l => DominatorTree g e l i) es ls := by
  have hg := inv_built hb
  obtain ⟨o, V, ls, e1, hs, hbl, -⟩ := postOrders_ok hg hd hp hbr hv (fuel := fuel) (by
    have : 0 ≤ g.size * g.size := Nat.zero_le _
    omega) hfe hap (V := []) (o := { seen := g }) (by simp) (marked_nil g 7).symm
  obtain ⟨i, e2, -, hr, -⟩ := domTrees_ok hg hfu 7 V (i := { post := o.post, idom := fun _ => none, depth := fun _ => 0 }) (D := []) hfe hap hbl rfl
    (by intro x hx; exact absurd rfl hx) (by simp) (by simp)
  refine ⟨ls, i, ?_, ?_⟩
  · unfold blockTrees
    rw [e1, Run.bind_ok]
    dsimp only
    rw [hs, e2, Run.bind_ok]
  · have combine : ∀ {es : List Nat} {ls : List (List Nat)}, All2 (Blocks g o.post) es ls → All2 (fun e l => Right g e l i) es ls → All2 (fun e l => DominatorTree g e l i) es ls := by
      intro es
      induction es with
      | nil =>
        intro ls h h'
        cases h
        exact .nil
      | cons e es ih =>
        intro ls h h'
        cases h with
        | @cons _ l _ ls hb hbs =>
          cases h' with
          | cons hr hrs =>
            refine .cons ⟨fun x => ⟨hb.walk x, walk_mem hb⟩, ?_, ?_, ⟨hr.1, hr.2.1⟩, ?_⟩ (ih hbs hrs)
            · refine hb.sorted.imp ?_
              intro a b hlt hab
              rw [hab] at hlt
              omega
            · intro a b c hl ha
              have hbm : b ∈ l := by rw [hl]; simp
              rcases hb.parent b hbm with h | ⟨y, hy, hed, hlt⟩
              · -- only the first element is the entry
                obtain ⟨bs, hbs⟩ := hb.head
                cases a with
                | nil => exact absurd rfl ha
                | cons x a =>
                  have hs := hb.sorted
                  rw [hl] at hs hbs
                  injection hbs with h1 h2
                  have := (List.pairwise_cons.1 hs).1 b (by simp)
                  rw [h1, h] at this
                  omega
              · refine ⟨y, ?_, hed⟩
                have hs := hb.sorted
                rw [hl] at hy hs
                rcases List.mem_append.1 hy with h | h
                · exact h
                · rcases List.mem_cons.1 h with h | h
                  · rw [h] at hlt; omega
                  · have := (List.pairwise_cons.1 (List.pairwise_append.1 hs).2.1).1 y h
                    omega
            · intro b hbw hbe
              obtain ⟨d, -, h1, h2, h3, -⟩ := hr.2.2 b (walk_mem hb hbw) hbe
              exact ⟨d, h1, h2, h3⟩
    exact combine hbl hr

/-- Immediate dominators are unique, so that the result is determined. -/
theorem immediate_dominator_unique {g : Graph} {e b i j : Nat} (hi : ImmediateDominator g e i b) (hj : ImmediateDominator g e j b) : i = j := by
  refine Decidable.byContradiction fun hij => ?_
  have h1 := hi.2.2 j hj.2.1 hj.1
  have h2 := hj.2.2 i hi.2.1 hi.1
  -- `i` and `j` dominate each other: no way reaches either of them first
  have stuck : ∀ x, Walk g e x → Avoids g e i x ∧ Avoids g e j x := by
    intro x hx
    induction hx with
    | start =>
      by_cases hei : e = i
      · exact absurd (hei ▸ Avoids.start (by rw [hei]; exact hij)) h1.2
      · by_cases hej : e = j
        · exact absurd (hej ▸ Avoids.start (by rw [hej]; exact Ne.symm hij)) h2.2
        · exact ⟨.start hei, .start hej⟩
    | @step c x _ he ih =>
      by_cases hxi : x = i
      · exact absurd (.step ih.2 he (by rw [hxi]; exact hij)) (hxi ▸ h1.2)
      · by_cases hxj : x = j
        · exact absurd (.step ih.1 he (by rw [hxj]; exact Ne.symm hij)) (hxj ▸ h2.2)
        · exact ⟨.step ih.1 he hxi, .step ih.2 he hxj⟩
  exact hi.2.1.2 (stuck b hi.2.1.1).1

/-! ### The graph of `void f(int c) { if (c) g(); }` -/

set_option maxRecDepth 10000 in
theorem branch_rest (n : Nat) (h : 13 ≤ n) : (branchGraph.node n).kind = .dead ∧ (branchGraph.node n).visited = 0 := by
  obtain ⟨m, rfl⟩ : ∃ m, n = m + 13 := ⟨n - 13, by omega⟩
  constructor <;> with_unfolding_all exact (id rfl)

set_option maxRecDepth 10000 in
theorem branch_branches : Branches branchGraph := by
  intro i hi
  have hlt : i < 13 := Decidable.byContradiction fun h => by
    rw [(branch_rest i (by omega)).1] at hi
    cases hi
  have all : ∀ i < 13, (branchGraph.node i).kind = .ifk → i = 5 := by decide +kernel
  rw [all i hlt hi]
  refine ⟨by decide +kernel, ?_⟩
  intro j v hj hv
  have hj4 := (inv_built branch_complete.built).closed 5 j v hv
  have args : ∀ j < 4, j ≠ 0 → ∀ v < 13, (branchGraph.node 5).args j = some v → isControl branchGraph v ≠ .ok true := by decide +kernel
  have hs : branchGraph.size = 13 := by decide +kernel
  exact fun hb => args j hj4.1 hj v (by have := hj4.2.2; omega) hv ((isControl_iff branch_complete.done v).2 hb)

set_option maxRecDepth 10000 in
theorem branch_tree : ∃ ls i, blockTrees 200 branchGraph [0] = .ok (ls, i) ∧ All2 (fun e l => DominatorTree branchGraph e l i) [1] ls := by
  refine dominator_trees branch_complete.built branch_complete.done branch_complete.projections branch_branches ?_
    (.cons ⟨by decide +kernel, by decide +kernel, ⟨by decide +kernel, by decide +kernel⟩, by decide +kernel⟩ .nil) (List.pairwise_singleton _ _) (by decide +kernel)
  intro n
  by_cases h : n < 13
  · have all : ∀ n < 13, (branchGraph.node n).visited ≠ 7 := by decide +kernel
    exact all n h
  · rw [(branch_rest n (by omega)).2]
    decide

example : ∃ ls i, blockTrees 200 branchGraph [0] = .ok (ls, i) ∧ All2 (fun e l => DominatorTree branchGraph e l i) [1] ls := branch_tree

/-- The join after the branch has an immediate dominator. -/
example : ∃ d, ImmediateDominator branchGraph 1 d 4 ∧ ∀ j, ImmediateDominator branchGraph 1 j 4 → j = d := by
  obtain ⟨ls, i, -, h⟩ := branch_tree
  cases h with
  | cons h _ =>
    have w : Walk branchGraph 1 6 := .step .start (.inr ⟨5, ⟨by decide +kernel, by decide +kernel⟩, by decide +kernel, by decide +kernel⟩)
    obtain ⟨d, -, hd, -⟩ := h.idom 4 (.step w (.inl ⟨by decide +kernel, 1, by decide +kernel⟩)) (by decide)
    exact ⟨d, hd, fun j hj => immediate_dominator_unique hj hd⟩

end Verif.Ir
