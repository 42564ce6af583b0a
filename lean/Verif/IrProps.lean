import Verif.IrReplaceLemmas
/-!
C55: the lists of users mirror the operands.
-/
namespace Verif.Ir
open Verif Verif.IrSpec

/-- C55. In every graph that is built by any sequence of creations, operand updates, replacements, reads of the state and sealings, a
node is as often in the list of users of another as the other is an operand of it. -/
theorem use_lists_mirror {g : Graph} (h : Built g) : Mirror g := (inv_built h).mirror

/-- C55. The assertion in `node_set_argument` that the node is among the users of its former operand never fails. -/
theorem set_operand_never_fails {g : Graph} (h : Built g) (n i : Nat) (a : Option Nat) : setArg0 g n i a ≠ .fail := by
  rcases setArg0_inv (inv_built h) n i a with e | ⟨_, e, -⟩ <;> rw [e] <;> simp

/-- C55. Replacing a node by another replaces exactly the operands that were that node, although the list of users shrinks while it
is traversed; afterwards the node has no users. -/
theorem replace_exact {g : Graph} (h : Built g) (hd : Done g) (fuel : Nat) {o r : Nat} (hor : o ≠ r) (ho : o < g.size) (hr : r < g.size) :
    ∃ g', replaceNode fuel g o r = .ok g' ∧ g'.size = g.size ∧ (∀ n, (g'.node n).kind = (g.node n).kind) ∧
      (∀ n i, (g'.node n).args i = if (g.node n).args i = some o then some r else (g.node n).args i) ∧ (g'.node o).live = [] := by
  have hg := inv_built h
  obtain ⟨g', e, hm⟩ := replaceFrom_done (fuel := fuel) hor hg hd ho hr (Nat.le_refl _) (hg.cap o)
  refine ⟨g', e, hm.size, hm.kind, hm.args, ?_⟩
  refine List.eq_nil_iff_forall_not_mem.2 ?_
  intro x hx
  have hpos : 0 < (g'.node o).live.count x := List.count_pos_iff.2 hx
  rw [hm.inv.mirror] at hpos
  obtain ⟨j, _, hj⟩ := List.countP_pos_iff.1 hpos
  have hj : (g'.node x).args j = some o := by simpa using hj
  rw [hm.args] at hj
  unfold swap at hj
  split at hj
  · injection hj with hj
    exact hor hj.symm
  · rename_i h1
    exact h1 hj

/-- The nodes `0`, `1` and `2 = 0 + 0`. -/
def sampleNodes : Graph := (new (new (new {} (.op 0) 4).1 (.op 0) 4).1 (.op 1) 4).1

/-- The outcome of a run, if it ends normally. -/
def outcome (r : Run Graph) : Graph :=
  match r with
  | .ok g => g
  | _ => {}

/-- The graph with `2 = 0 + 0`. -/
def sampleSum : Graph := outcome (setArg 0 (outcome (setArg 0 sampleNodes 2 0 (some 0))) 2 1 (some 0))

theorem sampleSum_built : Built sampleSum := by
  have h0 : Built sampleNodes := .new (.new (.new .empty))
  have h1 : Built (outcome (setArg 0 sampleNodes 2 0 (some 0))) := .set h0 (fuel := 0) (n := 2) (i := 0) (a := some 0) rfl
  exact .set h1 (fuel := 0) (n := 2) (i := 1) (a := some 0) rfl

theorem sampleSum_done : Done sampleSum := by
  have hk : ∀ n, (sampleSum.node n).kind ≠ .region ∧ (sampleSum.node n).kind ≠ .project := by
    intro n
    match n with
    | 0 => decide
    | 1 => decide
    | 2 => decide
    | n + 3 => exact ⟨(by decide : Kind.dead ≠ .region), (by decide : Kind.dead ≠ .project)⟩
  exact ⟨fun n h => absurd h (hk n).1, fun n h => absurd h (hk n).2, fun n h => absurd h (hk n).2⟩

example : (sampleSum.node 0).live = [2, 2] ∧ Mirror sampleSum := ⟨by decide, use_lists_mirror sampleSum_built⟩

example : ∃ g', replaceNode 0 sampleSum 0 1 = .ok g' ∧ g'.size = sampleSum.size ∧ (∀ n, (g'.node n).kind = (sampleSum.node n).kind) ∧
    (∀ n i, (g'.node n).args i = if (sampleSum.node n).args i = some 0 then some 1 else (sampleSum.node n).args i) ∧ (g'.node 0).live = [] :=
  replace_exact sampleSum_built sampleSum_done 0 (by decide) (by decide) (by decide)

end Verif.Ir
