import Verif.PeepholeLemmas
import Verif.RemoveDeadProps
import Verif.ScheduleLemmas
import Verif.IrBuildLemmas
/-!
C115: the peephole pass removes phis with one side and keeps what functions compute.
-/
namespace Verif.Peephole
open Verif Verif.Ir Verif.IrSpec Verif.PeepholeSpec

/-- C115. On every graph that has been built, the pass comes to an end without error, and keeps the nodes. For every function whose graph is in SSA form (its
first block is `entry`), whatever the nodes mean: every run before the pass has one afterwards that goes through the same blocks and has the same values in all
nodes that are available, that is, whose block dominates the block where control is; and the other way round. The graph is in SSA form afterwards. -/
theorem peephole_keeps {fuel : Nat} {g : Graph} (hb : Built g) (hd : Done g) :
    ∃ g', peephole fuel g = .ok g' ∧ Built g' ∧ Done g' ∧
      ∀ entry home rank, Ssa g entry home rank →
        g'.size = g.size ∧ (∀ n, (g'.node n).kind = (g.node n).kind) ∧ (∃ rank', Ssa g' entry home rank') ∧
        ∀ {X : Type} (m : Sense X) (c : Nat),
          (∀ e, Runs g entry home m c e → ∃ e', Runs g' entry home m c e' ∧ ∀ n, n < g.size → Dominates g entry (home n) c → e' n = e n) ∧
          ∀ e', Runs g' entry home m c e' → ∃ e, Runs g entry home m c e ∧ ∀ n, n < g.size → Dominates g entry (home n) c → e n = e' n := by
  obtain ⟨g', e, -, d, s⟩ := pass_same (fuel := fuel) ((List.range g.size).filter fun n => (g.node n).kind ≠ .dead).reverse (inv_built hb) hd
  refine ⟨g', e, ?_, d, fun entry home rank hs => ?_⟩
  · have node : ∀ {g g' : Graph} {n : Nat}, Built g → peepholeNode fuel g n = .ok g' → Built g' := by
      intro g g' n hb e
      unfold peepholeNode peepholePhi at e
      split at e
      · split at e
        · injection e with e; exact e ▸ hb
        · exact .replace hb e
        · exact .replace hb e
        · injection e with e; exact e ▸ hb
      · injection e with e; exact e ▸ hb
    have all : ∀ (l : List Nat) {g g' : Graph}, Built g → forEach (peepholeNode fuel) g l = .ok g' → Built g' := by
      intro l
      induction l with
      | nil => intro g g' hb e; injection e with e; exact e ▸ hb
      | cons n l ih =>
        intro g g' hb e
        rw [forEach] at e
        cases h : peepholeNode fuel g n with
        | ok x => rw [h] at e; exact ih (node hb h) e
        | fail => rw [h] at e; cases e
        | ub => rw [h] at e; cases e
        | more => rw [h] at e; cases e
    exact all _ hb e
  · obtain ⟨a, b⟩ := s entry home rank hs
    exact ⟨a.size, a.kind, b, fun m c => ⟨a.runs m c, a.back m c⟩⟩

/-- C115: afterwards no phi with one side is used, except by itself. -/
theorem no_one_sided {fuel : Nat} {g g' : Graph} (hb : Built g) (hd : Done g) (h : peephole fuel g = .ok g') {p v : Nat} (ho : OneSided g' p v)
    (hv : v ≠ p) (u : Nat) : ¬Operand g' u p := by
  have hg := inv_built hb
  refine pass_unused _ hg hd h p ?_ v ho hv u
  obtain ⟨g1, e1, -, -, -⟩ := pass_same (fuel := fuel) ((List.range g.size).filter fun n => (g.node n).kind ≠ .dead).reverse hg hd
  by_cases hp : p ∈ ((List.range g.size).filter fun n => (g.node n).kind ≠ .dead).reverse
  · exact .inr hp
  · refine .inl fun w how _ u hu => hp ?_
    obtain ⟨i, hi⟩ := hu
    have := (hg.closed u i p hi).2.2
    simp only [List.mem_reverse, List.mem_filter, List.mem_range, decide_eq_true_eq]
    exact ⟨this, by rw [how.1]; decide⟩

/-- C115: operands that are no phi with one side stay. -/
theorem others_stay {fuel : Nat} {g g' : Graph} (hb : Built g) (hd : Done g) (h : peephole fuel g = .ok g') (u i : Nat) :
    ((g.node u).args i = none → (g'.node u).args i = none) ∧
    ∀ a, (g.node u).args i = some a → (∀ v, ¬OneSided g a v) → (g'.node u).args i = some a := by
  have key : ∀ (l : List Nat) {g g' : Graph}, Inv g → Done g → forEach (peepholeNode fuel) g l = .ok g' →
      ((g.node u).args i = none → (g'.node u).args i = none) ∧
      ∀ a, (g.node u).args i = some a → (∀ v, ¬OneSided g a v) → (g'.node u).args i = some a := by
    intro l
    induction l with
    | nil =>
      intro g g' _ _ e
      injection e with e
      subst e
      exact ⟨id, fun a h _ => h⟩
    | cons n l ih =>
      intro g g' hg hd e
      rw [forEach] at e
      have stay : peepholeNode fuel g n = .ok g → _ := fun h => ih hg hd (by rw [h] at e; exact e)
      have go : ∀ v, OneSided g n v → peepholeNode fuel g n = replaceNode fuel g n v →
          ((g.node u).args i = none → (g'.node u).args i = none) ∧
          ∀ a, (g.node u).args i = some a → (∀ v, ¬OneSided g a v) → (g'.node u).args i = some a := by
        intro v ho e0
        by_cases hnv : n = v
        · subst hnv
          exact stay (e0.trans (replace_self hg))
        · obtain ⟨g1, e1, i1, d1, hk, ha, -⟩ := replace_same (fuel := fuel) hg hd ho hnv
          rw [e0, e1] at e
          obtain ⟨k1, k2⟩ := ih i1 d1 e
          refine ⟨fun h => k1 (by rw [ha, h]; rfl), fun a h hno => k2 a ?_ fun w hw => ?_⟩
          · rw [ha, h, if_neg]
            intro h
            injection h with h
            subst h
            exact hno v ho
          · have hka : (g.node a).kind = .phi := by rw [← hk]; exact hw.1
            have n1 : ∀ j, (g1.node a).args j = none → (g.node a).args j = none := by
              intro j hj
              rw [ha] at hj
              split at hj
              · cases hj
              · exact hj
            have s1 : ∀ j x, (g1.node a).args j = some x → ∃ y, (g.node a).args j = some y := by
              intro j x hj
              rw [ha] at hj
              split at hj
              · rename_i h; exact ⟨n, h⟩
              · exact ⟨x, hj⟩
            rcases hw.2 with ⟨x, y⟩ | ⟨x, y⟩
            · obtain ⟨z, hz⟩ := s1 _ _ x
              exact hno z ⟨hka, .inl ⟨hz, n1 _ y⟩⟩
            · obtain ⟨z, hz⟩ := s1 _ _ y
              exact hno z ⟨hka, .inr ⟨n1 _ x, hz⟩⟩
      by_cases hk : (g.node n).kind = .phi
      · have hn : peepholeNode fuel g n = peepholePhi fuel g n := by unfold peepholeNode; rw [hk]
        cases h1 : (g.node n).args 1 with
        | none => cases h2 : (g.node n).args 2 with
          | none => exact stay (by rw [hn, peepholePhi, h1, h2])
          | some v => exact go v ⟨hk, .inr ⟨h1, h2⟩⟩ (by rw [hn, peepholePhi, h1, h2])
        | some v => cases h2 : (g.node n).args 2 with
          | none => exact go v ⟨hk, .inl ⟨h1, h2⟩⟩ (by rw [hn, peepholePhi, h1, h2])
          | some w => exact stay (by rw [hn, peepholePhi, h1, h2])
      · refine stay ?_
        unfold peepholeNode
        split
        · contradiction
        · rfl
  exact key _ (inv_built hb) hd h

/-! ### The graph of `int f(int x) { goto l; l: return g(x); }` -/

/-- The graph, with a phi for `x` at the label. -/
def mkLabel (fuel : Nat) : Run Graph := do
  let f := newFunction {}
  let e ← project fuel f.1 f.2 0 0
  let g ← blockStart fuel e.1 e.2
  let c := new g (.op 1) 4
  let j := newBlock c.1
  let g ← goto fuel j.1 j.2
  let g ← blockStart fuel g j.2
  let p ← newWith fuel g .phi [some j.2, some c.2] 4
  let u ← newWith fuel p.1 (.op 2) [some p.2] 4
  let g ← ret fuel u.1 (some u.2)
  sealBlocks fuel g g.seals

theorem built_label (fuel : Nat) : Builds (mkLabel fuel) id :=
  (builds_project (built_newFunction .empty) _ _ _ _).bind fun _ h =>
  (builds_blockStart h _ _).bind fun _ h => (builds_goto (built_newBlock (.new h)) _ _).bind fun _ h =>
  (builds_blockStart h _ _).bind fun _ h => (builds_newWith h _ _ _ _).bind fun _ h =>
  (builds_newWith h _ _ _ _).bind fun _ h => (builds_ret h _ _).bind fun _ h => builds_sealBlocks h

/-- The graph. -/
def labelGraph : Graph := graphOf (mkLabel 30)

theorem label_built : Built labelGraph := built_graphOf (built_label 30)

set_option maxRecDepth 10000 in
theorem label_done : Done labelGraph := by
  have hs : labelGraph.size = 9 := by decide +kernel
  refine (complete_sound (g := labelGraph) label_built (by decide +kernel) ?_).done
  intro n hn
  obtain ⟨m, rfl⟩ : ∃ m, n = m + 9 := ⟨n - 9, by omega⟩
  constructor <;> with_unfolding_all exact (id rfl)

/-- A check for SSA form that is enough for graphs where the only dominators are the first block and the block itself. -/
def ssa (g : Graph) (entry : Nat) (home rank : Nat → Nat) : Bool :=
  (g.node entry).kind ≠ .region && (List.range g.size).all fun n =>
    ((g.node n).kind ≠ .phi || ((g.node n).args 0 = some (home n) && (g.node (home n)).kind = .region &&
      [0, 1].all fun k => match (g.node n).args (k + 1), (g.node (home n)).args k with
        | some v, some c => home v = c || home v = entry
        | none, some _ => false
        | _, none => true)) &&
    ((g.node n).kind ≠ .ifk || (g.node n).args 0 = none || (g.node n).args 0 = some (home n)) &&
    [0, 1, 2, 3].all fun i => match (g.node n).args i with
      | none => true
      | some a =>
        ((g.node n).kind = .phi || (g.node n).kind = .region || ((home a = home n || home a = entry) && decide (rank a < rank n))) &&
        ((g.node n).kind ≠ .region || i < 2) &&
        ((g.node a).kind ≠ .phi || ((g.node n).kind ≠ .region && (g.node n).kind ≠ .project && (i ≠ 0 || ((g.node n).kind ≠ .phi && (g.node n).kind ≠ .ifk))))

theorem ssa_sound {g : Graph} {entry : Nat} {home rank : Nat → Nat} (hb : Built g) (hn : ∀ n, g.size ≤ n → (g.node n).kind = .dead)
    (h : ssa g entry home rank = true) : Ssa g entry home rank := by
  have hg := inv_built hb
  unfold ssa at h
  rw [Bool.and_eq_true, List.all_eq_true] at h
  obtain ⟨h0, h⟩ := h
  have lt : ∀ n, (g.node n).kind ≠ .dead → n < g.size := fun n hk => Decidable.byContradiction fun hx => hk (hn n (by omega))
  have dom : ∀ {a b}, Walk g entry b → a = b ∨ a = entry → Dominates g entry a b := by
    intro a b hw h
    rcases h with rfl | rfl
    · exact dominates_refl hw
    · refine ⟨hw, fun h => ?_⟩
      clear hw
      induction h with
      | start h => exact h rfl
      | step _ _ _ ih => exact ih
  have arg : ∀ n i a, (g.node n).args i = some a → n < g.size ∧ i ∈ [0, 1, 2, 3] := by
    intro n i a h
    have := hg.closed n i a h
    exact ⟨this.2.1, by have := this.1; simp only [List.mem_cons, List.not_mem_nil, or_false]; omega⟩
  have all : ∀ n, n < g.size → _ := fun n hx => h n (List.mem_range.2 hx)
  simp only [Bool.and_eq_true, Bool.or_eq_true, decide_eq_true_eq, List.all_eq_true] at all
  have phi : ∀ n, (g.node n).kind = .phi → _ := fun n hk => ((all n (lt n (by rw [hk]; decide))).1.1).resolve_left (fun h => h hk)
  have edge : ∀ n i a, (g.node n).args i = some a → _ := fun n i a ha => (all n (arg n i a ha).1).2 i (arg n i a ha).2
  refine ⟨by simpa using h0, fun n hk => (phi n hk).1, ?_, ?_, ?_, ?_, ?_, ?_⟩
  · intro n i a hw h1 h2 ha
    have := edge n i a ha
    rw [ha] at this
    simp only [Bool.and_eq_true, Bool.or_eq_true, decide_eq_true_eq] at this
    rcases this.1.1 with (h | h) | h
    · exact absurd h h1
    · exact absurd h h2
    · exact ⟨dom hw h.1, h.2⟩
  · intro p k v c hk hlt hv hc hw
    have := (phi p hk).2 k (by simp only [List.mem_cons, List.not_mem_nil, or_false]; omega)
    rw [hv, hc] at this
    simp only [Bool.or_eq_true, decide_eq_true_eq] at this
    exact dom hw this
  · intro p k c hk hlt hv hc
    have := (phi p hk).2 k (by simp only [List.mem_cons, List.not_mem_nil, or_false]; omega)
    rw [hv, hc] at this
    cases this
  · intro b i c hk hc
    have := edge b i c hc
    rw [hc] at this
    simp only [Bool.and_eq_true, Bool.or_eq_true, decide_eq_true_eq] at this
    exact this.1.2.resolve_left fun h => h hk
  · intro i c hk hc
    have := (all i (arg i 0 c hc).1).1.2
    rcases this with (h | h) | h
    · exact absurd hk h
    · rw [hc] at h; cases h
    · rw [hc] at h; injection h with h; exact h.symm
  · intro u i a ha hk
    have := edge u i a ha
    rw [ha] at this
    simp only [Bool.and_eq_true, Bool.or_eq_true, decide_eq_true_eq] at this
    obtain ⟨⟨x, y⟩, z⟩ := this.2.resolve_left fun h => h hk
    exact ⟨x, y, fun hi => z.resolve_left fun h => h hi⟩

/-- The blocks of the graph: the nodes 0 to 3 belong to the first one, the other ones to the label. -/
def labelHome (n : Nat) : Nat := if n < 4 then 1 else 4

set_option maxRecDepth 10000 in
theorem label_ssa : Ssa labelGraph 1 labelHome id := by
  have hs : labelGraph.size = 9 := by decide +kernel
  refine ssa_sound label_built ?_ (by decide +kernel)
  intro n hn
  obtain ⟨m, rfl⟩ : ∃ m, n = m + 9 := ⟨n - 9, by omega⟩
  with_unfolding_all exact (id rfl)

/-- The pass makes the call, which is the node 6, use the parameter, which is the node 3, and the phi, the node 5, is not used any more. -/
example : ∃ g', peephole 30 labelGraph = .ok g' ∧ OneSided labelGraph 5 3 ∧ (labelGraph.node 6).args 0 = some 5 ∧
    (g'.node 6).args 0 = some 3 ∧ (∀ u, ¬Operand g' u 5) ∧ ∃ rank', Ssa g' 1 labelHome rank' := by
  obtain ⟨g', e, -, -, h⟩ := peephole_keeps (fuel := 30) label_built label_done
  have h6 : ((graphOf (peephole 30 labelGraph)).node 6).args 0 = some 3 ∧ ((graphOf (peephole 30 labelGraph)).node 5).args 1 = some 3 ∧
    ((graphOf (peephole 30 labelGraph)).node 5).args 2 = none := by decide +kernel
  rw [e] at h6
  obtain ⟨-, hk, hs, -⟩ := h _ _ _ label_ssa
  have ho : OneSided labelGraph 5 3 := by unfold OneSided; decide +kernel
  exact ⟨g', e, ho, by decide +kernel, h6.1, no_one_sided label_built label_done e (v := 3) ⟨(hk 5).trans ho.1, .inl h6.2⟩ (by decide), hs⟩

/-- Control reaches the label, with the values of the nodes: for instance all of them have computed a number. -/
example : ∃ e, Runs labelGraph 1 labelHome (X := Nat) ⟨fun _ _ => 7, fun _ => true⟩ 4 e := by
  have c : Computes labelGraph 1 labelHome (X := Nat) ⟨fun _ _ => 7, fun _ => true⟩ fun _ => 7 := ⟨fun _ _ _ _ _ => rfl, fun _ _ => rfl⟩
  exact ⟨_, .join (k := 0) (.start c) (by decide +kernel) (by decide) (by decide +kernel) (fun _ _ _ => ⟨fun _ _ _ => rfl, fun _ => rfl⟩) c⟩

end Verif.Peephole
