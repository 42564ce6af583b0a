import Verif.RemoveDead
import Verif.RemoveDeadSpec
import Verif.IrReplaceLemmas
import Verif.Dfs
/-!
Lemmas about the removal of dead nodes.
-/
namespace Verif.Ir
open Verif Verif.IrSpec Verif.Dfs

/-- The graph with marks. -/
def marked (g : Graph) (v : Int) (s : List Nat) : Graph :=
  { g with node := fun n => if n ∈ s then { g.node n with visited := v } else g.node n }

theorem marked_node (g : Graph) (v : Int) (s : List Nat) (n : Nat) :
    (marked g v s).node n = { g.node n with visited := if n ∈ s then v else (g.node n).visited } := by
  show (if n ∈ s then _ else _) = _
  split <;> rfl

theorem marked_nil (g : Graph) (v : Int) : marked g v [] = g := by
  unfold marked
  simp

theorem mark_marked (g : Graph) (v : Int) (s : List Nat) (c : Nat) : mark (marked g v s) c v = marked g v (c :: s) := by
  unfold mark Graph.upd
  show Graph.mk _ _ _ _ _ _ _ = Graph.mk _ _ _ _ _ _ _
  congr 1
  funext m
  rw [marked_node, marked_node]
  by_cases e : m = c
  · subst e
    simp
  · rw [if_neg e]
    by_cases h : m ∈ s
    · simp [h]
    · simp [h, e]

theorem isControl_marked (g : Graph) (v : Int) (s : List Nat) (u : Nat) : isControl (marked g v s) u = isControl g u := by
  unfold isControl
  rw [marked_node]
  dsimp only
  cases (g.node u).kind <;> try rfl
  dsimp only
  cases (g.node u).args 0 with
  | none => rfl
  | some f => dsimp only; rw [marked_node]

theorem live_marked (g : Graph) (v : Int) (s : List Nat) (u : Nat) : ((marked g v s).node u).live = (g.node u).live := by
  rw [marked_node]; rfl

theorem operands_marked (g : Graph) (v : Int) (s : List Nat) (u : Nat) : operands (marked g v s) u = operands g u := by
  unfold operands
  rw [marked_node]

/-- A loop over nodes that does what a search from some nodes does. -/
theorem forEach_search {σ : Type} {emb : List Nat × List Nat → σ} {succ : Nat → List Nat} {fuel : Nat} {f : σ → Nat → Run σ} {tg : Nat → List Nat} :
    ∀ {xs : List Nat} {s t : List Nat × List Nat},
    (∀ x ∈ xs, ∀ s t, (tg x).foldlM (dfs succ fuel) s = some t → f (emb s) x = .ok (emb t)) →
    (xs.flatMap tg).foldlM (dfs succ fuel) s = some t → forEach f (emb s) xs = .ok (emb t) := by
  intro xs
  induction xs with
  | nil =>
    intro s t _ h
    cases h
    rfl
  | cons x xs ih =>
    intro s t hf h
    rw [List.flatMap_cons, List.foldlM_append] at h
    cases h1 : (tg x).foldlM (dfs succ fuel) s with
    | none => rw [h1] at h; cases h
    | some s' =>
      rw [h1] at h
      have h : (xs.flatMap tg).foldlM (dfs succ fuel) s' = some t := h
      rw [forEach, hf x (by simp) s s' h1, Run.bind_ok]
      exact ih (fun y hy => hf y (by simp [hy])) h

theorem forEach_dfs {g : Graph} {v : Int} {succ : Nat → List Nat} {fuel : Nat} {f : Graph → Nat → Run Graph} {tg : Nat → List Nat}
    {xs : List Nat} {s t : List Nat × List Nat}
    (h : ∀ x ∈ xs, ∀ s t, (tg x).foldlM (dfs succ fuel) s = some t → f (marked g v s.1) x = .ok (marked g v t.1))
    (h' : (xs.flatMap tg).foldlM (dfs succ fuel) s = some t) : forEach f (marked g v s.1) xs = .ok (marked g v t.1) :=
  forEach_search (emb := fun s => marked g v s.1) h h'

/-! ### Reachable control -/

/-- Where control goes for a user. -/
def targets (g : Graph) (u : Nat) : List Nat :=
  if (g.node u).kind = .ret then [u]
  else if isControl g u = .ok true then [u]
  else if (g.node u).kind = .ifk then ((g.node u).projects 0).toList ++ ((g.node u).projects 1).toList
  else []

/-- Where control goes from a node. -/
def succR (g : Graph) (c : Nat) : List Nat := (g.node c).live.flatMap (targets g)

theorem live_operand {g : Graph} (hg : Inv g) {c u : Nat} : u ∈ (g.node c).live ↔ Operand g u c := by
  constructor
  · intro h
    have hpos : 0 < (g.node c).live.count u := List.count_pos_iff.2 h
    rw [hg.mirror] at hpos
    obtain ⟨j, _, hj⟩ := List.countP_pos_iff.1 hpos
    exact ⟨j, by simpa using hj⟩
  · rintro ⟨j, hj⟩
    have : 0 < (g.node c).live.count u := by
      rw [hg.mirror]
      exact List.countP_pos_iff.2 ⟨j, List.mem_range.2 (hg.closed _ _ _ hj).1, by simp [hj]⟩
    exact List.count_pos_iff.1 this

theorem isControl_ok {g : Graph} (hd : Done g) (u : Nat) : ∃ c, isControl g u = .ok c := by
  unfold isControl
  cases hk : (g.node u).kind <;> try exact ⟨_, rfl⟩
  dsimp only
  cases ha : (g.node u).args 0 with
  | none => exact absurd ha (hd.operand u hk)
  | some f => exact ⟨_, rfl⟩

theorem markUse_dfs {g : Graph} (hd : Done g) (hp : Projections g) {fuel : Nat}
    (ih : ∀ s t c, dfs (succR g) fuel s c = some t → markReachable fuel (marked g (-1) s.1) c = .ok (marked g (-1) t.1)) {u : Nat} (hu : u < g.size)
    (s t : List Nat × List Nat) (h : (targets g u).foldlM (dfs (succR g) fuel) s = some t) :
    markUse (markReachable fuel) (marked g (-1) s.1) u = .ok (marked g (-1) t.1) := by
  obtain ⟨c, hc⟩ := isControl_ok hd u
  have one : ∀ s t : List Nat × List Nat, ∀ x, [x].foldlM (dfs (succR g) fuel) s = some t → dfs (succR g) fuel s x = some t := by
    intro s t x h
    rw [List.foldlM_cons] at h
    cases h1 : dfs (succR g) fuel s x with
    | none => rw [h1] at h; cases h
    | some s' => rw [h1] at h; exact h
  unfold markUse
  have hkm : ((marked g (-1) s.1).node u).kind = (g.node u).kind := by rw [marked_node]
  rw [hkm, isControl_marked, hc]
  unfold targets at h
  rw [hc] at h
  by_cases hr : (g.node u).kind = .ret
  · rw [if_pos hr] at h ⊢
    exact ih s t u (one s t u h)
  · rw [if_neg hr] at h ⊢
    simp only [Run.ofRes_ok, Run.bind_ok]
    cases c with
    | true =>
      rw [if_pos rfl] at h ⊢
      exact ih s t u (one s t u h)
    | false =>
      rw [if_neg (by simp)] at h
      rw [if_neg (by simp)]
      by_cases hi : (g.node u).kind = .ifk
      · rw [if_pos hi] at h ⊢
        obtain ⟨p, q, h0, h1, -⟩ := hp.branch u hu hi
        have e0 : ((marked g (-1) s.1).node u).projects 0 = some p := by rw [marked_node]; exact h0
        rw [e0]
        dsimp only
        rw [h0, h1] at h
        simp only [Option.toList_some] at h
        rw [List.foldlM_append] at h
        cases h2 : [p].foldlM (dfs (succR g) fuel) s with
        | none => rw [h2] at h; cases h
        | some s' =>
          rw [h2] at h
          rw [ih s s' p (one _ _ _ h2), Run.bind_ok]
          have e1 : ((marked g (-1) s'.1).node u).projects 1 = some q := by rw [marked_node]; exact h1
          rw [e1]
          exact ih s' t q (one _ _ _ h)
      · rw [if_neg hi] at h ⊢
        cases h
        rfl

theorem markReachable_dfs {g : Graph} (hg : Inv g) (hd : Done g) (hp : Projections g) (hv : ∀ n, (g.node n).visited ≠ -1) : ∀ fuel s t c,
    dfs (succR g) fuel s c = some t → markReachable fuel (marked g (-1) s.1) c = .ok (marked g (-1) t.1) := by
  intro fuel
  induction fuel with
  | zero => intro s t c h; cases h
  | succ fuel ih =>
    intro s t c h
    rw [dfs] at h
    rw [markReachable]
    have hvis : ((marked g (-1) s.1).node c).visited = if c ∈ s.1 then -1 else (g.node c).visited := by rw [marked_node]
    by_cases hc : c ∈ s.1
    · rw [if_pos hc] at h
      cases h
      rw [if_pos (by rw [hvis, if_pos hc])]
    · rw [if_neg hc] at h
      rw [if_neg (by rw [hvis, if_neg hc]; exact hv c)]
      dsimp only
      rw [mark_marked, live_marked]
      cases h1 : (succR g c).foldlM (dfs (succR g) fuel) (c :: s.1, s.2) with
      | none => rw [h1] at h; cases h
      | some t' =>
        rw [h1] at h
        cases h
        have := forEach_dfs (g := g) (v := -1) (fuel := fuel) (f := markUse (markReachable fuel)) (tg := targets g) (s := (c :: s.1, s.2)) (t := t')
          (xs := (g.node c).live) (fun u hu s t h => markUse_dfs hd hp ih (by
            obtain ⟨j, hj⟩ := (live_operand hg).1 hu
            exact (hg.closed _ _ _ hj).2.1) s t h) h1
        exact this

/-- The nodes where control starts. -/
def entries (g : Graph) (n : Nat) : List Nat := if (g.node n).kind = .function then ((g.node n).projects 0).toList else []

theorem targets_lt {g : Graph} (hg : Inv g) (hp : Projections g) {u : Nat} (hu : u < g.size) : ∀ x ∈ targets g u, x < g.size := by
  intro x hx
  unfold targets at hx
  split at hx
  · simp only [List.mem_singleton] at hx; omega
  · split at hx
    · simp only [List.mem_singleton] at hx; omega
    · split at hx
      · rename_i hi
        obtain ⟨p, q, h0, h1, hpq⟩ := hp.branch u hu hi
        rw [h0, h1] at hx
        simp only [Option.toList_some, List.cons_append, List.nil_append, List.mem_cons, List.not_mem_nil, or_false] at hx
        exact (hg.closed _ _ _ ((hpq x).2 hx).2).2.1
      · cases hx

theorem succR_lt {g : Graph} (hg : Inv g) (hp : Projections g) : ∀ x < g.size, ∀ y ∈ succR g x, y < g.size := by
  intro x _ y hy
  obtain ⟨u, hu, hy⟩ := List.mem_flatMap.1 hy
  obtain ⟨j, hj⟩ := (live_operand hg).1 hu
  exact targets_lt hg hp (hg.closed _ _ _ hj).2.1 y hy

theorem adds_visited {succ : Nat → List Nat} {cs : List Nat} {t : List Nat × List Nat} {q : List Nat} (h : Adds succ cs ([], []) t q) :
    ∀ x, x ∈ t.1 ↔ ∃ c ∈ cs, Path succ c x := by
  intro x
  constructor
  · intro hx
    rcases (h.visited x).1 hx with h' | h'
    · cases h'
    · exact h.reach x h'
  · rintro ⟨c, hc, hp⟩
    induction hp with
    | refl => exact h.starts c hc
    | step _ hy ih =>
      rcases (h.visited _).1 ih with h' | h'
      · cases h'
      · exact h.closed _ h' _ hy

/-- Reached: a reachable block or a return at the end of one. -/
def Reached (g : Graph) (n : Nat) : Prop := Reachable g n ∨ ((g.node n).kind = .ret ∧ ∃ c, Reachable g c ∧ Operand g n c)

theorem reachable_kind {g : Graph} {n : Nat} (h : Reachable g n) : (g.node n).kind = .project ∨ (g.node n).kind = .region := by
  cases h with
  | entry _ _ hp _ => exact .inl hp.1
  | join _ hk _ => exact .inr hk
  | branch _ _ _ hp => exact .inl hp.1

theorem entry_mem {g : Graph} (hp : Projections g) {x : Nat} : x ∈ (List.range g.size).flatMap (entries g) ↔
    ∃ f < g.size, (g.node f).kind = .function ∧ IsProjection g x f ∧ (g.node x).projIdx = 0 := by
  rw [List.mem_flatMap]
  constructor
  · rintro ⟨f, hf, hx⟩
    have hf := List.mem_range.1 hf
    unfold entries at hx
    split at hx
    · rename_i hk
      obtain ⟨p, h0, hpu⟩ := hp.entry f hf hk
      rw [h0] at hx
      simp only [Option.toList_some, List.mem_singleton] at hx
      have := (hpu x).2 hx
      exact ⟨f, hf, hk, this.1, this.2⟩
    · cases hx
  · rintro ⟨f, hf, hk, h1, h2⟩
    refine ⟨f, List.mem_range.2 hf, ?_⟩
    obtain ⟨p, h0, hpu⟩ := hp.entry f hf hk
    unfold entries
    rw [if_pos hk, h0, (hpu x).1 ⟨h1, h2⟩]
    simp

theorem succR_reached {g : Graph} (hg : Inv g) (hp : Projections g) {c x : Nat} (h : Reached g c) (hx : x ∈ succR g c)
    (hret : ∀ r, (g.node r).kind = .ret → (g.node r).live = []) : Reached g x := by
  obtain ⟨u, hu, hx⟩ := List.mem_flatMap.1 hx
  rcases h with h | ⟨h, -⟩
  · have ho := (live_operand hg).1 hu
    unfold targets at hx
    split at hx
    · rename_i hk
      simp only [List.mem_singleton] at hx
      subst hx
      exact .inr ⟨hk, c, h, ho⟩
    · split at hx
      · rename_i hc
        simp only [List.mem_singleton] at hx
        subst hx
        unfold isControl at hc
        cases hk : (g.node x).kind <;> rw [hk] at hc <;> try cases hc
        · exact .inl (.join h hk ho)
        · -- a projection of a control node
          obtain ⟨j, hj⟩ := ho
          have hj0 : j = 0 := Decidable.byContradiction fun hne => by
            rw [hp.single x hk j hne] at hj
            cases hj
          subst hj0
          rw [hj] at hc
          simp only [Res.ok.injEq, decide_eq_true_eq] at hc
          rcases reachable_kind h with hk' | hk' <;> rw [hk'] at hc <;> simp at hc
      · split at hx
        · rename_i hi
          obtain ⟨j, hj⟩ := ho
          obtain ⟨p, q, h0, h1, hpq⟩ := hp.branch u (hg.closed _ _ _ hj).2.1 hi
          rw [h0, h1] at hx
          simp only [Option.toList_some, List.cons_append, List.nil_append, List.mem_cons, List.not_mem_nil, or_false] at hx
          exact .inl (.branch h hi ⟨j, hj⟩ ((hpq x).2 hx))
        · cases hx
  · rw [hret c h] at hu
    cases hu

theorem reached_path {g : Graph} (hg : Inv g) (hp : Projections g) (hret : ∀ r, (g.node r).kind = .ret → (g.node r).live = []) {x : Nat} :
    (∃ c ∈ (List.range g.size).flatMap (entries g), Path (succR g) c x) ↔ Reached g x := by
  constructor
  · rintro ⟨c, hc, h⟩
    induction h with
    | refl =>
      obtain ⟨f, hf, hk, h1, h2⟩ := (entry_mem hp).1 hc
      exact .inl (.entry hf hk h1 h2)
    | step _ hy ih => exact succR_reached hg hp ih hy hret
  · have key : ∀ x, Reachable g x → ∃ c ∈ (List.range g.size).flatMap (entries g), Path (succR g) c x := by
      intro x h
      induction h with
      | entry hf hk h1 h2 => exact ⟨_, (entry_mem hp).2 ⟨_, hf, hk, h1, h2⟩, .refl _⟩
      | @join c u h hk ho ih =>
        obtain ⟨e, he, hpath⟩ := ih
        refine ⟨e, he, .step hpath ?_⟩
        refine List.mem_flatMap.2 ⟨u, (live_operand hg).2 ho, ?_⟩
        unfold targets
        rw [if_neg (by rw [hk]; simp), if_pos (by unfold isControl; rw [hk])]
        simp
      | @branch c i p h hk ho hpr ih =>
        obtain ⟨e, he, hpath⟩ := ih
        refine ⟨e, he, .step hpath ?_⟩
        refine List.mem_flatMap.2 ⟨i, (live_operand hg).2 ho, ?_⟩
        obtain ⟨j, hj⟩ := ho
        obtain ⟨p', q', h0, h1, hpq⟩ := hp.branch i (hg.closed _ _ _ hj).2.1 hk
        unfold targets
        rw [if_neg (by rw [hk]; simp), if_neg (by unfold isControl; rw [hk]; simp), if_pos hk, h0, h1]
        simpa using (hpq p).1 hpr
    rintro (h | ⟨hk, c, h, ho⟩)
    · exact key x h
    · obtain ⟨e, he, hpath⟩ := key c h
      refine ⟨e, he, .step hpath ?_⟩
      refine List.mem_flatMap.2 ⟨x, (live_operand hg).2 ho, ?_⟩
      unfold targets
      rw [if_pos hk]
      simp

theorem phase1 {g : Graph} (hg : Inv g) (hd : Done g) (hp : Projections g) (hv : ∀ n, (g.node n).visited ≠ -1)
    (hret : ∀ r, (g.node r).kind = .ret → (g.node r).live = []) {fuel : Nat} (hf : g.size < fuel) :
    ∃ s, forEach (markFunction fuel) g (List.range g.size) = .ok (marked g (-1) s) ∧ ∀ x, x ∈ s ↔ Reached g x := by
  have hlt : ∀ c ∈ (List.range g.size).flatMap (entries g), c < g.size := by
    intro c hc
    obtain ⟨f, hf, hk, h1, h2⟩ := (entry_mem hp).1 hc
    exact (hg.closed _ _ _ h1.2).2.1
  obtain ⟨t, q, e, h⟩ := foldlM_adds (fuel := fuel) (n := g.size) (succ := succR g)
    (fun h1 h2 => dfs_adds (succR_lt hg hp) h1 h2) (s := ([], [])) hlt (by
      have := unvisited_le g.size []
      dsimp only
      omega)
  refine ⟨t.1, ?_, fun x => by rw [adds_visited h, reached_path hg hp hret]⟩
  have := forEach_dfs (g := g) (v := -1) (fuel := fuel) (f := markFunction fuel) (tg := entries g) (s := ([], [])) (t := t)
    (xs := List.range g.size) (by
      intro x hx s t h
      unfold entries at h
      unfold markFunction
      have hk : ((marked g (-1) s.1).node x).kind = (g.node x).kind := by rw [marked_node]
      have hpj : ((marked g (-1) s.1).node x).projects = (g.node x).projects := by rw [marked_node]
      rw [hk, hpj]
      split at h
      · rename_i hkf
        rw [if_pos hkf]
        obtain ⟨p, h0, -⟩ := hp.entry x (List.mem_range.1 hx) hkf
        rw [h0] at h ⊢
        dsimp only
        simp only [Option.toList_some, List.foldlM_cons] at h
        cases h1 : dfs (succR g) fuel s p with
        | none => rw [h1] at h; cases h
        | some s' =>
          rw [h1] at h
          cases h
          exact markReachable_dfs hg hd hp hv fuel s _ p h1
      · rename_i hkf
        rw [if_neg hkf]
        cases h
        rfl) e
  dsimp only at this
  rw [marked_nil] at this
  exact this

/-! ### Useful nodes -/

theorem markUseful_dfs {g : Graph} (hv : ∀ n, (g.node n).visited ≠ -2) : ∀ fuel s t c,
    dfs (operands g) fuel s c = some t → markUseful fuel (marked g (-2) s.1) c = .ok (marked g (-2) t.1) := by
  intro fuel
  induction fuel with
  | zero => intro s t c h; cases h
  | succ fuel ih =>
    intro s t c h
    rw [dfs] at h
    rw [markUseful]
    have hvis : ((marked g (-2) s.1).node c).visited = if c ∈ s.1 then -2 else (g.node c).visited := by rw [marked_node]
    by_cases hc : c ∈ s.1
    · rw [if_pos hc] at h
      cases h
      rw [if_pos (by rw [hvis, if_pos hc])]
    · rw [if_neg hc] at h
      rw [if_neg (by rw [hvis, if_neg hc]; exact hv c)]
      dsimp only
      rw [mark_marked, operands_marked]
      cases h1 : (operands g c).foldlM (dfs (operands g) fuel) (c :: s.1, s.2) with
      | none => rw [h1] at h; cases h
      | some t' =>
        rw [h1] at h
        cases h
        have := forEach_dfs (g := g) (v := -2) (fuel := fuel) (f := markUseful fuel) (tg := fun x => [x]) (s := (c :: s.1, s.2)) (t := t')
          (succ := operands g) (xs := operands g c) (by
            intro x _ s t h
            simp only [List.foldlM_cons] at h
            cases h1 : dfs (operands g) fuel s x with
            | none => rw [h1] at h; cases h
            | some s' =>
              rw [h1] at h
              cases h
              exact ih s _ x h1) (by simpa using h1)
        exact this

theorem operands_mem {g : Graph} (hg : Inv g) {u n : Nat} : n ∈ operands g u ↔ Operand g u n := by
  unfold operands
  rw [List.mem_filterMap]
  constructor
  · rintro ⟨i, -, h⟩
    exact ⟨i, h⟩
  · rintro ⟨i, h⟩
    exact ⟨i, List.mem_range.2 (hg.closed _ _ _ h).1, h⟩

/-- The nodes from which useful nodes are searched. -/
def rootsOf (g : Graph) (s : List Nat) (x : Nat) : List Nat := if x ∈ s ∧ ((g.node x).kind = .ret ∨ (g.node x).kind = .region) then [x] else []

theorem reached_lt {g : Graph} (hg : Inv g) {x : Nat} (h : Reached g x) : x < g.size := by
  rcases h with h | ⟨-, c, -, j, hj⟩
  · cases h with
    | entry _ _ hp _ => exact (hg.closed _ _ _ hp.2).2.1
    | join _ _ ho =>
      obtain ⟨j, hj⟩ := ho
      exact (hg.closed _ _ _ hj).2.1
    | branch _ _ _ hp => exact (hg.closed _ _ _ hp.2).2.1
  · exact (hg.closed _ _ _ hj).2.1

theorem useful_path {g : Graph} (hg : Inv g) {s : List Nat} (hs : ∀ x, x ∈ s ↔ Reached g x) {x : Nat} :
    (∃ c ∈ (List.range g.size).flatMap (rootsOf g s), Path (operands g) c x) ↔ Useful g x := by
  have hroot : ∀ c, c ∈ (List.range g.size).flatMap (rootsOf g s) ↔ Reached g c ∧ ((g.node c).kind = .ret ∨ (g.node c).kind = .region) := by
    intro c
    rw [List.mem_flatMap]
    constructor
    · rintro ⟨y, -, hy⟩
      unfold rootsOf at hy
      split at hy
      · rename_i h
        simp only [List.mem_singleton] at hy
        subst hy
        exact ⟨(hs c).1 h.1, h.2⟩
      · cases hy
    · rintro ⟨h1, h2⟩
      refine ⟨c, List.mem_range.2 (reached_lt hg h1), ?_⟩
      unfold rootsOf
      rw [if_pos ⟨(hs c).2 h1, h2⟩]
      simp
  constructor
  · rintro ⟨c, hc, h⟩
    induction h with
    | refl =>
      obtain ⟨h1, h2⟩ := (hroot c).1 hc
      rcases h1 with h1 | ⟨h1, d, h3, h4⟩
      · rcases h2 with h2 | h2
        · rcases reachable_kind h1 with h | h <;> rw [h] at h2 <;> cases h2
        · exact .region h1 h2
      · exact .ret h3 h1 h4
    | step _ hy ih => exact .operand ih ((operands_mem hg).1 hy)
  · intro h
    induction h with
    | ret h1 h2 h3 => exact ⟨_, (hroot _).2 ⟨.inr ⟨h2, _, h1, h3⟩, .inl h2⟩, .refl _⟩
    | region h1 h2 => exact ⟨_, (hroot _).2 ⟨.inl h1, .inr h2⟩, .refl _⟩
    | operand _ ho ih =>
      obtain ⟨c, hc, hp⟩ := ih
      exact ⟨c, hc, .step hp ((operands_mem hg).2 ho)⟩

theorem phase2 {g : Graph} (hg : Inv g) (hv : ∀ n, (g.node n).visited ≠ -1 ∧ (g.node n).visited ≠ -2) {s : List Nat} (hs : ∀ x, x ∈ s ↔ Reached g x)
    {fuel : Nat} (hf : g.size < fuel) :
    ∃ u, forEach (markRoot fuel) (marked g (-1) s) (List.range g.size) = .ok (marked (marked g (-1) s) (-2) u) ∧ ∀ x, x ∈ u ↔ Useful g x := by
  have hlt : ∀ c ∈ (List.range g.size).flatMap (rootsOf g s), c < g.size := by
    intro c hc
    obtain ⟨y, hy, hc⟩ := List.mem_flatMap.1 hc
    unfold rootsOf at hc
    split at hc
    · simp only [List.mem_singleton] at hc
      rw [hc]
      exact List.mem_range.1 hy
    · cases hc
  have hol : ∀ x < g.size, ∀ y ∈ operands g x, y < g.size := by
    intro x _ y hy
    obtain ⟨i, hi⟩ := (operands_mem hg).1 hy
    exact (hg.closed _ _ _ hi).2.2
  obtain ⟨t, q, e, h⟩ := foldlM_adds (fuel := fuel) (n := g.size) (succ := operands g)
    (fun h1 h2 => dfs_adds hol h1 h2) (s := ([], [])) hlt (by
      have := unvisited_le g.size []
      dsimp only
      omega)
  have hop : operands (marked g (-1) s) = operands g := funext fun x => operands_marked g (-1) s x
  have hv2 : ∀ n, ((marked g (-1) s).node n).visited ≠ -2 := by
    intro n
    rw [marked_node]
    dsimp only
    split
    · decide
    · exact (hv n).2
  refine ⟨t.1, ?_, fun x => by rw [adds_visited h, useful_path hg hs]⟩
  have := forEach_dfs (g := marked g (-1) s) (v := -2) (fuel := fuel) (f := markRoot fuel) (tg := rootsOf g s) (s := ([], [])) (t := t)
    (succ := operands g) (xs := List.range g.size) (by
      intro x hx w t h
      unfold markRoot
      have hk : ((marked (marked g (-1) s) (-2) w.1).node x).kind = (g.node x).kind := by rw [marked_node, marked_node]
      have hvis : ((marked (marked g (-1) s) (-2) w.1).node x).visited = if x ∈ w.1 then -2 else if x ∈ s then -1 else (g.node x).visited := by
        rw [marked_node, marked_node]
      rw [hk]
      have skip : (w = t) → .ok (marked (marked g (-1) s) (-2) w.1) = Run.ok (marked (marked g (-1) s) (-2) t.1) := by
        intro e; rw [e]
      by_cases hxs : x ∈ s
      · by_cases hr : (g.node x).kind = .ret ∨ (g.node x).kind = .region
        · unfold rootsOf at h
          rw [if_pos ⟨hxs, hr⟩] at h
          simp only [List.foldlM_cons] at h
          cases h1 : dfs (operands g) fuel w x with
          | none => rw [h1] at h; cases h
          | some w' =>
            rw [h1] at h
            cases h
            by_cases hxw : x ∈ w.1
            · rw [if_pos (by rw [hvis, if_pos hxw]; decide)]
              cases fuel with
              | zero => cases h1
              | succ f =>
                rw [dfs, if_pos hxw] at h1
                exact skip (Option.some.inj h1)
            · rw [if_neg (by rw [hvis, if_neg hxw, if_pos hxs]; decide)]
              have := markUseful_dfs hv2 fuel w _ x (by rw [hop]; exact h1)
              rcases hr with hr | hr
              · rw [if_pos hr]
                exact this
              · rw [if_neg (by rw [hr]; simp), if_pos hr]
                exact this
        · unfold rootsOf at h
          rw [if_neg (fun hc => hr hc.2)] at h
          have e := skip (Option.some.inj h)
          split
          · exact e
          · rw [if_neg (fun hc => hr (.inl hc)), if_neg (fun hc => hr (.inr hc))]
            exact e
      · unfold rootsOf at h
        rw [if_neg (fun hc => hxs hc.1)] at h
        have e := skip (Option.some.inj h)
        rw [if_pos]
        · exact e
        · rw [hvis]
          split
          · decide
          · exact (hv x).1) e
  dsimp only at this
  rw [marked_nil] at this
  exact this

/-! ### Removal -/

theorem clearArgs_done {fuel n : Nat} : ∀ {k j : Nat} {g : Graph}, Inv g → Done g → (g.node n).kind ≠ .project → n < g.size → j + k = 4 →
    ∃ h, clearArgs fuel g n j k = .ok h ∧ Maps (fun m i => if m = n ∧ j ≤ i then none else (g.node m).args i) g h := by
  intro k
  induction k with
  | zero =>
    intro j g hg hd hk hn hj
    refine ⟨g, rfl, hg, hd, rfl, fun _ => rfl, fun _ => rfl, ?_, fun _ => Nat.le_refl _⟩
    intro m i
    split
    · rename_i e
      cases ha : (g.node m).args i with
      | none => rfl
      | some a =>
        have := (hg.closed m i a ha).1
        omega
    · rfl
  | succ k ih =>
    intro j g hg hd hk hn hj
    rw [clearArgs]
    by_cases ha : (g.node n).args j ≠ none
    · rw [if_pos ha]
      obtain ⟨g', e, hm, -⟩ := setArg_any (fuel := fuel) (a := none) hg hd hn (by omega : j < 4) (by simp) (fun h => absurd h hk) ha
      rw [e, Run.bind_ok]
      obtain ⟨h, e', hm'⟩ := ih hm.inv hm.done (by rw [hm.kind]; exact hk) (by rw [hm.size]; exact hn) (by omega : j + 1 + k = 4)
      refine ⟨h, e', hm'.inv, hm'.done, by rw [hm'.size, hm.size], fun m => by rw [hm'.kind, hm.kind], fun m => by rw [hm'.visited, hm.visited], ?_,
        fun m => Nat.le_trans (hm.grows m) (hm'.grows m)⟩
      intro m i
      rw [hm'.args, hm.args]
      by_cases h1 : m = n ∧ j + 1 ≤ i
      · rw [if_pos h1, if_pos ⟨h1.1, by omega⟩]
      · rw [if_neg h1]
        by_cases h2 : m = n ∧ i = j
        · rw [if_pos h2, if_pos ⟨h2.1, by omega⟩]
        · rw [if_neg h2, if_neg (by omega)]
    · rw [if_neg ha]
      obtain ⟨h, e', hm'⟩ := ih hg hd hk hn (by omega : j + 1 + k = 4)
      refine ⟨h, e', hm'.inv, hm'.done, hm'.size, hm'.kind, hm'.visited, ?_, hm'.grows⟩
      intro m i
      rw [hm'.args]
      by_cases h1 : m = n ∧ j + 1 ≤ i
      · rw [if_pos h1, if_pos ⟨h1.1, by omega⟩]
      · rw [if_neg h1]
        by_cases h2 : m = n ∧ j ≤ i
        · have : i = j := by omega
          rw [if_pos h2, h2.1, this]
          exact Decidable.byContradiction ha
        · rw [if_neg h2]

/-- A node that is removed. -/
def Dies (g : Graph) (n : Nat) : Prop := (g.node n).visited ≠ -2 ∧ (g.node n).kind ≠ .project

instance (g : Graph) (n : Nat) : Decidable (Dies g n) := by unfold Dies; infer_instance

/-- The graph after the nodes `k` are seen. -/
structure Killed (g : Graph) (k : List Nat) (h : Graph) : Prop where
  inv : Inv h
  done : Done h
  size : h.size = g.size
  visited : ∀ m, (h.node m).visited = (g.node m).visited
  kind : ∀ m, (h.node m).kind = if m ∈ k ∧ Dies g m then .dead else (g.node m).kind
  args : ∀ m i, (h.node m).args i = if m ∈ k ∧ Dies g m then none else (g.node m).args i

theorem killNode_killed {fuel : Nat} {g h : Graph} {k : List Nat} {n : Nat} (hk : Killed g k h) (hn : n < g.size) :
    ∃ h', killNode fuel h n = .ok h' ∧ Killed g (n :: k) h' := by
  unfold killNode
  rw [hk.visited]
  by_cases hd : Dies g n
  · have hkn : (h.node n).kind ≠ .project := by
      rw [hk.kind]
      split
      · simp
      · exact hd.2
    rw [if_pos ⟨hd.1, hkn⟩]
    obtain ⟨h1, e, hm⟩ := clearArgs_done (fuel := fuel) (j := 0) (k := 4) hk.inv hk.done hkn (by rw [hk.size]; exact hn) rfl
    rw [e, Run.bind_ok]
    have hnode : ∀ m, (h1.upd n fun q => { q with kind := .dead }).node m = { h1.node m with kind := if m = n then .dead else (h1.node m).kind } := by
      intro m
      rw [upd_node]
      split
      · rename_i e; subst e; rfl
      · rfl
    refine ⟨_, rfl, inv_same hm.inv (same_upd fun q => ⟨rfl, rfl, rfl⟩), ⟨?_, ?_, ?_⟩, by rw [← hk.size, ← hm.size]; rfl, ?_, ?_, ?_⟩
    · intro m
      rw [hnode]
      dsimp only
      split
      · intro h; cases h
      · exact hm.done.isSealed m
    · intro m
      rw [hnode]
      dsimp only
      split
      · intro h; cases h
      · exact hm.done.operand m
    · intro m
      rw [hnode]
      dsimp only
      split
      · intro h; cases h
      · exact hm.done.index m
    · intro m
      rw [hnode]
      dsimp only
      rw [hm.visited, hk.visited]
    · intro m
      rw [hnode]
      dsimp only
      by_cases e : m = n
      · subst e
        simp [hd]
      · rw [if_neg e, hm.kind, hk.kind]
        simp [e]
    · intro m i
      rw [hnode]
      dsimp only
      rw [hm.args, hk.args]
      by_cases e : m = n
      · subst e
        simp [hd]
      · simp [e]
  · have hcond : ¬((g.node n).visited ≠ -2 ∧ (h.node n).kind ≠ .project) := by
      rw [hk.kind, if_neg (fun hc => hd hc.2)]
      exact hd
    rw [if_neg hcond]
    refine ⟨h, rfl, hk.inv, hk.done, hk.size, hk.visited, ?_, ?_⟩
    · intro m
      rw [hk.kind]
      by_cases e : m = n
      · subst e; simp [hd]
      · simp [e]
    · intro m i
      rw [hk.args]
      by_cases e : m = n
      · subst e; simp [hd]
      · simp [e]

theorem phase3 {fuel : Nat} {g : Graph} : ∀ {xs k : List Nat} {h : Graph}, Killed g k h → (∀ x ∈ xs, x < g.size) →
    ∃ h', forEach (killNode fuel) h xs = .ok h' ∧ Killed g (xs.reverse ++ k) h' := by
  intro xs
  induction xs with
  | nil => intro k h hk _; exact ⟨h, rfl, hk⟩
  | cons x xs ih =>
    intro k h hk hx
    obtain ⟨h1, e1, hk1⟩ := killNode_killed (fuel := fuel) hk (hx x (by simp))
    obtain ⟨h2, e2, hk2⟩ := ih hk1 (fun y hy => hx y (by simp [hy]))
    refine ⟨h2, by rw [forEach, e1, Run.bind_ok, e2], ?_⟩
    simpa using hk2

theorem removeDead_result {g : Graph} (hg : Inv g) (hd : Done g) (hp : Projections g)
    (hv : ∀ n, (g.node n).visited ≠ -1 ∧ (g.node n).visited ≠ -2) (hret : ∀ r, (g.node r).kind = .ret → (g.node r).live = [])
    {fuel : Nat} (hf : g.size < fuel) :
    ∃ (h : Graph) (u : List Nat), removeDead fuel g = .ok h ∧ (∀ x, x ∈ u ↔ Useful g x) ∧ Inv h ∧ Done h ∧ h.size = g.size ∧
      (∀ m, (h.node m).kind = if m < g.size ∧ m ∉ u ∧ (g.node m).kind ≠ .project then .dead else (g.node m).kind) ∧
      (∀ m i, (h.node m).args i = if m < g.size ∧ m ∉ u ∧ (g.node m).kind ≠ .project then none else (g.node m).args i) := by
  obtain ⟨s, e1, hs⟩ := phase1 hg hd hp (fun n => (hv n).1) hret hf
  obtain ⟨u, e2, hu⟩ := phase2 hg hv hs hf
  have hnode : ∀ m, (marked (marked g (-1) s) (-2) u).node m = { g.node m with visited := if m ∈ u then -2 else if m ∈ s then -1 else (g.node m).visited } := by
    intro m
    rw [marked_node, marked_node]
  have hg2 : Inv (marked (marked g (-1) s) (-2) u) := by
    refine inv_same hg ⟨rfl, ?_⟩
    intro m
    rw [hnode]
    exact ⟨rfl, rfl, rfl⟩
  have hd2 : Done (marked (marked g (-1) s) (-2) u) := by
    refine ⟨?_, ?_, ?_⟩ <;> intro m <;> rw [hnode]
    · exact hd.isSealed m
    · exact hd.operand m
    · exact hd.index m
  have h0 : Killed (marked (marked g (-1) s) (-2) u) [] (marked (marked g (-1) s) (-2) u) :=
    ⟨hg2, hd2, rfl, fun _ => rfl, by simp, by simp⟩
  obtain ⟨h, e3, hk⟩ := phase3 (fuel := fuel) h0 (xs := List.range g.size) (fun x hx => List.mem_range.1 hx)
  have hdies : ∀ m, (m ∈ (List.range g.size).reverse ++ [] ∧ Dies (marked (marked g (-1) s) (-2) u) m) ↔
      (m < g.size ∧ m ∉ u ∧ (g.node m).kind ≠ .project) := by
    intro m
    unfold Dies
    rw [hnode]
    dsimp only
    rw [List.append_nil, List.mem_reverse, List.mem_range]
    have : (if m ∈ u then (-2 : Int) else if m ∈ s then -1 else (g.node m).visited) ≠ -2 ↔ m ∉ u := by
      split
      · rename_i h; simp [h]
      · rename_i h
        simp only [h, not_false_iff, iff_true]
        split
        · decide
        · exact (hv m).2
    rw [this]
  refine ⟨h, u, ?_, hu, hk.inv, hk.done, hk.size, ?_, ?_⟩
  · unfold removeDead
    dsimp only
    rw [e1, Run.bind_ok, e2, Run.bind_ok, e3]
  · intro m
    rw [hk.kind, hnode]
    dsimp only
    simp only [hdies m]
  · intro m i
    rw [hk.args, hnode]
    dsimp only
    simp only [hdies m]

end Verif.Ir
