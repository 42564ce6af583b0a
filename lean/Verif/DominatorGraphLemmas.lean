import Verif.DominatorLemmas
import Verif.DominatorSpec
import Verif.RemoveDeadLemmas
/-!
Lemmas about the computation of dominators of graphs.
-/
namespace Verif.Ir
open Verif Verif.IrSpec Verif.Dfs

theorem nodup_length : ∀ {n : Nat} {l : List Nat}, l.Nodup → (∀ x ∈ l, x < n) → l.length ≤ n := by
  intro n
  induction n with
  | zero =>
    intro l _ h
    cases l with
    | nil => exact Nat.le_refl _
    | cons a l => have := h a (by simp); omega
  | succ n ih =>
    intro l hn h
    have := ih (l := l.erase n) (hn.erase n) (by
      intro x hx
      have h1 := h x (List.mem_of_mem_erase hx)
      have h2 : x ≠ n := fun e => by
        rw [e] at hx
        exact (List.Nodup.not_mem_erase hn) hx
      omega)
    rw [List.length_erase] at this
    split at this <;> omega

/-! ### The order -/

/-- Where control goes for a user. -/
def blockTargets (g : Graph) (u : Nat) : List Nat :=
  if isControl g u = .ok true then [u]
  else if (g.node u).kind = .ifk then ((g.node u).projects 0).toList ++ ((g.node u).projects 1).toList
  else []

/-- Where control goes from a block. -/
def succB (g : Graph) (c : Nat) : List Nat := (g.node c).live.flatMap (blockTargets g)

/-- The indices of the blocks of a list. -/
def postOf (base : Nat → Nat) : List Nat → Nat → Nat
  | [] => base
  | x :: l => fun y => if y = x then l.length else postOf base l y

/-- The state of the search. -/
def emb (g : Graph) (base : Nat → Nat) (s : List Nat × List Nat) : Order :=
  { seen := marked g 7 s.1, list := s.2, post := postOf base s.2, idx := s.2.length }

theorem postUse_search {g : Graph} (hd : Done g) {base : Nat → Nat} {fuel : Nat}
    (ih : ∀ s t c, dfs (succB g) fuel s c = some t → postOrder fuel (emb g base s) (some c) = .ok (emb g base t)) {u : Nat}
    (s t : List Nat × List Nat) (h : (blockTargets g u).foldlM (dfs (succB g) fuel) s = some t) :
    postUse (postOrder fuel) (emb g base s) u = .ok (emb g base t) := by
  obtain ⟨c, hc⟩ := isControl_ok hd u
  have opt : ∀ (s t : List Nat × List Nat) (x : Option Nat), x.toList.foldlM (dfs (succB g) fuel) s = some t →
      postOrder fuel (emb g base s) x = .ok (emb g base t) := by
    intro s t x h
    cases x with
    | none =>
      cases h
      cases fuel <;> rfl
    | some x =>
      rw [Option.toList_some, List.foldlM_cons] at h
      cases h1 : dfs (succB g) fuel s x with
      | none => rw [h1] at h; cases h
      | some s' =>
        rw [h1] at h
        cases h
        exact ih s _ x h1
  unfold postUse
  have hk : ((emb g base s).seen.node u).kind = (g.node u).kind := by
    show ((marked g 7 s.1).node u).kind = _
    rw [marked_node]
  have hpj : ((emb g base s).seen.node u).projects = (g.node u).projects := by
    show ((marked g 7 s.1).node u).projects = _
    rw [marked_node]
  have hic : isControl (emb g base s).seen u = .ok c := by
    show isControl (marked g 7 s.1) u = _
    rw [isControl_marked, hc]
  rw [hic, hk, hpj]
  simp only [Run.ofRes_ok, Run.bind_ok]
  unfold blockTargets at h
  rw [hc] at h
  cases c with
  | true =>
    rw [if_pos rfl] at h ⊢
    exact opt s t (some u) h
  | false =>
    rw [if_neg (by simp)] at h
    rw [if_neg (by simp)]
    by_cases hi : (g.node u).kind = .ifk
    · rw [if_pos hi] at h ⊢
      rw [List.foldlM_append] at h
      cases h1 : ((g.node u).projects 0).toList.foldlM (dfs (succB g) fuel) s with
      | none => rw [h1] at h; cases h
      | some s' =>
        rw [h1] at h
        rw [opt s s' _ h1, Run.bind_ok]
        have e : ((emb g base s').seen.node u).projects = (g.node u).projects := by
          show ((marked g 7 s'.1).node u).projects = _
          rw [marked_node]
        rw [e]
        exact opt s' t _ h
    · rw [if_neg hi] at h ⊢
      cases h
      rfl

theorem postOrder_search {g : Graph} (hd : Done g) {base : Nat → Nat} (hv : ∀ n, (g.node n).visited ≠ 7) : ∀ fuel s t c,
    dfs (succB g) fuel s c = some t → postOrder fuel (emb g base s) (some c) = .ok (emb g base t) := by
  intro fuel
  induction fuel with
  | zero => intro s t c h; cases h
  | succ fuel ih =>
    intro s t c h
    rw [dfs] at h
    rw [postOrder]
    have hvis : ((emb g base s).seen.node c).visited = if c ∈ s.1 then 7 else (g.node c).visited := by
      show ((marked g 7 s.1).node c).visited = _
      rw [marked_node]
    by_cases hc : c ∈ s.1
    · rw [if_pos hc] at h
      cases h
      rw [if_pos (by rw [hvis, if_pos hc])]
    · rw [if_neg hc] at h
      rw [if_neg (by rw [hvis, if_neg hc]; exact hv c)]
      cases h1 : (succB g c).foldlM (dfs (succB g) fuel) (c :: s.1, s.2) with
      | none => rw [h1] at h; cases h
      | some t' =>
        rw [h1] at h
        cases h
        have e0 : ({ emb g base s with seen := mark (emb g base s).seen c 7 } : Order) = emb g base (c :: s.1, s.2) := by
          show Order.mk (mark (marked g 7 s.1) c 7) _ _ _ = _
          rw [mark_marked]
          rfl
        have el : ((mark (emb g base s).seen c 7).node c).live = (g.node c).live := by
          show ((mark (marked g 7 s.1) c 7).node c).live = _
          rw [mark_marked, live_marked]
        dsimp only
        rw [el]
        rw [show ({ seen := mark (emb g base s).seen c 7, list := (emb g base s).list, post := (emb g base s).post, idx := (emb g base s).idx } : Order) = _ from e0]
        rw [forEach_search (emb := emb g base) (tg := blockTargets g) (fun u _ s t h => postUse_search hd ih s t h) h1, Run.bind_ok]
        rfl

/-! ### Edges -/

theorem isControl_iff {g : Graph} (hd : Done g) (b : Nat) : isControl g b = .ok true ↔ IsBlock g b := by
  unfold isControl IsBlock
  cases hk : (g.node b).kind with
  | region => simp
  | project =>
    dsimp only
    cases ha : (g.node b).args 0 with
    | none => exact absurd ha (hd.operand b hk)
    | some n =>
      dsimp only
      constructor
      · intro h
        refine .inr ⟨n, ⟨hk, ha⟩, ?_⟩
        simpa using h
      · rintro (h | ⟨m, hm, h⟩)
        · cases h
        · have := hm.2
          rw [ha] at this
          cases this
          simpa using h
  | _ =>
    dsimp only
    constructor
    · intro h; cases h
    · rintro (h | ⟨m, hm, h⟩)
      · cases h
      · rw [hm.1] at hk; cases hk

theorem edge_block {g : Graph} {c b : Nat} (h : Edge g c b) : IsBlock g b := by
  rcases h with ⟨h, -⟩ | ⟨i, h1, h2, -⟩
  · exact .inl h
  · exact .inr ⟨i, h1, .inl h2⟩

theorem edge_lt {g : Graph} (hg : Inv g) {c b : Nat} (h : Edge g c b) : b < g.size := by
  rcases h with ⟨-, j, hj⟩ | ⟨i, h1, -⟩
  · exact (hg.closed _ _ _ hj).2.1
  · exact (hg.closed _ _ _ h1.2).2.1

theorem block_kind {g : Graph} {b : Nat} (h : IsBlock g b) : (g.node b).kind = .region ∨ (g.node b).kind = .project := by
  rcases h with h | ⟨n, h, -⟩
  · exact .inl h
  · exact .inr h.1

theorem succB_edge {g : Graph} (hg : Inv g) (hd : Done g) (hp : Projections g) (hbr : Branches g) {c b : Nat} (hc : IsBlock g c) : b ∈ succB g c ↔ Edge g c b := by
  unfold succB
  rw [List.mem_flatMap]
  constructor
  · rintro ⟨u, hu, hb⟩
    obtain ⟨j, hj⟩ := (live_operand hg).1 hu
    unfold blockTargets at hb
    split at hb
    · rename_i hcu
      simp only [List.mem_singleton] at hb
      subst hb
      rcases (isControl_iff hd b).1 hcu with h | ⟨n, h, h'⟩
      · exact .inl ⟨h, j, hj⟩
      · have hj0 : j = 0 := Decidable.byContradiction fun hne => by
          rw [hp.single b h.1 j hne] at hj
          cases hj
        subst hj0
        rw [h.2] at hj
        cases hj
        rcases block_kind hc with h1 | h1 <;> rcases h' with h2 | ⟨-, h2⟩ <;> rw [h1] at h2 <;> cases h2
    · split at hb
      · rename_i hi
        obtain ⟨p, q, h0, h1, hpq⟩ := hp.branch u (hg.closed _ _ _ hj).2.1 hi
        rw [h0, h1] at hb
        simp only [Option.toList_some, List.cons_append, List.nil_append, List.mem_cons, List.not_mem_nil, or_false] at hb
        have hj0 : j = 0 := Decidable.byContradiction fun hne => (hbr u hi).2 j c hne hj hc
        subst hj0
        exact .inr ⟨u, (hpq b).2 hb, hi, hj⟩
      · cases hb
  · rintro (⟨hk, ho⟩ | ⟨i, h1, h2, h3⟩)
    · refine ⟨b, (live_operand hg).2 ho, ?_⟩
      unfold blockTargets
      rw [if_pos ((isControl_iff hd b).2 (.inl hk))]
      simp
    · refine ⟨i, (live_operand hg).2 ⟨0, h3⟩, ?_⟩
      obtain ⟨p, q, e0, e1, hpq⟩ := hp.branch i (hg.closed _ _ _ h3).2.1 h2
      unfold blockTargets
      rw [if_neg, if_pos h2, e0, e1]
      · simpa using (hpq b).1 h1
      · intro hc'
        rcases block_kind ((isControl_iff hd i).1 hc') with h | h <;> rw [h] at h2 <;> cases h2

theorem succB_lt {g : Graph} (hg : Inv g) (hp : Projections g) : ∀ x < g.size, ∀ y ∈ succB g x, y < g.size := by
  intro x _ y hy
  obtain ⟨u, hu, hb⟩ := List.mem_flatMap.1 hy
  obtain ⟨j, hj⟩ := (live_operand hg).1 hu
  have hul := (hg.closed _ _ _ hj).2.1
  unfold blockTargets at hb
  split at hb
  · simp only [List.mem_singleton] at hb; omega
  · split at hb
    · rename_i hi
      obtain ⟨p, q, h0, h1, hpq⟩ := hp.branch u hul hi
      rw [h0, h1] at hb
      simp only [Option.toList_some, List.cons_append, List.nil_append, List.mem_cons, List.not_mem_nil, or_false] at hb
      exact (hg.closed _ _ _ ((hpq y).2 hb).2).2.1
    · cases hb

/-- The predecessors of a block. -/
def predsOf (g : Graph) (b : Nat) : List Nat :=
  if (g.node b).kind = .region then operands g b
  else if (g.node b).kind = .project then
    match (g.node b).args 0 with
    | none => []
    | some i => if (g.node i).kind = .ifk then ((g.node i).args 0).toList else []
  else []

theorem mem_predsOf {g : Graph} (hg : Inv g) {c b : Nat} : c ∈ predsOf g b ↔ Edge g c b := by
  unfold predsOf Edge
  by_cases hk : (g.node b).kind = .region
  · rw [if_pos hk, operands_mem hg]
    constructor
    · intro h; exact .inl ⟨hk, h⟩
    · rintro (⟨-, h⟩ | ⟨i, h, -⟩)
      · exact h
      · have := h.1; rw [hk] at this; cases this
  · rw [if_neg hk]
    by_cases hp : (g.node b).kind = .project
    · rw [if_pos hp]
      cases ha : (g.node b).args 0 with
      | none =>
        constructor
        · intro h; cases h
        · rintro (⟨h, -⟩ | ⟨i, h, -⟩)
          · exact absurd h hk
          · have := h.2; rw [ha] at this; cases this
      | some n =>
        dsimp only
        constructor
        · intro h
          split at h
          · rename_i hi
            exact .inr ⟨n, ⟨hp, ha⟩, hi, by simpa [Option.mem_toList] using h⟩
          · cases h
        · rintro (⟨h, -⟩ | ⟨i, h, h1, h2⟩)
          · exact absurd h hk
          · have := h.2
            rw [ha] at this
            cases this
            rw [if_pos h1, h2]
            simp
    · rw [if_neg hp]
      constructor
      · intro h; cases h
      · rintro (⟨h, -⟩ | ⟨i, h, -⟩)
        · exact absurd h hk
        · exact absurd h.1 hp

theorem newIdom_eq {g : Graph} {c b : Nat} (h : Edge g c b) (fuel : Nat) (i : Info) : newIdom fuel g i b = meetAll fuel i none (predsOf g b) := by
  unfold newIdom predsOf
  rcases h with ⟨hk, -⟩ | ⟨n, h1, h2, h3⟩
  · rw [if_neg (by rw [hk]; simp), if_pos hk, if_pos hk]
  · rw [if_pos h1.1, if_neg (by rw [h1.1]; simp), if_pos h1.1, h1.2]
    dsimp only
    rw [if_pos h2, if_pos h2, h3]
    dsimp only
    have hk : ¬(g.node b).kind = .region := by rw [h1.1]; simp
    rw [if_neg hk]
    show (Run.ok (if (i.idom c).isSome = true then some c else none)) = (if (i.idom c).isSome = true then Run.ok (some c) else Run.ok none)
    split <;> rfl

theorem newIdom_marked (g : Graph) (v : Int) (s : List Nat) (fuel : Nat) (i : Info) (b : Nat) : newIdom fuel (marked g v s) i b = newIdom fuel g i b := by
  unfold newIdom
  have hn : ∀ n, ((marked g v s).node n).kind = (g.node n).kind ∧ ((marked g v s).node n).args = (g.node n).args := by
    intro n; rw [marked_node]; exact ⟨rfl, rfl⟩
  rw [operands_marked, (hn b).1, (hn b).2]
  cases (g.node b).args 0 with
  | none => rfl
  | some n => dsimp only; rw [(hn n).1, (hn n).2]

/-! ### One function -/

/-- The blocks of a function in order. -/
structure Blocks (g : Graph) (post : Nat → Nat) (e : Nat) (l : List Nat) : Prop where
  head : ∃ bs, l = e :: bs
  sorted : l.Pairwise fun x y => post y < post x
  parent : ∀ b ∈ l, b = e ∨ ∃ y ∈ l, Edge g y b ∧ post b < post y
  closed : ∀ x ∈ l, ∀ y, Edge g x y → y ∈ l
  walk : ∀ x ∈ l, Walk g e x
  small : ∀ x ∈ l, post x < g.size
  length : l.length ≤ g.size

theorem walk_mem {g : Graph} {post : Nat → Nat} {e : Nat} {l : List Nat} (h : Blocks g post e l) {x : Nat} (hx : Walk g e x) : x ∈ l := by
  induction hx with
  | start =>
    obtain ⟨bs, rfl⟩ := h.head
    simp
  | step _ he ih => exact h.closed _ ih _ he

theorem entry_no_edge {g : Graph} {f e c : Nat} (h : IsEntry g f e) : ¬Edge g c e := by
  obtain ⟨-, hk, hp, -⟩ := h
  rintro (⟨h, -⟩ | ⟨i, h1, h2, -⟩)
  · rw [hp.1] at h; cases h
  · have := h1.2
    rw [hp.2] at this
    cases this
    rw [hk] at h2
    cases h2

/-- The immediate dominators and the depths of the blocks of a function are right. -/
def Right (g : Graph) (e : Nat) (l : List Nat) (i : Info) : Prop :=
  i.idom e = some e ∧ i.depth e = 1 ∧ ∀ b ∈ l, b ≠ e → ∃ d ∈ l, i.idom b = some d ∧ ImmediateDominator g e d b ∧ i.depth b = i.depth d + 1 ∧
    i.post b < i.post d

theorem domPass_marked (g : Graph) (v : Int) (s : List Nat) (fuel : Nat) : ∀ (bs : List Nat) (i : Info × Bool), domPass fuel (marked g v s) i bs = domPass fuel g i bs := by
  intro bs
  induction bs with
  | nil => intro i; rfl
  | cons b bs ih =>
    intro i
    rw [domPass, domPass, newIdom_marked]
    cases newIdom fuel g i.1 b with
    | ok ni => rw [Run.bind_ok, Run.bind_ok, ih, ih]
    | fail => rfl
    | ub => rfl
    | more => rfl

theorem domLoop_marked (g : Graph) (v : Int) (s : List Nat) (fuel : Nat) (bs : List Nat) : ∀ (k : Nat) (i : Info), domLoop fuel (marked g v s) bs k i = domLoop fuel g bs k i := by
  intro k
  induction k with
  | zero => intro i; rfl
  | succ k ih =>
    intro i
    rw [domLoop, domLoop, domPass_marked]
    cases domPass fuel g (i, false) bs with
    | ok r => rw [Run.bind_ok, Run.bind_ok, ih]
    | fail => rfl
    | ub => rfl
    | more => rfl

theorem domTree_marked (g : Graph) (v : Int) (s : List Nat) (fuel : Nat) (i : Info) (l : List Nat) : domTree fuel (marked g v s) i l = domTree fuel g i l := by
  cases l with
  | nil => rfl
  | cons e bs => rw [domTree, domTree, domLoop_marked]

theorem domTree_ok {g : Graph} (hg : Inv g) {f e : Nat} (he : IsEntry g f e) {l : List Nat} {i : Info} (hb : Blocks g i.post e l) (h0 : ∀ b ∈ l, i.idom b = none)
    (ho : ∀ b ∈ l, ∀ p, Edge g p b → i.idom p ≠ none → p ∈ l) {fuel : Nat} (hfu : g.size * g.size + 2 * g.size < fuel) :
    ∃ i', domTree fuel g i l = .ok i' ∧ i'.post = i.post ∧ (∀ x, x ∉ l → i'.idom x = i.idom x ∧ i'.depth x = i.depth x) ∧ Right g e l i' := by
  obtain ⟨bs, rfl⟩ := hb.head
  let F : Flow := ⟨e, bs, i.post, predsOf g⟩
  have hne : ∀ b ∈ bs, b ≠ e := by
    intro b hbm hbe
    have := (List.pairwise_cons.1 hb.sorted).1 b hbm
    rw [hbe] at this
    omega
  have hF : F.Good := by
    refine ⟨hb.sorted, ?_⟩
    intro b hbm
    rcases hb.parent b (List.mem_cons_of_mem _ hbm) with h | ⟨y, h1, h2, h3⟩
    · exact absurd h (hne b hbm)
    · exact ⟨y, (mem_predsOf hg).2 h2, h1, h3⟩
  have hD : IsDom F (Dominates g e) := by
    constructor
    · intro d hd
      exact Decidable.byContradiction fun hx => hd.2 (.start (Ne.symm hx))
    · intro b hbm p hp hpL d hd hdb
      refine ⟨hb.walk p hpL, fun ha => hd.2 (.step ha ((mem_predsOf hg).1 hp) (Ne.symm hdb))⟩
  have hn : ∀ j : Info, ∀ b ∈ F.bs, newIdom fuel g j b = meetAll fuel j none (F.preds b) := by
    intro j b hbm
    rcases hb.parent b (List.mem_cons_of_mem _ hbm) with h | ⟨y, -, h2, -⟩
    · exact absurd h (hne b hbm)
    · exact newIdom_eq h2 fuel j
  have hs := initial_state hF hD (idom := i.idom) (fun b hbm => h0 b (List.mem_cons_of_mem _ hbm))
    (fun b hbm p hp hps => ho b (List.mem_cons_of_mem _ hbm) p ((mem_predsOf hg).1 hp) hps)
  have hpe : i.post e < g.size := hb.small e (by simp)
  have hlen : bs.length + 1 ≤ g.size := hb.length
  have hfu1 : 2 * F.post F.e < fuel := by
    show 2 * i.post e < fuel
    have : 0 ≤ g.size * g.size := Nat.zero_le _
    omega
  have htot : total F (setI i.idom e e) < fuel := by
    have h1 := total_le F (setI i.idom e e)
    have h2 : F.bs.length * (F.post F.e + 1) ≤ g.size * g.size := Nat.mul_le_mul (by show bs.length ≤ _; omega) (by show i.post e + 1 ≤ _; omega)
    omega
  obtain ⟨i1, e1, hfix⟩ := loop_ok hF hD hfu1 hn (k := fuel) (i := i.setIdom e (some e)) htot rfl hs
  have hset : ∀ b ∈ bs, i1.idom b ≠ none := hfix.state.set
  obtain ⟨i2, e2, d1, d2, d3, d4, d5⟩ := depths_ok hF hfix.state.tree hset (todo := bs) (dn := [])
    (i := { i1 with depth := fun x => if x = e then 1 else i1.depth x }) rfl rfl (if_pos rfl) (by simp)
  refine ⟨i2, ?_, ?_, ?_, ?_, d3, ?_⟩
  · rw [domTree, e1, Run.bind_ok, e2]
  · rw [d2]
    exact hfix.post
  · intro x hx
    have hxb : x ∉ bs := fun h => hx (by simp [h])
    have hxe : x ≠ e := fun h => hx (by simp [h])
    refine ⟨?_, ?_⟩
    · rw [d1, hfix.other x hxb]
      exact if_neg hxe
    · rw [d4 x hxb]
      dsimp only
      rw [if_neg hxe, hfix.depth]
      rfl
  · rw [d1]
    exact hfix.state.tree.entry
  · -- ancestors are dominators
    have anc : ∀ b ∈ e :: bs, ∀ a, Anc i1.idom b a ↔ Dominates g e a b := by
      intro b hbm a
      constructor
      · intro ha
        refine ⟨hb.walk b hbm, fun hav => ?_⟩
        have key : ∀ b, Avoids g e a b → b ∈ e :: bs ∧ ¬Anc i1.idom b a := by
          intro b hav
          induction hav with
          | start hea => exact ⟨by simp, fun h => hea (anc_entry hF hfix.state.tree h).symm⟩
          | @step c b _ hed hba ih =>
            have hbl := hb.closed c ih.1 b hed
            refine ⟨hbl, fun h => ih.2 ?_⟩
            have hbb : b ∈ bs := by
              rcases List.mem_cons.1 hbl with h1 | h1
              · rw [h1] at hed; exact absurd hed (entry_no_edge he)
              · exact h1
            exact fixed_back hF (i := i.setIdom e (some e)) rfl hfu1 hfix hbb ((mem_predsOf hg).2 hed) ih.1 h (Ne.symm hba)
        exact (key b hav).2 ha
      · intro hdom
        refine hfix.state.sound b hbm ?_ a hdom
        rcases List.mem_cons.1 hbm with h | h
        · rw [h, hfix.state.tree.entry]; simp
        · exact hset b h
    intro b hbm hbe
    have hbb : b ∈ bs := by
      rcases List.mem_cons.1 hbm with h | h
      · exact absurd h hbe
      · exact h
    cases hid : i1.idom b with
    | none => exact absurd hid (hset b hbb)
    | some d =>
      obtain ⟨t1, t2, t3⟩ := hfix.state.tree.parent b hbb d hid
      refine ⟨d, t1, by rw [d1, hid], ⟨?_, (anc b hbm d).1 (.up hid (.refl _)), ?_⟩, d5 b hbb d hid, by
        rw [d2]
        show i1.post b < i1.post d
        rw [hfix.post]
        exact t3⟩
      · intro h
        rw [h] at t3
        omega
      · intro x hx hxb
        have := (anc b hbm x).2 hx
        cases this with
        | refl => exact absurd rfl hxb
        | up e' h =>
          rw [hid] at e'
          cases e'
          exact (anc d t1 x).1 h

/-! ### The functions -/

theorem postOf_other {base : Nat → Nat} {x : Nat} : ∀ {l : List Nat}, x ∉ l → postOf base l x = base x := by
  intro l
  induction l with
  | nil => intro _; rfl
  | cons a l ih =>
    intro h
    show (if x = a then _ else _) = _
    rw [if_neg (fun e => h (by simp [e])), ih (fun h' => h (by simp [h']))]

theorem postOf_lt {base : Nat → Nat} {x : Nat} : ∀ {l : List Nat}, x ∈ l → postOf base l x < l.length := by
  intro l
  induction l with
  | nil => intro h; cases h
  | cons a l ih =>
    intro h
    show (if x = a then _ else _) < _
    split
    · simp
    · rename_i hx
      have := ih (by
        rcases List.mem_cons.1 h with h1 | h1
        · exact absurd h1 hx
        · exact h1)
      simp only [List.length_cons]
      omega

theorem postOf_sorted {base : Nat → Nat} : ∀ {l : List Nat}, l.Nodup → l.Pairwise fun x y => postOf base l y < postOf base l x := by
  intro l
  induction l with
  | nil => intro _; exact .nil
  | cons a l ih =>
    intro h
    rw [List.nodup_cons] at h
    refine List.pairwise_cons.2 ⟨?_, ?_⟩
    · intro y hy
      show (if y = a then _ else _) < (if a = a then _ else _)
      rw [if_pos rfl, if_neg (fun (e : y = a) => h.1 (e ▸ hy))]
      exact postOf_lt hy
    · refine (ih h.2).imp_of_mem ?_
      intro x y hx hy hlt
      show (if y = a then _ else _) < (if x = a then _ else _)
      rw [if_neg (fun (e : y = a) => h.1 (e ▸ hy)), if_neg (fun (e : x = a) => h.1 (e ▸ hx))]
      exact hlt

theorem walk_trans {g : Graph} {e c b : Nat} (h : Walk g e c) (h' : Walk g c b) : Walk g e b := by
  induction h' with
  | start => exact h
  | step _ he ih => exact .step ih he

theorem before_sorted {post : Nat → Nat} {l : List Nat} (h : l.Pairwise fun x y => post y < post x) {y x : Nat} (hb : Before l y x) : post x < post y := by
  obtain ⟨a, b, rfl, hy⟩ := hb
  exact (List.pairwise_append.1 h).2.2 y hy x (by simp)

theorem Blocks.congr {g : Graph} {post post' : Nat → Nat} {e : Nat} {l : List Nat} (h : Blocks g post e l) (hp : ∀ x ∈ l, post' x = post x) : Blocks g post' e l := by
  refine ⟨h.head, ?_, ?_, h.closed, h.walk, ?_, h.length⟩
  · refine h.sorted.imp_of_mem ?_
    intro x y hx hy hlt
    rw [hp x hx, hp y hy]
    exact hlt
  · intro b hb
    rcases h.parent b hb with h1 | ⟨y, h1, h2, h3⟩
    · exact .inl h1
    · exact .inr ⟨y, h1, h2, by rw [hp b hb, hp y h1]; exact h3⟩
  · intro x hx
    rw [hp x hx]
    exact h.small x hx

theorem function_blocks {g : Graph} (hg : Inv g) (hd : Done g) (hp : Projections g) (hbr : Branches g) (hv : ∀ n, (g.node n).visited ≠ 7) {f e : Nat} (he : IsEntry g f e)
    {V : List Nat} {base : Nat → Nat} (hV : ∀ x ∈ V, ¬Walk g e x) {fuel : Nat} (hfu : g.size < fuel) :
    ∃ V' l, postOrder fuel { seen := marked g 7 V, list := [], post := base, idx := 0 } (some e) = .ok { seen := marked g 7 V', list := l, post := postOf base l, idx := l.length } ∧
      Blocks g (postOf base l) e l ∧ ∀ x, x ∈ V' ↔ x ∈ V ∨ Walk g e x := by
  have hel : e < g.size := (hg.closed _ _ _ he.2.2.1.2).2.1
  have hblk : IsBlock g e := .inr ⟨f, he.2.2.1, .inr ⟨he.2.2.2, he.2.1⟩⟩
  have hwb : ∀ x, Walk g e x → IsBlock g x := by
    intro x hx
    cases hx with
    | start => exact hblk
    | step _ h => exact edge_block h
  obtain ⟨t, q, et, ha⟩ := dfs_adds (succB_lt hg hp) (fuel := fuel) (s := (V, [])) hel (by
    have := unvisited_le g.size V
    dsimp only
    omega)
  have hq : t.2 = q := by rw [ha.left]; simp
  have hpath : ∀ x, Path (succB g) e x → Walk g e x := by
    intro x hx
    induction hx with
    | refl => exact .start
    | step _ hy ih => exact .step ih ((succB_edge hg hd hp hbr (hwb _ ih)).1 hy)
  have hqw : ∀ x ∈ q, Walk g e x := by
    intro x hx
    obtain ⟨c, hc, h⟩ := ha.reach x hx
    simp only [List.mem_singleton] at hc
    rw [hc] at h
    exact hpath x h
  have hwq : ∀ x, Walk g e x → x ∈ q := by
    intro x hx
    induction hx with
    | start =>
      rcases (ha.visited e).1 (ha.starts e (by simp)) with h | h
      · exact absurd .start (hV e h)
      · exact h
    | @step c b hc hed ih =>
      rcases (ha.visited b).1 (ha.closed c ih b ((succB_edge hg hd hp hbr (hwb _ hc)).2 hed)) with h | h
      · exact absurd (.step hc hed) (hV b h)
      · exact h
  have hsz : ∀ x ∈ q, x < g.size := by
    intro x hx
    cases hqw x hx with
    | start => exact hel
    | step _ h => exact edge_lt hg h
  have hlen := nodup_length ha.nodup hsz
  have hsorted := postOf_sorted (base := base) ha.nodup
  refine ⟨t.1, q, ?_, ⟨?_, hsorted, ?_, ?_, hqw, ?_, hlen⟩, ?_⟩
  · have := postOrder_search hd (base := base) hv fuel (V, []) t e et
    unfold emb at this
    rw [hq] at this
    exact this
  · cases hqe : q with
    | nil => rw [hqe] at hwq; exact absurd (hwq e .start) (by simp)
    | cons a bs =>
      rcases ha.parent a (by rw [hqe]; simp) with h | ⟨y, hb, -⟩
      · simp only [List.mem_singleton] at h
        exact ⟨bs, by rw [h]⟩
      · have h1 := before_sorted hsorted hb
        have hy : y ∈ q := by
          obtain ⟨u, w, hw, hyu⟩ := hb
          rw [hw]; simp [hyu]
        rw [hqe] at hsorted hy h1
        rcases List.mem_cons.1 hy with h2 | h2
        · rw [h2] at h1; omega
        · have := (List.pairwise_cons.1 hsorted).1 y h2
          omega
  · intro b hb
    rcases ha.parent b hb with h | ⟨y, hby, hy⟩
    · simp only [List.mem_singleton] at h
      exact .inl h
    · have hyq : y ∈ q := by
        obtain ⟨u, w, hw, hyu⟩ := hby
        rw [hw]; simp [hyu]
      exact .inr ⟨y, hyq, (succB_edge hg hd hp hbr (hwb y (hqw y hyq))).1 hy, before_sorted hsorted hby⟩
  · intro x hx y hy
    exact hwq y (.step (hqw x hx) hy)
  · intro x hx
    have := postOf_lt (base := base) hx
    omega
  · intro x
    rw [ha.visited]
    constructor
    · rintro (h | h)
      · exact .inl h
      · exact .inr (hqw x h)
    · rintro (h | h)
      · exact .inl h
      · exact .inr (hwq x h)

theorem postOrders_ok {g : Graph} (hg : Inv g) (hd : Done g) (hp : Projections g) (hbr : Branches g) (hv : ∀ n, (g.node n).visited ≠ 7) {fuel : Nat} (hfu : g.size < fuel) :
    ∀ {fs es : List Nat} {V : List Nat} {o : Order}, All2 (IsEntry g) fs es → Apart g es → (∀ x ∈ V, ∀ e ∈ es, ¬Walk g e x) → o.seen = marked g 7 V →
    ∃ o' V' ls, postOrders fuel o fs = .ok (o', ls) ∧ o'.seen = marked g 7 V' ∧ All2 (Blocks g o'.post) es ls ∧ ∀ x ∈ V, o'.post x = o.post x := by
  intro fs
  induction fs with
  | nil =>
    intro es V o hfe _ _ ho
    cases hfe
    exact ⟨o, V, [], rfl, ho, .nil, fun _ _ => rfl⟩
  | cons f fs ih =>
    intro es V o hfe hap hV ho
    cases hfe with
    | @cons _ e _ es he hfe =>
      rw [Apart, List.pairwise_cons] at hap
      obtain ⟨V1, l, e1, hb, hV1⟩ := function_blocks hg hd hp hbr hv he (V := V) (base := o.post) (fun x hx => hV x hx e (by simp)) hfu
      obtain ⟨o2, V2, ls, e2, hs2, hls, hpost⟩ := ih (V := V1) (o := { seen := marked g 7 V1, list := l, post := postOf o.post l, idx := l.length }) hfe hap.2 (by
        intro x hx e' he'
        rcases (hV1 x).1 hx with h | h
        · exact hV x h e' (by simp [he'])
        · exact hap.1 e' he' x h) rfl
      refine ⟨o2, V2, l :: ls, ?_, hs2, .cons (hb.congr ?_) hls, ?_⟩
      · have hpj : (o.seen.node f).projects 0 = some e := by
          obtain ⟨p, h0, hpu⟩ := hp.entry f he.1 he.2.1
          have := (hpu e).1 ⟨he.2.2.1, he.2.2.2⟩
          rw [ho, marked_node]
          dsimp only
          rw [h0, this]
        rw [postOrders, hpj, ho, e1, Run.bind_ok, e2]
        rfl
      · intro x hx
        exact hpost x ((hV1 x).2 (.inr (hb.walk x hx)))
      · intro x hx
        rw [hpost x ((hV1 x).2 (.inl hx))]
        refine postOf_other fun hxl => ?_
        exact hV x hx e (by simp) (hb.walk x hxl)

theorem Right.congr {g : Graph} {e : Nat} {l : List Nat} {i i' : Info} (h : Right g e l i) (hel : e ∈ l) (hp : i'.post = i.post) (hx : ∀ x ∈ l, i'.idom x = i.idom x ∧ i'.depth x = i.depth x) : Right g e l i' := by
  obtain ⟨h1, h2, h3⟩ := h
  refine ⟨by rw [(hx e hel).1]; exact h1, by rw [(hx e hel).2]; exact h2, ?_⟩
  intro b hb hbe
  obtain ⟨d, d1, d2, d3, d4, d5⟩ := h3 b hb hbe
  exact ⟨d, d1, by rw [(hx b hb).1]; exact d2, d3, by rw [(hx b hb).2, (hx d d1).2]; exact d4, by rw [hp]; exact d5⟩

theorem domTrees_ok {g : Graph} (hg : Inv g) {fuel : Nat} (hfu : g.size * g.size + 2 * g.size < fuel) (v : Int) (s : List Nat) {post : Nat → Nat} :
    ∀ {fs es : List Nat} {ls : List (List Nat)} {i : Info} {D : List Nat}, All2 (IsEntry g) fs es → Apart g es → All2 (Blocks g post) es ls → i.post = post →
    (∀ x, i.idom x ≠ none → x ∈ D) → (∀ x ∈ D, ∀ e ∈ es, ¬Walk g e x) → (∀ x ∈ D, ∀ y, Edge g x y → y ∈ D) →
    ∃ i', domTrees fuel (marked g v s) i ls = .ok i' ∧ (∀ x ∈ D, i'.idom x = i.idom x ∧ i'.depth x = i.depth x) ∧ All2 (fun e l => Right g e l i') es ls ∧
      i'.post = post ∧ ∀ x, (∀ l ∈ ls, x ∉ l) → i'.idom x = i.idom x := by
  intro fs
  induction fs with
  | nil =>
    intro es ls i D hfe _ hbl hip _ _ _
    cases hfe
    cases hbl
    exact ⟨i, rfl, fun _ _ => ⟨rfl, rfl⟩, .nil, hip, fun _ _ => rfl⟩
  | cons f fs ih =>
    intro es ls i D hfe hap hbl hip hD hW hC
    cases hfe with
    | @cons _ e _ es he hfe =>
      cases hbl with
      | @cons _ l _ ls hb hbl =>
        rw [Apart, List.pairwise_cons] at hap
        have hnd : ∀ x ∈ l, x ∉ D := fun x hx hxd => hW x hxd e (by simp) (hb.walk x hx)
        obtain ⟨i1, e1, p1, o1, r1⟩ := domTree_ok hg he (i := i) (l := l) (by rw [hip]; exact hb) (fun b hbm => Decidable.byContradiction fun h => hnd b hbm (hD b h))
          (fun b hbm p hpb hps => absurd (hC p (hD p hps) b hpb) (hnd b hbm)) hfu
        have hel : e ∈ l := walk_mem hb .start
        obtain ⟨i2, e2, o2, r2, p2, n2⟩ := ih (i := i1) (D := l ++ D) hfe hap.2 hbl (p1.trans hip) (by
            intro x hx
            by_cases hxl : x ∈ l
            · simp [hxl]
            · rw [(o1 x hxl).1] at hx
              simp [hD x hx]) (by
            intro x hx e' he'
            rcases List.mem_append.1 hx with h | h
            · exact hap.1 e' he' x (hb.walk x h)
            · exact hW x h e' (by simp [he'])) (by
            intro x hx y hy
            rcases List.mem_append.1 hx with h | h
            · simp [hb.closed x h y hy]
            · simp [hC x h y hy])
        refine ⟨i2, ?_, ?_, .cons (r1.congr hel (by rw [p2, p1, hip]) fun x hx => o2 x (by simp [hx])) r2, p2, ?_⟩
        · rw [domTrees, domTree_marked, e1, Run.bind_ok, e2]
        · intro x hx
          obtain ⟨h1, h2⟩ := o2 x (by simp [hx])
          obtain ⟨h3, h4⟩ := o1 x (fun hxl => hnd x hxl hx)
          exact ⟨h1.trans h3, h2.trans h4⟩
        · intro x hx
          rw [n2 x fun l' hl' => hx l' (by simp [hl']), (o1 x (hx l (by simp))).1]

end Verif.Ir
