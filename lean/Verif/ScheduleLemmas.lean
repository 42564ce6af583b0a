import Verif.DominatorProps
import Verif.Schedule
import Verif.ScheduleSpec
/-!
Lemmas about the placement of instructions.
-/
namespace Verif.Ir
open Verif Verif.IrSpec

/-! ### The dominator tree -/

theorem avoids_ne {g : Graph} {e d b : Nat} (h : Avoids g e d b) : b ≠ d := by
  cases h with
  | start h => exact h
  | step _ _ h => exact h

theorem avoids_walk {g : Graph} {e d b : Nat} (h : Avoids g e d b) : Walk g e b := by
  induction h with
  | start => exact .start
  | step _ he _ ih => exact .step ih he

theorem avoids_split {g : Graph} {e a d b : Nat} (h : Avoids g e a b) : Avoids g e a d ∨ Avoids g e d b := by
  induction h with
  | start h =>
    by_cases hd : e = d
    · left; rw [← hd]; exact .start h
    · right; exact .start hd
  | @step c b h he hb ih =>
    rcases ih with ih | ih
    · exact .inl ih
    · by_cases hd : b = d
      · left; rw [← hd]; exact .step h he hb
      · right; exact .step ih he hd

theorem dominates_refl {g : Graph} {e b : Nat} (h : Walk g e b) : Dominates g e b b := ⟨h, fun h => avoids_ne h rfl⟩

theorem dominates_trans {g : Graph} {e a d b : Nat} (h : Dominates g e a d) (h' : Dominates g e d b) : Dominates g e a b :=
  ⟨h'.1, fun ha => (avoids_split ha).elim h.2 h'.2⟩

theorem dominates_entry {g : Graph} {e a : Nat} (h : Dominates g e a e) : a = e :=
  Decidable.byContradiction fun hx => h.2 (.start (Ne.symm hx))

theorem dominator_walk {g : Graph} {e d b : Nat} (h : Dominates g e d b) : Walk g e d := by
  have key : ∀ b, Walk g e b → Walk g e d ∨ Avoids g e d b := by
    intro b hb
    induction hb with
    | start =>
      by_cases hd : e = d
      · left; rw [← hd]; exact .start
      · right; exact .start hd
    | @step c b hc he ih =>
      rcases ih with ih | ih
      · exact .inl ih
      · by_cases hd : b = d
        · left; rw [← hd]; exact .step hc he
        · right; exact .step ih he hd
  rcases key b h.1 with h1 | h1
  · exact h1
  · exact absurd h1 h.2

theorem anc_dominates {g : Graph} {e : Nat} {l : List Nat} {i : Info} (hb : Blocks g i.post e l) (hr : Right g e l i) :
    ∀ {b a : Nat}, b ∈ l → (Anc i.idom b a ↔ Dominates g e a b) := by
  intro b a hbl
  constructor
  · intro h
    induction h with
    | refl b => exact dominates_refl (hb.walk b hbl)
    | @up b j a hj _ ih =>
      by_cases hbe : b = e
      · rw [hbe, hr.1] at hj
        injection hj with hj
        rw [hbe, hj]
        rw [← hj] at ih
        rw [← hj]
        exact ih (by rw [← hbe]; exact hbl)
      · obtain ⟨d, d1, d2, d3, -⟩ := hr.2.2 b hbl hbe
        rw [hj] at d2
        injection d2 with d2
        rw [d2] at ih
        exact dominates_trans (ih d1) d3.2.1
  · intro h
    have key : ∀ n b, b ∈ l → i.post e - i.post b ≤ n → Dominates g e a b → Anc i.idom b a := by
      intro n
      induction n with
      | zero =>
        intro b hbl hn h
        by_cases hab : a = b
        · rw [hab]; exact .refl _
        · have hbe : b ≠ e := fun hx => hab (by rw [hx] at h ⊢; exact dominates_entry h)
          obtain ⟨d, d1, d2, d3, -, d5⟩ := hr.2.2 b hbl hbe
          exfalso
          obtain ⟨bs, rfl⟩ := hb.head
          have hs := hb.sorted
          rw [List.pairwise_cons] at hs
          rcases List.mem_cons.1 hbl with h1 | h1
          · exact hbe h1
          · have := hs.1 b h1
            omega
      | succ n ih =>
        intro b hbl hn h
        by_cases hab : a = b
        · rw [hab]; exact .refl _
        · have hbe : b ≠ e := fun hx => hab (by rw [hx] at h ⊢; exact dominates_entry h)
          obtain ⟨d, d1, d2, d3, -, d5⟩ := hr.2.2 b hbl hbe
          refine .up d2 (ih d d1 ?_ (d3.2.2 a h hab))
          obtain ⟨bs, rfl⟩ := hb.head
          have hs := hb.sorted
          rw [List.pairwise_cons] at hs
          have h1 : i.post d ≤ i.post e := by
            rcases List.mem_cons.1 d1 with h1 | h1
            · rw [h1]; exact Nat.le_refl _
            · exact Nat.le_of_lt (hs.1 d h1)
          omega
    exact key _ b hbl (Nat.le_refl _) h

/-- What the placement uses of the dominator tree. -/
structure DomInfo (g : Graph) (i : Info) (fuel : Nat) : Prop where
  reach : ∀ b, (i.idom b).isSome = true ↔ ∃ f, BlockOf g f b
  meet : ∀ f a b, BlockOf g f a → BlockOf g f b → ∃ z, meet i.post i.idom fuel a b = .ok z ∧ DominatesIn g f z a ∧ DominatesIn g f z b ∧
    ∀ d, DominatesIn g f d a → DominatesIn g f d b → DominatesIn g f d z

theorem all2_mem_left {α β : Type} {r : α → β → Prop} {as : List α} {bs : List β} (h : All2 r as bs) : ∀ a ∈ as, ∃ b ∈ bs, r a b := by
  induction h with
  | nil => intro a ha; cases ha
  | @cons a b as bs hr _ ih =>
    intro x hx
    rcases List.mem_cons.1 hx with rfl | hx
    · exact ⟨b, by simp, hr⟩
    · obtain ⟨y, hy, hxy⟩ := ih x hx
      exact ⟨y, by simp [hy], hxy⟩

theorem all2_mem_right {α β : Type} {r : α → β → Prop} {as : List α} {bs : List β} (h : All2 r as bs) : ∀ b ∈ bs, ∃ a ∈ as, r a b := by
  induction h with
  | nil => intro a ha; cases ha
  | @cons a b as bs hr _ ih =>
    intro x hx
    rcases List.mem_cons.1 hx with rfl | hx
    · exact ⟨a, by simp, hr⟩
    · obtain ⟨y, hy, hxy⟩ := ih x hx
      exact ⟨y, by simp [hy], hxy⟩

theorem all2_and {α β : Type} {r s : α → β → Prop} {as : List α} {bs : List β} (h : All2 r as bs) (h' : All2 s as bs) : All2 (fun a b => r a b ∧ s a b) as bs := by
  induction h with
  | nil => cases h'; exact .nil
  | cons hr _ ih =>
    cases h' with
    | cons hs h' => exact .cons ⟨hr, hs⟩ (ih h')

theorem entry_unique {g : Graph} (hp : Projections g) {f e e' : Nat} (h : IsEntry g f e) (h' : IsEntry g f e') : e = e' := by
  obtain ⟨p, -, hpu⟩ := hp.entry f h.1 h.2.1
  rw [(hpu e).1 ⟨h.2.2.1, h.2.2.2⟩, (hpu e').1 ⟨h'.2.2.1, h'.2.2.2⟩]

/-- The tree that is computed serves the placement. -/
theorem domInfo {g : Graph} (hb : Built g) (hd : Done g) (hp : Projections g) (hbr : Branches g) (hv : ∀ n, (g.node n).visited ≠ 7) {fs es : List Nat}
    (hfe : All2 (IsEntry g) fs es) (hall : ∀ f < g.size, (g.node f).kind = .function → f ∈ fs) (hap : Apart g es) {fuel : Nat}
    (hfu : g.size * g.size + 2 * g.size < fuel) : ∃ ls i, blockTrees fuel g fs = .ok (ls, i) ∧ DomInfo g i fuel ∧
      (∀ b, (∃ l ∈ ls, b ∈ l) ↔ ∃ f, BlockOf g f b) ∧ ls.flatten.Nodup := by
  have hg := inv_built hb
  obtain ⟨o, V, ls, e1, hs, hbl, -⟩ := postOrders_ok hg hd hp hbr hv (fuel := fuel) (by
    have : 0 ≤ g.size * g.size := Nat.zero_le _
    omega) hfe hap (V := []) (o := { seen := g }) (by simp) (marked_nil g 7).symm
  obtain ⟨i, e2, -, hr, hpost, hother⟩ := domTrees_ok hg hfu 7 V (i := { post := o.post, idom := fun _ => none, depth := fun _ => 0 }) (D := []) hfe hap hbl rfl
    (by intro x hx; exact absurd rfl hx) (by simp) (by simp)
  have hbl' := hbl
  rw [← hpost] at hbl
  have hboth := all2_and hbl hr
  have hmem : ∀ b, (∃ l ∈ ls, b ∈ l) ↔ ∃ f, BlockOf g f b := by
    intro b
    constructor
    · rintro ⟨l, hl, hbm⟩
      obtain ⟨e, he, h1, -⟩ := all2_mem_right hboth l hl
      obtain ⟨f, -, hf⟩ := all2_mem_right hfe e he
      exact ⟨f, e, hf, h1.walk b hbm⟩
    · rintro ⟨f, e, he, hw⟩
      obtain ⟨e', he', h1⟩ := all2_mem_left hfe f (hall f he.1 he.2.1)
      have := entry_unique hp he h1
      rw [← this] at he'
      obtain ⟨l, hl, h2, -⟩ := all2_mem_left hboth e he'
      exact ⟨l, hl, walk_mem h2 hw⟩
  refine ⟨ls, i, ?_, ⟨?_, ?_⟩, hmem, ?_⟩
  · unfold blockTrees
    rw [e1, Run.bind_ok]
    dsimp only
    rw [hs, e2, Run.bind_ok]
  · intro b
    rw [← hmem]
    constructor
    · intro h
      refine Decidable.byContradiction fun hn => ?_
      rw [hother b fun l hl hbm => hn ⟨l, hl, hbm⟩] at h
      cases h
    · rintro ⟨l, hl, hbm⟩
      obtain ⟨e, he, h1, h2⟩ := all2_mem_right hboth l hl
      by_cases hbe : b = e
      · rw [hbe, h2.1]; rfl
      · obtain ⟨d, -, h3, -⟩ := h2.2.2 b hbm hbe
        rw [h3]; rfl
  · rintro f a b ⟨e, he, ha⟩ ⟨e', he', hb'⟩
    have := entry_unique hp he' he
    subst this
    obtain ⟨e2, he2, h1⟩ := all2_mem_left hfe f (hall f he.1 he.2.1)
    have := entry_unique hp he h1
    subst this
    obtain ⟨l, hl, h2, h3⟩ := all2_mem_left hboth e' he2
    obtain ⟨bs, rfl⟩ := h2.head
    have hne : ∀ b ∈ bs, b ≠ e' := by
      intro b hbm hbe
      have := (List.pairwise_cons.1 h2.sorted).1 b hbm
      rw [hbe] at this
      omega
    let F : Flow := ⟨e', bs, i.post, predsOf g⟩
    have hF : F.Good := by
      refine ⟨h2.sorted, ?_⟩
      intro b hbm
      rcases h2.parent b (List.mem_cons_of_mem _ hbm) with h | ⟨y, h1, h2, h3⟩
      · exact absurd h (hne b hbm)
      · exact ⟨y, (mem_predsOf hg).2 h2, h1, h3⟩
    have hset : ∀ x ∈ e' :: bs, i.idom x ≠ none := by
      intro x hx
      by_cases hxe : x = e'
      · rw [hxe, h3.1]; simp
      · obtain ⟨d, -, h4, -⟩ := h3.2.2 x hx hxe
        rw [h4]; simp
    have hT : Tree F i.idom := by
      refine ⟨h3.1, ?_⟩
      intro b hbm j hj
      obtain ⟨d, d1, d2, d3, d4, d5⟩ := h3.2.2 b (List.mem_cons_of_mem _ hbm) (hne b hbm)
      rw [hj] at d2
      injection d2 with d2
      subst d2
      exact ⟨d1, hset _ d1, d5⟩
    have hsm : i.post e' < g.size := h2.small e' (by simp)
    have hal := walk_mem h2 ha
    have hbl2 := walk_mem h2 hb'
    obtain ⟨z, z1, z2, z3, z4⟩ := meet_ok hF hT (fuel := fuel) hal (hset a hal) hbl2 (hset b hbl2) (by
      show (i.post e' - i.post a) + (i.post e' - i.post b) < fuel
      have : 0 ≤ g.size * g.size := Nat.zero_le _
      omega)
    have dom : ∀ {x}, DominatesIn g f x a ↔ Anc i.idom a x := by
      intro x
      rw [anc_dominates h2 h3 hal]
      constructor
      · rintro ⟨e'', h, h'⟩
        rw [entry_unique hp he h]; exact h'
      · intro h; exact ⟨e', he, h⟩
    have dom2 : ∀ {x}, DominatesIn g f x b ↔ Anc i.idom b x := by
      intro x
      rw [anc_dominates h2 h3 hbl2]
      constructor
      · rintro ⟨e'', h, h'⟩
        rw [entry_unique hp he h]; exact h'
      · intro h; exact ⟨e', he, h⟩
    have hzl : z ∈ e' :: bs := walk_mem h2 (dominator_walk ((anc_dominates h2 h3 hal).1 z2))
    refine ⟨z, z1, dom.2 z2, dom2.2 z3, ?_⟩
    intro d hda hdb
    exact ⟨e', he, (anc_dominates h2 h3 hzl).1 (z4 d (dom.1 hda) (dom2.1 hdb))⟩
  · -- no block twice
    have hnd : ∀ {es : List Nat} {ls : List (List Nat)}, Apart g es → All2 (Blocks g o.post) es ls → ls.flatten.Nodup := by
      intro es ls hap h
      induction h with
      | nil => exact List.nodup_nil
      | @cons e l es ls hb hbs ih =>
        rw [Apart, List.pairwise_cons] at hap
        rw [List.flatten_cons, List.nodup_append]
        refine ⟨?_, ih hap.2, ?_⟩
        · refine hb.sorted.imp ?_
          intro a b hlt hab
          rw [hab] at hlt
          omega
        · intro a ha b hbm hab
          subst hab
          obtain ⟨l', hl', hal⟩ := List.mem_flatten.1 hbm
          obtain ⟨e', he', hb'⟩ := all2_mem_right hbs l' hl'
          exact hap.1 e' he' a (hb.walk a ha) (hb'.walk a hal)
    exact hnd hap hbl'

/-! ### The blocks that need a value -/

theorem block_not_function {g : Graph} {b : Nat} (h : IsBlock g b) : (g.node b).kind ≠ .function := by
  rcases block_kind h with h | h <;> rw [h] <;> simp

theorem blockOf_block {g : Graph} {f b : Nat} (h : BlockOf g f b) : IsBlock g b := by
  obtain ⟨e, he, hw⟩ := h
  cases hw with
  | start => exact .inr ⟨f, he.2.2.1, .inr ⟨he.2.2.2, he.2.1⟩⟩
  | step _ hed => exact edge_block hed

theorem blockOf_parent {g : Graph} (hpl : Placeable g) {f b : Nat} (h : BlockOf g f b) : (g.node b).parent = some f := by
  obtain ⟨e, he, hw⟩ := h
  induction hw with
  | start => exact hpl.entry f e he.2.2.1 he.2.1
  | @step c b hc hed ih =>
    have hcf : (g.node c).kind ≠ .function := block_not_function (blockOf_block ⟨e, he, hc⟩)
    rcases hed with ⟨-, ho⟩ | ⟨j, h1, h2, h3⟩
    · rw [hpl.function b c ho hcf, ih]
    · rw [hpl.function b j ⟨0, h1.2⟩ (by rw [h2]; simp), hpl.function j c ⟨0, h3⟩ hcf, ih]

theorem dominatesIn_blockOf {g : Graph} {f d b : Nat} (h : DominatesIn g f d b) : BlockOf g f d := by
  obtain ⟨e, he, h⟩ := h
  exact ⟨e, he, dominator_walk h⟩

theorem dominatesIn_refl {g : Graph} {f b : Nat} (h : BlockOf g f b) : DominatesIn g f b b := by
  obtain ⟨e, he, h⟩ := h
  exact ⟨e, he, dominates_refl h⟩

theorem dominatesIn_trans {g : Graph} (hp : Projections g) {f a d b : Nat} (h : DominatesIn g f a d) (h' : DominatesIn g f d b) : DominatesIn g f a b := by
  obtain ⟨e, he, h⟩ := h
  obtain ⟨e', he', h'⟩ := h'
  rw [entry_unique hp he' he] at h'
  exact ⟨e, he, dominates_trans h h'⟩

/-- What a user `y` of `v` adds. -/
def SiteOf (g : Graph) (P : Nat → Option Nat) (v y b : Nat) : Prop :=
  ((g.node y).kind ≠ .phi ∧ P y = some b ∧ ∃ f, BlockOf g f b) ∨
  ((g.node y).kind = .phi ∧ ∃ r k, (g.node y).args 0 = some r ∧ (∃ f, BlockOf g f r) ∧ (g.node y).args (k + 1) = some v ∧ (g.node r).args k = some b)

/-- The block found so far for the blocks in `S`. -/
def Rep (g : Graph) (f : Nat) (lca : Option Nat) (S : Nat → Prop) : Prop :=
  (lca = none ∧ ∀ b, ¬S b) ∨ ∃ d, lca = some d ∧ BlockOf g f d ∧ (∃ b, S b) ∧ (∀ b, S b → DominatesIn g f d b) ∧
    ∀ d', (∀ b, S b → DominatesIn g f d' b) → DominatesIn g f d' d

theorem Rep.congr {g : Graph} {f : Nat} {lca : Option Nat} {S S' : Nat → Prop} (h : Rep g f lca S) (hs : ∀ b, S b ↔ S' b) : Rep g f lca S' := by
  have : S = S' := funext fun b => propext (hs b)
  rw [← this]; exact h

theorem rep_add {g : Graph} (hp : Projections g) {i : Info} {fuel f : Nat} (hi : DomInfo g i fuel) {lca : Option Nat} {S : Nat → Prop} (h : Rep g f lca S) {b : Nat}
    (hb : BlockOf g f b) : ∃ lca', intersect fuel i.post i.idom lca (some b) = .ok lca' ∧ Rep g f lca' (fun x => S x ∨ x = b) := by
  rcases h with ⟨rfl, h⟩ | ⟨d, rfl, h1, h2, h3, h4⟩
  · refine ⟨some b, rfl, .inr ⟨b, rfl, hb, ⟨b, .inr rfl⟩, ?_, ?_⟩⟩
    · rintro x (hx | rfl)
      · exact absurd hx (h x)
      · exact dominatesIn_refl hb
    · intro d' hd'
      exact hd' b (.inr rfl)
  · obtain ⟨z, z1, z2, z3, z4⟩ := hi.meet f d b h1 hb
    refine ⟨some z, ?_, .inr ⟨z, rfl, dominatesIn_blockOf z2, ⟨b, .inr rfl⟩, ?_, ?_⟩⟩
    · rw [intersect, z1, Run.bind_ok]
    · rintro x (hx | rfl)
      · exact dominatesIn_trans hp z2 (h3 x hx)
      · exact z3
    · intro d' hd'
      exact z4 d' (h4 d' fun x hx => hd' x (.inl hx)) (hd' b (.inr rfl))

theorem intersect_none {fuel : Nat} {post : Nat → Nat} {idom : Nat → Option Nat} (lca : Option Nat) : intersect fuel post idom lca none = .ok lca := by
  cases lca <;> rfl

section
variable {g : Graph} (hg : Inv g) (hp : Projections g) (hpl : Placeable g) {i : Info} {fuel : Nat} (hi : DomInfo g i fuel) {P : Nat → Option Nat}
  (hP : ∀ n, Pinned g n → P n = (g.node n).args 0)
include hg hp hpl hi hP

omit hg hpl hP in
theorem phiSide_ok {f y r v k : Nat} {lca : Option Nat} {S : Nat → Prop} (h : Rep g f lca S)
    (hs : ∀ b, (g.node y).args (k + 1) = some v → (g.node r).args k = some b → BlockOf g f b) :
    ∃ lca', phiSide g i fuel y r v k lca = .ok lca' ∧ Rep g f lca' (fun x => S x ∨ ((g.node y).args (k + 1) = some v ∧ (g.node r).args k = some x)) := by
  unfold phiSide
  by_cases hv : (g.node y).args (k + 1) = some v
  · rw [if_pos hv]
    cases hr : (g.node r).args k with
    | none =>
      refine ⟨lca, intersect_none lca, h.congr fun b => ?_⟩
      simp
    | some b =>
      obtain ⟨l, h1, h2⟩ := rep_add hp hi h (hs b hv hr)
      refine ⟨l, h1, h2.congr fun x => ?_⟩
      simp only [hv, Option.some.injEq, true_and]
      constructor
      · rintro (h | rfl)
        · exact .inl h
        · exact .inr rfl
      · rintro (h | rfl)
        · exact .inl h
        · exact .inr rfl
  · rw [if_neg hv]
    refine ⟨lca, rfl, h.congr fun b => ?_⟩
    simp [hv]

theorem userOf_ok {f v y : Nat} {lca : Option Nat} {S : Nat → Prop} (h : Rep g f lca S) (hs : ∀ b, SiteOf g P v y b → BlockOf g f b) :
    ∃ lca', userOf g i fuel v y (P y) lca = .ok lca' ∧ Rep g f lca' (fun x => S x ∨ SiteOf g P v y x) := by
  unfold userOf
  cases hy : P y with
  | none =>
    refine ⟨lca, rfl, h.congr fun b => ?_⟩
    constructor
    · exact .inl
    · rintro (h | ⟨-, h, -⟩ | ⟨hk, r, k, hr, -⟩)
      · exact h
      · rw [hy] at h; cases h
      · rw [hP y (.inl hk), hr] at hy; cases hy
  | some use =>
    dsimp only
    by_cases hid : (i.idom use).isSome = true
    · rw [if_pos hid]
      have hreach := (hi.reach use).1 hid
      unfold userBlock
      by_cases hk : (g.node y).kind = .phi
      · rw [if_pos hk]
        obtain ⟨r, hr, hrk⟩ := hpl.phi y hk
        have huse : use = r := by
          have := hP y (.inl hk)
          rw [hy, hr] at this
          exact Option.some.inj this
        subst huse
        simp only [hr]
        rw [if_neg (by simp [hrk])]
        obtain ⟨l1, e1, r1⟩ := phiSide_ok hp hi (y := y) (r := use) (v := v) (k := 0) h
          (fun b hv hb => hs b (.inr ⟨hk, use, 0, hr, hreach, hv, hb⟩))
        obtain ⟨l2, e2, r2⟩ := phiSide_ok hp hi (y := y) (r := use) (v := v) (k := 1) r1
          (fun b hv hb => hs b (.inr ⟨hk, use, 1, hr, hreach, hv, hb⟩))
        refine ⟨l2, ?_, r2.congr fun b => ?_⟩
        · rw [e1, Run.bind_ok, e2]
        · constructor
          · rintro ((h | h) | h)
            · exact .inl h
            · exact .inr (.inr ⟨hk, use, 0, hr, hreach, h.1, h.2⟩)
            · exact .inr (.inr ⟨hk, use, 1, hr, hreach, h.1, h.2⟩)
          · rintro (h | ⟨h, -⟩ | ⟨-, r, k, h1, h2, h3, h4⟩)
            · exact .inl (.inl h)
            · exact absurd hk h
            · rw [hr] at h1
              injection h1 with h1
              subst h1
              have hk4 := (hg.closed _ _ _ h4).1
              have hjo := hpl.join use hrk
              have hre := hpl.region use (.inl hrk)
              match k, hk4 with
              | 0, _ => exact .inl (.inr ⟨h3, h4⟩)
              | 1, _ => exact .inr ⟨h3, h4⟩
              | 2, _ => rw [hjo] at h4; cases h4
              | 3, _ => rw [hre] at h4; cases h4
      · rw [if_neg hk]
        obtain ⟨l, e, r⟩ := rep_add hp hi h (hs use (.inl ⟨hk, hy, hreach⟩))
        refine ⟨l, e, r.congr fun b => ?_⟩
        constructor
        · rintro (h | rfl)
          · exact .inl h
          · exact .inr (.inl ⟨hk, hy, hreach⟩)
        · rintro (h | ⟨-, h, -⟩ | ⟨h, -⟩)
          · exact .inl h
          · rw [hy] at h
            exact .inr (Option.some.inj h).symm
          · exact absurd h hk
    · rw [if_neg hid]
      refine ⟨lca, rfl, h.congr fun b => ?_⟩
      have hno : ¬∃ f, BlockOf g f use := fun h => hid ((hi.reach use).2 h)
      constructor
      · exact .inl
      · rintro (h | ⟨-, h, h'⟩ | ⟨hk, r, k, hr, h', -⟩)
        · exact h
        · rw [hy] at h
          injection h with h
          rw [← h] at h'
          exact absurd h' hno
        · have := hP y (.inl hk)
          rw [hy, hr] at this
          injection this with this
          rw [← this] at h'
          exact absurd h' hno
end

/-- The loop over the users of `v`. -/
def foldUser (g : Graph) (i : Info) (fuel : Nat) (P : Nat → Option Nat) (v : Nat) : Option Nat → List Nat → Run (Option Nat)
  | lca, [] => .ok lca
  | lca, y :: ys => do
    let lca ← userOf g i fuel v y (P y) lca
    foldUser g i fuel P v lca ys

/-- One user of `n`. -/
def foldUse (g : Graph) (i : Info) (fuel : Nat) (P : Nat → Option Nat) (n : Nat) (lca : Option Nat) (u : Nat) : Run (Option Nat) :=
  if (g.node u).kind = .project then foldUser g i fuel P u lca (g.node u).live else userOf g i fuel n u (P u) lca

/-- The loop over the users of `n`. -/
def foldUses (g : Graph) (i : Info) (fuel : Nat) (P : Nat → Option Nat) (n : Nat) : Option Nat → List Nat → Run (Option Nat)
  | lca, [] => .ok lca
  | lca, u :: us => do
    let lca ← foldUse g i fuel P n lca u
    foldUses g i fuel P n lca us

/-- The blocks that one user of `n` adds. -/
def UseSite (g : Graph) (P : Nat → Option Nat) (n u b : Nat) : Prop :=
  ((g.node u).kind = .project ∧ ∃ y ∈ (g.node u).live, SiteOf g P u y b) ∨ ((g.node u).kind ≠ .project ∧ SiteOf g P n u b)

section
variable {g : Graph} (hg : Inv g) (hp : Projections g) (hpl : Placeable g) {i : Info} {fuel : Nat} (hi : DomInfo g i fuel) {P : Nat → Option Nat}
  (hP : ∀ n, Pinned g n → P n = (g.node n).args 0)
include hg hp hpl hi hP

theorem foldUser_ok {f v : Nat} : ∀ {ys : List Nat} {lca : Option Nat} {S : Nat → Prop}, Rep g f lca S → (∀ y ∈ ys, ∀ b, SiteOf g P v y b → BlockOf g f b) →
    ∃ lca', foldUser g i fuel P v lca ys = .ok lca' ∧ Rep g f lca' (fun x => S x ∨ ∃ y ∈ ys, SiteOf g P v y x) := by
  intro ys
  induction ys with
  | nil =>
    intro lca S h _
    exact ⟨lca, rfl, h.congr fun b => by simp⟩
  | cons y ys ih =>
    intro lca S h hs
    obtain ⟨l1, e1, r1⟩ := userOf_ok hg hp hpl hi hP (v := v) (y := y) h (hs y (by simp))
    obtain ⟨l2, e2, r2⟩ := ih r1 (fun y hy => hs y (by simp [hy]))
    refine ⟨l2, ?_, r2.congr fun b => ?_⟩
    · rw [foldUser, e1, Run.bind_ok, e2]
    · simp only [List.mem_cons, exists_eq_or_imp, or_assoc]

theorem foldUse_ok {f n u : Nat} {lca : Option Nat} {S : Nat → Prop} (h : Rep g f lca S) (hs : ∀ b, UseSite g P n u b → BlockOf g f b) :
    ∃ lca', foldUse g i fuel P n lca u = .ok lca' ∧ Rep g f lca' (fun x => S x ∨ UseSite g P n u x) := by
  unfold foldUse
  by_cases hk : (g.node u).kind = .project
  · rw [if_pos hk]
    obtain ⟨l, e, r⟩ := foldUser_ok hg hp hpl hi hP (v := u) (ys := (g.node u).live) h (fun y hy b hb => hs b (.inl ⟨hk, y, hy, hb⟩))
    refine ⟨l, e, r.congr fun b => ?_⟩
    simp [UseSite, hk]
  · rw [if_neg hk]
    obtain ⟨l, e, r⟩ := userOf_ok hg hp hpl hi hP (v := n) (y := u) h (fun b hb => hs b (.inr ⟨hk, hb⟩))
    refine ⟨l, e, r.congr fun b => ?_⟩
    simp [UseSite, hk]

theorem foldUses_ok {f n : Nat} : ∀ {us : List Nat} {lca : Option Nat} {S : Nat → Prop}, Rep g f lca S → (∀ u ∈ us, ∀ b, UseSite g P n u b → BlockOf g f b) →
    ∃ lca', foldUses g i fuel P n lca us = .ok lca' ∧ Rep g f lca' (fun x => S x ∨ ∃ u ∈ us, UseSite g P n u x) := by
  intro us
  induction us with
  | nil =>
    intro lca S h _
    exact ⟨lca, rfl, h.congr fun b => by simp⟩
  | cons u us ih =>
    intro lca S h hs
    obtain ⟨l1, e1, r1⟩ := foldUse_ok hg hp hpl hi hP (n := n) (u := u) h (hs u (by simp))
    obtain ⟨l2, e2, r2⟩ := ih r1 (fun u hu => hs u (by simp [hu]))
    refine ⟨l2, ?_, r2.congr fun b => ?_⟩
    · rw [foldUses, e1, Run.bind_ok, e2]
    · simp only [List.mem_cons, exists_eq_or_imp, or_assoc]
end

end Verif.Ir
