import Verif.ScheduleLemmas
/-!
Lemmas about `schedule_late`: the block of every instruction, without marks, and that the marks do not change it.
-/
namespace Verif.Ir
open Verif Verif.IrSpec

/-- The block of a node when `schedule_late` goes `k` levels deep and remembers nothing. -/
def lateP (g : Graph) (i : Info) (fuel : Nat) : Nat → Nat → Option Nat
  | 0, n => pinned g n
  | k + 1, n =>
    match pinned g n with
    | some b => some b
    | none =>
      if isInstruction g n = .ok true then
        match foldUses g i fuel (lateP g i fuel k) n none (g.node n).live with
        | .ok l => l
        | _ => none
      else none

theorem foldUser_congr {g : Graph} {i : Info} {fuel v : Nat} {P P' : Nat → Option Nat} : ∀ {ys : List Nat} {lca : Option Nat}, (∀ y ∈ ys, P y = P' y) →
    foldUser g i fuel P v lca ys = foldUser g i fuel P' v lca ys := by
  intro ys
  induction ys with
  | nil => intro lca _; rfl
  | cons y ys ih =>
    intro lca h
    rw [foldUser, foldUser, h y (by simp)]
    congr 1
    funext l
    exact ih fun y hy => h y (by simp [hy])

theorem foldUse_congr {g : Graph} {i : Info} {fuel n u : Nat} {P P' : Nat → Option Nat} {lca : Option Nat} (h : (g.node u).kind ≠ .project → P u = P' u)
    (h' : (g.node u).kind = .project → ∀ y ∈ (g.node u).live, P y = P' y) : foldUse g i fuel P n lca u = foldUse g i fuel P' n lca u := by
  unfold foldUse
  by_cases hk : (g.node u).kind = .project
  · rw [if_pos hk, if_pos hk, foldUser_congr (h' hk)]
  · rw [if_neg hk, if_neg hk, h hk]

theorem foldUses_congr {g : Graph} {i : Info} {fuel n : Nat} {P P' : Nat → Option Nat} : ∀ {us : List Nat} {lca : Option Nat},
    (∀ u ∈ us, (g.node u).kind ≠ .project → P u = P' u) → (∀ u ∈ us, (g.node u).kind = .project → ∀ y ∈ (g.node u).live, P y = P' y) →
    foldUses g i fuel P n lca us = foldUses g i fuel P' n lca us := by
  intro us
  induction us with
  | nil => intro lca _ _; rfl
  | cons u us ih =>
    intro lca h h'
    rw [foldUses, foldUses, foldUse_congr (h u (by simp)) (h' u (by simp))]
    congr 1
    funext l
    exact ih (fun u hu => h u (by simp [hu])) (fun u hu => h' u (by simp [hu]))

theorem pinned_none {g : Graph} {n : Nat} (h : ¬Pinned g n) : pinned g n = none := by
  unfold pinned
  cases hk : (g.node n).kind <;> first | rfl | exact absurd (by simp [Pinned, hk]) h

theorem pinned_some {g : Graph} {n : Nat} (h : Pinned g n) : pinned g n = (g.node n).args 0 := by
  unfold pinned
  rcases h with h | h | h <;> rw [h]

theorem pinned_iff {g : Graph} (hpl : Placeable g) {n : Nat} : pinned g n = none ↔ ¬Pinned g n := by
  constructor
  · intro h hn
    rw [pinned_some hn] at h
    exact hpl.pinned n hn h
  · exact pinned_none

theorem block_not_pinned {g : Graph} {b : Nat} (h : IsBlock g b) : ¬Pinned g b := by
  unfold Pinned
  rcases block_kind h with h | h <;> rw [h] <;> simp

theorem isInstruction_iff {g : Graph} (hd : Done g) (n : Nat) : isInstruction g n = .ok true ↔ (g.node n).kind ≠ .function ∧ ¬IsBlock g n := by
  unfold isInstruction
  by_cases hf : (g.node n).kind = .function
  · rw [if_pos hf]
    constructor
    · intro h
      injection h with h
      cases h
    · rintro ⟨h, -⟩
      exact absurd hf h
  · rw [if_neg hf]
    obtain ⟨c, hc⟩ := isControl_ok hd n
    rw [hc, ← isControl_iff hd n, hc]
    cases c with
    | true =>
      constructor
      · intro h
        injection h with h
        cases h
      · rintro ⟨-, h⟩
        exact absurd rfl h
    | false =>
      refine ⟨fun _ => ⟨hf, by simp⟩, fun _ => rfl⟩

theorem isInstruction_ok {g : Graph} (hd : Done g) (n : Nat) : ∃ c, isInstruction g n = .ok c := by
  unfold isInstruction
  by_cases hf : (g.node n).kind = .function
  · rw [if_pos hf]; exact ⟨_, rfl⟩
  · rw [if_neg hf]
    obtain ⟨c, hc⟩ := isControl_ok hd n
    rw [hc]; exact ⟨!c, rfl⟩

theorem user_project {g : Graph} (hp : Projections g) {u n : Nat} (hk : (g.node u).kind = .project) (h : Operand g u n) : IsProjection g u n := by
  obtain ⟨j, hj⟩ := h
  by_cases hj0 : j = 0
  · rw [hj0] at hj; exact ⟨hk, hj⟩
  · rw [hp.single u hk j hj0] at hj; cases hj

theorem project_user {g : Graph} (hp : Projections g) (hpl : Placeable g) {y u : Nat} (hk : (g.node u).kind = .project) (h : Operand g y u) :
    (g.node y).kind ≠ .project := fun hy => (hpl.project y u (user_project hp hy h)).2.1 hk

section
variable {g : Graph} (hg : Inv g) (hd : Done g) (hp : Projections g) (hpl : Placeable g) {i : Info} {fuel : Nat} {rank : Nat → Nat}
  (hrank : ∀ u n, Operand g u n → ¬Pinned g u → ¬IsBlock g u → rank u < rank n)
include hd hpl

theorem lateP_other {k n : Nat} (h : Pinned g n ∨ isInstruction g n ≠ .ok true) : lateP g i fuel k n = pinned g n := by
  cases k with
  | zero => rfl
  | succ k =>
    rw [lateP]
    cases hq : pinned g n with
    | some b => rfl
    | none =>
      have := (pinned_iff hpl).1 hq
      dsimp only
      rw [if_neg]
      rcases h with h | h
      · exact absurd h this
      · exact h

include hg hp hrank

theorem instr_projection {n u : Nat} (hn : ¬Pinned g n) (hi : isInstruction g n = .ok true) (hu : Operand g u n) : ¬IsBlock g u := by
  intro hb
  rw [isInstruction_iff hd] at hi
  rcases hpl.blocks u n hu hb with h | h | h
  · exact hi.2 h
  · exact hi.1 h
  · exact hn (.inr (.inl h))

theorem lateP_stable : ∀ {k k' n : Nat}, rank n < k → rank n < k' → lateP g i fuel k n = lateP g i fuel k' n := by
  intro k
  induction k with
  | zero => intro k' n h; omega
  | succ k ih =>
    intro k' n h h'
    obtain ⟨k', rfl⟩ : ∃ j, k' = j + 1 := ⟨k' - 1, by omega⟩
    by_cases ho : Pinned g n ∨ isInstruction g n ≠ .ok true
    · rw [lateP_other hd hpl ho, lateP_other hd hpl ho]
    · have hn : ¬Pinned g n := fun h => ho (.inl h)
      have hi : isInstruction g n = .ok true := Decidable.byContradiction fun h => ho (.inr h)
      have hq := (pinned_iff hpl).2 hn
      rw [lateP, lateP]
      simp only [hq, if_pos hi]
      have key : ∀ y, (¬Pinned g y → ¬IsBlock g y → rank y < rank n) → lateP g i fuel k y = lateP g i fuel k' y := by
        intro y hy
        by_cases hy' : Pinned g y ∨ isInstruction g y ≠ .ok true
        · rw [lateP_other hd hpl hy', lateP_other hd hpl hy']
        · have h1 : ¬Pinned g y := fun h => hy' (.inl h)
          have h2 : isInstruction g y = .ok true := Decidable.byContradiction fun h => hy' (.inr h)
          have := hy h1 ((isInstruction_iff hd y).1 h2).2
          exact ih (by omega) (by omega)
      rw [foldUses_congr (P' := lateP g i fuel k')]
      · intro u hu hk
        exact key u (fun h1 h2 => hrank u n ((live_operand hg).1 hu) h1 h2)
      · intro u hu hk y hy
        have hub := instr_projection hg hd hp hpl hrank hn hi ((live_operand hg).1 hu)
        have hup : ¬Pinned g u := by simp [Pinned, hk]
        have h3 := hrank u n ((live_operand hg).1 hu) hup hub
        refine key y fun h1 h2 => ?_
        have := hrank y u ((live_operand hg).1 hy) h1 h2
        omega
end

/-- The block of every node by the rank. -/
def placeOf (g : Graph) (i : Info) (fuel : Nat) (rank : Nat → Nat) (n : Nat) : Option Nat := lateP g i fuel (rank n + 1) n

/-- The result of the loop over the users of a movable instruction. -/
structure Placed (g : Graph) (i : Info) (fuel : Nat) (P : Nat → Option Nat) : Prop where
  pinned : ∀ n, Pinned g n → P n = (g.node n).args 0
  other : ∀ n, ¬Pinned g n → isInstruction g n ≠ .ok true → P n = none
  fold : ∀ n, ¬Pinned g n → isInstruction g n = .ok true → foldUses g i fuel P n none (g.node n).live = .ok (P n)
  latest : ∀ n f, ¬Pinned g n → isInstruction g n = .ok true → (g.node n).parent = some f → Rep g f (P n) (fun b => ∃ u ∈ (g.node n).live, UseSite g P n u b)
  parent : ∀ n f b, P n = some b → BlockOf g f b → (g.node n).parent = some f
  homeless : ∀ n, ¬Pinned g n → isInstruction g n = .ok true → (g.node n).parent = none → P n = none

theorem placed {g : Graph} (hg : Inv g) (hd : Done g) (hp : Projections g) (hpl : Placeable g) {i : Info} {fuel : Nat} (hi : DomInfo g i fuel) {rank : Nat → Nat}
    (hrank : ∀ u n, Operand g u n → ¬Pinned g u → ¬IsBlock g u → rank u < rank n) : Placed g i fuel (placeOf g i fuel rank) := by
  have hpin : ∀ n, Pinned g n → placeOf g i fuel rank n = (g.node n).args 0 := by
    intro n hn
    unfold placeOf
    rw [lateP_other hd hpl (.inl hn), pinned_some hn]
  have hoth : ∀ n, ¬Pinned g n → isInstruction g n ≠ .ok true → placeOf g i fuel rank n = none := by
    intro n hn h
    unfold placeOf
    rw [lateP_other hd hpl (.inr h), pinned_none hn]
  have hpinp : ∀ n f b, Pinned g n → placeOf g i fuel rank n = some b → BlockOf g f b → (g.node n).parent = some f := by
    intro n f b hn h hb
    rw [hpin n hn] at h
    rw [hpl.function n b ⟨0, h⟩ (block_not_function (blockOf_block hb)), blockOf_parent hpl hb]
  have main : ∀ r n, rank n < r → ¬Pinned g n → isInstruction g n = .ok true →
      foldUses g i fuel (placeOf g i fuel rank) n none (g.node n).live = .ok (placeOf g i fuel rank n) ∧
      (∀ f, (g.node n).parent = some f → Rep g f (placeOf g i fuel rank n) (fun b => ∃ u ∈ (g.node n).live, UseSite g (placeOf g i fuel rank) n u b)) ∧
      ((g.node n).parent = none → placeOf g i fuel rank n = none) := by
    intro r
    induction r with
    | zero => intro n h; omega
    | succ r ih =>
      intro n hr hn hin
      have hins := (isInstruction_iff hd n).1 hin
      -- the blocks of the users are in the function
      have husers : ∀ v, (v = n ∨ IsProjection g v n) → ∀ y, Operand g y v → ∀ b, SiteOf g (placeOf g i fuel rank) v y b →
          ∃ f, (g.node n).parent = some f ∧ BlockOf g f b := by
        intro v hv y hy b hs
        have hvf : (g.node v).kind ≠ .function := by
          rcases hv with rfl | hv
          · exact hins.1
          · rw [hv.1]; simp
        have hvp : (g.node v).parent = (g.node n).parent := by
          rcases hv with rfl | hv
          · rfl
          · exact hpl.function v n ⟨0, hv.2⟩ hins.1
        have hyp : (g.node y).parent = (g.node n).parent := by rw [hpl.function y v hy hvf, hvp]
        rcases hs with ⟨hk, hb, f, hf⟩ | ⟨hk, rg, k, h1, ⟨f, hf⟩, h2, h3⟩
        · refine ⟨f, ?_, hf⟩
          rw [← hyp]
          by_cases hpy : Pinned g y
          · exact hpinp y f b hpy hb hf
          · by_cases hiy : isInstruction g y = .ok true
            · have hry : rank y < r := by
                have hyb := ((isInstruction_iff hd y).1 hiy).2
                have h1 := hrank y v hy hpy hyb
                rcases hv with rfl | hv
                · omega
                · have hvb := instr_projection hg hd hp hpl hrank hn hin ⟨0, hv.2⟩
                  have := hrank v n ⟨0, hv.2⟩ (by simp [Pinned, hv.1]) hvb
                  omega
              obtain ⟨-, i2, i3⟩ := ih y hry hpy hiy
              cases hpar : (g.node y).parent with
              | none => rw [i3 hpar] at hb; cases hb
              | some f' =>
                rcases i2 f' hpar with ⟨h, -⟩ | ⟨d, h, h', -⟩
                · rw [hb] at h; cases h
                · rw [hb] at h
                  injection h with h
                  subst h
                  rw [← blockOf_parent hpl h', blockOf_parent hpl hf]
            · rw [hoth y hpy hiy] at hb; cases hb
        · have hrk : (g.node rg).kind = .region := by
            obtain ⟨r', h4, h5⟩ := hpl.phi y hk
            rw [h1] at h4
            injection h4 with h4
            rw [h4]; exact h5
          refine ⟨f, ?_, hpl.reached f rg b hf hrk ⟨k, h3⟩⟩
          rw [← hyp, hpl.function y rg ⟨0, h1⟩ (by rw [hrk]; simp), blockOf_parent hpl hf]
      have huse : ∀ u ∈ (g.node n).live, ∀ b, UseSite g (placeOf g i fuel rank) n u b → ∃ f, (g.node n).parent = some f ∧ BlockOf g f b := by
        intro u hu b hs
        have hop := (live_operand hg).1 hu
        rcases hs with ⟨hk, y, hy, hs⟩ | ⟨-, hs⟩
        · exact husers u (.inr (user_project hp hk hop)) y ((live_operand hg).1 hy) b hs
        · exact husers n (.inl rfl) u hop b hs
      have hfold : ∀ f, (∀ u ∈ (g.node n).live, ∀ b, UseSite g (placeOf g i fuel rank) n u b → BlockOf g f b) →
          foldUses g i fuel (placeOf g i fuel rank) n none (g.node n).live = .ok (placeOf g i fuel rank n) ∧
          Rep g f (placeOf g i fuel rank n) (fun b => ∃ u ∈ (g.node n).live, UseSite g (placeOf g i fuel rank) n u b) := by
        intro f hf
        obtain ⟨l, e, rp⟩ := foldUses_ok hg hp hpl hi hpin (f := f) (n := n) (us := (g.node n).live) (lca := none) (S := fun _ => False)
          (.inl ⟨rfl, fun _ h => h⟩) hf
        have hl : placeOf g i fuel rank n = l := by
          have hc : foldUses g i fuel (lateP g i fuel (rank n)) n none (g.node n).live = .ok l := by
            rw [← e]
            have key : ∀ y, (¬Pinned g y → ¬IsBlock g y → rank y < rank n) → lateP g i fuel (rank n) y = placeOf g i fuel rank y := by
              intro y hy
              by_cases hy' : Pinned g y ∨ isInstruction g y ≠ .ok true
              · unfold placeOf
                rw [lateP_other hd hpl hy', lateP_other hd hpl hy']
              · have h1 : ¬Pinned g y := fun h => hy' (.inl h)
                have h2 : isInstruction g y = .ok true := Decidable.byContradiction fun h => hy' (.inr h)
                have := hy h1 ((isInstruction_iff hd y).1 h2).2
                exact lateP_stable hg hd hp hpl hrank this (by omega)
            refine foldUses_congr ?_ ?_
            · intro u hu hk
              exact key u (fun h1 h2 => hrank u n ((live_operand hg).1 hu) h1 h2)
            · intro u hu hk y hy
              have hub := instr_projection hg hd hp hpl hrank hn hin ((live_operand hg).1 hu)
              have hup : ¬Pinned g u := by simp [Pinned, hk]
              have h3 := hrank u n ((live_operand hg).1 hu) hup hub
              refine key y fun h1 h2 => ?_
              have := hrank y u ((live_operand hg).1 hy) h1 h2
              omega
          unfold placeOf
          rw [lateP]
          simp only [(pinned_iff hpl).2 hn, if_pos hin, hc]
        rw [hl]
        exact ⟨e, rp.congr fun b => by simp⟩
      refine ⟨?_, ?_, ?_⟩
      · cases hpar : (g.node n).parent with
        | none =>
          exact (hfold 0 fun u hu b hs => by
            obtain ⟨f, h, -⟩ := huse u hu b hs
            rw [hpar] at h; cases h).1
        | some f =>
          exact (hfold f fun u hu b hs => by
            obtain ⟨f', h, h'⟩ := huse u hu b hs
            rw [hpar] at h
            injection h with h
            rw [h]; exact h').1
      · intro f hpar
        exact (hfold f fun u hu b hs => by
            obtain ⟨f', h, h'⟩ := huse u hu b hs
            rw [hpar] at h
            injection h with h
            rw [h]; exact h').2
      · intro hpar
        have hno : ∀ u ∈ (g.node n).live, ∀ b, ¬UseSite g (placeOf g i fuel rank) n u b := by
          intro u hu b hs
          obtain ⟨f, h, -⟩ := huse u hu b hs
          rw [hpar] at h; cases h
        rcases (hfold 0 fun u hu b hs => absurd hs (hno u hu b)).2 with ⟨h, -⟩ | ⟨d, -, -, ⟨b, u, hu, hs⟩, -⟩
        · exact h
        · exact absurd hs (hno u hu b)
  refine ⟨hpin, hoth, fun n h h' => (main _ n (Nat.lt_succ_self _) h h').1, fun n f h h' hf => (main _ n (Nat.lt_succ_self _) h h').2.1 f hf, ?_,
    fun n h h' hf => (main _ n (Nat.lt_succ_self _) h h').2.2 hf⟩
  intro n f b h hb
  by_cases hn : Pinned g n
  · exact hpinp n f b hn h hb
  · by_cases hin : isInstruction g n = .ok true
    · obtain ⟨-, i2, i3⟩ := main _ n (Nat.lt_succ_self _) hn hin
      cases hpar : (g.node n).parent with
      | none => rw [i3 hpar] at h; cases h
      | some f' =>
        rcases i2 f' hpar with ⟨h', -⟩ | ⟨d, h', h'', -⟩
        · rw [h] at h'; cases h'
        · rw [h] at h'
          injection h' with h'
          subst h'
          rw [← blockOf_parent hpl h'', blockOf_parent hpl hb]
    · rw [hoth n hn hin] at h; cases h

end Verif.Ir
