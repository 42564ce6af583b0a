import Verif.ScheduleLateLemmas
/-!
Lemmas about `ir_schedule_instructions_to_blocks`: with its marks it computes the blocks of `Placed`.
-/
namespace Verif.Ir
open Verif Verif.IrSpec

/-- The block of a node: projections of instructions go with them. -/
def withOwner (g : Graph) (P : Nat → Option Nat) (m : Nat) : Option Nat :=
  match (g.node m).args 0 with
  | none => P m
  | some q => if (g.node m).kind = .project ∧ (g.node q).kind ≠ .function ∧ (g.node q).kind ≠ .ifk then P q else P m

theorem bind_inv {α β : Type} {x : Run α} {f : α → Run β} {b : β} (h : (x >>= f) = .ok b) : ∃ a, x = .ok a ∧ f a = .ok b := by
  cases x with
  | ok a => exact ⟨a, rfl, h⟩
  | fail => cases h
  | ub => cases h
  | more => cases h

/-- What holds while the nodes `stack` are being placed. -/
structure Okay (g : Graph) (P : Nat → Option Nat) (stack : List Nat) (p : Place) : Prop where
  le : ∀ m, p.block m = none ∨ p.block m = withOwner g P m
  pin : ∀ m, Pinned g m → p.block m = (g.node m).args 0
  seen : ∀ m, p.seen m = true → m ∈ stack ∨ (p.block m = withOwner g P m ∧ ∀ x, IsProjection g x m → p.block x = withOwner g P x)
  why : ∀ m, p.block m ≠ none → p.seen m = true ∨ Pinned g m ∨ (g.node m).kind = .project
  stack : ∀ s ∈ stack, ¬Pinned g s ∧ isInstruction g s = .ok true

/-- What does not get lost. -/
structure Grows (g : Graph) (P : Nat → Option Nat) (p p' : Place) : Prop where
  seen : ∀ m, p.seen m = true → p'.seen m = true
  block : ∀ m, p.block m = withOwner g P m → p'.block m = withOwner g P m

theorem Grows.refl {g : Graph} {P : Nat → Option Nat} (p : Place) : Grows g P p p := ⟨fun _ h => h, fun _ h => h⟩

theorem Grows.trans {g : Graph} {P : Nat → Option Nat} {p q r : Place} (h : Grows g P p q) (h' : Grows g P q r) : Grows g P p r :=
  ⟨fun m hm => h'.seen m (h.seen m hm), fun m hm => h'.block m (h.block m hm)⟩

/-- The node has been dealt with. -/
def Dealt (g : Graph) (p : Place) (n : Nat) : Prop := p.seen n = true ∨ p.block n ≠ none ∨ isInstruction g n ≠ .ok true

theorem Dealt.mono {g : Graph} {P : Nat → Option Nat} {stack : List Nat} {p p' : Place} (h : Dealt g p n) (ho : Okay g P stack p) (hg : Grows g P p p') : Dealt g p' n := by
  rcases h with h | h | h
  · exact .inl (hg.seen n h)
  · right; left
    rcases ho.le n with h1 | h1
    · exact absurd h1 h
    · rw [hg.block n h1, ← h1]; exact h
  · exact .inr (.inr h)

theorem withOwner_plain {g : Graph} {P : Nat → Option Nat} {m : Nat} (h : (g.node m).kind ≠ .project) : withOwner g P m = P m := by
  unfold withOwner
  cases (g.node m).args 0 with
  | none => rfl
  | some q => simp [h]

theorem withOwner_inner {g : Graph} {P : Nat → Option Nat} {m q : Nat} (h : IsProjection g m q) (hf : (g.node q).kind ≠ .function) (hi : (g.node q).kind ≠ .ifk) :
    withOwner g P m = P q := by
  unfold withOwner
  rw [h.2]
  simp [h.1, hf, hi]

section
variable {g : Graph} (hg : Inv g) (hd : Done g) (hp : Projections g) (hpl : Placeable g) {i : Info} {fuel : Nat} {rank : Nat → Nat}
  (hrank : ∀ u n, Operand g u n → ¬Pinned g u → ¬IsBlock g u → rank u < rank n) {P : Nat → Option Nat} (hP : Placed g i fuel P)
include hg hd hp hpl hrank hP

omit hg hp hrank hP in
theorem late_trivial {k : Nat} {p : Place} {stack : List Nat} {y : Nat} (ho : Okay g P stack p) (h : Pinned g y ∨ isInstruction g y ≠ .ok true) :
    scheduleLate g i fuel (k + 1) p y = .ok p := by
  rw [scheduleLate]
  by_cases hb : p.seen y = true ∨ p.block y ≠ none
  · rw [if_pos hb]
  · rw [if_neg hb]
    rcases h with h | h
    · exfalso
      refine hb (.inr ?_)
      rw [ho.pin y h]
      exact hpl.pinned y h
    · obtain ⟨c, hc⟩ := isInstruction_ok hd y
      cases c with
      | true => exact absurd hc h
      | false => rw [hc]; rfl

omit hg hp hrank hpl in
theorem dealt_block {stack : List Nat} {p : Place} {y : Nat} (ho : Okay g P stack p) (h : Dealt g p y) (hk : (g.node y).kind ≠ .project)
    (hs : y ∉ stack) : p.block y = P y := by
  rcases h with h | h | h
  · rcases ho.seen y h with h1 | ⟨h1, -⟩
    · exact absurd h1 hs
    · rw [h1, withOwner_plain hk]
  · rcases ho.le y with h1 | h1
    · exact absurd h1 h
    · rw [h1, withOwner_plain hk]
  · by_cases hpn : Pinned g y
    · rw [ho.pin y hpn, hP.pinned y hpn]
    · rcases ho.le y with h1 | h1
      · rw [h1, hP.other y hpn h]
      · rw [h1, withOwner_plain hk]

/-- The recursion on one user. -/
def Recurses (g : Graph) (P : Nat → Option Nat) (stack : List Nat) (recurse : Place → Nat → Run Place) (y : Nat) : Prop :=
  ∀ p, Okay g P stack p → ∃ p', recurse p y = .ok p' ∧ Okay g P stack p' ∧ Dealt g p' y ∧ Grows g P p p'

omit hg hp hrank hpl in
theorem userLate_ok {stack : List Nat} {recurse : Place → Nat → Run Place} {v y : Nat} {p : Place} {lca l : Option Nat} (hr : Recurses g P stack recurse y)
    (hk : (g.node y).kind ≠ .project) (hs : y ∉ stack) (ho : Okay g P stack p) (h : userOf g i fuel v y (P y) lca = .ok l) :
    ∃ p', userLate g i fuel recurse v (p, lca) y = .ok (p', l) ∧ Okay g P stack p' ∧ Grows g P p p' := by
  obtain ⟨p', h1, h2, h3, h4⟩ := hr p ho
  refine ⟨p', ?_, h2, h4⟩
  unfold userLate
  rw [h1, Run.bind_ok, dealt_block hd hP h2 h3 hk hs, h, Run.bind_ok]

omit hg hp hrank hpl in
theorem usersLate_ok {stack : List Nat} {recurse : Place → Nat → Run Place} {v : Nat} : ∀ {ys : List Nat} {p : Place} {lca l : Option Nat},
    (∀ y ∈ ys, Recurses g P stack recurse y ∧ (g.node y).kind ≠ .project ∧ y ∉ stack) → Okay g P stack p → foldUser g i fuel P v lca ys = .ok l →
    ∃ p', forEach (userLate g i fuel recurse v) (p, lca) ys = .ok (p', l) ∧ Okay g P stack p' ∧ Grows g P p p' := by
  intro ys
  induction ys with
  | nil =>
    intro p lca l _ ho h
    rw [foldUser] at h
    injection h with h
    exact ⟨p, by rw [forEach, h], ho, .refl p⟩
  | cons y ys ih =>
    intro p lca l hr ho h
    rw [foldUser] at h
    obtain ⟨l1, e1, e2⟩ := bind_inv h
    obtain ⟨h1, h2, h3⟩ := hr y (by simp)
    obtain ⟨p1, q1, q2, q3⟩ := userLate_ok hd hP h1 h2 h3 ho e1
    obtain ⟨p2, r1, r2, r3⟩ := ih (fun y hy => hr y (by simp [hy])) q2 e2
    exact ⟨p2, by rw [forEach, q1, Run.bind_ok, r1], r2, q3.trans r3⟩

omit hg hp hrank hpl in
theorem usesLate_ok {stack : List Nat} {recurse : Place → Nat → Run Place} {n : Nat} : ∀ {us : List Nat} {p : Place} {lca l : Option Nat},
    (∀ u ∈ us, ((g.node u).kind ≠ .project → Recurses g P stack recurse u ∧ u ∉ stack) ∧
      ((g.node u).kind = .project → ∀ y ∈ (g.node u).live, Recurses g P stack recurse y ∧ (g.node y).kind ≠ .project ∧ y ∉ stack)) →
    Okay g P stack p → foldUses g i fuel P n lca us = .ok l →
    ∃ p', forEach (lateUse g i fuel recurse n) (p, lca) us = .ok (p', l) ∧ Okay g P stack p' ∧ Grows g P p p' := by
  intro us
  induction us with
  | nil =>
    intro p lca l _ ho h
    rw [foldUses] at h
    injection h with h
    exact ⟨p, by rw [forEach, h], ho, .refl p⟩
  | cons u us ih =>
    intro p lca l hr ho h
    rw [foldUses] at h
    obtain ⟨l1, e1, e2⟩ := bind_inv h
    obtain ⟨h1, h2⟩ := hr u (by simp)
    have : ∃ p1, lateUse g i fuel recurse n (p, lca) u = .ok (p1, l1) ∧ Okay g P stack p1 ∧ Grows g P p p1 := by
      unfold lateUse
      unfold foldUse at e1
      by_cases hk : (g.node u).kind = .project
      · rw [if_pos hk] at e1 ⊢
        exact usersLate_ok hd hP (h2 hk) ho e1
      · rw [if_neg hk] at e1 ⊢
        exact userLate_ok hd hP (h1 hk).1 hk (h1 hk).2 ho e1
    obtain ⟨p1, q1, q2, q3⟩ := this
    obtain ⟨p2, r1, r2, r3⟩ := ih (fun u hu => hr u (by simp [hu])) q2 e2
    exact ⟨p2, by rw [forEach, q1, Run.bind_ok, r1], r2, q3.trans r3⟩

theorem late_ok : ∀ {k : Nat} {p : Place} {stack : List Nat} {n : Nat}, rank n + 1 < k → Okay g P stack p → (∀ s ∈ stack, rank n < rank s) →
    (p.block n = none → withOwner g P n = P n) →
    ∃ p', scheduleLate g i fuel k p n = .ok p' ∧ Okay g P stack p' ∧ Dealt g p' n ∧ Grows g P p p' := by
  intro k
  induction k with
  | zero => intro p stack n h; omega
  | succ k ih =>
    intro p stack n hr ho hst hown
    by_cases htr : Pinned g n ∨ isInstruction g n ≠ .ok true
    · refine ⟨p, late_trivial hd hpl ho htr, ho, ?_, .refl p⟩
      rcases htr with h | h
      · right; left
        rw [ho.pin n h]
        exact hpl.pinned n h
      · exact .inr (.inr h)
    · have hn : ¬Pinned g n := fun h => htr (.inl h)
      have hin : isInstruction g n = .ok true := Decidable.byContradiction fun h => htr (.inr h)
      have hins := (isInstruction_iff hd n).1 hin
      rw [scheduleLate]
      by_cases hb : p.seen n = true ∨ p.block n ≠ none
      · rw [if_pos hb]
        refine ⟨p, rfl, ho, ?_, .refl p⟩
        rcases hb with hb | hb
        · exact .inl hb
        · exact .inr (.inl hb)
      · rw [if_neg hb, hin, Run.ofRes_ok, Run.bind_ok]
        rw [if_neg (c := true = false) (by simp)]
        have hbn : p.block n = none := Decidable.byContradiction fun h => hb (.inr h)
        have hown := hown hbn
        have ho1 : Okay g P (n :: stack) { p with seen := fun m => if m = n then true else p.seen m } := by
          refine ⟨ho.le, ho.pin, ?_, ?_, ?_⟩
          · intro m hm
            dsimp only at hm ⊢
            by_cases hmn : m = n
            · left; rw [hmn]; simp
            · rw [if_neg hmn] at hm
              rcases ho.seen m hm with h | h
              · left; simp [h]
              · exact .inr h
          · intro m hm
            dsimp only at hm ⊢
            rcases ho.why m hm with h | h
            · left
              by_cases hmn : m = n
              · rw [if_pos hmn]
              · rw [if_neg hmn]; exact h
            · exact .inr h
          · intro s hs
            rcases List.mem_cons.1 hs with rfl | hs
            · exact ⟨hn, hin⟩
            · exact ho.stack s hs
        have hrec : ∀ y, (g.node y).kind ≠ .project → (¬Pinned g y → ¬IsBlock g y → rank y < rank n) → Recurses g P (n :: stack) (scheduleLate g i fuel k) y := by
          intro y hk hy q hq
          by_cases htr : Pinned g y ∨ isInstruction g y ≠ .ok true
          · obtain ⟨k', rfl⟩ : ∃ j, k = j + 1 := ⟨k - 1, by omega⟩
            refine ⟨q, late_trivial hd hpl hq htr, hq, ?_, .refl q⟩
            rcases htr with h | h
            · right; left
              rw [hq.pin y h]
              exact hpl.pinned y h
            · exact .inr (.inr h)
          · have h1 : ¬Pinned g y := fun h => htr (.inl h)
            have h2 : isInstruction g y = .ok true := Decidable.byContradiction fun h => htr (.inr h)
            have h3 := hy h1 ((isInstruction_iff hd y).1 h2).2
            refine ih (by omega) hq ?_ (fun _ => withOwner_plain hk)
            intro s hs
            rcases List.mem_cons.1 hs with rfl | hs
            · exact h3
            · have := hst s hs; omega
        have hnot : ∀ y, (¬Pinned g y → ¬IsBlock g y → rank y < rank n) → y ∉ n :: stack := by
          intro y hy hs
          obtain ⟨h1, h2⟩ := ho1.stack y hs
          have h3 := hy h1 ((isInstruction_iff hd y).1 h2).2
          rcases List.mem_cons.1 hs with h | h
          · rw [h] at h3; omega
          · have := hst y h; omega
        have hproj : ∀ u ∈ (g.node n).live, (g.node u).kind = .project → ∀ y ∈ (g.node u).live, ¬Pinned g y → ¬IsBlock g y → rank y < rank n := by
          intro u hu hk y hy h1 h2
          have hub := instr_projection hg hd hp hpl hrank hn hin ((live_operand hg).1 hu)
          have h3 := hrank u n ((live_operand hg).1 hu) (by simp [Pinned, hk]) hub
          have := hrank y u ((live_operand hg).1 hy) h1 h2
          omega
        obtain ⟨p1, e1, o1, g1⟩ := usesLate_ok hd hP (n := n) (us := (g.node n).live) (recurse := scheduleLate g i fuel k) (by
          intro u hu
          refine ⟨fun hk => ?_, fun hk y hy => ?_⟩
          · have hru : ¬Pinned g u → ¬IsBlock g u → rank u < rank n := hrank u n ((live_operand hg).1 hu)
            exact ⟨hrec u hk hru, hnot u hru⟩
          · have hry := hproj u hu hk y hy
            have hyk := project_user hp hpl hk ((live_operand hg).1 hy)
            exact ⟨hrec y hyk hry, hyk, hnot y hry⟩) ho1 (hP.fold n hn hin)
        refine ⟨p1.put g n (P n), ?_, ?_, ?_, ?_⟩
        · dsimp only
          rw [e1, Run.bind_ok]
        all_goals
          have hif : (g.node n).kind ≠ .ifk := fun h => hn (.inr (.inl h))
          have hval : ∀ m, (m = n ∨ (m ∈ (g.node n).live ∧ (g.node m).kind = .project)) → P n = withOwner g P m := by
            rintro m (rfl | ⟨hm, hk⟩)
            · exact hown.symm
            · exact (withOwner_inner (user_project hp hk ((live_operand hg).1 hm)) hins.1 hif).symm
          have hput : ∀ m, (p1.put g n (P n)).block m = p1.block m ∨ (p1.put g n (P n)).block m = withOwner g P m := by
            intro m
            unfold Place.put
            dsimp only
            by_cases hm : m = n ∨ (m ∈ (g.node n).live ∧ (g.node m).kind = .project)
            · rw [if_pos hm]; exact .inr (hval m hm)
            · rw [if_neg hm]; exact .inl rfl
          have hkeep : ∀ m, p1.block m = withOwner g P m → (p1.put g n (P n)).block m = withOwner g P m := by
            intro m hm
            rcases hput m with h | h
            · rw [h, hm]
            · exact h
          have hself : (p1.put g n (P n)).block n = withOwner g P n := by
            unfold Place.put
            dsimp only
            rw [if_pos (.inl rfl), hown]
        · refine ⟨?_, ?_, ?_, ?_, ho.stack⟩
          · intro m
            rcases hput m with h | h
            · rw [h]; exact o1.le m
            · exact .inr h
          · intro m hm
            unfold Place.put
            dsimp only
            rw [if_neg, o1.pin m hm]
            rintro (rfl | ⟨-, h⟩)
            · exact hn hm
            · simp [Pinned, h] at hm
          · intro m hm
            rcases o1.seen m hm with h | ⟨h, h'⟩
            · rcases List.mem_cons.1 h with rfl | h
              · right
                refine ⟨hself, fun x hx => ?_⟩
                unfold Place.put
                dsimp only
                have hxm : x = m ∨ (x ∈ (g.node m).live ∧ (g.node x).kind = .project) := .inr ⟨(live_operand hg).2 ⟨0, hx.2⟩, hx.1⟩
                rw [if_pos hxm, hval x hxm]
              · exact .inl h
            · exact .inr ⟨hkeep m h, fun x hx => hkeep x (h' x hx)⟩
          · intro m hm
            unfold Place.put at hm
            dsimp only at hm
            by_cases hmn : m = n ∨ (m ∈ (g.node n).live ∧ (g.node m).kind = .project)
            · rcases hmn with rfl | ⟨-, h⟩
              · left
                exact g1.seen m (by simp)
              · exact .inr (.inr h)
            · rw [if_neg hmn] at hm
              exact o1.why m hm
        · left
          exact g1.seen n (by simp)
        · refine ⟨fun m hm => ?_, fun m hm => hkeep m (g1.block m hm)⟩
          refine g1.seen m ?_
          by_cases hmn : m = n
          · simp [hmn]
          · simp [hmn, hm]

theorem own_projection {p : Place} {n : Nat} (ho : Okay g P [] p) (hdone : ∀ m < n, Dealt g p m) (hb : p.block n = none) : withOwner g P n = P n := by
  by_cases hk : (g.node n).kind = .project
  · cases hq : (g.node n).args 0 with
    | none => unfold withOwner; rw [hq]
    | some q =>
      by_cases hf : (g.node q).kind ≠ .function ∧ (g.node q).kind ≠ .ifk
      · have hpr : IsProjection g n q := ⟨hk, hq⟩
        obtain ⟨k1, k2, k3, k4, k5⟩ := hpl.project n q hpr
        have hqp : ¬Pinned g q := by
          rintro (h | h | h)
          · exact k3 h
          · exact hf.2 h
          · exact k4 h
        have hqi : isInstruction g q = .ok true := by
          rw [isInstruction_iff hd]
          refine ⟨hf.1, fun h => ?_⟩
          rcases block_kind h with h | h
          · exact k5 h
          · exact k2 h
        have hseen : p.seen q = true := by
          rcases hdone q k1 with h | h | h
          · exact h
          · rcases ho.why q h with h | h | h
            · exact h
            · exact absurd h hqp
            · exact absurd h k2
          · exact absurd hqi h
        have hPq : P q = none := by
          rcases ho.seen q hseen with h | ⟨-, h⟩
          · cases h
          · have := h n hpr
            rw [hb, withOwner_inner hpr hf.1 hf.2] at this
            exact this.symm
        rw [withOwner_inner hpr hf.1 hf.2, hPq]
        by_cases hi : isInstruction g n = .ok true
        · have hnp : ¬Pinned g n := by simp [Pinned, hk]
          cases hpar : (g.node n).parent with
          | none => rw [hP.homeless n hnp hi hpar]
          | some f =>
            rcases hP.latest n f hnp hi hpar with ⟨h, -⟩ | ⟨d, -, -, ⟨b, u, hu, hs⟩, -⟩
            · exact h.symm
            · exfalso
              have hqpar : (g.node q).parent = some f := by
                rw [← hpar, hpl.function n q ⟨0, hq⟩ hf.1]
              have hnl : n ∈ (g.node q).live := (live_operand hg).2 ⟨0, hq⟩
              have huk := project_user hp hpl hk ((live_operand hg).1 hu)
              have hsite : UseSite g P q n b := by
                rcases hs with ⟨h, -⟩ | ⟨-, h⟩
                · exact absurd h huk
                · exact .inl ⟨hk, u, hu, h⟩
              rcases hP.latest q f hqp hqi hqpar with ⟨-, h⟩ | ⟨d, h, -⟩
              · exact h b ⟨n, hnl, hsite⟩
              · rw [hPq] at h; cases h
        · rw [hP.other n (by simp [Pinned, hk]) hi]
      · unfold withOwner
        rw [hq]
        dsimp only
        rw [if_neg]
        rintro ⟨-, h⟩
        exact hf h
  · exact withOwner_plain hk

theorem placeNode_ok (hf : ∀ n, rank n + 1 < fuel) {p : Place} {n : Nat} (ho : Okay g P [] p) (hdone : ∀ m < n, Dealt g p m) :
    ∃ p', placeNode g i fuel p n = .ok p' ∧ Okay g P [] p' ∧ Dealt g p' n ∧ Grows g P p p' := by
  unfold placeNode
  obtain ⟨c, hc⟩ := isInstruction_ok hd n
  rw [hc, Run.ofRes_ok, Run.bind_ok]
  cases c with
  | false => exact ⟨p, rfl, ho, .inr (.inr (by rw [hc]; simp)), .refl p⟩
  | true =>
    exact late_ok hg hd hp hpl hrank hP (hf n) ho (by simp) (own_projection hg hd hp hpl hrank hP ho hdone)

theorem placeRange_ok (hf : ∀ n, rank n + 1 < fuel) : ∀ {c a : Nat} {p : Place}, Okay g P [] p → (∀ m < a, Dealt g p m) →
    ∃ p', forEach (placeNode g i fuel) p (List.range' a c) = .ok p' ∧ Okay g P [] p' ∧ ∀ m < a + c, Dealt g p' m := by
  intro c
  induction c with
  | zero =>
    intro a p ho h
    exact ⟨p, rfl, ho, h⟩
  | succ c ih =>
    intro a p ho h
    obtain ⟨p1, e1, o1, d1, g1⟩ := placeNode_ok hg hd hp hpl hrank hP hf ho h
    obtain ⟨p2, e2, o2, d2⟩ := ih o1 (a := a + 1) (fun m hm => by
      by_cases hma : m = a
      · rw [hma]; exact d1
      · exact (h m (by omega)).mono ho g1)
    refine ⟨p2, ?_, o2, fun m hm => d2 m (by omega)⟩
    rw [List.range'_succ, forEach, e1, Run.bind_ok, e2]

theorem placeAll_ok (hf : ∀ n, rank n + 1 < fuel) : ∃ p, placeAll fuel g i = .ok p ∧ Okay g P [] p ∧ ∀ m < g.size, Dealt g p m := by
  have ho : Okay g P [] { block := pinned g } := by
    refine ⟨fun m => ?_, fun m hm => pinned_some hm, fun m hm => ?_, fun m hm => ?_, by simp⟩
    · by_cases hm : Pinned g m
      · right
        have : (g.node m).kind ≠ .project := by
          rcases hm with h | h | h <;> rw [h] <;> simp
        rw [withOwner_plain this, hP.pinned m hm]
        exact pinned_some hm
      · exact .inl (pinned_none hm)
    · cases hm
    · by_cases h : Pinned g m
      · exact .inr (.inl h)
      · exact absurd (pinned_none h) hm
  obtain ⟨p, h1, h2, h3⟩ := placeRange_ok hg hd hp hpl hrank hP hf (c := g.size) (a := 0) ho (by simp)
  refine ⟨p, ?_, h2, fun m hm => h3 m (by omega)⟩
  unfold placeAll
  rw [List.range_eq_range', h1]

/-! ### What the blocks mean -/

theorem block_of_user {p : Place} (ho : Okay g P [] p) (hdone : ∀ m < g.size, Dealt g p m) {y v : Nat} (hy : Operand g y v) (hk : (g.node y).kind ≠ .project) :
    p.block y = P y := by
  obtain ⟨j, hj⟩ := hy
  exact dealt_block hd hP ho (hdone y (hg.closed y j v hj).2.1) hk (by simp)

theorem site_needs {p : Place} (ho : Okay g P [] p) (hdone : ∀ m < g.size, Dealt g p m) {f v y b : Nat} (hpar : (g.node y).parent = some f) (hy : Operand g y v)
    (hk : (g.node y).kind ≠ .project) (h : SiteOf g P v y b) : Needs g p.block f v b := by
  rcases h with ⟨h1, h2, f', h3⟩ | ⟨h1, r, k, h2, ⟨f', h3⟩, h4, h5⟩
  · have := hP.parent y f' b h2 h3
    rw [hpar] at this
    injection this with this
    rw [← this] at h3
    exact .user hy h1 hk (by rw [block_of_user hg hd hp hpl hrank hP ho hdone hy hk, h2]) h3
  · have hrk : (g.node r).kind ≠ .function := block_not_function (blockOf_block h3)
    have := hpl.function y r ⟨0, h2⟩ hrk
    rw [hpar, blockOf_parent hpl h3] at this
    injection this with this
    rw [← this] at h3
    exact .phi h1 h2 h3 h4 h5

theorem needs_site {p : Place} (ho : Okay g P [] p) (hdone : ∀ m < g.size, Dealt g p m) {f v b : Nat} (h : Needs g p.block f v b) :
    ∃ y, Operand g y v ∧ (g.node y).kind ≠ .project ∧ SiteOf g P v y b := by
  cases h with
  | @user y _ h1 h2 h3 h4 h5 => exact ⟨y, h1, h3, .inl ⟨h2, by rw [← block_of_user hg hd hp hpl hrank hP ho hdone h1 h3, h4], f, h5⟩⟩
  | @phi y r k _ h1 h2 h3 h4 h5 => exact ⟨y, ⟨k + 1, h4⟩, by rw [h1]; simp, .inr ⟨h1, r, k, h2, ⟨f, h3⟩, h4, h5⟩⟩

theorem demand_iff {p : Place} (ho : Okay g P [] p) (hdone : ∀ m < g.size, Dealt g p m) {f n b : Nat} (hnf : (g.node n).kind ≠ .function)
    (hpar : (g.node n).parent = some f) : Demand g p.block f n b ↔ ∃ u ∈ (g.node n).live, UseSite g P n u b := by
  constructor
  · rintro (h | ⟨q, hq, h⟩)
    · obtain ⟨y, h1, h2, h3⟩ := needs_site hg hd hp hpl hrank hP ho hdone h
      exact ⟨y, (live_operand hg).2 h1, .inr ⟨h2, h3⟩⟩
    · obtain ⟨y, h1, h2, h3⟩ := needs_site hg hd hp hpl hrank hP ho hdone h
      exact ⟨q, (live_operand hg).2 ⟨0, hq.2⟩, .inl ⟨hq.1, y, (live_operand hg).2 h1, h3⟩⟩
  · rintro ⟨u, hu, h⟩
    have hop := (live_operand hg).1 hu
    have hup : (g.node u).parent = some f := by rw [hpl.function u n hop hnf, hpar]
    rcases h with ⟨hk, y, hy, h⟩ | ⟨hk, h⟩
    · have hyo := (live_operand hg).1 hy
      refine .inr ⟨u, user_project hp hk hop, site_needs hg hd hp hpl hrank hP ho hdone ?_ hyo (project_user hp hpl hk hyo) h⟩
      rw [hpl.function y u hyo (by rw [hk]; simp), hup]
    · exact .inl (site_needs hg hd hp hpl hrank hP ho hdone hup hop hk h)

theorem movable_block {p : Place} (ho : Okay g P [] p) (hdone : ∀ m < g.size, Dealt g p m) {n f : Nat} (hm : Movable g n) (hpar : (g.node n).parent = some f) :
    ((∃ b, Demand g p.block f n b) → ∃ d, p.block n = some d ∧ BlockOf g f d ∧ Latest g p.block f n d) ∧
    ((¬∃ b, Demand g p.block f n b) → p.block n = none) := by
  have hi : isInstruction g n = .ok true := (isInstruction_iff hd n).2 ⟨hm.function, hm.block⟩
  have hown : withOwner g P n = P n := by
    by_cases hk : (g.node n).kind = .project
    · unfold withOwner
      cases hq : (g.node n).args 0 with
      | none => rfl
      | some q =>
        dsimp only
        rw [if_neg]
        rintro ⟨-, h, -⟩
        exact h (hm.projection q ⟨hk, hq⟩)
    · exact withOwner_plain hk
  have hrep := hP.latest n f hm.pinned hi hpar
  have hdem : ∀ b, Demand g p.block f n b ↔ ∃ u ∈ (g.node n).live, UseSite g P n u b :=
    fun b => demand_iff hg hd hp hpl hrank hP ho hdone hm.function hpar
  have hrep := hrep.congr fun b => (hdem b).symm
  constructor
  · rintro ⟨b, hb⟩
    have hlt : n < g.size := by
      obtain ⟨u, hu, -⟩ := (hdem b).1 hb
      obtain ⟨j, hj⟩ := (live_operand hg).1 hu
      exact (hg.closed u j n hj).2.2
    have hblk : p.block n = P n := by
      rcases hdone n hlt with h | h | h
      · rcases ho.seen n h with h | ⟨h, -⟩
        · cases h
        · rw [h, hown]
      · rcases ho.le n with h' | h'
        · exact absurd h' h
        · rw [h', hown]
      · exact absurd hi h
    rcases hrep with ⟨-, h⟩ | ⟨d, h1, h2, -, h3, h4⟩
    · exact absurd hb (h b)
    · exact ⟨d, by rw [hblk, h1], h2, h3, h4⟩
  · intro hno
    rcases hrep with ⟨h, -⟩ | ⟨d, -, -, h, -⟩
    · rcases ho.le n with h' | h'
      · exact h'
      · rw [h', hown, h]
    · exact absurd h hno

theorem projection_block {p : Place} (ho : Okay g P [] p) (hdone : ∀ m < g.size, Dealt g p m) {x n : Nat} (hx : IsProjection g x n) (hf : (g.node n).kind ≠ .function)
    (hif : (g.node n).kind ≠ .ifk) : p.block x = p.block n := by
  obtain ⟨k1, k2, k3, k4, k5⟩ := hpl.project x n hx
  have hc := hg.closed x 0 n hx.2
  have h1 : p.block n = P n := dealt_block hd hP ho (hdone n hc.2.2) k2 (by simp)
  have hnp : ¬Pinned g n := by
    rintro (h | h | h)
    · exact k3 h
    · exact hif h
    · exact k4 h
  have hni : isInstruction g n = .ok true := by
    rw [isInstruction_iff hd]
    refine ⟨hf, fun h => ?_⟩
    rcases block_kind h with h | h
    · exact k5 h
    · exact k2 h
  have hseen : p.seen n = true := by
    rcases hdone n hc.2.2 with h | h | h
    · exact h
    · rcases ho.why n h with h | h | h
      · exact h
      · exact absurd h hnp
      · exact absurd h k2
    · exact absurd hni h
  rcases ho.seen n hseen with h | ⟨-, h⟩
  · cases h
  · rw [h x hx, withOwner_inner hx hf hif, h1]
end

end Verif.Ir
