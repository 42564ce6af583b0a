import Verif.Dominator
/-!
Lemmas about the computation of dominators, for an abstract control flow.
-/
namespace Verif.Ir
open Verif

theorem or_of_not_imp {a b : Prop} [Decidable a] (h : ¬a → b) : a ∨ b := if ha : a then .inl ha else .inr (h ha)

/-- The ancestors of a block in the tree, itself included. -/
inductive Anc (idom : Nat → Option Nat) : Nat → Nat → Prop
  | refl (b) : Anc idom b b
  | up {b i a} : idom b = some i → Anc idom i a → Anc idom b a

theorem Anc.trans {idom : Nat → Option Nat} {a b c : Nat} (h : Anc idom a b) (h' : Anc idom b c) : Anc idom a c := by
  induction h with
  | refl => exact h'
  | up e _ ih => exact .up e (ih h')

/-- The blocks: the entry, the other blocks in order, the indices, the predecessors. -/
structure Flow where
  e : Nat
  bs : List Nat
  post : Nat → Nat
  preds : Nat → List Nat

/-- The indices fall along the list, and every block but the entry has a predecessor before it. -/
structure Flow.Good (f : Flow) : Prop where
  sorted : (f.e :: f.bs).Pairwise fun x y => f.post y < f.post x
  forward : ∀ b ∈ f.bs, ∃ p ∈ f.preds b, p ∈ f.e :: f.bs ∧ f.post b < f.post p

theorem Flow.Good.inj {f : Flow} (h : f.Good) {x y : Nat} (hx : x ∈ f.e :: f.bs) (hy : y ∈ f.e :: f.bs) (e : f.post x = f.post y) : x = y := by
  have := h.sorted
  generalize f.e :: f.bs = l at *
  induction l with
  | nil => cases hx
  | cons a l ih =>
    rw [List.pairwise_cons] at this
    rcases List.mem_cons.1 hx with h1 | h1 <;> rcases List.mem_cons.1 hy with h2 | h2
    · rw [h1, h2]
    · have := this.1 y h2; rw [h1] at e; omega
    · have := this.1 x h1; rw [h2] at e; omega
    · exact ih h1 h2 this.2

theorem Flow.Good.le_entry {f : Flow} (h : f.Good) {x : Nat} (hx : x ∈ f.e :: f.bs) : f.post x ≤ f.post f.e := by
  rcases List.mem_cons.1 hx with h1 | h1
  · rw [h1]; exact Nat.le_refl _
  · have := (List.pairwise_cons.1 h.sorted).1 x h1
    omega

theorem Flow.Good.lt_entry {f : Flow} (h : f.Good) {x : Nat} (hx : x ∈ f.bs) : f.post x < f.post f.e :=
  (List.pairwise_cons.1 h.sorted).1 x hx

theorem Flow.Good.ne_entry {f : Flow} (h : f.Good) {x : Nat} (hx : x ∈ f.bs) : x ≠ f.e := by
  intro e
  have := h.lt_entry hx
  rw [e] at this
  omega

/-- The immediate dominators form a tree. -/
structure Tree (f : Flow) (idom : Nat → Option Nat) : Prop where
  entry : idom f.e = some f.e
  parent : ∀ b ∈ f.bs, ∀ i, idom b = some i → i ∈ f.e :: f.bs ∧ idom i ≠ none ∧ f.post b < f.post i

section
variable {f : Flow} {idom : Nat → Option Nat}

theorem anc_mem (ht : Tree f idom) {b a : Nat} (h : Anc idom b a) : b ∈ f.e :: f.bs → idom b ≠ none → a ∈ f.e :: f.bs ∧ idom a ≠ none ∧ f.post b ≤ f.post a := by
  induction h with
  | refl b => intro hb hs; exact ⟨hb, hs, Nat.le_refl _⟩
  | @up b i a e _ ih =>
    intro hb hs
    rcases List.mem_cons.1 hb with h1 | h1
    · rw [h1, ht.entry] at e
      cases e
      have := ih (by simp) (by rw [ht.entry]; simp)
      rw [h1]
      exact this
    · obtain ⟨p1, p2, p3⟩ := ht.parent b h1 i e
      have := ih p1 p2
      exact ⟨this.1, this.2.1, by omega⟩

theorem anc_entry (hf : f.Good) (ht : Tree f idom) {a : Nat} (h : Anc idom f.e a) : a = f.e := by
  have := anc_mem ht h (by simp) (by rw [ht.entry]; simp)
  have h2 := hf.le_entry this.1
  exact hf.inj this.1 (by simp) (by omega)

theorem anc_linear (hf : f.Good) (ht : Tree f idom) {b x y : Nat} (h : Anc idom b x) : b ∈ f.e :: f.bs → idom b ≠ none → Anc idom b y → f.post x ≤ f.post y →
    Anc idom x y := by
  induction h with
  | refl b => intro _ _ h _; exact h
  | @up b i x e hx ih =>
    intro hb hs hy hp
    rcases List.mem_cons.1 hb with h1 | h1
    · rw [h1, ht.entry] at e
      cases e
      rw [h1] at hy
      exact ih (by simp) (by rw [ht.entry]; simp) hy hp
    · obtain ⟨p1, p2, p3⟩ := ht.parent b h1 i e
      cases hy with
      | refl =>
        have := anc_mem ht hx p1 p2
        omega
      | up e' hy =>
        rw [e] at e'
        cases e'
        exact ih p1 p2 hy hp

theorem climb_ok (hf : f.Good) (ht : Tree f idom) {t : Nat} (htm : t ∈ f.e :: f.bs) : ∀ {fuel b : Nat}, b ∈ f.e :: f.bs → idom b ≠ none → f.post f.e - f.post b < fuel →
    ∃ z, climb f.post idom fuel b t = .ok z ∧ Anc idom b z ∧ f.post t ≤ f.post z ∧ ∀ a, Anc idom b a → f.post t ≤ f.post a → Anc idom z a := by
  intro fuel
  induction fuel with
  | zero => intro b _ _ h; omega
  | succ fuel ih =>
    intro b hb hs hfu
    rw [climb]
    by_cases hlt : f.post b < f.post t
    · rw [if_pos hlt]
      have hbe : b ∈ f.bs := by
        rcases List.mem_cons.1 hb with h1 | h1
        · have := hf.le_entry htm
          rw [h1] at hlt
          omega
        · exact h1
      cases e : idom b with
      | none => exact absurd e hs
      | some i =>
        obtain ⟨p1, p2, p3⟩ := ht.parent b hbe i e
        have := hf.le_entry p1
        obtain ⟨z, h1, h2, h3, h4⟩ := ih p1 p2 (by omega)
        refine ⟨z, h1, .up e h2, h3, ?_⟩
        intro a ha hta
        cases ha with
        | refl => omega
        | up e' ha =>
          rw [e] at e'
          cases e'
          exact h4 a ha hta
    · rw [if_neg hlt]
      exact ⟨b, rfl, .refl b, by omega, fun a ha _ => ha⟩

theorem meet_ok (hf : f.Good) (ht : Tree f idom) : ∀ {fuel b1 b2 : Nat}, b1 ∈ f.e :: f.bs → idom b1 ≠ none → b2 ∈ f.e :: f.bs → idom b2 ≠ none →
    (f.post f.e - f.post b1) + (f.post f.e - f.post b2) < fuel →
    ∃ z, meet f.post idom fuel b1 b2 = .ok z ∧ Anc idom b1 z ∧ Anc idom b2 z ∧ ∀ a, Anc idom b1 a → Anc idom b2 a → Anc idom z a := by
  intro fuel
  induction fuel with
  | zero => intro b1 b2 _ _ _ _ h; omega
  | succ fuel ih =>
    intro b1 b2 hb1 hs1 hb2 hs2 hfu
    rw [meet]
    by_cases he : b1 = b2
    · rw [if_pos he]
      subst he
      exact ⟨b1, rfl, .refl _, .refl _, fun a ha _ => ha⟩
    · rw [if_neg he]
      obtain ⟨z1, e1, a1, p1, c1⟩ := climb_ok hf ht hb2 (fuel := fuel + 1) hb1 hs1 (by omega)
      obtain ⟨m1, s1, q1⟩ := anc_mem ht a1 hb1 hs1
      obtain ⟨z2, e2, a2, p2, c2⟩ := climb_ok hf ht m1 (fuel := fuel + 1) hb2 hs2 (by omega)
      obtain ⟨m2, s2, q2⟩ := anc_mem ht a2 hb2 hs2
      rw [e1, Run.bind_ok, e2, Run.bind_ok]
      have l1 := hf.le_entry m1
      have l2 := hf.le_entry m2
      have l3 := hf.le_entry hb1
      have l4 := hf.le_entry hb2
      have hne : f.post b1 ≠ f.post b2 := fun h => he (hf.inj hb1 hb2 h)
      obtain ⟨z, h1, h2, h3, h4⟩ := ih m1 s1 m2 s2 (by omega)
      refine ⟨z, h1, a1.trans h2, a2.trans h3, ?_⟩
      intro a ha1 ha2
      have r2 := (anc_mem ht ha2 hb2 hs2).2.2
      have k1 := c1 a ha1 r2
      have r1 := (anc_mem ht k1 m1 s1).2.2
      exact h4 a k1 (c2 a ha2 r1)

theorem meetAll_ok (hf : f.Good) {i : Info} (hip : i.post = f.post) (ht : Tree f i.idom) {fuel : Nat} (hfu : 2 * f.post f.e < fuel) : ∀ {ps : List Nat} {ni : Option Nat},
    (∀ p ∈ ps, i.idom p ≠ none → p ∈ f.e :: f.bs) → (∀ n, ni = some n → n ∈ f.e :: f.bs ∧ i.idom n ≠ none) →
    ∃ r, meetAll fuel i ni ps = .ok r ∧ (r = none → ni = none ∧ ∀ p ∈ ps, i.idom p = none) ∧
      ∀ z, r = some z → z ∈ f.e :: f.bs ∧ i.idom z ≠ none ∧ (∀ n, ni = some n → Anc i.idom n z) ∧ (∀ p ∈ ps, i.idom p ≠ none → Anc i.idom p z) ∧
        ∀ a, (∀ n, ni = some n → Anc i.idom n a) → (∀ p ∈ ps, i.idom p ≠ none → Anc i.idom p a) → Anc i.idom z a := by
  intro ps
  induction ps with
  | nil =>
    intro ni _ hni
    refine ⟨ni, rfl, fun h => ⟨h, by simp⟩, ?_⟩
    intro z hz
    refine ⟨(hni z hz).1, (hni z hz).2, ?_, by simp, fun a ha _ => ha z hz⟩
    intro n hn
    rw [hz] at hn
    cases hn
    exact .refl _
  | cons p ps ih =>
    intro ni hps hni
    rw [meetAll]
    by_cases hp : i.idom p = none
    · rw [if_neg (by rw [hp]; simp)]
      obtain ⟨r, e, h1, h2⟩ := ih (fun x hx => hps x (by simp [hx])) hni
      refine ⟨r, e, ?_, ?_⟩
      · intro hr
        refine ⟨(h1 hr).1, ?_⟩
        intro x hx
        rcases List.mem_cons.1 hx with h | h
        · rw [h]; exact hp
        · exact (h1 hr).2 x h
      · intro z hz
        obtain ⟨k1, k2, k3, k4, k5⟩ := h2 z hz
        refine ⟨k1, k2, k3, ?_, fun a ha1 ha2 => k5 a ha1 fun x hx => ha2 x (by simp [hx])⟩
        intro x hx hs
        rcases List.mem_cons.1 hx with h | h
        · rw [h] at hs; exact absurd hp hs
        · exact k4 x h hs
    · have hsome : (i.idom p).isSome = true := by
        cases h : i.idom p with
        | none => exact absurd h hp
        | some _ => rfl
      rw [if_pos hsome]
      have hpm := hps p (by simp) hp
      -- the meeting point with `p`
      have key : ∃ w, intersect fuel i.post i.idom ni (some p) = .ok (some w) ∧ w ∈ f.e :: f.bs ∧ i.idom w ≠ none ∧ (∀ n, ni = some n → Anc i.idom n w) ∧ Anc i.idom p w ∧
          ∀ a, (∀ n, ni = some n → Anc i.idom n a) → Anc i.idom p a → Anc i.idom w a := by
        cases ni with
        | none => exact ⟨p, rfl, hpm, hp, by simp, .refl _, fun a _ h => h⟩
        | some n =>
          obtain ⟨n1, n2⟩ := hni n rfl
          obtain ⟨w, e, h1, h2, h3⟩ := meet_ok hf ht (fuel := fuel) n1 n2 hpm hp (by omega)
          refine ⟨w, ?_, (anc_mem ht h1 n1 n2).1, (anc_mem ht h1 n1 n2).2.1, ?_, h2, ?_⟩
          · rw [hip]
            show (do let b ← meet f.post i.idom fuel n p; Run.ok (some b)) = _
            rw [e]
            rfl
          · intro m hm
            cases hm
            exact h1
          · intro a ha1 ha2
            exact h3 a (ha1 n rfl) ha2
      obtain ⟨w, ew, w1, w2, w3, w4, w5⟩ := key
      rw [ew, Run.bind_ok]
      obtain ⟨r, e, h1, h2⟩ := ih (ni := some w) (fun x hx => hps x (by simp [hx])) (by intro n hn; cases hn; exact ⟨w1, w2⟩)
      refine ⟨r, e, fun hr => ?_, ?_⟩
      · have := (h1 hr).1
        cases this
      · intro z hz
        obtain ⟨k1, k2, k3, k4, k5⟩ := h2 z hz
        have wz := k3 w rfl
        refine ⟨k1, k2, fun n hn => (w3 n hn).trans wz, ?_, ?_⟩
        · intro x hx hs
          rcases List.mem_cons.1 hx with h | h
          · rw [h]; exact w4.trans wz
          · exact k4 x h hs
        · intro a ha1 ha2
          refine k5 a ?_ fun x hx => ha2 x (by simp [hx])
          intro n hn
          cases hn
          exact w5 a ha1 (ha2 p (by simp) hp)

end

/-! ### One step -/

/-- The state of the computation when the blocks `dn` are done in the present pass. `dom d b` is any relation that holds only for `b` itself or for
all predecessors of `b`. -/
structure State (f : Flow) (dom : Nat → Nat → Prop) (idom : Nat → Option Nat) (dn : List Nat) : Prop where
  tree : Tree f idom
  out : ∀ b ∈ f.bs, ∀ p ∈ f.preds b, idom p ≠ none → p ∈ f.e :: f.bs
  set : ∀ b ∈ dn, idom b ≠ none
  fresh : ∀ b ∈ f.bs, ∀ i, idom b = some i → (b ∈ dn ∨ i ∉ f.e :: dn) → ∃ p ∈ f.preds b, p ∈ f.e :: f.bs ∧ idom p ≠ none ∧ f.post b < f.post p ∧ Anc idom p i
  common : ∀ b ∈ f.bs, ∀ i, idom b = some i → ∀ x, (∀ p ∈ f.preds b, idom p ≠ none → Anc idom p x) → Anc idom i x
  sound : ∀ b ∈ f.e :: f.bs, idom b ≠ none → ∀ d, dom d b → Anc idom b d

/-- What is used of dominators. -/
structure IsDom (f : Flow) (dom : Nat → Nat → Prop) : Prop where
  entry : ∀ d, dom d f.e → d = f.e
  back : ∀ b ∈ f.bs, ∀ p ∈ f.preds b, p ∈ f.e :: f.bs → ∀ d, dom d b → d ≠ b → dom d p

/-- The tree after a step. -/
def setI (idom : Nat → Option Nat) (c z : Nat) : Nat → Option Nat := fun x => if x = c then some z else idom x

section
variable {f : Flow} {dom : Nat → Nat → Prop} {idom : Nat → Option Nat} {dn todo : List Nat} {c z : Nat}

theorem done_iff (hf : f.Good) (hb : f.bs = dn ++ c :: todo) {x : Nat} (hx : x ∈ f.e :: f.bs) : x ∈ f.e :: dn ↔ f.post c < f.post x := by
  have hs := hf.sorted
  rw [hb] at hs
  have e : f.e :: (dn ++ c :: todo) = (f.e :: dn) ++ c :: todo := rfl
  rw [e, List.pairwise_append] at hs
  constructor
  · intro h
    exact hs.2.2 x h c (by simp)
  · intro h
    rw [hb, e] at hx
    rcases List.mem_append.1 hx with h1 | h1
    · exact h1
    · rcases List.mem_cons.1 h1 with h2 | h2
      · rw [h2] at h; omega
      · have := (List.pairwise_cons.1 hs.2.1).1 x h2
        omega

theorem anc_keep (hf : f.Good) (ht : Tree f idom) (hc : c ∈ f.bs) {p a : Nat} (h : Anc idom p a) : p ∈ f.e :: f.bs → idom p ≠ none → (¬Anc idom p c ∨ f.post a ≤ f.post c) →
    Anc (setI idom c z) p a := by
  induction h with
  | refl => intro _ _ _; exact .refl _
  | @up b i a e ha ih =>
    intro hb hs hor
    have hbc : b ≠ c := by
      intro hbc
      subst hbc
      obtain ⟨p1, p2, p3⟩ := ht.parent b hc i e
      have := (anc_mem ht ha p1 p2).2.2
      rcases hor with h | h
      · exact h (.refl _)
      · omega
    have hi : i ∈ f.e :: f.bs ∧ idom i ≠ none := by
      rcases List.mem_cons.1 hb with h1 | h1
      · rw [h1, ht.entry] at e
        cases e
        exact ⟨by simp, by rw [ht.entry]; simp⟩
      · exact ⟨(ht.parent b h1 i e).1, (ht.parent b h1 i e).2.1⟩
    refine .up (by unfold setI; rw [if_neg hbc]; exact e) (ih hi.1 hi.2 ?_)
    rcases hor with h | h
    · exact .inl fun hic => h (.up e hic)
    · exact .inr h

/-- The step: `z` is the nearest common ancestor of the predecessors of `c`. -/
theorem step_state (hf : f.Good) (hd : IsDom f dom) (h : State f dom idom dn) (hb : f.bs = dn ++ c :: todo)
    (hz : z ∈ f.e :: f.bs) (hzs : idom z ≠ none) (hzp : ∀ p ∈ f.preds c, idom p ≠ none → Anc idom p z)
    (hzl : ∀ a, (∀ p ∈ f.preds c, idom p ≠ none → Anc idom p a) → Anc idom z a) :
    State f dom (setI idom c z) (dn ++ [c]) ∧ ∀ old, idom c = some old → Anc idom old z := by
  have hc : c ∈ f.bs := by rw [hb]; simp
  have hcL : c ∈ f.e :: f.bs := by simp [hc]
  have hce := hf.ne_entry hc
  have ht := h.tree
  -- a predecessor that is done
  obtain ⟨p, hp, hpL, hpc⟩ := hf.forward c hc
  have hps : idom p ≠ none := by
    rcases List.mem_cons.1 ((done_iff hf hb hpL).2 hpc) with h1 | h1
    · rw [h1, ht.entry]; simp
    · exact h.set p h1
  have hpz := hzp p hp hps
  have hzc : f.post c < f.post z := by
    have := (anc_mem ht hpz hpL hps).2.2
    omega
  have noc : ∀ {x}, x ∈ f.e :: f.bs → idom x ≠ none → f.post c < f.post x → ¬Anc idom x c := by
    intro x hx hs hlt ha
    have := (anc_mem ht ha hx hs).2.2
    omega
  have hold : ∀ old, idom c = some old → Anc idom old z := fun old ho => h.common c hc old ho z hzp
  have set' : ∀ x, idom x ≠ none → setI idom c z x ≠ none := by
    intro x hx
    unfold setI
    split
    · simp
    · exact hx
  have eqn : ∀ {x}, x ≠ c → setI idom c z x = idom x := fun hx => if_neg hx
  have eqc : setI idom c z c = some z := if_pos rfl
  have ht' : Tree f (setI idom c z) := by
    constructor
    · rw [eqn (Ne.symm hce)]; exact ht.entry
    · intro b hbm i e
      by_cases hbc : b = c
      · rw [hbc, eqc] at e
        cases e
        rw [hbc]
        exact ⟨hz, set' z hzs, hzc⟩
      · rw [eqn hbc] at e
        obtain ⟨p1, p2, p3⟩ := ht.parent b hbm i e
        exact ⟨p1, set' i p2, p3⟩
  -- the new ancestors are old ancestors
  have sub : ∀ {b a}, Anc (setI idom c z) b a → b ∈ f.e :: f.bs → idom b ≠ none → Anc idom b a := by
    intro b a hba
    induction hba with
    | refl => intro _ _; exact .refl _
    | @up b i a e _ ih =>
      intro hbm hs
      by_cases hbc : b = c
      · rw [hbc, eqc] at e
        cases e
        have := ih hz hzs
        rw [hbc] at hs ⊢
        cases ho : idom c with
        | none => exact absurd ho hs
        | some old => exact .up ho ((hold old ho).trans this)
      · rw [eqn hbc] at e
        have hi : i ∈ f.e :: f.bs ∧ idom i ≠ none := by
          rcases List.mem_cons.1 hbm with h1 | h1
          · rw [h1, ht.entry] at e
            cases e
            exact ⟨by simp, by rw [ht.entry]; simp⟩
          · exact ⟨(ht.parent b h1 i e).1, (ht.parent b h1 i e).2.1⟩
        exact .up e (ih hi.1 hi.2)
  have q : ∀ b ∈ f.bs, ∀ i, idom b = some i → f.post i ≤ f.post c → ∃ p ∈ f.preds b, p ∈ f.e :: f.bs ∧ idom p ≠ none ∧ f.post b < f.post p ∧ Anc idom p i := by
    intro b hbm i e hic
    refine h.fresh b hbm i e (.inr ?_)
    intro hi
    have := (done_iff hf hb (ht.parent b hbm i e).1).1 hi
    omega
  refine ⟨⟨ht', ?_, ?_, ?_, ?_, ?_⟩, hold⟩
  · intro b hbm x hx hs
    by_cases hxc : x = c
    · rw [hxc]; exact hcL
    · rw [eqn hxc] at hs
      exact h.out b hbm x hx hs
  · intro b hbm
    rcases List.mem_append.1 hbm with h1 | h1
    · exact set' b (h.set b h1)
    · simp only [List.mem_singleton] at h1
      rw [h1, eqc]
      simp
  · intro b hbm i e hor
    by_cases hbc : b = c
    · rw [hbc, eqc] at e
      cases e
      rw [hbc]
      exact ⟨p, hp, hpL, set' p hps, hpc, anc_keep hf ht hc hpz hpL hps (.inl (noc hpL hps hpc))⟩
    · rw [eqn hbc] at e
      obtain ⟨i1, i2, i3⟩ := ht.parent b hbm i e
      rcases hor with h1 | h1
      · have hbd : b ∈ dn := by
          rcases List.mem_append.1 h1 with h2 | h2
          · exact h2
          · simp only [List.mem_singleton] at h2; exact absurd h2 hbc
        obtain ⟨x, x1, x2, x3, x4, x5⟩ := h.fresh b hbm i e (.inl hbd)
        have := (done_iff hf hb (by simp [hbm] : b ∈ f.e :: f.bs)).1 (by simp [hbd])
        exact ⟨x, x1, x2, set' x x3, x4, anc_keep hf ht hc x5 x2 x3 (.inl (noc x2 x3 (by omega)))⟩
      · have hnd : i ∉ f.e :: dn := fun hx => h1 (by
          rcases List.mem_cons.1 hx with hx | hx
          · simp [hx]
          · simp [hx])
        have hle : f.post i ≤ f.post c := Decidable.byContradiction fun hx => hnd ((done_iff hf hb i1).2 (by omega))
        obtain ⟨x, x1, x2, x3, x4, x5⟩ := q b hbm i e hle
        exact ⟨x, x1, x2, set' x x3, x4, anc_keep hf ht hc x5 x2 x3 (.inr hle)⟩
  · intro b hbm i e x hx
    have hall : ∀ p ∈ f.preds b, idom p ≠ none → Anc idom p x := fun p hp hs => sub (hx p hp (set' p hs)) (h.out b hbm p hp hs) hs
    by_cases hbc : b = c
    · rw [hbc, eqc] at e
      cases e
      rw [hbc] at hall
      exact anc_keep hf ht hc (hzl x hall) hz hzs (.inl (noc hz hzs hzc))
    · rw [eqn hbc] at e
      obtain ⟨i1, i2, i3⟩ := ht.parent b hbm i e
      have hix := h.common b hbm i e x hall
      by_cases hic : f.post i ≤ f.post c
      · obtain ⟨y, y1, y2, y3, y4, y5⟩ := q b hbm i e hic
        have k1 := anc_keep (z := z) hf ht hc y5 y2 y3 (.inr hic)
        have k2 := hx y y1 (set' y y3)
        exact anc_linear hf ht' k1 y2 (set' y y3) k2 (anc_mem ht hix i1 i2).2.2
      · exact anc_keep hf ht hc hix i1 i2 (.inl (noc i1 i2 (by omega)))
  · have main : ∀ n b, f.post f.e - f.post b ≤ n → b ∈ f.e :: f.bs → setI idom c z b ≠ none → ∀ d, dom d b → Anc (setI idom c z) b d := by
      intro n
      induction n with
      | zero =>
        intro b hn hbm _ d hdb
        have := hf.le_entry hbm
        have hbe := hf.inj hbm (by simp) (by omega : f.post b = f.post f.e)
        rw [hbe] at hdb ⊢
        rw [hd.entry d hdb]
        exact .refl _
      | succ n ih =>
        intro b hn hbm hs d hdb
        rcases List.mem_cons.1 hbm with hbe | hbs
        · rw [hbe] at hdb ⊢
          rw [hd.entry d hdb]
          exact .refl _
        · by_cases hdb' : d = b
          · rw [hdb']; exact .refl _
          · by_cases hbc : b = c
            · rw [hbc] at hdb hdb' ⊢
              refine .up eqc ?_
              refine anc_keep hf ht hc (hzl d ?_) hz hzs (.inl (noc hz hzs hzc))
              intro y hy hys
              have hyL := h.out c hc y hy hys
              exact h.sound y hyL hys d (hd.back c hc y hy hyL d hdb hdb')
            · rw [eqn hbc] at hs
              have hbd := h.sound b hbm hs d hdb
              cases e : idom b with
              | none => exact absurd e hs
              | some i =>
                obtain ⟨i1, i2, i3⟩ := ht.parent b hbs i e
                have hid : Anc idom i d := by
                  cases hbd with
                  | refl => exact absurd rfl hdb'
                  | up e' hx =>
                    rw [e] at e'
                    cases e'
                    exact hx
                refine .up ((eqn hbc).trans e) ?_
                by_cases hic : f.post i ≤ f.post c
                · obtain ⟨y, y1, y2, y3, y4, y5⟩ := q b hbs i e hic
                  have k1 := anc_keep (z := z) hf ht hc y5 y2 y3 (.inr hic)
                  have := hf.le_entry y2
                  have k2 := ih y (by omega) y2 (set' y y3) d (hd.back b hbs y y1 y2 d hdb hdb')
                  exact anc_linear hf ht' k1 y2 (set' y y3) k2 (anc_mem ht hid i1 i2).2.2
                · exact anc_keep hf ht hc hid i1 i2 (.inl (noc i1 i2 (by omega)))
    intro b hbm hs d hdb
    exact main _ b (Nat.le_refl _) hbm hs d hdb

end

/-! ### Passes -/

/-- How far the immediate dominator of a block can still move. -/
def rank (f : Flow) (idom : Nat → Option Nat) (b : Nat) : Nat :=
  match idom b with
  | none => f.post f.e + 1
  | some i => f.post f.e - f.post i

/-- How far the immediate dominators can still move. -/
def total (f : Flow) (idom : Nat → Option Nat) : Nat := (f.bs.map (rank f idom)).sum

theorem sum_change {r r' : Nat → Nat} {c : Nat} (hc : r' c < r c) (ho : ∀ x, x ≠ c → r' x = r x) : ∀ {l : List Nat}, c ∈ l → (l.map r').sum < (l.map r).sum := by
  have weak : ∀ l : List Nat, (l.map r').sum ≤ (l.map r).sum := by
    intro l
    induction l with
    | nil => exact Nat.le_refl _
    | cons a l ih =>
      simp only [List.map_cons, List.sum_cons]
      by_cases h : a = c
      · rw [h]; omega
      · rw [ho a h]; omega
  intro l
  induction l with
  | nil => intro h; cases h
  | cons a l ih =>
    intro h
    simp only [List.map_cons, List.sum_cons]
    by_cases hac : a = c
    · have := weak l
      rw [hac]; omega
    · rw [ho a hac]
      have := ih (by
        rcases List.mem_cons.1 h with h1 | h1
        · exact absurd h1.symm hac
        · exact h1)
      omega

theorem total_le (f : Flow) (idom : Nat → Option Nat) : total f idom ≤ f.bs.length * (f.post f.e + 1) := by
  unfold total
  generalize f.bs = l
  induction l with
  | nil => simp
  | cons a l ih =>
    simp only [List.map_cons, List.sum_cons, List.length_cons, Nat.add_mul, Nat.one_mul]
    have : rank f idom a ≤ f.post f.e + 1 := by
      unfold rank
      split <;> omega
    omega

/-- What a pass does. -/
structure Passed (f : Flow) (dom : Nat → Nat → Prop) (s s' : Info × Bool) (fuel : Nat) (todo : List Nat) : Prop where
  state : State f dom s'.1.idom f.bs
  post : s'.1.post = s.1.post
  depth : s'.1.depth = s.1.depth
  other : ∀ x, x ∉ f.bs → s'.1.idom x = s.1.idom x
  progress : (s' = s ∧ ∀ b ∈ todo, meetAll fuel s.1 none (f.preds b) = .ok (s.1.idom b)) ∨ (s'.2 = true ∧ total f s'.1.idom < total f s.1.idom)

theorem pass_ok {f : Flow} {dom : Nat → Nat → Prop} (hf : f.Good) (hd : IsDom f dom) {g : Graph} {fuel : Nat} (hfu : 2 * f.post f.e < fuel)
    (hn : ∀ i, ∀ b ∈ f.bs, newIdom fuel g i b = meetAll fuel i none (f.preds b)) : ∀ {todo dn : List Nat} {s : Info × Bool}, f.bs = dn ++ todo → s.1.post = f.post →
    State f dom s.1.idom dn → ∃ s', domPass fuel g s todo = .ok s' ∧ Passed f dom s s' fuel todo := by
  intro todo
  induction todo with
  | nil =>
    intro dn s hb _ hs
    rw [List.append_nil] at hb
    refine ⟨s, rfl, by rw [hb]; exact hs, rfl, rfl, fun _ _ => rfl, .inl ⟨rfl, by simp⟩⟩
  | cons c todo ih =>
    intro dn s hb hip hs
    have hc : c ∈ f.bs := by rw [hb]; simp
    obtain ⟨r, e, h1, h2⟩ := meetAll_ok hf hip hs.tree hfu (ps := f.preds c) (ni := none) (hs.out c hc) (by simp)
    have hrs : ∃ z, r = some z := by
      cases r with
      | some z => exact ⟨z, rfl⟩
      | none =>
        obtain ⟨p, hp, hpL, hpc⟩ := hf.forward c hc
        have := (h1 rfl).2 p hp
        rcases List.mem_cons.1 ((done_iff hf hb hpL).2 hpc) with h1 | h1
        · rw [h1, hs.tree.entry] at this; cases this
        · exact absurd this (hs.set p h1)
    obtain ⟨z, rfl⟩ := hrs
    obtain ⟨z1, z2, -, z4, z5⟩ := h2 z rfl
    obtain ⟨hstep, hold⟩ := step_state hf hd hs hb z1 z2 z4 (fun a ha => z5 a (by simp) ha)
    rw [domPass, hn s.1 c hc, e, Run.bind_ok]
    have hb' : f.bs = (dn ++ [c]) ++ todo := by rw [hb]; simp
    by_cases hch : s.1.idom c ≠ some z
    · rw [if_pos hch]
      obtain ⟨s', e', hp⟩ := ih (s := (s.1.setIdom c (some z), true)) hb' hip hstep
      have hlt : total f (setI s.1.idom c z) < total f s.1.idom := by
        refine sum_change (c := c) ?_ ?_ hc
        · show rank f (setI s.1.idom c z) c < rank f s.1.idom c
          unfold rank
          rw [show setI s.1.idom c z c = some z from if_pos rfl]
          cases ho : s.1.idom c with
          | none => dsimp only; omega
          | some old =>
            dsimp only
            obtain ⟨o1, o2, o3⟩ := hs.tree.parent c hc old ho
            have h3 := (anc_mem hs.tree (hold old ho) o1 o2).2.2
            have h4 : f.post old ≠ f.post z := fun h => hch (by rw [ho, hf.inj o1 z1 h])
            have h5 := hf.le_entry z1
            omega
        · intro x hx
          unfold rank
          rw [show setI s.1.idom c z x = s.1.idom x from if_neg hx]
      refine ⟨s', e', hp.state, hp.post, hp.depth, ?_, .inr ?_⟩
      · intro x hx
        rw [hp.other x hx]
        exact if_neg fun (h : x = c) => hx (h ▸ hc)
      · rcases hp.progress with ⟨h, -⟩ | ⟨h, h'⟩
        · rw [h]
          exact ⟨rfl, hlt⟩
        · exact ⟨h, Nat.lt_trans h' hlt⟩
    · rw [if_neg hch]
      have hch := Decidable.byContradiction hch
      have hsame : setI s.1.idom c z = s.1.idom := by
        funext x
        unfold setI
        split
        · rename_i h; rw [h, hch]
        · rfl
      rw [hsame] at hstep
      obtain ⟨s', e', hp⟩ := ih (s := s) hb' hip hstep
      refine ⟨s', e', hp.state, hp.post, hp.depth, hp.other, ?_⟩
      rcases hp.progress with ⟨h, h'⟩ | h
      · refine .inl ⟨h, ?_⟩
        intro b hbm
        rcases List.mem_cons.1 hbm with h1 | h1
        · rw [h1, e, hch]
        · exact h' b h1
      · exact .inr h

theorem State.restart {f : Flow} {dom : Nat → Nat → Prop} {idom : Nat → Option Nat} (h : State f dom idom f.bs) : State f dom idom [] :=
  ⟨h.tree, h.out, by simp, fun b hb i e _ => h.fresh b hb i e (.inl hb), h.common, h.sound⟩

/-- The result of the loop. -/
structure Fixed (f : Flow) (dom : Nat → Nat → Prop) (i i' : Info) (fuel : Nat) : Prop where
  state : State f dom i'.idom f.bs
  post : i'.post = i.post
  depth : i'.depth = i.depth
  other : ∀ x, x ∉ f.bs → i'.idom x = i.idom x
  fix : ∀ b ∈ f.bs, meetAll fuel i' none (f.preds b) = .ok (i'.idom b)

theorem loop_ok {f : Flow} {dom : Nat → Nat → Prop} (hf : f.Good) (hd : IsDom f dom) {g : Graph} {fuel : Nat} (hfu : 2 * f.post f.e < fuel)
    (hn : ∀ i, ∀ b ∈ f.bs, newIdom fuel g i b = meetAll fuel i none (f.preds b)) : ∀ {k : Nat} {i : Info}, total f i.idom < k → i.post = f.post →
    State f dom i.idom [] → ∃ i', domLoop fuel g f.bs k i = .ok i' ∧ Fixed f dom i i' fuel := by
  intro k
  induction k with
  | zero => intro i h; omega
  | succ k ih =>
    intro i hk hip hs
    obtain ⟨s, e, hp⟩ := pass_ok hf hd hfu hn (dn := []) (s := (i, false)) rfl hip hs
    rw [domLoop, e, Run.bind_ok]
    rcases hp.progress with ⟨h, h'⟩ | ⟨h, h'⟩
    · rw [h]
      refine ⟨i, rfl, ?_, rfl, rfl, fun _ _ => rfl, h'⟩
      have := hp.state
      rw [h] at this
      exact this
    · rw [if_pos h]
      obtain ⟨i', e', hr⟩ := ih (i := s.1) (by dsimp only at h'; omega) (by rw [hp.post]; exact hip) hp.state.restart
      refine ⟨i', e', hr.state, by rw [hr.post, hp.post], by rw [hr.depth, hp.depth], ?_, hr.fix⟩
      intro x hx
      rw [hr.other x hx, hp.other x hx]

/-- In the end an ancestor of a block is the block itself or an ancestor of all predecessors. -/
theorem fixed_back {f : Flow} {dom : Nat → Nat → Prop} (hf : f.Good) {i i' : Info} {fuel : Nat} (hip : i.post = f.post) (hfu : 2 * f.post f.e < fuel)
    (h : Fixed f dom i i' fuel) {b : Nat} (hb : b ∈ f.bs) {p : Nat} (hp : p ∈ f.preds b) (hpL : p ∈ f.e :: f.bs) {a : Nat} (ha : Anc i'.idom b a) (hab : a ≠ b) :
    Anc i'.idom p a := by
  obtain ⟨r, e, -, h2⟩ := meetAll_ok hf (h.post.trans hip) h.state.tree hfu (ps := f.preds b) (ni := none) (h.state.out b hb) (by simp)
  rw [h.fix b hb] at e
  injection e with e
  cases ha with
  | refl => exact absurd rfl hab
  | @up _ z _ hz ha =>
    obtain ⟨-, -, -, z4, -⟩ := h2 z (e.symm.trans hz)
    refine (z4 p hp ?_).trans ha
    rcases List.mem_cons.1 hpL with h1 | h1
    · rw [h1, h.state.tree.entry]; simp
    · exact h.state.set p h1

/-- The initial state. -/
theorem initial_state {f : Flow} {dom : Nat → Nat → Prop} (hf : f.Good) (hd : IsDom f dom) {idom : Nat → Option Nat} (h0 : ∀ b ∈ f.bs, idom b = none)
    (ho : ∀ b ∈ f.bs, ∀ p ∈ f.preds b, idom p ≠ none → p ∈ f.e :: f.bs) : State f dom (setI idom f.e f.e) [] := by
  have hb : ∀ b ∈ f.bs, setI idom f.e f.e b = none := fun b hb => by
    unfold setI
    rw [if_neg (hf.ne_entry hb), h0 b hb]
  refine ⟨⟨if_pos rfl, ?_⟩, ?_, by simp, ?_, ?_, ?_⟩
  · intro b hbm i e
    rw [hb b hbm] at e
    cases e
  · intro b hbm p hp hs
    by_cases hpe : p = f.e
    · simp [hpe]
    · unfold setI at hs
      rw [if_neg hpe] at hs
      exact ho b hbm p hp hs
  · intro b hbm i e
    rw [hb b hbm] at e
    cases e
  · intro b hbm i e
    rw [hb b hbm] at e
    cases e
  · intro b hbm hs d hdb
    rcases List.mem_cons.1 hbm with h | h
    · rw [h] at hdb ⊢
      rw [hd.entry d hdb]
      exact .refl _
    · exact absurd (hb b h) hs

/-! ### Depths -/

theorem depths_ok {f : Flow} {idom : Nat → Option Nat} (hf : f.Good) (ht : Tree f idom) (hs : ∀ b ∈ f.bs, idom b ≠ none) : ∀ {todo dn : List Nat} {i : Info}, f.bs = dn ++ todo →
    i.idom = idom → i.depth f.e = 1 → (∀ b ∈ dn, ∀ d, idom b = some d → i.depth b = i.depth d + 1) →
    ∃ i', depths i todo = .ok i' ∧ i'.idom = idom ∧ i'.post = i.post ∧ i'.depth f.e = 1 ∧ (∀ x, x ∉ todo → i'.depth x = i.depth x) ∧
      ∀ b ∈ f.bs, ∀ d, idom b = some d → i'.depth b = i'.depth d + 1 := by
  intro todo
  induction todo with
  | nil =>
    intro dn i hb hi he hd
    rw [List.append_nil] at hb
    rw [← hb] at hd
    exact ⟨i, rfl, hi, rfl, he, fun _ _ => rfl, hd⟩
  | cons c todo ih =>
    intro dn i hb hi he hd
    have hc : c ∈ f.bs := by rw [hb]; simp
    rw [depths, hi]
    cases hz : idom c with
    | none => exact absurd hz (hs c hc)
    | some z =>
      dsimp only
      have hb' : f.bs = (dn ++ [c]) ++ todo := by rw [hb]; simp
      have hpar := ht.parent c hc z hz
      have hzc : z ≠ c := fun h => by
        have := hpar.2.2
        rw [h] at this
        omega
      obtain ⟨i', e, h1, h2, h3, h4, h5⟩ := ih (i := { i with depth := fun x => if x = c then i.depth z + 1 else i.depth x }) hb' hi (by
          dsimp only
          rw [if_neg (Ne.symm (hf.ne_entry hc))]
          exact he) (by
          intro b hbm d hbd
          dsimp only
          rcases List.mem_append.1 hbm with h | h
          · have hbc : f.post c < f.post b := (done_iff hf hb (by rw [hb]; simp [h])).1 (by simp [h])
            have hbb : b ∈ f.bs := by rw [hb]; simp [h]
            have hpd := (ht.parent b hbb d hbd).2.2
            rw [if_neg (fun (hx : b = c) => by rw [hx] at hbc; omega), if_neg (fun (hx : d = c) => by rw [hx] at hpd; omega)]
            exact hd b h d hbd
          · simp only [List.mem_singleton] at h
            rw [h] at hbd ⊢
            rw [hz] at hbd
            cases hbd
            rw [if_pos rfl, if_neg hzc])
      refine ⟨i', by rw [hi] at e; exact e, h1, h2, h3, ?_, h5⟩
      intro x hx
      rw [h4 x (fun h => hx (by simp [h]))]
      exact if_neg fun (h : x = c) => hx (by simp [h])

end Verif.Ir
