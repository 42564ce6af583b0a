import Verif.Mem2regPromoteLemmas
/-!
What the graphs before and after the removal of a variable compute.
-/
namespace Verif.Ir
open Verif Verif.IrSpec
open Classical

/-- Values can be given to all nodes at once, if the value of a node depends on nodes of smaller rank only. -/
theorem solve {α : Type} (x0 : α) (rank : Nat → Nat) (F : Nat → (Nat → α) → α)
    (hF : ∀ n σ σ', (∀ k, rank k < rank n → σ k = σ' k) → F n σ = F n σ') : ∃ σ : Nat → α, ∀ n, σ n = F n σ := by
  let τ : Nat → Nat → α := fun k => Nat.rec (fun _ => x0) (fun _ t n => F n t) k
  have hτ : ∀ k n, τ (k + 1) n = F n (τ k) := fun _ _ => rfl
  have stable : ∀ k n, rank n < k → τ (k + 1) n = τ k n := by
    intro k
    induction k with
    | zero => intro n h; omega
    | succ k ih =>
      intro n h
      rw [hτ (k + 1), hτ k]
      exact hF n _ _ fun j hj => ih j (by omega)
  have far : ∀ d k n, rank n < k → τ (k + d) n = τ k n := by
    intro d
    induction d with
    | zero => intro k n _; rfl
    | succ d ih =>
      intro k n h
      have := stable (k + d) n (by omega)
      rw [← Nat.add_assoc, this, ih k n h]
  refine ⟨fun n => τ (rank n + 1) n, fun n => ?_⟩
  show τ (rank n + 1) n = _
  rw [hτ]
  refine hF n _ _ fun k hk => ?_
  show τ (rank n) k = τ (rank k + 1) k
  obtain ⟨d, hd⟩ : ∃ d, rank n = rank k + 1 + d := ⟨rank n - (rank k + 1), by omega⟩
  rw [hd]
  exact far d _ k (by omega)

/-- The state before the node `n`. -/
noncomputable def prior (g : Graph) (n : Nat) : Option Nat :=
  if h : ∃ p, Replaces g n p ∨ IsProjection g n p then some h.choose else none

theorem prior_eq {g : Graph} {n p : Nat} (h : Replaces g n p ∨ IsProjection g n p) : prior g n = some p := by
  have he : ∃ p, Replaces g n p ∨ IsProjection g n p := ⟨p, h⟩
  unfold prior
  rw [dif_pos he]
  exact congrArg some (before_unique he.choose_spec h)

theorem prior_some {g : Graph} {n p : Nat} (h : prior g n = some p) : Replaces g n p ∨ IsProjection g n p := by
  unfold prior at h
  split at h
  · rename_i he
    injection h with h
    rw [← h]
    exact he.choose_spec
  · cases h

theorem prior_operand {g : Graph} {n p : Nat} (h : Replaces g n p ∨ IsProjection g n p) :
    Operand g n p ∧ (g.node n).kind ≠ .phi ∧ (g.node n).kind ≠ .region ∧ (g.node n).kind ≠ .function := by
  rcases h with ⟨i, h1, h2⟩ | ⟨h1, h2⟩
  · refine ⟨⟨i, h2⟩, ?_, ?_, ?_⟩ <;> intro e <;> rw [e] at h1 <;> cases h1
  · refine ⟨⟨0, h2⟩, ?_, ?_, ?_⟩ <;> rw [h1] <;> decide

/-- The equations between what the nodes of `g` have computed. -/
structure Filled {X : Type} (g : Graph) (a : Nat) (m : Meaning X) (init ψ : Nat → X) (e : Env X) : Prop where
  load : ∀ n s, Access g a n → (g.node n).kind = .load → (g.node n).args 1 = some s → e.out n = e.var s
  route : ∀ n p, Access g a n → Replaces g n p → e.out n = e.out p
  store : ∀ n v, Access g a n → (∃ p, Replaces g n p) → (g.node n).kind = .store → (g.node n).args 1 = some v → e.var n = e.out v
  clear : ∀ n, Access g a n → (∃ p, Replaces g n p) → (g.node n).kind = .setZeroPtr → e.var n = m.zero
  through : ∀ n p, ¬Access g a n → Replaces g n p ∨ IsProjection g n p → e.var n = e.var p
  start : ∀ n, n < g.size → (g.node n).kind = .function → e.var n = init n
  phi : ∀ n, n < g.size → (g.node n).kind = .phi → e.var n = ψ n

theorem Filled.holds {X : Type} {g : Graph} {a : Nat} {m : Meaning X} {init ψ : Nat → X} {e : Env X} (F : Filled g a m init ψ e)
    (h : ∀ n, n < g.size → ¬Access g a n → (g.node n).kind ≠ .phi → (g.node n).kind ≠ .region → e.out n = m.op n fun i => ((g.node n).args i).map e.out) :
    Holds g a m init e := by
  refine ⟨?_, ?_, ?_, h, fun n s _ h1 h2 => F.through n s h2 h1, F.start⟩
  · intro n s _ hk h0 h1
    exact F.load n s ⟨.inl hk, h0⟩ hk h1
  · intro n v s _ hk h0 h1 h2
    have hr : Replaces g n s := ⟨2, by rw [hk]; rfl, h2⟩
    exact ⟨F.route n s ⟨.inr (.inl hk), h0⟩ hr, F.store n v ⟨.inr (.inl hk), h0⟩ ⟨s, hr⟩ hk h1⟩
  · intro n s _ hk h0 h1
    have hr : Replaces g n s := ⟨1, by rw [hk]; rfl, h1⟩
    exact ⟨F.route n s ⟨.inr (.inr hk), h0⟩ hr, F.clear n ⟨.inr (.inr hk), h0⟩ ⟨s, hr⟩ hk⟩

theorem Holds.filled {X : Type} {g : Graph} (hg : Inv g) {a : Nat} {m : Meaning X} {init : Nat → X} {e : Env X}
    (hv : ∀ n, Access g a n → (g.node n).kind = .store → ∃ v, (g.node n).args 1 = some v)
    (H : Holds g a m init e) : Filled g a m init e.var e := by
  have lt : ∀ n, Access g a n → n < g.size := fun n h => (hg.closed n 0 a h.2).2.1
  have rk : ∀ n p, Access g a n → Replaces g n p → ((g.node n).kind = .store ∧ (g.node n).args 2 = some p) ∨
      ((g.node n).kind = .setZeroPtr ∧ (g.node n).args 1 = some p) := by
    rintro n p ⟨h | h | h, _⟩ ⟨i, h1, h2⟩ <;> rw [h] at h1
    · cases h1
    · injection h1 with h1
      subst h1
      exact .inl ⟨h, h2⟩
    · injection h1 with h1
      subst h1
      exact .inr ⟨h, h2⟩
  refine ⟨fun n s h hk h1 => H.load n s (lt n h) hk h.2 h1, ?_, ?_, ?_, ?_, H.start, fun _ _ _ => rfl⟩
  · intro n p h hr
    rcases rk n p h hr with ⟨h1, h2⟩ | ⟨h1, h2⟩
    · obtain ⟨v, hv'⟩ := hv n h h1
      exact (H.store n v p (lt n h) h1 h.2 hv' h2).1
    · exact (H.clear n p (lt n h) h1 h.2 h2).1
  · rintro n v h ⟨p, hr⟩ hk h1
    rcases rk n p h hr with ⟨h2, h3⟩ | ⟨h2, h3⟩
    · exact (H.store n v p (lt n h) h2 h.2 h1 h3).2
    · rw [hk] at h2; cases h2
  · rintro n h ⟨p, hr⟩ hk
    rcases rk n p h hr with ⟨h2, h3⟩ | ⟨h2, h3⟩
    · rw [hk] at h2; cases h2
    · exact (H.clear n p (lt n h) h2 h.2 h3).2
  · intro n p h hr
    refine H.through n p ?_ hr h
    obtain ⟨⟨i, hi⟩, _⟩ := prior_operand hr
    exact (hg.closed n i p hi).2.1

theorem filled {X : Type} {g : Graph} {a : Nat} (m : Meaning X) (init o ψ : Nat → X) {rank : Nat → Nat}
    (hr : ∀ u n, Operand g u n → (g.node u).kind ≠ .phi → (g.node u).kind ≠ .region → rank n < rank u) : ∃ e, (∀ n, ¬Access g a n → Env.out e n = o n) ∧ Filled g a m init ψ e := by
  let F : Nat → (Nat → X × X) → X × X := fun n σ =>
    if Access g a n then
      if (g.node n).kind = .load then
        (match (g.node n).args 1 with | some s => (σ s).2 | none => o n, o n)
      else
        (match prior g n with | some p => (σ p).1 | none => o n,
         if (g.node n).kind = .store then match (g.node n).args 1 with | some v => (σ v).1 | none => o n
         else m.zero)
    else
      (o n, if (g.node n).kind = .function then init n else if (g.node n).kind = .phi then ψ n else
        match prior g n with | some p => (σ p).2 | none => o n)
  have hF : ∀ n σ σ', (∀ k, rank k < rank n → σ k = σ' k) → F n σ = F n σ' := by
    intro n σ σ' h
    have hp : ∀ p, prior g n = some p → σ p = σ' p := by
      intro p hp
      obtain ⟨h1, h2, h3, _⟩ := prior_operand (prior_some hp)
      exact h p (hr n p h1 h2 h3)
    have h1 : ∀ x, Access g a n → (g.node n).args 1 = some x → σ x = σ' x := by
      intro x hx ha
      refine h x (hr n x ⟨1, ha⟩ ?_ ?_) <;> intro e <;> obtain ⟨hk | hk | hk, _⟩ := hx <;> rw [e] at hk <;> cases hk
    show (if _ then _ else _) = (if _ then _ else _)
    by_cases ha : Access g a n
    · rw [if_pos ha, if_pos ha]
      by_cases hl : (g.node n).kind = .load
      · rw [if_pos hl, if_pos hl]
        cases hx : (g.node n).args 1 with
        | none => rfl
        | some x => simp only [h1 x ha hx]
      · rw [if_neg hl, if_neg hl]
        cases hq : prior g n with
        | none =>
          cases hx : (g.node n).args 1 with
          | none => rfl
          | some x => simp only [h1 x ha hx]
        | some p =>
          cases hx : (g.node n).args 1 with
          | none => simp only [hp p hq]
          | some x => simp only [hp p hq, h1 x ha hx]
    · rw [if_neg ha, if_neg ha]
      cases hq : prior g n with
      | none => rfl
      | some p => simp only [hp p hq]
  obtain ⟨σ, hσ⟩ := solve (m.zero, m.zero) rank F hF
  have eF : ∀ n, σ n = if Access g a n then
      if (g.node n).kind = .load then
        (match (g.node n).args 1 with | some s => (σ s).2 | none => o n, o n)
      else
        (match prior g n with | some p => (σ p).1 | none => o n,
         if (g.node n).kind = .store then match (g.node n).args 1 with | some v => (σ v).1 | none => o n
         else m.zero)
    else
      (o n, if (g.node n).kind = .function then init n else if (g.node n).kind = .phi then ψ n else
        match prior g n with | some p => (σ p).2 | none => o n) := hσ
  have nacc : ∀ n, ((g.node n).kind = .function ∨ (g.node n).kind = .phi) → ¬Access g a n := by
    rintro n h ⟨hk | hk | hk, _⟩ <;> rw [hk] at h <;> rcases h with h | h <;> cases h
  refine ⟨⟨fun n => (σ n).1, fun n => (σ n).2⟩, ?_, ?_, ?_, ?_, ?_, ?_, ?_, ?_⟩
  · intro n h
    show (σ n).1 = _
    rw [eF n, if_neg h]
  · intro n s h hk h1
    show (σ n).1 = (σ s).2
    rw [eF n, if_pos h, if_pos hk, h1]
  · intro n p h hr
    show (σ n).1 = (σ p).1
    have hk : (g.node n).kind ≠ .load := by
      intro e
      obtain ⟨i, h1, _⟩ := hr
      rw [e] at h1
      cases h1
    rw [eF n, if_pos h, if_neg hk, prior_eq (.inl hr)]
  · intro n v h _ hk h1
    show (σ n).2 = (σ v).1
    rw [eF n, if_pos h, if_neg (by rw [hk]; decide), if_pos hk, h1]
  · intro n h _ hk
    show (σ n).2 = m.zero
    rw [eF n, if_pos h, if_neg (by rw [hk]; decide), if_neg (by rw [hk]; decide)]
  · intro n p h h2
    show (σ n).2 = (σ p).2
    obtain ⟨-, h3, -, h4⟩ := prior_operand h2
    rw [eF n, if_neg h, if_neg h4, if_neg h3, prior_eq h2]
  · intro n _ h
    show (σ n).2 = _
    rw [eF n, if_neg (nacc n (.inl h)), if_pos h]
  · intro n _ h
    show (σ n).2 = _
    rw [eF n, if_neg (nacc n (.inr h)), if_neg (by rw [h]; decide), if_pos h]

namespace Promoted

variable {g h : Graph} {a : Nat} {memo : Nat → Option Nat}

theorem access (P : Promoted g a h memo) {n : Nat} (hn : n < g.size) : Access h a n ↔ Access g a n := by
  unfold Access
  rw [P.kind n hn, P.address n hn]

theorem new_access (P : Promoted g a h memo) {n : Nat} (h1 : g.size ≤ n) : ¬Access h a n := by
  rintro ⟨hk, h0⟩
  have h2 : n < h.size := (P.inv.closed n 0 a h0).2.1
  rcases P.fresh n h1 h2 with ⟨h3, _⟩ | ⟨h3 | h3, _⟩ <;> rw [h3] at hk <;> rcases hk with hk | hk | hk <;> cases hk

theorem new_plain (P : Promoted g a h memo) {n : Nat} (h1 : g.size ≤ n) (h2 : n < h.size) (hk : (h.node n).kind ≠ .phi) :
    ((h.node n).kind = zeroKind ∨ (h.node n).kind = undefinedKind) ∧ ∀ i, (h.node n).args i = .none := by
  rcases P.fresh n h1 h2 with ⟨h3, _⟩ | h3
  · exact absurd h3 hk
  · exact h3

/-- The contents before the pass are the values found by the pass. -/
theorem var_eq {X : Type} (P : Promoted g a h memo) (hg : Inv g) (hv : Variable g a) {m : Meaning X} {init ψ : Nat → X} {e e' : Env X}
    (F : Filled g a m init ψ e)
    (hphi : ∀ s v, memo s = some v → (g.node s).kind = .phi → g.size ≤ v → v < h.size → (h.node v).kind = .phi → e.var s = e'.out v)
    (hold : ∀ v, v < g.size → ¬Access g a v → e.out v = e'.out v)
    (hzero : ∀ v, g.size ≤ v → v < h.size → (h.node v).kind = zeroKind → e'.out v = m.zero)
    (hundef : ∀ s v, memo s = some v → g.size ≤ v → v < h.size → (g.node s).kind = .function → (h.node v).kind = undefinedKind → e'.out v = init s) :
    ∀ s v, memo s = some v → e.var s = e'.out v := by
  obtain ⟨rank, hr⟩ := hv.acyclic
  have key : ∀ k s v, rank s < k → memo s = some v → e.var s = e'.out v := by
    intro k
    induction k with
    | zero => intro s v h; omega
    | succ k ih =>
      intro s v hk hm
      obtain ⟨hsg, hvh, hva⟩ := P.vals s v hm
      cases P.good s v hm with
      | phi h1 h2 h3 => exact hphi s v hm h1 h2 hvh h3
      | store h1 h2 h3 =>
        have ha : Access g a s := ⟨.inr (.inl h1), h2⟩
        rw [F.store s v ha (hv.stated s ha (by rw [h1]; decide)) h1 h3]
        have hvg : v < g.size := (hg.closed s 1 v h3).2.2
        exact hold v hvg (hva hvg)
      | clear h1 h2 h3 h4 =>
        have ha : Access g a s := ⟨.inr (.inr h1), h2⟩
        rw [F.clear s ha (hv.stated s ha (by rw [h1]; decide)) h1]
        exact (hzero v h3 hvh h4).symm
      | start h1 h2 h3 => rw [F.start s hsg h1]; exact (hundef s v hm h2 hvh h1 h3).symm
      | through h1 h2 h3 =>
        rename_i p
        rw [F.through s p h1 h2]
        obtain ⟨h4, h5, h6, _⟩ := prior_operand h2
        have := hr s p h4 h5 h6
        exact ih p v (by omega) h3
  exact fun s v hm => key _ s v (Nat.lt_succ_self _) hm

/-- What an operand computed before, the operand it became computes afterwards. -/
theorem out_eq {X : Type} (hg : Inv g) {m : Meaning X} {init ψ : Nat → X} {e e' : Env X}
    (F : Filled g a m init ψ e)
    (hold : ∀ v, v < g.size → ¬Access g a v → e.out v = e'.out v)
    (hvar : ∀ s v, memo s = some v → e.var s = e'.out v) {x y : Nat} (hx : x < g.size) (hb : Becomes g a memo x y) : e.out x = e'.out y := by
  cases hb with
  | same h1 h2 => subst h2; exact hold _ hx h1
  | load h1 h2 h3 h4 => rw [F.load x _ h1 h2 h3]; exact hvar _ _ h4
  | store h1 h2 h3 h4 =>
    clear h1 h2
    induction h3 with
    | refl => exact hold _ hx h4
    | @step x p y h5 h6 h7 ih =>
      rw [F.route x p h5 h6]
      obtain ⟨⟨i, hi⟩, _⟩ := prior_operand (.inl h6)
      exact ih (hg.closed x i p hi).2.2 h4

theorem args_eq {X : Type} (P : Promoted g a h memo) (hg : Inv g) {m : Meaning X} {init ψ : Nat → X} {e e' : Env X}
    (F : Filled g a m init ψ e)
    (hold : ∀ v, v < g.size → ¬Access g a v → e.out v = e'.out v)
    (hvar : ∀ s v, memo s = some v → e.var s = e'.out v) {n : Nat} (hn : n < g.size) (i : Nat) :
    ((g.node n).args i).map e.out = ((h.node n).args i).map e'.out := by
  cases hx : (g.node n).args i with
  | none => rw [P.absent n i hn hx]; rfl
  | some x =>
    obtain ⟨y, hy, hb⟩ := P.operand n i x hn hx
    rw [hy]
    exact congrArg some (out_eq hg F hold hvar (hg.closed n i x hx).2.2 hb)

theorem same_arg (P : Promoted g a h memo) {n i : Nat} (hn : n < g.size) (ha : ∀ x, (g.node n).args i = some x → ¬Access g a x) :
    (h.node n).args i = (g.node n).args i := by
  cases hx : (g.node n).args i with
  | none => exact P.absent n i hn hx
  | some x =>
    obtain ⟨y, hy, hb⟩ := P.operand n i x hn hx
    cases hb with
    | same _ h2 => rw [hy, h2]
    | load h1 => exact absurd h1 (ha x hx)
    | store h1 => exact absurd h1 (ha x hx)

theorem good_phi (P : Promoted g a h memo) {s v : Nat} (hm : memo s = some v) (hk : (g.node s).kind = .phi) :
    g.size ≤ v ∧ (h.node v).kind = .phi ∧ (h.node v).args 0 = (g.node s).args 0 ∧
      (∀ i, i = 1 ∨ i = 2 → ∀ p, (g.node s).args i = some p → ∃ w, memo p = some w ∧ (h.node v).args i = some w) ∧
      ∀ i, i = 1 ∨ i = 2 → (g.node s).args i = .none → (h.node v).args i = .none := by
  cases P.good s v hm with
  | phi _ h2 h3 h4 h5 h6 => exact ⟨h2, h3, h4, h5, h6⟩
  | store h1 => rw [hk] at h1; cases h1
  | clear h1 => rw [hk] at h1; cases h1
  | start h1 => rw [hk] at h1; cases h1
  | through _ h1 => exact absurd hk (prior_operand h1).2.1

/-- The values `e` of the nodes of `g` fit the values `e'` of the nodes of `h`. -/
structure Sim {X : Type} (g : Graph) (a : Nat) (memo : Nat → Option Nat) (e e' : Env X) : Prop where
  old : ∀ n, n < g.size → ¬Access g a n → e.out n = e'.out n
  var : ∀ s v, memo s = some v → e.var s = e'.out v
  out : ∀ x y, x < g.size → Becomes g a memo x y → e.out x = e'.out y

/-- The contents of the variable when the function starts: the values of the undefined nodes. -/
def startOf {X : Type} (m : Meaning X) (memo : Nat → Option Nat) (f : Nat) : X :=
  match memo f with
  | some v => m.op v fun _ => .none
  | .none => m.zero

theorem lift {X : Type} (P : Promoted g a h memo) (hg : Inv g) (hv : Variable g a) {m : Meaning X}
    (hz : ∀ n, g.size ≤ n → n < h.size → (h.node n).kind = zeroKind → ∀ x, m.op n x = m.zero) {init' : Nat → X} {e' : Env X} (H : Holds h a m init' e')
    (ψ : Nat → X) : ∃ e, Holds g a m (startOf m memo) e ∧ Sim g a memo e e' ∧ ∀ p, p < g.size → (g.node p).kind = .phi → memo p = .none → e.var p = ψ p := by
  obtain ⟨rank, hr⟩ := hv.acyclic
  obtain ⟨e, ho, F⟩ := filled (a := a) m (startOf m memo) e'.out (fun n => match memo n with | some v => e'.out v | .none => ψ n) hr
  have hnew : ∀ v, g.size ≤ v → v < h.size → (h.node v).kind = zeroKind ∨ (h.node v).kind = undefinedKind → e'.out v = m.op v fun _ => .none := by
    intro v h1 h2 h3
    have hk : (h.node v).kind ≠ .phi := by rcases h3 with h3 | h3 <;> rw [h3] <;> decide
    rw [H.other v h2 (P.new_access h1) hk (by rcases h3 with h3 | h3 <;> rw [h3] <;> decide)]
    refine congrArg (m.op v) ?_
    funext i
    rw [(P.new_plain h1 h2 hk).2 i]
    rfl
  have hold : ∀ v, v < g.size → ¬Access g a v → e.out v = e'.out v := fun v _ h => ho v h
  have hvar : ∀ s v, memo s = some v → e.var s = e'.out v := by
    refine P.var_eq hg hv F ?_ hold ?_ ?_
    · intro s v hm hk _ _ _
      rw [F.phi s (P.vals s v hm).1 hk, hm]
    · intro v h1 h2 h3
      rw [hnew v h1 h2 (.inl h3)]
      exact hz v h1 h2 h3 _
    · intro s v hm h1 h2 _ h3
      rw [hnew v h1 h2 (.inr h3)]
      unfold startOf
      rw [hm]
  refine ⟨e, F.holds ?_, ⟨hold, hvar, fun x y hx hb => out_eq hg F hold hvar hx hb⟩, ?_⟩
  · intro n hn ha hk1 hk2
    have hs := P.size
    rw [hold n hn ha, H.other n (by omega) (fun h => ha ((P.access hn).1 h)) (by rw [P.kind n hn]; exact hk1) (by rw [P.kind n hn]; exact hk2)]
    refine congrArg (m.op n) ?_
    funext i
    exact (P.args_eq hg F hold hvar hn i).symm
  · intro p hp hk hm
    rw [F.phi p hp hk, hm]

/-- No node takes part in computing itself after the pass, except through a phi. -/
theorem acyclic (P : Promoted g a h memo) (hg : Inv g) (hv : Variable g a) :
    ∃ rank : Nat → Nat, ∀ u n, Operand h u n → (h.node u).kind ≠ .phi → (h.node u).kind ≠ .region → rank n < rank u := by
  obtain ⟨rank, hr⟩ := hv.acyclic
  have hgood : ∀ k s v, rank s < k → memo s = some v → v < g.size → rank v < rank s := by
    intro k
    induction k with
    | zero => intro s v h; omega
    | succ k ih =>
      intro s v hk hm hvg
      cases P.good s v hm with
      | phi _ h2 => omega
      | store h1 h2 h3 => exact hr s v ⟨1, h3⟩ (by rw [h1]; decide) (by rw [h1]; decide)
      | clear _ _ h3 => omega
      | start _ h2 => omega
      | through h1 h2 h3 =>
        rename_i p
        obtain ⟨h4, h5, h6, _⟩ := prior_operand h2
        have := hr s p h4 h5 h6
        have := ih p v (by omega) h3 hvg
        omega
  refine ⟨fun n => if n < g.size then rank n + 1 else 0, ?_⟩
  rintro u n ⟨i, hi⟩ hk1 hk2
  have hu : u < h.size := (P.inv.closed u i n hi).2.1
  by_cases hug : u < g.size
  · rw [P.kind u hug] at hk1 hk2
    cases hx : (g.node u).args i with
    | none => rw [P.absent u i hug hx] at hi; cases hi
    | some x =>
      obtain ⟨y, hy, hb⟩ := P.operand u i x hug hx
      rw [hi] at hy
      injection hy with hy
      subst hy
      have h1 := hr u x ⟨i, hx⟩ hk1 hk2
      show (if _ then _ else _) < (if _ then _ else _)
      rw [if_pos hug]
      split
      · rename_i hng
        suffices hle : rank n ≤ rank x from Nat.succ_lt_succ (Nat.lt_of_le_of_lt hle h1)
        cases hb with
        | same _ h2 => rw [h2]; exact Nat.le_refl _
        | load h2 h3 h4 h5 =>
          rename_i s
          have := hgood _ s n (Nat.lt_succ_self _) h5 hng
          have := hr x s ⟨1, h4⟩ (by rw [h3]; decide) (by rw [h3]; decide)
          omega
        | store _ _ h4 => exact h4.rank hr
      · exact Nat.succ_pos _
  · rw [(P.new_plain (by omega) hu hk1).2 i] at hi
    cases hi

theorem lower {X : Type} (P : Promoted g a h memo) (hg : Inv g) (hv : Variable g a) {m : Meaning X}
    (hz : ∀ n, g.size ≤ n → n < h.size → (h.node n).kind = zeroKind → ∀ x, m.op n x = m.zero) {init : Nat → X}
    (hu : ∀ n, g.size ≤ n → n < h.size → (h.node n).kind = undefinedKind → ∀ f, init f = m.op n fun _ => .none)
    (hs : ∀ n, Access g a n → (g.node n).kind = .store → ∃ v, (g.node n).args 1 = some v)
    {e : Env X} (H : Holds g a m init e)
    (ψ : Nat → X) : ∃ e', Holds h a m init e' ∧ Sim g a memo e e' ∧ ∀ p, p < h.size → (h.node p).kind = .phi → e'.var p = ψ p := by
  obtain ⟨rank, hr⟩ := P.acyclic hg hv
  obtain ⟨e', ho, F'⟩ := filled (a := a) m init (fun n => if n < g.size then e.out n else
    if hx : ∃ s, memo s = some n ∧ (g.node s).kind = .phi then e.var hx.choose else m.op n fun _ => .none) ψ hr
  have F := Holds.filled hg hs H
  have hnew : ∀ v, g.size ≤ v → v < h.size → (h.node v).kind = zeroKind ∨ (h.node v).kind = undefinedKind → e'.out v = m.op v fun _ => .none := by
    intro v h1 h2 h3
    have hk : (h.node v).kind ≠ .phi := by rcases h3 with h3 | h3 <;> rw [h3] <;> decide
    rw [ho v (P.new_access h1), if_neg (by omega), dif_neg]
    rintro ⟨s, hm, hs⟩
    exact hk (P.good_phi hm hs).2.1
  have hold : ∀ v, v < g.size → ¬Access g a v → e.out v = e'.out v := by
    intro v h1 h2
    rw [ho v (fun h => h2 ((P.access h1).1 h)), if_pos h1]
  have hvar : ∀ s v, memo s = some v → e.var s = e'.out v := by
    refine P.var_eq hg hv F ?_ hold ?_ ?_
    · intro s v hm hk h1 h2 h3
      have hx : ∃ s, memo s = some v ∧ (g.node s).kind = .phi := ⟨s, hm, hk⟩
      rw [ho v (P.new_access h1), if_neg (by omega), dif_pos hx, P.uniq s hx.choose v hm hx.choose_spec.1 hk hx.choose_spec.2]
    · intro v h1 h2 h3
      rw [hnew v h1 h2 (.inl h3)]
      exact hz v h1 h2 h3 _
    · intro s v hm h1 h2 _ h3
      rw [hnew v h1 h2 (.inr h3)]
      exact (hu v h1 h2 h3 s).symm
  refine ⟨e', F'.holds ?_, ⟨hold, hvar, fun x y hx hb => out_eq hg F hold hvar hx hb⟩, F'.phi⟩
  intro n hn ha hk1 hk2
  by_cases hng : n < g.size
  · rw [P.kind n hng] at hk1 hk2
    rw [P.access hng] at ha
    rw [← hold n hng ha, H.other n hng ha hk1 hk2]
    refine congrArg (m.op n) ?_
    funext i
    exact P.args_eq hg F hold hvar hng i
  · obtain ⟨h1, h2⟩ := P.new_plain (by omega) hn hk1
    rw [hnew n (by omega) hn h1]
    refine congrArg (m.op n) ?_
    funext i
    rw [h2 i]
    rfl

theorem old_kind (P : Promoted g a h memo) (hg : Inv g) (hv : Variable g a) {n i x : Nat} (hi : (h.node n).args i = some x)
    (hk : (h.node n).kind = .region ∨ (h.node n).kind = .project ∨ (h.node n).kind = .ifk) :
    n < g.size ∧ (g.node n).kind = (h.node n).kind ∧ ((i = 0 ∨ (h.node n).kind ≠ .ifk) → (g.node n).args i = some x) := by
  have hlt := (P.inv.closed n i x hi).2.1
  have hn : n < g.size := by
    refine Decidable.byContradiction fun hn => ?_
    rcases P.fresh n (by omega) hlt with ⟨h3, _⟩ | ⟨h3 | h3, _⟩ <;> rw [h3] at hk <;> rcases hk with hk | hk | hk <;> cases hk
  refine ⟨hn, (P.kind n hn).symm, fun h0 => ?_⟩
  rw [P.kind n hn] at hk h0
  rw [← P.same_arg hn ?_]
  · exact hi
  · intro y hy ha
    obtain ⟨h1, h2, h3⟩ := hv.blocks n i y hy ha
    rcases hk with hk | hk | hk
    · exact h1 hk
    · exact h2 hk
    · rcases h0 with h0 | h0
      · exact (h3 h0).2 hk
      · exact h0 hk

theorem phi_block (P : Promoted g a h memo) (hv : Variable g a) {p : Nat} (hp : p < g.size) (hk : (g.node p).kind = .phi) :
    (h.node p).args 0 = (g.node p).args 0 :=
  P.same_arg hp fun x hx ha => ((hv.blocks p 0 x hx ha).2.2 rfl).1 hk

theorem phi_plain {p : Nat} (hk : (g.node p).kind = .phi) : ¬Access g a p := by
  rintro ⟨h | h | h, _⟩ <;> rw [hk] at h <;> cases h

/-- What is executed after the pass, is executed before. -/
theorem back {X : Type} (P : Promoted g a h memo) (hg : Inv g) (hv : Variable g a) {m : Meaning X}
    (hz : ∀ n, g.size ≤ n → n < h.size → (h.node n).kind = zeroKind → ∀ x, m.op n x = m.zero) {init' : Nat → X} {entry b : Nat} {e' : Env X}
    (E : Executes h a m init' entry b e') : ∃ e, Executes g a m (startOf m memo) entry b e ∧ Sim g a memo e e' := by
  have hs := P.size
  induction E with
  | start H =>
    obtain ⟨e, h1, h2, _⟩ := P.lift hg hv hz H fun _ => m.zero
    exact ⟨e, .start h1, h2⟩
  | @join b b' k e' f' _ hk hk2 hb J H ih =>
    obtain ⟨e, E, S⟩ := ih
    obtain ⟨f, h1, h2, h3⟩ := P.lift hg hv hz H fun p => if (g.node p).args 0 = some b' then
      match (g.node p).args (k + 1) with | some v => e.var v | .none => e.var p else e.var p
    obtain ⟨hb1, hb2, hb3⟩ := P.old_kind hg hv hb (.inl hk)
    refine ⟨f, .join E (hb2.trans hk) hk2 (hb3 (.inr (by rw [hk]; decide))) ?_ h1, h2⟩
    intro p hp hpk
    have J1 := J p (by omega) (by rw [P.kind p hp]; exact hpk)
    rw [P.phi_block hv hp hpk] at J1
    rw [h2.old p hp (phi_plain hpk)]
    constructor
    · intro h0 v hv1
      obtain ⟨y, hy, hb⟩ := P.operand p (k + 1) v hp hv1
      refine ⟨?_, ?_⟩
      · rw [(J1.1 h0 y hy).1]
        exact (S.out v y (hg.closed p (k + 1) v hv1).2.2 hb).symm
      · cases hm : memo p with
        | none => rw [h3 p hp hpk hm, if_pos h0, hv1]
        | some N =>
          obtain ⟨h4, h5, h6, h7, _⟩ := P.good_phi hm hpk
          obtain ⟨w, hw1, hw2⟩ := h7 (k + 1) (by omega) v hv1
          rw [h2.var p N hm, ((J N (P.vals p N hm).2.1 h5).1 (h6.trans h0) w hw2).1]
          exact (S.var v w hw1).symm
    · intro h0
      refine ⟨?_, ?_⟩
      · rw [(J1.2 h0).1]
        exact (S.old p hp (phi_plain hpk)).symm
      · cases hm : memo p with
        | none => rw [h3 p hp hpk hm, if_neg h0]
        | some N =>
          obtain ⟨h4, h5, h6, h7, _⟩ := P.good_phi hm hpk
          rw [h2.var p N hm, ((J N (P.vals p N hm).2.1 h5).2 (by rw [h6]; exact h0)).1]
          exact (S.var p N hm).symm
  | @branch b i c b' e' f' _ hpr hk hb hc ht J H ih =>
    obtain ⟨e, E, S⟩ := ih
    obtain ⟨f, h1, h2, h3⟩ := P.lift hg hv hz H e.var
    obtain ⟨hb1, hb2, hb3⟩ := P.old_kind hg hv hpr.2 (.inr (.inl hpr.1))
    obtain ⟨hi1, hi2, hi3⟩ := P.old_kind hg hv hb (.inr (.inr hk))
    cases hx : (g.node i).args 1 with
    | none => rw [P.absent i 1 hi1 hx] at hc; cases hc
    | some x =>
      obtain ⟨y, hy, hbc⟩ := P.operand i 1 x hi1 hx
      rw [hc] at hy
      injection hy with hy
      subst hy
      refine ⟨f, .branch (i := i) (c := x) E ⟨hb2.trans hpr.1, hb3 (.inl rfl)⟩ (hi2.trans hk) (hi3 (.inl rfl)) hx ?_ ?_ h1, h2⟩
      · rw [S.out x c (hg.closed i 1 x hx).2.2 hbc, ht, P.projIdx b' hb1]
      · intro p hp hpk
        have J1 := J p (by omega) (by rw [P.kind p hp]; exact hpk)
        refine ⟨?_, ?_⟩
        · rw [h2.old p hp (phi_plain hpk), J1.1]
          exact (S.old p hp (phi_plain hpk)).symm
        · cases hm : memo p with
          | none => rw [h3 p hp hpk hm]
          | some N =>
            obtain ⟨h4, h5, _⟩ := P.good_phi hm hpk
            rw [h2.var p N hm, (J N (P.vals p N hm).2.1 h5).1]
            exact (S.var p N hm).symm

/-- What is executed before the pass, is executed after it. -/
theorem forth {X : Type} (P : Promoted g a h memo) (hg : Inv g) (hv : Variable g a) {m : Meaning X}
    (hz : ∀ n, g.size ≤ n → n < h.size → (h.node n).kind = zeroKind → ∀ x, m.op n x = m.zero) {init : Nat → X}
    (hu : ∀ n, g.size ≤ n → n < h.size → (h.node n).kind = undefinedKind → ∀ f, init f = m.op n fun _ => .none)
    (hst : ∀ n, Access g a n → (g.node n).kind = .store → ∃ v, (g.node n).args 1 = some v)
    {entry b : Nat} {e : Env X}
    (E : Executes g a m init entry b e) : ∃ e', Executes h a m init entry b e' ∧ Sim g a memo e e' := by
  have hs := P.size
  have step : ∀ {e f e' f' : Env X} {b' k : Nat}, k < 2 → Sim g a memo e e' → Sim g a memo f f' → Joins g b' k e f →
      (∀ p, p < h.size → (h.node p).kind = .phi → f'.var p = if (h.node p).args 0 = some b' then
        match (h.node p).args (k + 1) with | some v => e'.var v | .none => e'.var p else e'.var p) → Joins h b' k e' f' := by
    intro e f e' f' b' k hk2 S h2 J h3 p hp hpk
    refine ⟨fun h0 y hy => ⟨?_, by rw [h3 p hp hpk, if_pos h0, hy]⟩, fun h0 => ⟨?_, by rw [h3 p hp hpk, if_neg h0]⟩⟩
    · by_cases hpg : p < g.size
      · rw [P.kind p hpg] at hpk
        rw [P.phi_block hv hpg hpk] at h0
        cases hx : (g.node p).args (k + 1) with
        | none => rw [P.absent p (k + 1) hpg hx] at hy; cases hy
        | some x =>
          obtain ⟨y', hy', hb⟩ := P.operand p (k + 1) x hpg hx
          rw [hy] at hy'
          injection hy' with hy'
          subst hy'
          rw [← h2.old p hpg (phi_plain hpk), ((J p hpg hpk).1 h0 x hx).1]
          exact S.out x y (hg.closed p (k + 1) x hx).2.2 hb
      · rcases P.fresh p (by omega) hp with ⟨_, s, hm, hsk⟩ | ⟨h4, _⟩
        · obtain ⟨h4, h5, h6, h7, h8⟩ := P.good_phi hm hsk
          cases hx : (g.node s).args (k + 1) with
          | none => rw [h8 (k + 1) (by omega) hx] at hy; cases hy
          | some x =>
            obtain ⟨w, hw1, hw2⟩ := h7 (k + 1) (by omega) x hx
            rw [hy] at hw2
            injection hw2 with hw2
            subst hw2
            rw [← h2.var s p hm, ((J s (P.vals s p hm).1 hsk).1 (h6.symm.trans h0) x hx).2]
            exact S.var x y hw1
        · rw [hpk] at h4; rcases h4 with h4 | h4 <;> cases h4
    · by_cases hpg : p < g.size
      · rw [P.kind p hpg] at hpk
        rw [P.phi_block hv hpg hpk] at h0
        rw [← h2.old p hpg (phi_plain hpk), ((J p hpg hpk).2 h0).1]
        exact S.old p hpg (phi_plain hpk)
      · rcases P.fresh p (by omega) hp with ⟨_, s, hm, hsk⟩ | ⟨h4, _⟩
        · obtain ⟨h4, h5, h6, h7, h8⟩ := P.good_phi hm hsk
          rw [← h2.var s p hm, ((J s (P.vals s p hm).1 hsk).2 (by rw [← h6]; exact h0)).2]
          exact S.var s p hm
        · rw [hpk] at h4; rcases h4 with h4 | h4 <;> cases h4
  have arg : ∀ {n i x : Nat}, (g.node n).args i = some x → ((g.node n).kind = .region ∨ (g.node n).kind = .project ∨ ((g.node n).kind = .ifk ∧ i = 0)) →
      (h.node n).args i = some x ∧ (h.node n).kind = (g.node n).kind ∧ n < g.size := by
    intro n i x hi hk
    have hn := (hg.closed n i x hi).2.1
    refine ⟨?_, P.kind n hn, hn⟩
    rw [P.same_arg hn, hi]
    intro y hy ha
    obtain ⟨h1, h2, h3⟩ := hv.blocks n i y hy ha
    rcases hk with hk | hk | ⟨hk, h0⟩
    · exact h1 hk
    · exact h2 hk
    · exact (h3 h0).2 hk
  induction E with
  | start H =>
    obtain ⟨e', h1, h2, _⟩ := P.lower hg hv hz hu hst H fun _ => m.zero
    exact ⟨e', .start h1, h2⟩
  | @join b b' k e f _ hk hk2 hb J H ih =>
    obtain ⟨e', E, S⟩ := ih
    obtain ⟨f', h1, h2, h3⟩ := P.lower hg hv hz hu hst H fun p => if (h.node p).args 0 = some b' then
      match (h.node p).args (k + 1) with | some v => e'.var v | .none => e'.var p else e'.var p
    obtain ⟨a1, a2, _⟩ := arg hb (.inl hk)
    exact ⟨f', .join E (a2.trans hk) hk2 a1 (step hk2 S h2 J h3) h1, h2⟩
  | @branch b i c b' e f _ hpr hk hb hc ht J H ih =>
    obtain ⟨e', E, S⟩ := ih
    obtain ⟨f', h1, h2, h3⟩ := P.lower hg hv hz hu hst H e'.var
    obtain ⟨a1, a2, a3⟩ := arg hpr.2 (.inr (.inl hpr.1))
    obtain ⟨b1, b2, b3⟩ := arg hb (.inr (.inr ⟨hk, rfl⟩))
    obtain ⟨y, hy, hbc⟩ := P.operand i 1 c b3 hc
    refine ⟨f', .branch (i := i) (c := y) E ⟨a2.trans hpr.1, a1⟩ (b2.trans hk) b1 hy ?_ ?_ h1, h2⟩
    · rw [← S.out c y (hg.closed i 1 c hc).2.2 hbc, ht, P.projIdx b' a3]
    · intro p hp hpk
      refine ⟨?_, h3 p hp hpk⟩
      by_cases hpg : p < g.size
      · rw [P.kind p hpg] at hpk
        rw [← h2.old p hpg (phi_plain hpk), (J p hpg hpk).1]
        exact S.old p hpg (phi_plain hpk)
      · rcases P.fresh p (by omega) hp with ⟨_, s, hm, hsk⟩ | ⟨h4, _⟩
        · rw [← h2.var s p hm, (J s (P.vals s p hm).1 hsk).2]
          exact S.var s p hm
        · rw [hpk] at h4; rcases h4 with h4 | h4 <;> cases h4

end Promoted

end Verif.Ir
