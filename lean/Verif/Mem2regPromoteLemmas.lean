import Verif.Mem2regPassLemmas
/-!
How the graph after the pass over a variable relates to the graph before.
-/
namespace Verif.Ir
open Verif Verif.IrSpec

/-- What becomes of the operand `x`. -/
inductive Becomes (g : Graph) (a : Nat) (memo : Nat → Option Nat) (x y : Nat) : Prop
  | same : ¬Access g a x → y = x → Becomes g a memo x y
  | load {s} : Access g a x → (g.node x).kind = .load → (g.node x).args 1 = some s → memo s = some y → Becomes g a memo x y
  | store : Access g a x → (g.node x).kind ≠ .load → Follows g a x y → ¬Access g a y → Becomes g a memo x y

/-- `h` is `g` with the variable `a` removed from memory; `memo` are the contents found. -/
structure Promoted (g : Graph) (a : Nat) (h : Graph) (memo : Nat → Option Nat) : Prop where
  size : g.size ≤ h.size
  inv : Inv h
  kind : ∀ n, n < g.size → (h.node n).kind = (g.node n).kind
  projIdx : ∀ n, n < g.size → (h.node n).projIdx = (g.node n).projIdx
  absent : ∀ n i, n < g.size → (g.node n).args i = none → (h.node n).args i = none
  operand : ∀ n i x, n < g.size → (g.node n).args i = some x → ∃ y, (h.node n).args i = some y ∧ Becomes g a memo x y
  address : ∀ n, n < g.size → ((h.node n).args 0 = some a ↔ (g.node n).args 0 = some a)
  vals : ∀ s v, memo s = some v → s < g.size ∧ v < h.size ∧ (v < g.size → ¬Access g a v)
  uniq : ∀ s s' v, memo s = some v → memo s' = some v → (g.node s).kind = .phi → (g.node s').kind = .phi → s = s'
  good : ∀ s v, memo s = some v → Good g a h memo s v
  young : ∀ n i x, g.size ≤ n → n < h.size → (h.node n).args i = some x → ¬Access g a x
  fresh : ∀ n, g.size ≤ n → n < h.size → ((h.node n).kind = .phi ∧ ∃ s, memo s = some n ∧ (g.node s).kind = .phi) ∨
    (((h.node n).kind = zeroKind ∨ (h.node n).kind = undefinedKind) ∧ ∀ i, (h.node n).args i = none)

theorem simple_spec {extent : Nat → Nat} {g : Graph} {a : Nat} : ∀ {us : List Nat}, simpleUses extent g a us = .ok true → ∀ u ∈ us,
    (g.node u).kind = .setZeroPtr ∨ (g.node u).kind = .load ∨
    ((g.node u).kind = .store ∧ (g.node u).args 0 = some a ∧ ∀ v, (g.node u).args 1 = some v → v ≠ a) := by
  intro us
  induction us with
  | nil => intro _ u hu; cases hu
  | cons x us ih =>
    intro e u hu
    rw [simpleUses] at e
    have key : ((g.node x).kind = .setZeroPtr ∨ (g.node x).kind = .load ∨
        ((g.node x).kind = .store ∧ (g.node x).args 0 = some a ∧ ∀ v, (g.node x).args 1 = some v → v ≠ a)) ∧ simpleUses extent g a us = .ok true := by
      split at e
      · rename_i hk
        split at e
        · cases e
        · exact ⟨.inl hk, e⟩
      · rename_i hk
        split at e
        · cases e
        · rename_i v hv
          split at e
          · cases e
          · rename_i hc
            refine ⟨.inr (.inr ⟨hk, Decidable.byContradiction fun h => hc (.inr (.inr h)), ?_⟩), e⟩
            intro w hw
            rw [hv] at hw
            injection hw with hw
            subst hw
            exact fun h => hc (.inr (.inl h))
      · rename_i hk
        split at e
        · cases e
        · exact ⟨.inr (.inl hk), e⟩
      · cases e
    rcases List.mem_cons.1 hu with rfl | hu
    · exact key.1
    · exact ih key.2 u hu

theorem promoted {extent : Nat → Nat} {fuel : Nat} {g : Graph} {a : Nat} (hg : Inv g) (hd : Done g) (hv : Variable g a) (hn : NoSelfStore g a) (ha : a < g.size)
    (hs : simpleUses extent g a (g.node a).live = .ok true) {g' : Graph} (e : tryRemove extent fuel g a = .ok g') : ∃ memo, Promoted g a g' memo := by
  obtain ⟨st, hst1, hst2, hst3⟩ := hv.states
  obtain ⟨rank, hrank⟩ := hv.acyclic
  have hsimple := simple_spec hs
  have hacc : ∀ u ∈ (g.node a).live, Access g a u := by
    intro u hu
    rcases hsimple u hu with h | h | h
    · exact ⟨.inr (.inr h), hv.address u (.inr h) ((live_operand hg).1 hu)⟩
    · exact ⟨.inl h, hv.address u (.inl h) ((live_operand hg).1 hu)⟩
    · exact ⟨.inr (.inl h.1), h.2.1⟩
  have hlive : ∀ u, Access g a u → u ∈ (g.node a).live := fun u hu => (live_operand hg).2 ⟨0, hu.2⟩
  have c : Ctx g a st := by
    refine ⟨hg, ha, hv.alloc, hst1, hst2, fun s h => ⟨(hst3 s h).1, (hst3 s h).2.1⟩, fun s h => (hst3 s h).2.2.1, fun s p h => (hst3 s h).2.2.2 p, ?_⟩
    intro n v hk h0 h1
    refine ⟨hn n v hk h0 h1, ?_⟩
    rcases hsimple n (hlive n ⟨.inr (.inl hk), h0⟩) with h | h | h
    · rw [hk] at h; cases h
    · rw [hk] at h; cases h
    · exact h.2.2 v h1
  unfold tryRemove at e
  dsimp only at e
  have hs' : simpleUses extent { g with fn := (g.node a).parent } a (g.node a).live = .ok true := by
    rw [← hs]
    generalize (g.node a).live = us
    clear e hlive hacc hsimple hs
    induction us with
    | nil => rfl
    | cons u us ih =>
      simp only [simpleUses, ih]
  rw [hs', Run.ofRes_ok, Run.bind_ok, if_pos rfl] at e
  obtain ⟨r, e1, e⟩ := run_bind_ok e
  have f0 : Finding g a st { g with fn := (g.node a).parent } (fun _ => none) (fun _ => False) (fun _ => none) := by
    refine ⟨inv_same hg ⟨rfl, fun _ => ⟨rfl, rfl, rfl⟩⟩, ⟨hd.isSealed, hd.operand, hd.index⟩, Nat.le_refl _, fun _ _ => rfl, fun _ _ => rfl, ?_, ?_, ?_, ?_, ?_, ?_, ?_, ?_, ⟨rfl, rfl⟩⟩
    · intro n i _
      show (g.node n).args i = sub _ _
      cases (g.node n).args i <;> rfl
    · intro l v h; cases h
    · intro s v h; cases h
    · intro s s' v h; cases h
    · intro s v h; cases h
    · intro s h; cases h
    · intro n i x h1 h2
      exact absurd (show n < g.size from h2) (by omega)
    · intro n h1 h2
      exact absurd (show n < g.size from h2) (by omega)
  obtain ⟨d, f, -, hj⟩ := loads_ok c hacc f0 e1
  have hall : ∀ u, Access g a u → (g.node u).kind = .load → ∃ v, d u = some v := by
    intro u hu hk
    obtain ⟨j, hj', hu'⟩ := List.mem_iff_getElem.1 (hlive u hu)
    have hjl : j < (g.node a).useSize := by rw [live_length (hg.cap a)] at hj'; exact hj'
    refine hj j u (Nat.zero_le _) hjl ?_ hk
    have h1 : (g.node a).live[j]? = some u := by rw [List.getElem?_eq_getElem hj', hu']
    unfold Node.live at h1
    rw [List.getElem?_take_of_lt hjl] at h1
    exact h1
  obtain ⟨h, memo⟩ := r
  dsimp only at f e
  have p0 : Routing g a h h (fun _ => False) :=
    ⟨f.inv, f.done, rfl, fun _ => rfl, fun _ => rfl, fun _ _ h => h, fun n i x hx => ⟨x, hx, .refl, id⟩, f.users⟩
  obtain ⟨s, p, -, hj2⟩ := stores_ok c hrank hacc f p0 e
  have hall2 : ∀ u, Access g a u → (g.node u).kind ≠ .load → s u := by
    intro u hu hk
    obtain ⟨j, hj', hu'⟩ := List.mem_iff_getElem.1 (hlive u hu)
    have hjl : j < (g.node a).useSize := by rw [live_length (hg.cap a)] at hj'; exact hj'
    refine hj2 j u (Nat.zero_le _) hjl ?_ hk
    have h1 : (g.node a).live[j]? = some u := by rw [List.getElem?_eq_getElem hj', hu']
    unfold Node.live at h1
    rw [List.getElem?_take_of_lt hjl] at h1
    exact h1
  have hvacc : ∀ t v, memo t = some v → ¬Access g a v := fun t v hm hacc' => (f.vals t v hm).2.2.2.2 (access_lt hg hacc') hacc'
  have hyoung : ∀ n i x, g.size ≤ n → n < h.size → (h.node n).args i = some x → ¬Access g a x :=
    fun n i x h1 h2 hx hacc' => (f.young n i x h1 h2 hx).2 (access_lt hg hacc') hacc'
  have hnew : ∀ n i, g.size ≤ n → n < h.size → (g'.node n).args i = (h.node n).args i := by
    intro n i h1 h2
    cases hx : (h.node n).args i with
    | none => exact p.none n i hx
    | some x =>
      obtain ⟨y, hy, hf, -⟩ := p.some n i x hx
      rw [hy, hf.same (hyoung n i x h1 h2 hx)]
  have hsome : ∀ n i x, n < g.size → (g.node n).args i = some x → ∃ y, (g'.node n).args i = some y ∧ Becomes g a memo x y := by
    intro n i x hn' hx
    by_cases hxa : Access g a x
    · by_cases hk : (g.node x).kind = .load
      · obtain ⟨v, hv'⟩ := hall x hxa hk
        obtain ⟨-, -, t, ht, hm⟩ := f.replaced x v hv'
        have h1 : (h.node n).args i = some v := by
          rw [f.old n i hn', hx]
          unfold sub
          simp [hv']
        obtain ⟨y, hy, hf, -⟩ := p.some n i v h1
        rw [hf.same (hvacc t v hm)] at hy
        exact ⟨v, hy, .load hxa hk ht hm⟩
      · have h1 : (h.node n).args i = some x := by
          rw [f.old n i hn', hx]
          exact f.sub_same fun _ => hk
        obtain ⟨y, hy, hf, hns⟩ := p.some n i x h1
        refine ⟨y, hy, .store hxa hk hf ?_⟩
        intro hya
        have hyk : (g.node y).kind ≠ .load := by
          cases hf with
          | refl => exact hk
          | step h2 h3 h4 => exact (c.kinds y (h4.state c (c.replaced _ _ h2 h3))).2
        exact hns (hall2 y hya hyk)
    · have h1 : (h.node n).args i = some x := by
        rw [f.old n i hn', hx]
        exact f.sub_same fun h => absurd h hxa
      obtain ⟨y, hy, hf, -⟩ := p.some n i x h1
      rw [hf.same hxa] at hy
      exact ⟨x, hy, .same hxa rfl⟩
  have hnone : ∀ n i, n < g.size → (g.node n).args i = none → (g'.node n).args i = none := by
    intro n i hn' hx
    exact p.none n i (by rw [f.old n i hn', hx]; rfl)
  have haa : ¬Access g a a := by
    rintro ⟨h1 | h1 | h1, -⟩ <;> rw [hv.alloc] at h1 <;> cases h1
  refine ⟨memo, by rw [p.size]; exact f.size, p.inv, fun n hn' => by rw [p.kind]; exact f.kind n hn', fun n hn' => by rw [p.projIdx]; exact f.projIdx n hn', hnone, hsome,
    ?_, ?_, f.uniq, ?_, ?_, ?_⟩
  · intro n hn'
    constructor
    · intro h1
      cases hx : (g.node n).args 0 with
      | none => rw [hnone n 0 hn' hx] at h1; cases h1
      | some x =>
        obtain ⟨y, hy, hb⟩ := hsome n 0 x hn' hx
        rw [h1] at hy
        injection hy with hy
        subst hy
        cases hb with
        | same h2 h3 => rw [h3]
        | load _ _ _ hm => exact absurd rfl (f.vals _ _ hm).2.2.2.1
        | store h2 h3 h4 =>
          cases h4 with
          | refl => exact absurd h2 haa
          | step h5 h6 h7 => exact absurd hv.alloc (c.kinds a (h7.state c (c.replaced _ _ h5 h6))).1
    · intro h1
      obtain ⟨y, hy, hb⟩ := hsome n 0 a hn' h1
      cases hb with
      | same h2 h3 => rw [hy, h3]
      | load h2 => exact absurd h2 haa
      | store h2 => exact absurd h2 haa
  · intro t v hm
    have := f.vals t v hm
    exact ⟨this.2.1, by rw [p.size]; exact this.2.2.1, this.2.2.2.2⟩
  · intro t v hm
    refine (f.good t v hm id).mono (fun _ => p.kind v) (fun _ h1 => ?_) fun _ _ h => h
    funext i
    exact hnew v i h1 (f.vals t v hm).2.2.1
  · intro n i x h1 h2 hx
    rw [p.size] at h2
    rw [hnew n i h1 h2] at hx
    exact hyoung n i x h1 h2 hx
  · intro n h1 h2
    rw [p.size] at h2
    rw [p.kind]
    rcases f.fresh n h1 h2 with h3 | ⟨h3, h4⟩
    · exact .inl h3
    · exact .inr ⟨h3, fun i => by rw [hnew n i h1 h2]; exact h4 i⟩

end Verif.Ir
