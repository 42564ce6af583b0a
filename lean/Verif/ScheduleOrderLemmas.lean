import Verif.ScheduleOrderSpec
import Verif.ScheduleSimLemmas
/-!
The order of the instructions of a block.
-/
namespace Verif.Ir
open Verif Verif.IrSpec

theorem isInstruction_total {g : Graph} (hd : Done g) (n : Nat) : ∃ c, isInstruction g n = .ok c ∧ (c = true ↔ (g.node n).kind ≠ .function ∧ ¬IsBlock g n) := by
  unfold isInstruction
  by_cases h : (g.node n).kind = .function
  · rw [if_pos h]
    exact ⟨false, rfl, by simp [h]⟩
  · rw [if_neg h]
    obtain ⟨c, hc⟩ := isControl_ok hd n
    have := isControl_iff hd n
    rw [hc] at this
    refine ⟨!c, by rw [hc]; rfl, ?_⟩
    rw [← this]
    cases c <;> simp [h]

theorem prevState_iff (g : Graph) (n s : Nat) : prevState g n = some s ↔ Replaces g n s := by
  unfold prevState Replaces
  cases (g.node n).kind <;> simp [replacedBy]

/-- What the recursion looks at for `n`. -/
def waits (g : Graph) (block : Nat → Option Nat) (n y : Nat) : Prop :=
  (Operand g n y ∧ block y = block n) ∨ ∃ s, Replaces g n s ∧ block s = block n ∧ Operand g y s ∧ block y = block n

/-- What is computed in the block `b`. -/
def Computed (g : Graph) (block : Nat → Option Nat) (b n : Nat) : Prop := isInstruction g n = .ok true ∧ block n = some b

/-- Everything in the list is there after what it waits for; the list is in reverse. -/
def Topo (g : Graph) (block : Nat → Option Nat) (b : Nat) (rev : List Nat) : Prop :=
  ∀ x n y, rev = x ++ n :: y → ∀ a, waits g block n a → a ≠ n → Computed g block b a → a ∈ y

/-- What a part of the recursion that starts at the nodes `R` adds. -/
structure Emits (g : Graph) (block : Nat → Option Nat) (b : Nat) (R : Nat → Prop) (l l' : Local) (q : List Nat) : Prop where
  rev : l'.rev = q ++ l.rev
  nodup : q.Nodup
  new : ∀ x ∈ q, l.seen x = false ∧ Computed g block b x
  seen : ∀ x, l'.seen x = true ↔ l.seen x = true ∨ x ∈ q
  topo : Topo g block b l.rev → Topo g block b l'.rev
  path : ∀ x ∈ q, ∃ c, R c ∧ Waits g block c x

theorem Emits.refl {g : Graph} {block : Nat → Option Nat} {b : Nat} {R : Nat → Prop} (l : Local) : Emits g block b R l l [] :=
  ⟨rfl, .nil, by simp, by simp, id, by simp⟩

theorem Emits.trans {g : Graph} {block : Nat → Option Nat} {b : Nat} {R R' S : Nat → Prop} {l m k : Local} {q r : List Nat} (h : Emits g block b R l m q)
    (h' : Emits g block b R' m k r) (hR : ∀ c, R c → S c) (hR' : ∀ c, R' c → S c) : Emits g block b S l k (r ++ q) := by
  refine ⟨by rw [h'.rev, h.rev, List.append_assoc], ?_, ?_, ?_, fun t => h'.topo (h.topo t), ?_⟩
  · refine List.nodup_append.2 ⟨h'.nodup, h.nodup, ?_⟩
    intro x hx y hy e
    subst e
    have := (h.seen x).2 (.inr hy)
    rw [(h'.new x hx).1] at this
    cases this
  · intro x hx
    rcases List.mem_append.1 hx with hx | hx
    · refine ⟨?_, (h'.new x hx).2⟩
      cases hs : l.seen x
      · rfl
      · have := (h.seen x).2 (.inl hs)
        rw [(h'.new x hx).1] at this
        cases this
    · exact h.new x hx
  · intro x
    rw [h'.seen, h.seen, List.mem_append]
    constructor
    · rintro ((h | h) | h)
      · exact .inl h
      · exact .inr (.inr h)
      · exact .inr (.inl h)
    · rintro (h | h | h)
      · exact .inl (.inl h)
      · exact .inr h
      · exact .inl (.inr h)
  · intro x hx
    rcases List.mem_append.1 hx with hx | hx
    · obtain ⟨c, hc, hw⟩ := h'.path x hx
      exact ⟨c, hR' c hc, hw⟩
    · obtain ⟨c, hc, hw⟩ := h.path x hx
      exact ⟨c, hR c hc, hw⟩

/-- Everything of the block `b` with a rank below `r` that was visited is in the list. -/
def Settled (block : Nat → Option Nat) (b : Nat) (rank : Nat → Nat) (r : Nat) (l : Local) : Prop :=
  ∀ x, rank x < r → l.seen x = true → block x = some b → x ∈ l.rev

theorem Emits.settled {g : Graph} {block : Nat → Option Nat} {b : Nat} {R : Nat → Prop} {l l' : Local} {q : List Nat} {rank : Nat → Nat} {r : Nat}
    (h : Emits g block b R l l' q) (hs : Settled block b rank r l) : Settled block b rank r l' := by
  intro x hx hx' hb
  rw [h.rev, List.mem_append]
  rcases (h.seen x).1 hx' with hx' | hx'
  · exact .inr (hs x hx hx' hb)
  · exact .inl hx'

theorem Settled.mono {block : Nat → Option Nat} {b : Nat} {rank : Nat → Nat} {r r' : Nat} {l : Local} (h : Settled block b rank r l) (hr : r' ≤ r) :
    Settled block b rank r' l := fun x hx => h x (by omega)

/-- A loop that visits the nodes `xs`. -/
theorem forEach_grows {g : Graph} {block : Nat → Option Nat} {b : Nat} {f : Local → Nat → Run Local} {Q R S : Nat → Prop} {I : Local → Prop}
    (hI : ∀ l l' q, Emits g block b S l l' q → I l → I l')
    (hstep : ∀ x l, R x → I l → ∃ l' q, f l x = .ok l' ∧ Emits g block b S l l' q ∧ (Q x → x ∈ l'.rev)) :
    ∀ xs l, (∀ x ∈ xs, R x) → I l → ∃ l' q, forEach f l xs = .ok l' ∧ Emits g block b S l l' q ∧ ∀ x ∈ xs, Q x → x ∈ l'.rev := by
  intro xs
  induction xs with
  | nil => exact fun l _ _ => ⟨l, [], rfl, .refl l, by simp⟩
  | cons x xs ih =>
    intro l hR hs
    obtain ⟨m, q, e, h, hq⟩ := hstep x l (hR x (by simp)) hs
    obtain ⟨k, r', e', h', hq'⟩ := ih m (fun y hy => hR y (by simp [hy])) (hI _ _ _ h hs)
    refine ⟨k, r' ++ q, ?_, h.trans h' (fun _ => id) (fun _ => id), ?_⟩
    · rw [forEach, e, Run.bind_ok, e']
    · intro y hy hQ
      rcases List.mem_cons.1 hy with rfl | hy
      · rw [h'.rev]
        exact List.mem_append_right _ (hq hQ)
      · exact hq' y hy hQ

theorem localRec_skip {g : Graph} {block : Nat → Option Nat} {fuel : Nat} {l : Local} {n : Nat} (h : l.seen n = true ∨ isInstruction g n = .ok false ∨
    (∃ c, isInstruction g n = .ok c) ∧ block n = none) : localRec g block (fuel + 1) l n = .ok l := by
  rw [localRec]
  by_cases hs : l.seen n = true
  · rw [if_pos hs]
  · rw [if_neg hs]
    rcases h with h | h | ⟨⟨c, hc⟩, hb⟩
    · exact absurd h hs
    · rw [h, Run.ofRes_ok, Run.bind_ok, if_pos (.inl rfl)]
    · rw [hc, Run.ofRes_ok, Run.bind_ok, if_pos (.inr hb)]

theorem waits_prepend {g : Graph} {block : Nat → Option Nat} {n y c : Nat} (h : waits g block n y) (h' : Waits g block y c) : Waits g block n c := by
  induction h' with
  | refl =>
    rcases h with ⟨h, hb⟩ | ⟨s, hs, hb, h, hy⟩
    · exact .operand .refl h hb
    · exact .state .refl hs hb h hy
  | operand _ h1 h2 ih => exact .operand ih h1 h2
  | state _ h1 h2 h3 h4 ih => exact .state ih h1 h2 h3 h4

section
variable {g : Graph} {block : Nat → Option Nat} {rank : Nat → Nat} {b : Nat} (hg : Inv g) (hd : Done g)
  (hop : ∀ n a, Operand g n a → block n ≠ none → block a = block n → rank a < rank n)
  (hst : ∀ n s u, Replaces g n s → block n ≠ none → block s = block n → Operand g u s → u ≠ n → block u ≠ none → rank u < rank n)
  (hset : ∀ n s u, Replaces g n s → block n ≠ none → block s = block n → Operand g u s → block u = none ∨ block u = block n)
include hg hd hop hst hset

theorem localRec_ok : ∀ {fuel : Nat} {n : Nat} {l : Local}, rank n < fuel → (Computed g block b n ∨ isInstruction g n = .ok false ∨ block n = none) →
    Settled block b rank (rank n + 1) l → ∃ l' q, localRec g block fuel l n = .ok l' ∧ Emits g block b (fun c => c = n) l l' q ∧
    (Computed g block b n → n ∈ l'.rev) := by
  intro fuel
  induction fuel with
  | zero => intro n l h; omega
  | succ fuel ih =>
    intro n l hf hn hs
    obtain ⟨c, hc, -⟩ := isInstruction_total hd n
    by_cases hseen : l.seen n = true
    · exact ⟨l, [], localRec_skip (.inl hseen), .refl l, fun h => hs n (by omega) hseen h.2⟩
    rcases hn with hn | hn | hn
    rotate_left
    · exact ⟨l, [], localRec_skip (.inr (.inl hn)), .refl l, fun h => by have := h.1; rw [hn] at this; cases this⟩
    · exact ⟨l, [], localRec_skip (.inr (.inr ⟨⟨c, hc⟩, hn⟩)), .refl l, fun h => by have := h.2; rw [hn] at this; cases this⟩
    have hbn : block n ≠ none := by rw [hn.2]; simp
    rw [localRec, if_neg hseen, hn.1, Run.ofRes_ok, Run.bind_ok, if_neg (by simp [hbn])]
    dsimp only
    generalize hl0 : ({ seen := fun m => if m = n then true else l.seen m, rev := l.rev } : Local) = l0
    have hI : ∀ l l' q, Emits g block b (fun c => waits g block n c) l l' q → (Settled block b rank (rank n) l ∧ l.seen n = true) →
        (Settled block b rank (rank n) l' ∧ l'.seen n = true) := fun l l' q h hx => ⟨h.settled hx.1, (h.seen n).2 (.inl hx.2)⟩
    have hs0 : Settled block b rank (rank n) l0 ∧ l0.seen n = true := by
      subst hl0
      refine ⟨?_, by simp⟩
      intro x hx hx' hb
      dsimp only at hx'
      split at hx'
      · rename_i e; subst e; omega
      · exact hs x (by omega) hx' hb
    -- one node that `n` waits for
    have step : ∀ y m, ((Operand g n y ∧ block y = block n) ∨ ∃ s, Replaces g n s ∧ block s = block n ∧ Operand g y s) → y ≠ n → (Settled block b rank (rank n) m ∧ m.seen n = true) → ∃ l' q, localRec g block fuel m y = .ok l' ∧
        Emits g block b (fun c => waits g block n c) m l' q ∧ (Computed g block b y → y ∈ l'.rev) := by
      intro y m hy hne hm
      by_cases hby : block y = none
      · obtain ⟨cy, hcy, -⟩ := isInstruction_total hd y
        have : ∃ k, fuel = k + 1 := by
          rcases hy with ⟨h1, h2⟩ | ⟨s, h1, h2, h3⟩
          · rw [hby] at h2; exact absurd h2.symm hbn
          · obtain ⟨i, -, hi⟩ := h1
            have := hop n s ⟨i, hi⟩ hbn h2
            exact ⟨fuel - 1, by omega⟩
        obtain ⟨k, rfl⟩ := this
        exact ⟨m, [], localRec_skip (.inr (.inr ⟨⟨cy, hcy⟩, hby⟩)), .refl m, fun h => by have := h.2; rw [hby] at this; cases this⟩
      · have hr : rank y < rank n := by
          rcases hy with ⟨h1, h2⟩ | ⟨s, h1, h2, h3⟩
          · exact hop n y h1 hbn h2
          · exact hst n s y h1 hbn h2 h3 hne hby
        have hb : block y = some b := by
          rcases hy with ⟨h1, h2⟩ | ⟨s, h1, h2, h3⟩
          · rw [h2, hn.2]
          · rw [(hset n s y h1 hbn h2 h3).resolve_left hby, hn.2]
        obtain ⟨cy, hcy, -⟩ := isInstruction_total hd y
        obtain ⟨l', q, e, h, hq⟩ := ih (n := y) (l := m) (by omega) (by
          cases cy
          · exact .inr (.inl hcy)
          · exact .inl ⟨hcy, hb⟩) (hm.1.mono (by omega))
        have hy : waits g block n y := by
          rcases hy with hy | ⟨s, h1, h2, h3⟩
          · exact .inl hy
          · exact .inr ⟨s, h1, h2, h3, by rw [hb, hn.2]⟩
        refine ⟨l', q, e, ?_, hq⟩
        have h2 : Emits g block b (fun c => waits g block n c) m l' ([] ++ q) := h.trans (.refl l') (R' := fun c => c = y) (by rintro c rfl; exact hy) (by rintro c rfl; exact hy)
        simpa using h2
    -- the operands
    obtain ⟨m, q, e1, h1, hq1⟩ := forEach_grows (Q := fun y => block y = block n ∧ Computed g block b y) (R := fun y => Operand g n y) hI (by
      intro y m hy hm
      unfold localArg
      by_cases hb : block y = block n
      · rw [if_pos hb]
        obtain ⟨l', q, e, h, hq⟩ := step y m (.inl ⟨hy, hb⟩) (by rintro rfl; exact absurd (hop y y hy hbn rfl) (by omega)) hm
        exact ⟨l', q, e, h, fun hQ => hq hQ.2⟩
      · rw [if_neg hb]
        exact ⟨m, [], rfl, .refl m, fun hQ => absurd hQ.1 hb⟩) (f := localArg block (localRec g block fuel) n) (operands g n) l0 (fun y hy => (operands_mem hg).1 hy) hs0
    rw [e1, Run.bind_ok]
    -- the others that use the state
    have hstate : ∃ k r, localState g block (localRec g block fuel) n m = .ok k ∧ Emits g block b (fun c => waits g block n c) m k r ∧
        ∀ s y, Replaces g n s → block s = block n → Operand g y s → y ≠ n → Computed g block b y → y ∈ k.rev := by
      unfold localState
      cases hp : prevState g n with
      | none =>
        refine ⟨m, [], rfl, .refl m, ?_⟩
        intro s y h
        rw [(prevState_iff g n s).2 h] at hp
        cases hp
      | some s =>
        have hr := (prevState_iff g n s).1 hp
        have huniq : ∀ s', Replaces g n s' → s' = s := fun s' h => by
          have := (prevState_iff g n s').2 h
          rw [hp] at this
          injection this with this
          exact this.symm
        dsimp only
        by_cases hb : block s = block n
        · rw [if_pos ⟨by rw [hb]; exact hbn, hb⟩]
          obtain ⟨k, r, e2, h2, hq2⟩ := forEach_grows (Q := fun y => y ≠ n ∧ Computed g block b y) (R := fun y => Operand g y s) hI (by
            intro y m hy hm
            by_cases hne : y = n
            · subst hne
              obtain ⟨i, -, hi⟩ := hr
              have := hop y s ⟨i, hi⟩ hbn hb
              obtain ⟨k, rfl⟩ : ∃ k, fuel = k + 1 := ⟨fuel - 1, by omega⟩
              exact ⟨m, [], localRec_skip (.inl hm.2), .refl m, fun h => absurd rfl h.1⟩
            · obtain ⟨l', q, e, h, hq⟩ := step y m (.inr ⟨s, hr, hb, hy⟩) hne hm
              exact ⟨l', q, e, h, fun hQ => hq hQ.2⟩) (f := localRec g block fuel) (g.node s).live m (fun y hy => (live_operand hg).1 hy) (hI _ _ _ h1 hs0)
          refine ⟨k, r, e2, h2, ?_⟩
          intro s' y h' _ hy hne hQ
          rw [huniq s' h'] at hy
          exact hq2 y ((live_operand hg).2 hy) ⟨hne, hQ⟩
        · rw [if_neg (fun h => hb h.2)]
          refine ⟨m, [], rfl, .refl m, ?_⟩
          intro s' y h' hb'
          rw [huniq s' h'] at hb'
          exact absurd hb' hb
    obtain ⟨k, r, e2, h2, hq2⟩ := hstate
    rw [e2, Run.bind_ok]
    have h3 := h1.trans h2 (S := fun c => waits g block n c) (fun _ => id) (fun _ => id)
    have hrev0 : l0.rev = l.rev := by subst hl0; rfl
    have hseen0 : ∀ x, l0.seen x = true ↔ l.seen x = true ∨ x = n := by
      subst hl0
      intro x
      dsimp only
      by_cases hx : x = n
      · simp [hx]
      · simp [hx]
    refine ⟨{ k with rev := n :: k.rev }, n :: (r ++ q), rfl, ⟨?_, ?_, ?_, ?_, ?_, ?_⟩, fun _ => by simp⟩
    · show n :: k.rev = _
      rw [h3.rev, hrev0]
      rfl
    · refine List.nodup_cons.2 ⟨fun hx => ?_, h3.nodup⟩
      have := (h3.new n hx).1
      rw [hs0.2] at this
      cases this
    · intro x hx
      rcases List.mem_cons.1 hx with rfl | hx
      · exact ⟨by simpa using hseen, hn⟩
      · refine ⟨?_, (h3.new x hx).2⟩
        cases hsx : l.seen x
        · rfl
        · have := (h3.new x hx).1
          rw [(hseen0 x).2 (.inl hsx)] at this
          cases this
    · intro x
      show k.seen x = true ↔ _
      rw [h3.seen, hseen0, List.mem_cons, or_assoc]
    · intro ht
      have ht' := h3.topo (by rw [hrev0]; exact ht)
      intro x z y e a ha hne hca
      show a ∈ y
      dsimp only at e
      cases x with
      | nil =>
        injection e with e e'
        subst e e'
        rcases ha with ⟨h4, h5⟩ | ⟨s, h4, h5, h6, -⟩
        · have := hq1 a ((operands_mem hg).2 h4) ⟨h5, hca⟩
          rw [h2.rev]
          exact List.mem_append_right _ this
        · exact hq2 s a h4 h5 h6 hne hca
      | cons w x =>
        injection e with e e'
        exact ht' x z y e' a ha hne hca
    · intro x hx
      rcases List.mem_cons.1 hx with rfl | hx
      · exact ⟨x, rfl, .refl⟩
      · obtain ⟨c, hc, hw⟩ := h3.path x hx
        exact ⟨n, rfl, waits_prepend hc hw⟩

end

theorem forEach_split {σ : Type} (f : σ → Nat → Run σ) : ∀ (xs ys : List Nat) (s t : σ), forEach f s (xs ++ ys) = .ok t →
    ∃ m, forEach f s xs = .ok m ∧ forEach f m ys = .ok t := by
  intro xs
  induction xs with
  | nil => exact fun ys s t h => ⟨s, rfl, h⟩
  | cons x xs ih =>
    intro ys s t h
    rw [List.cons_append, forEach] at h
    cases hx : f s x with
    | ok m =>
      rw [hx, Run.bind_ok] at h
      obtain ⟨k, h1, h2⟩ := ih ys m t h
      exact ⟨k, by rw [forEach, hx, Run.bind_ok, h1], h2⟩
    | fail => rw [hx] at h; cases h
    | ub => rw [hx] at h; cases h
    | more => rw [hx] at h; cases h

theorem children_mem {g : Graph} {block : Nat → Option Nat} {b n : Nat} : n ∈ children g block b ↔ n < g.size ∧ Computed g block b n := by
  unfold children Computed
  simp [List.mem_filter, List.mem_range]

theorem children_sorted (g : Graph) (block : Nat → Option Nat) (b : Nat) : (children g block b).Pairwise (· < ·) :=
  List.Pairwise.filter _ List.pairwise_lt_range

theorem before_reverse {rev : List Nat} {a n : Nat} (h : ∃ p s, rev = p ++ n :: s ∧ a ∈ s) : Before rev.reverse a n := by
  obtain ⟨p, s, rfl, ha⟩ := h
  exact ⟨s.reverse, p.reverse, by simp, by simpa using ha⟩

theorem block_order {g : Graph} (hg : Inv g) (hd : Done g) {block : Nat → Option Nat} (hb : ∀ n, block n ≠ none → n < g.size) (ht : Tame g block) {fuel : Nat}
    (hf : g.size < fuel) {b : Nat} {l : Local} (hl : l.rev = []) (hs : ∀ x, block x = some b → l.seen x = false) :
    ∃ l', forEach (localRec g block fuel) l (children g block b) = .ok l' ∧ InOrder g block b l'.rev.reverse ∧
      ∀ x, l'.seen x = true → l.seen x = true ∨ block x = some b := by
  obtain ⟨rank, hr, hop, hst⟩ := ht.acyclic
  have loop : ∀ (r : Nat → Prop) xs l, (∀ x ∈ xs, Computed g block b x ∧ r x) → Settled block b rank (g.size + 1) l → ∃ l' q, forEach (localRec g block fuel) l xs = .ok l' ∧
      Emits g block b (fun c => Computed g block b c ∧ r c) l l' q ∧ ∀ x ∈ xs, True → x ∈ l'.rev := by
    intro r xs l hxs hs
    refine forEach_grows (R := fun c => Computed g block b c ∧ r c) (I := Settled block b rank (g.size + 1)) (fun _ _ _ h => h.settled) ?_ xs l hxs hs
    intro x l hx hs
    have h1 := hr x
    obtain ⟨l', q, e, h, hq⟩ := localRec_ok hg hd hop hst ht.settled (b := b) (fuel := fuel) (n := x) (l := l) (by omega) (.inl hx.1) (hs.mono (by omega))
    refine ⟨l', q, e, ?_, fun _ => hq hx.1⟩
    have h2 : Emits g block b (fun c => Computed g block b c ∧ r c) l l' ([] ++ q) := h.trans (.refl l') (R' := fun c => c = x) (by rintro c rfl; exact hx) (by rintro c rfl; exact hx)
    simpa using h2
  have hs0 : Settled block b rank (g.size + 1) l := fun x _ h1 h2 => by rw [hs x h2] at h1; cases h1
  obtain ⟨l', q, e, h, hq⟩ := loop (fun _ => True) (children g block b) l (fun x hx => ⟨(children_mem.1 hx).2, trivial⟩) hs0
  have hrev : l'.rev = q := by rw [h.rev, hl, List.append_nil]
  have hmem : ∀ n, n ∈ l'.rev ↔ Computed g block b n := by
    intro n
    constructor
    · intro hn
      rw [hrev] at hn
      exact (h.new n hn).2
    · intro hn
      exact hq n (children_mem.2 ⟨hb n (by rw [hn.2]; simp), hn⟩) trivial
  have htopo : Topo g block b l'.rev := h.topo (by
    intro x n y e
    rw [hl] at e
    cases x <;> cases e)
  have after : ∀ n a, n ∈ l'.rev → waits g block n a → a ≠ n → a ∈ l'.rev → Before l'.rev.reverse a n := by
    intro n a hn hw hne ha
    obtain ⟨x, y, e⟩ := List.append_of_mem hn
    exact before_reverse ⟨x, y, e, htopo x n y e a hw hne ((hmem a).1 ha)⟩
  have blk : ∀ n, n ∈ l'.rev → block n = some b := fun n hn => ((hmem n).1 hn).2
  refine ⟨l', e, ⟨?_, ?_, ?_, ?_⟩, ?_⟩
  · rw [hrev]
    unfold List.Nodup
    rw [List.pairwise_reverse]
    exact h.nodup.imp Ne.symm
  · intro n
    rw [List.mem_reverse, hmem]
    obtain ⟨c, hc, hc'⟩ := isInstruction_total hd n
    unfold Computed IsInstruction
    rw [hc]
    constructor
    · rintro ⟨h1, h2⟩
      injection h1 with h1
      exact ⟨⟨hb n (by rw [h2]; simp), hc'.1 h1⟩, h2⟩
    · rintro ⟨h1, h2⟩
      rw [hc'.2 h1.2]
      exact ⟨rfl, h2⟩
  · intro n a hn ha _ ho
    rw [List.mem_reverse] at hn ha
    have e : block a = block n := by rw [blk n hn, blk a ha]
    refine after n a hn (.inl ⟨ho, e⟩) ?_ ha
    rintro rfl
    exact absurd (hop a a ho (by rw [blk a ha]; simp) rfl) (by omega)
  · intro n s u hn hu hrep ho hne
    rw [List.mem_reverse] at hn hu
    have hbn : block n ≠ none := by rw [blk n hn]; simp
    by_cases hbs : block s = block n
    · exact after n u hn (.inr ⟨s, hrep, hbs, ho, by rw [blk n hn, blk u hu]⟩) hne hu
    · obtain ⟨h1, h2⟩ := ht.outside n s u hrep hbn hbs ho hne (by rw [blk n hn, blk u hu])
      have hcu := children_mem.2 ⟨hb u (by rw [blk u hu]; simp), (hmem u).1 hu⟩
      obtain ⟨xs, ys, exy⟩ := List.append_of_mem hcu
      have hsort := children_sorted g block b
      rw [exy] at hsort
      have hle : ∀ c ∈ xs ++ [u], c ≤ u := by
        intro c hc
        rcases List.mem_append.1 hc with hc | hc
        · exact Nat.le_of_lt ((List.pairwise_append.1 hsort).2.2 c hc u (by simp))
        · simp at hc; omega
      have exy' : children g block b = (xs ++ [u]) ++ ys := by rw [exy]; simp
      rw [exy'] at e
      obtain ⟨m, e1, e2⟩ := forEach_split _ _ _ _ _ e
      obtain ⟨m', q1, e1', h3, hq1⟩ := loop (fun c => c ≤ u) (xs ++ [u]) l (fun x hx => ⟨(children_mem.1 (by rw [exy']; exact List.mem_append_left _ hx)).2, hle x hx⟩) hs0
      rw [e1] at e1'
      injection e1' with e1'
      subst e1'
      obtain ⟨k', q2, e2', h4, -⟩ := loop (fun _ => True) ys m (fun x hx => ⟨(children_mem.1 (by rw [exy']; exact List.mem_append_right _ hx)).2, trivial⟩) (h3.settled hs0)
      rw [e2] at e2'
      injection e2' with e2'
      subst e2'
      have hn1 : n ∉ m.rev := by
        rw [h3.rev, hl, List.append_nil]
        intro hx
        obtain ⟨c, hc, hw⟩ := h3.path n hx
        exact h2 c hc.2 (by rw [hc.1.2, blk n hn]) hw
      rw [h4.rev] at hn ⊢
      obtain ⟨x, y, exn⟩ := List.append_of_mem ((List.mem_append.1 hn).resolve_right hn1)
      refine before_reverse ⟨x, y ++ m.rev, by rw [exn]; simp, ?_⟩
      exact List.mem_append_right _ (hq1 u (by simp) trivial)
  · intro x hx
    rcases (h.seen x).1 hx with hx | hx
    · exact .inl hx
    · exact .inr (h.new x hx).2.2

theorem blocks_order {g : Graph} (hg : Inv g) (hd : Done g) {block : Nat → Option Nat} (hb : ∀ n, block n ≠ none → n < g.size) (ht : Tame g block) {fuel : Nat}
    (hf : g.size < fuel) : ∀ (bs : List Nat) (seen : Nat → Bool), bs.Nodup → (∀ x b, b ∈ bs → block x = some b → seen x = false) →
    ∃ seen' ls, localBlocks fuel g block seen bs = .ok (seen', ls) ∧ All2 (InOrder g block) bs ls := by
  intro bs
  induction bs with
  | nil => exact fun seen _ _ => ⟨seen, [], rfl, .nil⟩
  | cons b bs ih =>
    intro seen hn hs
    obtain ⟨l, e, h, hseen⟩ := block_order hg hd hb ht hf (b := b) (l := { seen := seen }) rfl (fun x hx => hs x b (by simp) hx)
    obtain ⟨hn1, hn2⟩ := List.nodup_cons.1 hn
    obtain ⟨seen', ls, e', h'⟩ := ih l.seen hn2 (by
      intro x c hc hx
      cases hsx : l.seen x
      · rfl
      · rcases hseen x hsx with h1 | h1
        · dsimp only at h1
          rw [hs x c (by simp [hc]) hx] at h1
          cases h1
        · rw [hx] at h1
          injection h1 with h1
          subst h1
          exact absurd hc hn1)
    refine ⟨seen', l.rev.reverse :: ls, ?_, .cons h h'⟩
    rw [localBlocks, e, Run.bind_ok, e', Run.bind_ok]

theorem all2_length {α β : Type} {r : α → β → Prop} {as : List α} {bs : List β} (h : All2 r as bs) : as.length = bs.length := by
  induction h with
  | nil => rfl
  | cons _ _ ih => simp [ih]

theorem all2_zip {α β : Type} {r : α → β → Prop} {as : List α} {bs : List β} (h : All2 r as bs) {a : α} {b : β} (hm : (a, b) ∈ as.zip bs) : a ∈ as ∧ r a b := by
  induction h with
  | nil => cases hm
  | cons h1 _ ih =>
    rcases List.mem_cons.1 hm with e | hm
    · injection e with e1 e2
      subst e1 e2
      exact ⟨by simp, h1⟩
    · exact ⟨by simp [(ih hm).1], (ih hm).2⟩

theorem all2_find {α β : Type} {r : α → β → Prop} {as : List α} {bs : List β} (h : All2 r as bs) {a : α} (hm : a ∈ as) : ∃ b, (a, b) ∈ as.zip bs := by
  induction h with
  | nil => cases hm
  | @cons a' b' _ _ _ _ ih =>
    rcases List.mem_cons.1 hm with rfl | hm
    · exact ⟨b', by simp⟩
    · obtain ⟨b, hb⟩ := ih hm
      exact ⟨b, by simp [hb]⟩

end Verif.Ir
