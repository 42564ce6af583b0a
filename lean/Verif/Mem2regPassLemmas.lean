import Verif.Mem2regFindLemmas
/-!
The graph after a variable is removed from memory.
-/
namespace Verif.Ir
open Verif Verif.IrSpec

theorem access_lt {g : Graph} (hg : Inv g) {a n : Nat} (h : Access g a n) : n < g.size := (hg.closed n 0 a h.2).2.1

section
variable {g : Graph} {a : Nat} {st : Nat → Prop} {h : Graph} {memo : Nat → Option Nat} {d : Nat → Option Nat}

/-- A load is replaced. -/
theorem Finding.replace (c : Ctx g a st) (f : Finding g a st h memo (fun _ => False) d) {fuel u s v : Nat} (hu : Access g a u) (hk : (g.node u).kind = .load)
    (hs : (g.node u).args 1 = some s) (hv : memo s = some v) {h' : Graph} (e : replaceNode fuel h u v = .ok h') :
    Finding g a st h' memo (fun _ => False) (fun l => if l = u then some v else d l) := by
  have hun := access_lt c.inv hu
  have hvv := f.vals s v hv
  have hsz := f.size
  have huv : u ≠ v := by
    rintro rfl
    exact hvv.2.2.2.2 hun hu
  obtain ⟨hm, hf⟩ := replaceNode_done huv f.inv f.done (by omega) hvv.2.2.1 e
  have hyoung : ∀ n i, g.size ≤ n → n < h.size → (h'.node n).args i = (h.node n).args i := by
    intro n i h1 h2
    rw [hm.args]
    unfold swap
    rw [if_neg]
    intro e
    exact (f.young n i u h1 h2 e).2 hun hu
  refine ⟨hm.inv, hm.done, by rw [hm.size]; exact hsz, fun n hn => by rw [hm.kind]; exact f.kind n hn, fun n hn => by rw [hf.projIdx]; exact f.projIdx n hn,
    ?_, ?_, ?_, f.uniq, ?_, f.opened, ?_, ?_, ?_⟩
  · intro n i hn
    rw [hm.args, f.old n i hn]
    cases hx : (g.node n).args i with
    | none => rfl
    | some x =>
      show swap u v (some ((d x).getD x)) = some (((if x = u then some v else d x)).getD x)
      cases hd : d x with
      | none =>
        by_cases hxu : x = u
        · simp [swap, hxu]
        · simp [swap, hxu]
      | some w =>
        obtain ⟨-, -, t, ht, hw⟩ := f.replaced x w hd
        have hwu : w ≠ u := by
          rintro rfl
          exact (f.vals t w hw).2.2.2.2 hun hu
        by_cases hxu : x = u
        · subst hxu
          rw [hs] at ht
          injection ht with ht
          subst ht
          rw [hv] at hw
          injection hw with hw
          subst hw
          simp [swap]
        · simp [swap, hxu, hwu]
  · intro l w e'
    split at e'
    · rename_i hl
      injection e' with e'
      rw [hl, ← e']
      exact ⟨hu, hk, s, hs, hv⟩
    · exact f.replaced l w e'
  · intro x w e
    rw [hm.size]
    exact f.vals x w e
  · intro x w e ho
    refine (f.good x w e ho).mono (fun _ => hm.kind w) (fun _ hw => ?_) fun _ _ h => h
    funext i
    exact hyoung w i hw (f.vals x w e).2.2.1
  · intro n i x h1 h2 e
    rw [hm.size] at h2
    rw [hyoung n i h1 h2] at e
    exact f.young n i x h1 h2 e
  · intro n h1 h2
    rw [hm.size] at h2
    rw [hm.kind]
    rcases f.fresh n h1 h2 with h3 | ⟨h3, h4⟩
    · exact .inl h3
    · exact .inr ⟨h3, fun i => by rw [hyoung n i h1 h2]; exact h4 i⟩
  · have hal : ¬(a = u ∨ a = v) := by
      rintro (h1 | h1)
      · rw [← h1, c.alloc] at hk
        cases hk
      · exact hvv.2.2.2.1 h1.symm
    have := hf.users a hal
    exact ⟨this.1.trans f.users.1, this.2.trans f.users.2⟩

/-- The loop that replaces the loads. -/
theorem loads_ok (c : Ctx g a st) {extent : Nat → Nat} {fuel : Nat} (hacc : ∀ u ∈ (g.node a).live, Access g a u) : ∀ {k i : Nat} {h : Graph} {memo d : Nat → Option Nat}
    {r : Found}, Finding g a st h memo (fun _ => False) d → eachUse (·.1) a (replaceLoad extent fuel a) k i (h, memo) = .ok r →
    ∃ d', Finding g a st r.1 r.2 (fun _ => False) d' ∧ (∀ l v, d l = some v → ∃ w, d' l = some w) ∧
      ∀ j u, i ≤ j → j < (g.node a).useSize → (g.node a).uses[j]? = some u → (g.node u).kind = .load → ∃ v, d' u = some v := by
  intro k
  induction k with
  | zero => intro i h memo d r _ e; cases e
  | succ k ih =>
    intro i h memo d r f e
    rw [eachUse] at e
    dsimp only at e
    rw [f.users.1, f.users.2] at e
    split at e
    · rename_i hi
      split at e
      · cases e
      · rename_i u hu
        have hmem : u ∈ (g.node a).live := by
          unfold Node.live
          refine List.mem_of_getElem? (i := i) ?_
          rw [List.getElem?_take_of_lt hi]
          exact hu
        have hua := hacc u hmem
        have hun := access_lt c.inv hua
        obtain ⟨⟨h1, memo1⟩, e1, e⟩ := run_bind_ok e
        unfold replaceLoad at e1
        dsimp only at e1
        rw [f.kind u hun] at e1
        by_cases hk : (g.node u).kind = .load
        · rw [if_pos hk] at e1
          rw [f.state_operand hun fun x hx => (c.kinds x (c.loads u x hua hk hx)).2] at e1
          split at e1
          · cases e1
          · rename_i s hs
            obtain ⟨⟨⟨h2, memo2⟩, v⟩, e2, e1⟩ := run_bind_ok e1
            obtain ⟨h3, e3, e1⟩ := run_bind_ok e1
            injection e1 with e1
            injection e1 with e1 e4
            subst e1 e4
            obtain ⟨f2, hv, hx⟩ := find_ok c f (c.loads u s hua hk hs) (c.inv.closed u 1 s hs).2.2 e2
            have f3 := f2.replace c hua hk hs hv e3
            obtain ⟨d', f4, hd, hj⟩ := ih f3 e
            refine ⟨d', f4, ?_, ?_⟩
            · intro l w hl
              by_cases hlu : l = u
              · exact hd l v (by rw [if_pos hlu])
              · exact hd l w (by rw [if_neg hlu]; exact hl)
            · intro j u' hij hj' hu' hk'
              by_cases hij' : i = j
              · subst hij'
                rw [hu] at hu'
                injection hu' with hu'
                subst hu'
                exact hd u v (by rw [if_pos rfl])
              · exact hj j u' (by omega) hj' hu' hk'
        · rw [if_neg hk] at e1
          injection e1 with e1
          injection e1 with e1 e4
          subst e1 e4
          obtain ⟨d', f4, hd, hj⟩ := ih f e
          refine ⟨d', f4, hd, ?_⟩
          intro j u' hij hj' hu' hk'
          by_cases hij' : i = j
          · subst hij'
            rw [hu] at hu'
            injection hu' with hu'
            subst hu'
            exact absurd hk' hk
          · exact hj j u' (by omega) hj' hu' hk'
    · rename_i hi
      injection e with e
      subst e
      exact ⟨d, f, fun l v h => ⟨v, h⟩, fun j u h1 h2 => by omega⟩

end

/-- The states that a state stands for when stores to `a` are left out. -/
inductive Follows (g : Graph) (a : Nat) : Nat → Nat → Prop
  | refl {x} : Follows g a x x
  | step {x p y} : Access g a x → Replaces g x p → Follows g a p y → Follows g a x y

theorem Follows.trans {g : Graph} {a x y z : Nat} (h1 : Follows g a x y) (h2 : Follows g a y z) : Follows g a x z := by
  induction h1 with
  | refl => exact h2
  | step h3 h4 _ ih => exact .step h3 h4 (ih h2)

theorem Follows.same {g : Graph} {a x y : Nat} (h : Follows g a x y) (hx : ¬Access g a x) : y = x := by
  cases h with
  | refl => rfl
  | step h1 => exact absurd h1 hx

theorem Follows.state {g : Graph} {a : Nat} {st : Nat → Prop} (c : Ctx g a st) {x y : Nat} (h : Follows g a x y) (hx : st x) : st y := by
  induction h with
  | refl => exact hx
  | step h1 h2 _ ih => exact ih (c.replaced _ _ h1 h2)

theorem Follows.rank {g : Graph} {a : Nat} {rank : Nat → Nat}
    (hr : ∀ u n, Operand g u n → (g.node u).kind ≠ .phi → (g.node u).kind ≠ .region → rank n < rank u) {x y : Nat} (h : Follows g a x y) : rank y ≤ rank x := by
  induction h with
  | refl => exact Nat.le_refl _
  | @step x p y h1 h2 _ ih =>
    obtain ⟨i, h3, h4⟩ := h2
    have := hr x p ⟨i, h4⟩ (by intro e; rw [e] at h3; cases h3) (by intro e; rw [e] at h3; cases h3)
    omega

/-- What holds while the stores are left out: `h` is the graph before, the stores `s` are done. -/
structure Routing (g : Graph) (a : Nat) (h k : Graph) (s : Nat → Prop) : Prop where
  inv : Inv k
  done : Done k
  size : k.size = h.size
  kind : ∀ n, (k.node n).kind = (h.node n).kind
  projIdx : ∀ n, (k.node n).projIdx = (h.node n).projIdx
  none : ∀ n i, (h.node n).args i = none → (k.node n).args i = none
  some : ∀ n i x, (h.node n).args i = some x → ∃ y, (k.node n).args i = some y ∧ Follows g a x y ∧ ¬s y
  users : (k.node a).uses = (g.node a).uses ∧ (k.node a).useSize = (g.node a).useSize

theorem stores_ok {g : Graph} {a : Nat} {st : Nat → Prop} {h : Graph} {memo d : Nat → Option Nat} (c : Ctx g a st) {rank : Nat → Nat}
    (hr : ∀ u n, Operand g u n → (g.node u).kind ≠ .phi → (g.node u).kind ≠ .region → rank n < rank u)
    {fuel : Nat} (hacc : ∀ u ∈ (g.node a).live, Access g a u) (f : Finding g a st h memo (fun _ => False) d) : ∀ {k i : Nat} {h1 : Graph} {s : Nat → Prop}
    {r : Graph}, Routing g a h h1 s → eachUse id a (replaceStore fuel) k i h1 = .ok r →
    ∃ s', Routing g a h r s' ∧ (∀ n, s n → s' n) ∧
      ∀ j u, i ≤ j → j < (g.node a).useSize → (g.node a).uses[j]? = some u → (g.node u).kind ≠ .load → s' u := by
  intro k
  induction k with
  | zero => intro i h1 s r _ e; cases e
  | succ k ih =>
    intro i h1 s r p e
    rw [eachUse] at e
    simp only [id] at e
    rw [p.users.1, p.users.2] at e
    split at e
    · rename_i hi
      split at e
      · cases e
      · rename_i u hu
        have hmem : u ∈ (g.node a).live := by
          unfold Node.live
          refine List.mem_of_getElem? (i := i) ?_
          rw [List.getElem?_take_of_lt hi]
          exact hu
        have hua := hacc u hmem
        have hun := access_lt c.inv hua
        have hsz := f.size
        obtain ⟨h2, e1, e⟩ := run_bind_ok e
        have hku : (h1.node u).kind = (g.node u).kind := by rw [p.kind, f.kind u hun]
        unfold replaceStore at e1
        rw [hku] at e1
        have main : (g.node u).kind ≠ .load → (match prevState h1 u with | none => .ub | some q => replaceNode fuel h1 u q) = Run.ok h2 →
            Routing g a h h2 (fun n => s n ∨ n = u) := by
          intro hk e1
          split at e1
          · cases e1
          · rename_i q hq
            rw [prevState_iff] at hq
            obtain ⟨j, hj, hq⟩ := hq
            rw [hku] at hj
            -- the state before in the original graph
            obtain ⟨x, hx⟩ : ∃ x, (g.node u).args j = some x := by
              cases hx : (g.node u).args j with
              | some x => exact ⟨x, rfl⟩
              | none =>
                rw [p.none u j (by rw [f.old u j hun, hx]; rfl)] at hq
                cases hq
            have hrep : Replaces g u x := ⟨j, hj, hx⟩
            have hst := c.replaced u x hua hrep
            have hxh : (h.node u).args j = some x := by
              rw [f.old u j hun, hx]
              exact f.sub_same fun _ => (c.kinds x hst).2
            obtain ⟨y, hy, hfol, hns⟩ := p.some u j x hxh
            rw [hq] at hy
            injection hy with hy
            subst hy
            have hsq := hfol.state c hst
            have huq : u ≠ q := by
              rintro rfl
              have h1 := hfol.rank hr
              have h2 := hr u x ⟨j, hx⟩ (by intro e; rw [e] at hj; cases hj) (by intro e; rw [e] at hj; cases hj)
              omega
            have hqn := (p.inv.closed u j q hq).2.2
            obtain ⟨hm, hf⟩ := replaceNode_done huq p.inv p.done (by rw [p.size]; omega) hqn e1
            refine ⟨hm.inv, hm.done, by rw [hm.size, p.size], fun n => by rw [hm.kind, p.kind], fun n => by rw [hf.projIdx, p.projIdx], ?_, ?_, ?_⟩
            · intro n i' hn
              rw [hm.args, p.none n i' hn]
              rfl
            · intro n i' z hz
              obtain ⟨y, hy, hfo, hns'⟩ := p.some n i' z hz
              rw [hm.args, hy]
              by_cases hyu : y = u
              · subst hyu
                refine ⟨q, by simp [swap], hfo.trans (.step hua hrep hfol), ?_⟩
                rintro (h | h)
                · exact hns h
                · exact huq h.symm
              · refine ⟨y, by simp [swap, hyu], hfo, ?_⟩
                rintro (h | h)
                · exact hns' h
                · exact hyu h
            · have hal : ¬(a = u ∨ a = q) := by
                rintro (h | h)
                · rw [← h] at hua
                  obtain ⟨h1 | h1 | h1, -⟩ := hua <;> rw [c.alloc] at h1 <;> cases h1
                · rw [← h] at hsq
                  exact (c.kinds a hsq).1 c.alloc
              have := hf.users a hal
              exact ⟨this.1.trans p.users.1, this.2.trans p.users.2⟩
        have next : ∀ {s1 : Nat → Prop}, Routing g a h h2 s1 → (∀ n, s n → s1 n) → ((g.node u).kind ≠ .load → s1 u) →
            ∃ s', Routing g a h r s' ∧ (∀ n, s n → s' n) ∧
            ∀ j u, i ≤ j → j < (g.node a).useSize → (g.node a).uses[j]? = some u → (g.node u).kind ≠ .load → s' u := by
          intro s1 p1 hs1 hsu
          obtain ⟨s', p2, hs', hj⟩ := ih p1 e
          refine ⟨s', p2, fun n hn => hs' n (hs1 n hn), ?_⟩
          intro j u' hij hj' hu' hk'
          by_cases hij' : i = j
          · subst hij'
            rw [hu] at hu'
            injection hu' with hu'
            subst hu'
            exact hs' u (hsu hk')
          · exact hj j u' (by omega) hj' hu' hk'
        split at e1
        · rename_i hk
          exact next (main (by rw [hk]; simp) e1) (fun n hn => .inl hn) fun _ => .inr rfl
        · rename_i hk
          exact next (main (by rw [hk]; simp) e1) (fun n hn => .inl hn) fun _ => .inr rfl
        · rename_i hk
          injection e1 with e1
          subst e1
          exact next p (fun n hn => hn) fun h => absurd hk h
        · cases e1
    · rename_i hi
      injection e with e
      subst e
      exact ⟨s, p, fun n h => h, fun j u h1 h2 => by omega⟩

end Verif.Ir
