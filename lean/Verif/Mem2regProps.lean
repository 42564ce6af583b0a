import Verif.Mem2regSimLemmas
import Verif.StatesProps
/-!
C88: variables that are kept in registers keep their values.
-/
namespace Verif.Ir
open Verif Verif.IrSpec

theorem simple_iff {extent : Nat → Nat} {g : Graph} {a : Nat} : ∀ {us : List Nat} {b : Bool}, simpleUses extent g a us = .ok b → (b = true ↔ ∀ u ∈ us,
    ((g.node u).kind = .load ∧ (g.node u).bytes = extent a) ∨ ((g.node u).kind = .setZeroPtr ∧ extent u = extent a) ∨
    ((g.node u).kind = .store ∧ (g.node u).args 0 = some a ∧ ∀ v, (g.node u).args 1 = some v → v ≠ a ∧ (g.node v).bytes = extent a)) := by
  intro us
  induction us with
  | nil => intro b e; cases e; simp
  | cons x us ih =>
    intro b e
    rw [simpleUses] at e
    rw [List.forall_mem_cons]
    split at e
    · rename_i hk
      split at e
      · rename_i hx
        cases e
        simp [hk, hx]
      · rename_i hx
        rw [ih e]
        simp only [Decidable.not_not] at hx
        simp [hk, hx]
    · rename_i hk
      split at e
      · cases e
      · rename_i v hv
        split at e
        · rename_i hc
          cases e
          simp only [Bool.false_eq_true, hk, reduceCtorEq, false_and, true_and, false_or, hv, Option.some.injEq, false_iff]
          rintro ⟨⟨h1, h2⟩, _⟩
          have := h2 v rfl
          rcases hc with h | h | h
          · exact h this.2
          · exact this.1 h
          · exact h h1
        · rename_i hc
          rw [ih e]
          have h1 : (g.node x).args 0 = some a := Decidable.byContradiction fun h => hc (.inr (.inr h))
          have h2 : v ≠ a := fun h => hc (.inr (.inl h))
          have h3 : (g.node v).bytes = extent a := Decidable.byContradiction fun h => hc (.inl h)
          simp only [hk, h1, hv, reduceCtorEq, false_and, true_and, false_or, Option.some.injEq]
          constructor
          · exact fun h => ⟨fun w hw => by subst hw; exact ⟨h2, h3⟩, h⟩
          · exact fun h => h.2
    · rename_i hk
      split at e
      · rename_i hx
        cases e
        simp [hk, hx]
      · rename_i hx
        rw [ih e]
        simp only [Decidable.not_not] at hx
        simp [hk, hx]
    · rename_i h1 h2 h3
      cases e
      simp only [Bool.false_eq_true, false_iff]
      rintro ⟨h | h | h, _⟩
      · exact h3 h.1
      · exact h1 h.1
      · exact h2 h.1

theorem simple_fn {extent : Nat → Nat} {g : Graph} {a : Nat} {o : Option Nat} (us : List Nat) : simpleUses extent { g with fn := o } a us = simpleUses extent g a us := by
  induction us with
  | nil => rfl
  | cons u us ih => simp only [simpleUses, ih]

/-- C88: a variable that is used in another way than as a whole stays in memory: the pass changes no node. -/
theorem others_stay {extent : Nat → Nat} {fuel : Nat} {g g' : Graph} {a : Nat} (hb : Built g) (ho : ¬OnlyWhole extent g a)
    (e : tryRemove extent fuel g a = .ok g') : g'.size = g.size ∧ g'.node = g.node := by
  unfold tryRemove at e
  dsimp only at e
  obtain ⟨b, e1, e⟩ := run_bind_ok e
  have e1 := ofRes_eq_ok e1
  rw [simple_fn] at e1
  have hb' : b = false := by
    cases b with
    | false => rfl
    | true => exact absurd (fun u hu => (simple_iff e1).1 rfl u ((live_operand (inv_built hb)).2 hu)) ho
  rw [hb'] at e
  cases e
  exact ⟨rfl, rfl⟩

/-- C88: a variable that is only used as a whole is removed from memory. Afterwards nothing uses the loads, stores and clears of the variable any more,
and the remaining nodes compute what they computed before: for every execution afterwards there is one before that goes the same way and has the same values,
and for every execution before, in which the variable at first contains what the undefined nodes yield, there is one afterwards.

Partial: no store may store just what was loaded from the same variable, see `self_store_violated`. -/
theorem promotion_partial {extent : Nat → Nat} {fuel : Nat} {g g' : Graph} {a : Nat} (hb : Built g) (hd : Done g) (ha : a < g.size) (hv : Variable g a)
    (hn : NoSelfStore g a) (ho : OnlyWhole extent g a) (e : tryRemove extent fuel g a = .ok g') :
    g.size ≤ g'.size ∧ (∀ n, n < g.size → (g'.node n).kind = (g.node n).kind) ∧ (∀ u n, Access g a n → ¬Operand g' u n) ∧
    ∀ {X : Type} (m : Meaning X), (∀ n, g.size ≤ n → n < g'.size → (g'.node n).kind = zeroKind → ∀ x, m.op n x = m.zero) →
      (∀ init' entry b e', Executes g' a m init' entry b e' → ∃ init e, Executes g a m init entry b e ∧ ∀ n, n < g.size → ¬Access g a n → e'.out n = e.out n) ∧
      ∀ init, (∀ n, g.size ≤ n → n < g'.size → (g'.node n).kind = undefinedKind → ∀ f, init f = m.op n fun _ => none) →
        ∀ entry b e, Executes g a m init entry b e → ∃ e', Executes g' a m init entry b e' ∧ ∀ n, n < g.size → ¬Access g a n → e'.out n = e.out n := by
  have hg := inv_built hb
  have hlive : ∀ u, u ∈ (g.node a).live ↔ Operand g u a := fun u => live_operand hg
  have hs : simpleUses extent g a (g.node a).live = .ok true := by
    have e0 := e
    unfold tryRemove at e0
    dsimp only at e0
    obtain ⟨b, e1, -⟩ := run_bind_ok e0
    have e1 := ofRes_eq_ok e1
    rw [simple_fn] at e1
    rw [e1, (simple_iff e1).2 fun u hu => ho u ((hlive u).1 hu)]
  obtain ⟨memo, P⟩ := promoted hg hd hv hn ha hs e
  have hst : ∀ n, Access g a n → (g.node n).kind = .store → ∃ v, (g.node n).args 1 = some v := by
    intro n hn' hk
    have hm := (hlive n).2 ⟨0, hn'.2⟩
    clear e ho P hlive hn
    generalize (g.node a).live = us at hs hm
    induction us with
    | nil => cases hm
    | cons u us ih =>
      rw [simpleUses] at hs
      rcases List.mem_cons.1 hm with rfl | hm
      · rw [hk] at hs
        dsimp only at hs
        split at hs
        · cases hs
        · rename_i v hv'
          exact ⟨v, hv'⟩
      · refine ih ?_ hm
        split at hs
        · split at hs
          · cases hs
          · exact hs
        · split at hs
          · cases hs
          · split at hs
            · cases hs
            · exact hs
        · split at hs
          · cases hs
          · exact hs
        · cases hs
  refine ⟨P.size, P.kind, ?_, ?_⟩
  · rintro u n hn' ⟨i, hi⟩
    have hu := (P.inv.closed u i n hi).2.1
    by_cases hug : u < g.size
    · cases hx : (g.node u).args i with
      | none => rw [P.absent u i hug hx] at hi; cases hi
      | some x =>
        obtain ⟨y, hy, hbx⟩ := P.operand u i x hug hx
        rw [hi] at hy
        injection hy with hy
        subst hy
        cases hbx with
        | same h1 h2 => exact h1 (by rw [← h2]; exact hn')
        | load _ _ _ h4 => exact (P.vals _ _ h4).2.2 (access_lt hg hn') hn'
        | store _ _ _ h4 => exact h4 hn'
    · exact P.young u i n (by omega) hu hi hn'
  · intro X m hz
    refine ⟨?_, ?_⟩
    · intro init' entry b e' E
      obtain ⟨e, E', S⟩ := P.back hg hv hz E
      exact ⟨_, e, E', fun n h1 h2 => (S.old n h1 h2).symm⟩
    · intro init hu entry b e E
      obtain ⟨e', E', S⟩ := P.forth hg hv hz hu hst E
      exact ⟨e', E', fun n h1 h2 => (S.old n h1 h2).symm⟩

/-! ### Checks -/

instance (g : Graph) (a n : Nat) : Decidable (Access g a n) := by
  unfold Access
  infer_instance

/-- The state before `n`. -/
def earlier (g : Graph) (n : Nat) : Option Nat :=
  if (g.node n).kind = .project then (g.node n).args 0 else prevState g n

theorem earlier_iff {g : Graph} {n s : Nat} : earlier g n = some s ↔ Replaces g n s ∨ IsProjection g n s := by
  unfold earlier
  split
  · rename_i hk
    constructor
    · exact fun h => .inr ⟨hk, h⟩
    · rintro (⟨i, h, _⟩ | h)
      · rw [hk] at h; cases h
      · exact h.2
  · rename_i hk
    rw [prevState_iff]
    constructor
    · exact .inl
    · rintro (h | h)
      · exact h
      · exact absurd h.1 hk

/-- The node, if there is one, is among the states. -/
def isState (st : List Nat) : Option Nat → Bool
  | none => true
  | some s => st.contains s

/-- A check of the conditions on a variable. -/
def variableCheck (g : Graph) (a : Nat) (st : List Nat) (rank : Nat → Nat) : Bool :=
  decide ((g.node a).kind = .alloc) && (st.all fun s => decide (s < g.size)) && (List.range g.size).all fun n =>
    (!(decide ((g.node n).kind = .load) || decide ((g.node n).kind = .setZeroPtr)) || !(operands g n).contains a || decide ((g.node n).args 0 = some a)) &&
    (!decide (Access g a n) || (decide ((g.node n).kind = .load) && isState st ((g.node n).args 1)) ||
      (!decide ((g.node n).kind = .load) && isState st (prevState g n) && (prevState g n).isSome)) &&
    (!st.contains n || (!decide ((g.node n).kind = .alloc) && !decide ((g.node n).kind = .load) && isState st (earlier g n) &&
      (!decide ((g.node n).kind = .phi) || ((match (g.node n).args 0 with | some b => decide ((g.node b).kind = .region) | none => false) &&
        isState st ((g.node n).args 1) && isState st ((g.node n).args 2) && isState st ((g.node n).args 3))))) &&
    ((List.range 4).all fun i => match (g.node n).args i with
      | none => true
      | some x => !decide (Access g a x) || (!decide ((g.node n).kind = .region) && !decide ((g.node n).kind = .project) &&
        (!decide (i = 0) || (!decide ((g.node n).kind = .phi) && !decide ((g.node n).kind = .ifk))))) &&
    (decide ((g.node n).kind = .phi) || decide ((g.node n).kind = .region) || (operands g n).all fun x => decide (rank x < rank n))

theorem variable_sound {g : Graph} (hb : Built g) {a : Nat} {st : List Nat} {rank : Nat → Nat} (h : variableCheck g a st rank = true) : Variable g a := by
  have hg := inv_built hb
  unfold variableCheck at h
  simp only [Bool.and_eq_true, List.all_eq_true, List.mem_range, decide_eq_true_eq] at h
  obtain ⟨⟨h1, h2⟩, h3⟩ := h
  have is : ∀ {o : Option Nat} {s : Nat}, isState st o = true → o = some s → s ∈ st := by
    intro o s h e
    subst e
    simpa [isState] using h
  have acc : ∀ n, Access g a n → _ := fun n h => ((((h3 n (access_lt hg h)).1).1).1).2
  refine ⟨h1, ?_, ⟨(· ∈ st), ?_, ?_, ?_⟩, ?_, ?_, ⟨rank, ?_⟩⟩
  · rintro n hk ⟨i, hi⟩
    have := ((((h3 n (hg.closed n i a hi).2.1).1).1).1).1
    have hm : a ∈ operands g n := (operands_mem hg).2 ⟨i, hi⟩
    rcases hk with hk | hk <;> simpa [hk, hm] using this
  · intro n s ha hk hs
    have := acc n ha
    simp only [ha, hk, decide_true, Bool.not_true, Bool.false_or, Bool.true_and, Bool.false_and, Bool.or_false] at this
    exact is this hs
  · intro n s ha hr
    have hk : (g.node n).kind ≠ .load := by
      intro e
      obtain ⟨i, h, _⟩ := hr
      rw [e] at h
      cases h
    have := acc n ha
    simp only [ha, hk, decide_true, decide_false, Bool.not_true, Bool.not_false, Bool.false_or, Bool.true_and, Bool.false_and, Bool.and_eq_true] at this
    exact is this.1 ((prevState_iff g n s).2 hr)
  · intro s hs
    have := ((h3 s (h2 s hs)).1.1).2
    have hm : st.contains s = true := by rw [List.contains_iff_mem]; exact hs
    simp only [hm, Bool.not_true, Bool.false_or, Bool.and_eq_true, Bool.not_eq_true', decide_eq_false_iff_not, Bool.or_eq_true] at this
    obtain ⟨⟨⟨h4, h5⟩, h6⟩, h7⟩ := this
    refine ⟨h4, h5, ?_, fun p hp => is h6 (earlier_iff.2 hp)⟩
    intro hk
    obtain ⟨⟨⟨h8, h9⟩, h10⟩, h11⟩ := h7.resolve_left fun h => h hk
    refine ⟨?_, ?_⟩
    · cases hb0 : (g.node s).args 0 with
      | none => rw [hb0] at h8; cases h8
      | some b => rw [hb0] at h8; exact ⟨b, rfl, by simpa using h8⟩
    · intro i v hi
      have := (hg.closed s (i + 1) v hi).1
      match i, this, hi with
      | 0, _, hi => exact is h9 hi
      | 1, _, hi => exact is h10 hi
      | 2, _, hi => exact is h11 hi
      | i + 3, h, _ => omega
  · intro n ha hk
    have := acc n ha
    simp only [ha, hk, decide_true, decide_false, Bool.not_true, Bool.not_false, Bool.false_or, Bool.true_and, Bool.false_and, Bool.and_eq_true] at this
    cases hp : prevState g n with
    | none => rw [hp] at this; cases this.2
    | some s => exact ⟨s, (prevState_iff g n s).1 hp⟩
  · intro u i x hx ha
    have h4 := ((h3 u (hg.closed u i x hx).2.1).1).2 i (hg.closed u i x hx).1
    rw [hx] at h4
    simp only [ha, decide_true, Bool.not_true, Bool.false_or, Bool.and_eq_true, Bool.not_eq_true', decide_eq_false_iff_not, Bool.or_eq_true] at h4
    exact ⟨h4.1.1, h4.1.2, fun h0 => h4.2.resolve_left fun h => h h0⟩
  · rintro u n ⟨i, hi⟩ hk1 hk2
    have h4 := (h3 u (hg.closed u i n hi).2.1).2
    simp only [hk1, hk2, decide_false, Bool.false_or, List.all_eq_true, decide_eq_true_eq] at h4
    exact h4 n ((operands_mem hg).2 ⟨i, hi⟩)

/-- A check of `OnlyWhole`. -/
def wholeCheck (extent : Nat → Nat) (g : Graph) (a : Nat) : Bool :=
  match simpleUses extent g a (g.node a).live with
  | .ok true => true
  | _ => false

theorem whole_sound {extent : Nat → Nat} {g : Graph} (hb : Built g) {a : Nat} (h : wholeCheck extent g a = true) : OnlyWhole extent g a := by
  unfold wholeCheck at h
  split at h
  · rename_i e
    exact fun u hu => (simple_iff e).1 rfl u ((live_operand (inv_built hb)).2 hu)
  · cases h

/-- A check of `Holds`. -/
def holdsCheck (g : Graph) (a : Nat) (m : Meaning Nat) (init : Nat → Nat) (e : Env Nat) : Bool :=
  (List.range g.size).all fun n =>
    if Access g a n then
      match (g.node n).kind, (g.node n).args 1, (g.node n).args 2 with
      | .load, some s, _ => e.out n = e.var s
      | .store, some v, some s => e.out n = e.out s && e.var n = e.out v
      | .setZeroPtr, some s, _ => e.out n = e.out s && e.var n = m.zero
      | _, _, _ => true
    else
      ((g.node n).kind = .phi || (g.node n).kind = .region || e.out n = m.op n fun i => ((g.node n).args i).map e.out) &&
      (match earlier g n with | none => true | some s => e.var n = e.var s) && ((g.node n).kind ≠ .function || e.var n = init n)

theorem holds_sound {g : Graph} {a : Nat} {m : Meaning Nat} {init : Nat → Nat} {e : Env Nat} (h : holdsCheck g a m init e = true) : Holds g a m init e := by
  unfold holdsCheck at h
  rw [List.all_eq_true] at h
  have all := fun n hn => h n (List.mem_range.2 hn)
  refine ⟨?_, ?_, ?_, ?_, ?_, ?_⟩
  · intro n s hn hk h0 h1
    have := all n hn
    rw [if_pos ⟨.inl hk, h0⟩, hk, h1] at this
    simpa using this
  · intro n v s hn hk h0 h1 h2
    have := all n hn
    rw [if_pos ⟨.inr (.inl hk), h0⟩, hk, h1, h2] at this
    simpa using this
  · intro n s hn hk h0 h1
    have := all n hn
    rw [if_pos ⟨.inr (.inr hk), h0⟩, hk, h1] at this
    simpa using this
  · intro n hn ha hk1 hk2
    have := all n hn
    rw [if_neg ha] at this
    simp only [hk1, hk2, decide_false, Bool.false_or, Bool.and_eq_true, decide_eq_true_eq] at this
    exact this.1.1
  · intro n s hn hr ha
    have := all n hn
    rw [if_neg ha, earlier_iff.2 hr] at this
    simp only [Bool.and_eq_true, decide_eq_true_eq] at this
    exact this.1.2
  · intro n hn hk
    have ha : ¬Access g a n := by
      rintro ⟨h | h | h, _⟩ <;> rw [hk] at h <;> cases h
    have := all n hn
    rw [if_neg ha] at this
    simp only [hk, ne_eq, not_true_eq_false, decide_false, Bool.false_or, Bool.and_eq_true, decide_eq_true_eq] at this
    exact this.2

/-! ### The graphs of `int f(int x) { int y; while (x) { x = x * 2; y = x; } return y; }` and with `x = x` instead -/

/-- The graphs. -/
def mkAssign (self : Bool) (fuel : Nat) : Run Graph := do
  let f := newFunction {}
  let e ← project fuel f.1 f.2 0 0
  let g ← blockStart fuel e.1 e.2
  let x := new g .alloc 8
  let y := new x.1 .alloc 8
  let c := new y.1 (.op 1) 4
  let s ← getState fuel c.1
  let t ← newWith fuel s.1 .store [some x.2, some c.2, some s.2] 0
  let g ← Run.ofRes (setState t.1 t.2)
  let j := newBlock g
  let g ← goto fuel j.1 j.2
  let g ← blockStart fuel g j.2
  let s ← getState fuel g
  let l ← newWith fuel s.1 .load [some x.2, some s.2] 4
  let i ← ifSelection fuel l.1 l.2
  let g ← blockStart fuel i.1 i.2.1
  let s ← getState fuel g
  let l ← newWith fuel s.1 .load [some x.2, some s.2] 4
  let d ← newWith fuel l.1 (.op 2) [some l.2] 4
  let s ← getState fuel d.1
  let t ← newWith fuel s.1 .store [some x.2, some (if self then l.2 else d.2), some s.2] 0
  let g ← Run.ofRes (setState t.1 t.2)
  let s ← getState fuel g
  let l ← newWith fuel s.1 .load [some x.2, some s.2] 4
  let s ← getState fuel l.1
  let t ← newWith fuel s.1 .store [some y.2, some l.2, some s.2] 0
  let g ← Run.ofRes (setState t.1 t.2)
  let g ← goto fuel g j.2
  let g ← blockStart fuel g i.2.2
  let s ← getState fuel g
  let l ← newWith fuel s.1 .load [some y.2, some s.2] 4
  let g ← ret fuel l.1 (some l.2)
  sealBlocks fuel g g.seals

theorem built_assign (self : Bool) (fuel : Nat) : Builds (mkAssign self fuel) id :=
  (builds_project (built_newFunction .empty) _ _ _ _).bind fun _ h =>
  (builds_blockStart h _ _).bind fun _ h => (builds_getState (.new (.new (.new h))) _).bind fun _ h =>
  (builds_newWith h _ _ _ _).bind fun _ h => (builds_setState h _).bind fun _ h => (builds_goto (built_newBlock h) _ _).bind fun _ h =>
  (builds_blockStart h _ _).bind fun _ h => (builds_getState h _).bind fun _ h => (builds_newWith h _ _ _ _).bind fun _ h =>
  (builds_ifSelection h _ _).bind fun _ h => (builds_blockStart h _ _).bind fun _ h => (builds_getState h _).bind fun _ h =>
  (builds_newWith h _ _ _ _).bind fun _ h => (builds_newWith h _ _ _ _).bind fun _ h => (builds_getState h _).bind fun _ h =>
  (builds_newWith h _ _ _ _).bind fun _ h => (builds_setState h _).bind fun _ h => (builds_getState h _).bind fun _ h =>
  (builds_newWith h _ _ _ _).bind fun _ h => (builds_getState h _).bind fun _ h => (builds_newWith h _ _ _ _).bind fun _ h =>
  (builds_setState h _).bind fun _ h => (builds_goto h _ _).bind fun _ h => (builds_blockStart h _ _).bind fun _ h =>
  (builds_getState h _).bind fun _ h => (builds_newWith h _ _ _ _).bind fun _ h => (builds_ret h _ _).bind fun _ h => builds_sealBlocks h

/-- The graph with `x = x * 2`. -/
def doubleGraph : Graph := graphOf (mkAssign false 30)

/-- The graph with `x = x`. -/
def selfGraph : Graph := graphOf (mkAssign true 30)

theorem double_built : Built doubleGraph := built_graphOf (built_assign false 30)

theorem self_built : Built selfGraph := built_graphOf (built_assign true 30)

set_option maxRecDepth 10000 in
theorem double_done : Done doubleGraph := by
  have hs : doubleGraph.size = 20 := by decide +kernel
  refine (complete_sound (g := doubleGraph) double_built (by decide +kernel) ?_).done
  intro n hn
  obtain ⟨m, rfl⟩ : ∃ m, n = m + 20 := ⟨n - 20, by omega⟩
  constructor <;> with_unfolding_all exact (id rfl)

set_option maxRecDepth 10000 in
theorem self_done : Done selfGraph := by
  have hs : selfGraph.size = 20 := by decide +kernel
  refine (complete_sound (g := selfGraph) self_built (by decide +kernel) ?_).done
  intro n hn
  obtain ⟨m, rfl⟩ : ∃ m, n = m + 20 := ⟨n - 20, by omega⟩
  constructor <;> with_unfolding_all exact (id rfl)

/-- The states of both graphs. -/
def assignStates : List Nat := [0, 2, 6, 8, 15, 17]

theorem double_variable : Variable doubleGraph 3 :=
  variable_sound double_built (st := assignStates) (rank := id) (by decide +kernel)

theorem self_variable : Variable selfGraph 3 :=
  variable_sound self_built (st := assignStates) (rank := id) (by decide +kernel)

/-- The graph after the pass over `x`. -/
def doubleAfter : Graph := graphOf (tryRemove (fun _ => 4) 100 doubleGraph 3)

/-- The graph after the pass over `x`. -/
def selfAfter : Graph := graphOf (tryRemove (fun _ => 4) 100 selfGraph 3)

theorem graphOf_ok {r : Run Graph} (h : (graphOf r).size ≠ 0) : r = .ok (graphOf r) := by
  cases r with
  | ok g => rfl
  | fail => exact absurd rfl h
  | ub => exact absurd rfl h
  | more => exact absurd rfl h

/-- The double of `x` that is stored is what a load of `x` yields. -/
example : (∀ u n, Access doubleGraph 3 n → ¬Operand doubleAfter u n) ∧ (doubleAfter.node 17).args 1 = some 14 ∧ (doubleAfter.node 20).kind = .phi ∧
    Access doubleGraph 3 16 ∧ (doubleGraph.node 17).args 1 = some 16 := by
  refine ⟨?_, by decide +kernel, by decide +kernel, by decide +kernel, by decide +kernel⟩
  refine (promotion_partial (extent := fun _ => 4) (fuel := 100) double_built double_done (by decide +kernel) double_variable ?_
    (whole_sound double_built (by decide +kernel)) (graphOf_ok (by decide +kernel))).2.2.1
  intro n v hk h0 h1 ha
  have hlt := access_lt (inv_built double_built) (⟨.inr (.inl hk), h0⟩ : Access doubleGraph 3 n)
  have hc : (List.range doubleGraph.size).all (fun n => !(decide ((doubleGraph.node n).kind = .store) && decide ((doubleGraph.node n).args 0 = some 3)) ||
      match (doubleGraph.node n).args 1 with | none => true | some v => !decide (Access doubleGraph 3 v)) = true := by decide +kernel
  rw [List.all_eq_true] at hc
  have := hc n (List.mem_range.2 hlt)
  rw [h1] at this
  simp [hk, h0, ha] at this

/-- The graph of a function that stores the address of a variable in the variable. -/
def mkAddress (fuel : Nat) : Run Graph := do
  let f := newFunction {}
  let e ← project fuel f.1 f.2 0 0
  let g ← blockStart fuel e.1 e.2
  let s ← getState fuel g
  let x := new s.1 .alloc 8
  let t ← newWith fuel x.1 .store [some x.2, some x.2, some s.2] 0
  .ok t.1

theorem address_built : Built (graphOf (mkAddress 30)) := by
  refine built_graphOf ?_
  exact (builds_project (built_newFunction .empty) _ _ _ _).bind fun _ h =>
    (builds_blockStart h _ _).bind fun _ h => (builds_getState h _).bind fun _ h =>
    (builds_newWith (.new h) _ _ _ _).bind fun _ h => by intro x hx; cases hx; exact h

/-- A variable whose address is stored stays. -/
example : ∃ g g', Built g ∧ ¬OnlyWhole (fun _ => 8) g 3 ∧ tryRemove (fun _ => 8) 50 g 3 = .ok g' ∧ g'.node = g.node := by
  have hn : ¬OnlyWhole (fun _ => 8) (graphOf (mkAddress 30)) 3 := by
    intro h
    rcases h 4 ⟨0, by decide +kernel⟩ with h | h | h
    · exact absurd h.1 (by decide +kernel)
    · exact absurd h.1 (by decide +kernel)
    · exact absurd rfl (h.2.2 3 (by decide +kernel)).1
  have e : tryRemove (fun _ => 8) 50 (graphOf (mkAddress 30)) 3 = .ok _ := graphOf_ok (by decide +kernel)
  exact ⟨_, _, address_built, hn, e, (others_stay address_built hn e).2⟩

/-- What the nodes mean: the parameter is 1, and memory apart from `x` is what was stored last. -/
def sampleMeaning : Meaning Nat where
  op n x := if n = 5 then 1 else if n = 17 then (x 1).getD 0 else 0
  zero := 0
  truth _ := true

/-- The values when the function starts. -/
def selfStart : Env Nat := ⟨fun n => if n = 5 then 1 else 0, fun n => if n = 6 then 1 else 0⟩

/-- The values in the loop. -/
def selfInLoop : Env Nat := ⟨fun n => if n = 5 ∨ n = 20 then 1 else 0, fun n => if n = 6 ∨ n = 15 then 1 else 0⟩

set_option maxRecDepth 10000 in
theorem selfAfter_runs : Executes selfAfter 3 sampleMeaning (fun _ => 0) 1 7 selfInLoop := by
  refine .join (k := 0) (.start (e := selfStart) (holds_sound (by decide +kernel))) (by decide +kernel) (by decide) (by decide +kernel) ?_ (holds_sound (by decide +kernel))
  intro p hp hk
  have hs : selfAfter.size = 21 := by decide +kernel
  have hc : (List.range 21).all (fun p => !decide ((selfAfter.node p).kind = .phi) || decide (p = 8) || decide (p = 20)) = true := by decide +kernel
  rw [List.all_eq_true] at hc
  have := hc p (List.mem_range.2 (by omega))
  simp only [hk, decide_true, Bool.not_true, Bool.false_or, Bool.or_eq_true, decide_eq_true_eq] at this
  rcases this with rfl | rfl
  · refine ⟨fun _ v hv => ?_, fun h => absurd (by decide +kernel) h⟩
    have : (selfAfter.node 8).args 1 = some 2 := by decide +kernel
    rw [this] at hv
    injection hv with hv
    subst hv
    decide
  · refine ⟨fun _ v hv => ?_, fun h => absurd (by decide +kernel) h⟩
    have : (selfAfter.node 20).args 1 = some 5 := by decide +kernel
    rw [this] at hv
    injection hv with hv
    subst hv
    decide

/-- In the loop `x` is always 1. -/
theorem self_always {init : Nat → Nat} {b : Nat} {e : Env Nat} (E : Executes selfGraph 3 sampleMeaning init 1 b e) : b ≠ 1 → e.var 8 = 1 ∧ e.out 17 = 1 := by
  have hs : selfGraph.size = 20 := by decide +kernel
  have key : ∀ {e : Env Nat}, Holds selfGraph 3 sampleMeaning init e → e.var 8 = 1 → e.out 17 = 1 ∧ e.var 17 = 1 := by
    intro e H h8
    have h13 := H.load 13 8 (by omega) (by decide +kernel) (by decide +kernel) (by decide +kernel)
    have h15 := (H.store 15 13 8 (by omega) (by decide +kernel) (by decide +kernel) (by decide +kernel) (by decide +kernel)).2
    have h16 := H.load 16 15 (by omega) (by decide +kernel) (by decide +kernel) (by decide +kernel)
    have h17 := H.through 17 15 (by omega) (.inl ⟨2, by decide +kernel, by decide +kernel⟩) (by decide +kernel)
    have h17' := H.other 17 (by omega) (by decide +kernel) (by decide +kernel) (by decide +kernel)
    have ha : (selfGraph.node 17).args 1 = some 16 := by decide +kernel
    have ho : e.out 17 = e.out 16 := by
      have : (sampleMeaning.op 17 fun i => ((selfGraph.node 17).args i).map e.out) = (((selfGraph.node 17).args 1).map e.out).getD 0 := rfl
      rw [h17', this, ha]
      rfl
    omega
  have hc : (List.range 20).all (fun n => (!decide ((selfGraph.node n).kind = .region) || decide (n = 7)) && (!decide ((selfGraph.node n).kind = .ifk) || decide (n = 10))) = true := by
    decide +kernel
  simp only [List.all_eq_true, List.mem_range, Bool.and_eq_true, Bool.or_eq_true, Bool.not_eq_true', decide_eq_true_eq, decide_eq_false_iff_not] at hc
  have hg := inv_built self_built
  have h8k : (selfGraph.node 8).kind = .phi := by decide +kernel
  have h80 : (selfGraph.node 8).args 0 = some 7 := by decide +kernel
  have h81 : (selfGraph.node 8).args 1 = some 6 := by decide +kernel
  have h82 : (selfGraph.node 8).args 2 = some 17 := by decide +kernel
  induction E with
  | start H => exact fun h => absurd rfl h
  | @join b b' k e f E hk hk2 hb J H ih =>
    intro _
    have hlt := (hg.closed b' k b hb).2.1
    rw [hs] at hlt
    have hb7 := (hc b' hlt).1.resolve_left fun h => h hk
    subst hb7
    have hold : Holds selfGraph 3 sampleMeaning init e := by cases E <;> assumption
    have hv : f.var 8 = 1 := by
      match k, hk2 with
      | 0, _ =>
        rw [((J 8 (by omega) h8k).1 h80 6 h81).2]
        rw [(hold.store 6 5 2 (by omega) (by decide +kernel) (by decide +kernel) (by decide +kernel) (by decide +kernel)).2]
        exact hold.other 5 (by omega) (by decide +kernel) (by decide +kernel) (by decide +kernel)
      | 1, _ =>
        rw [((J 8 (by omega) h8k).1 h80 17 h82).2]
        have h7 : (selfGraph.node 7).args 1 = some 12 := by decide +kernel
        rw [h7] at hb
        injection hb with hb
        subst hb
        exact (key hold (ih (by decide)).1).2
    exact ⟨hv, (key H hv).1⟩
  | @branch b i c b' e f E hpr hk hb hcc ht J H ih =>
    intro _
    have hlt := (hg.closed i 0 b hb).2.1
    rw [hs] at hlt
    have hi := (hc i hlt).2.resolve_left fun h => h hk
    subst hi
    have h10 : (selfGraph.node 10).args 0 = some 7 := by decide +kernel
    rw [h10] at hb
    injection hb with hb
    subst hb
    have hv : f.var 8 = 1 := by rw [(J 8 (by omega) h8k).2]; exact (ih (by decide)).1
    exact ⟨hv, (key H hv).1⟩

/-- C88: the pass is wrong when a store stores just what was loaded from the same variable: in
`int f(int x) { int y; while (x) { x = x; y = x; } return y; }` the value of `x` in the loop that the search finds is the load of `x` in `x = x`. After that
this load is replaced, but not in the table; so `y = x` stores what is loaded from the memory of `x`, which is not written any more. -/
theorem self_store_violated : ∃ g g' a, Built g ∧ Done g ∧ a < g.size ∧ Variable g a ∧ OnlyWhole (fun _ => 4) g a ∧ tryRemove (fun _ => 4) 100 g a = .ok g' ∧
    (∃ u n, Access g a n ∧ Operand g' u n) ∧ ∃ (m : Meaning Nat) (init' : Nat → Nat) (entry b : Nat) (e' : Env Nat), Executes g' a m init' entry b e' ∧
      (∀ n, (g'.node n).kind = zeroKind → ∀ x, m.op n x = m.zero) ∧
      ¬∃ init e, Executes g a m init entry b e ∧ ∀ n, n < g.size → ¬Access g a n → e'.out n = e.out n := by
  refine ⟨selfGraph, selfAfter, 3, self_built, self_done, by decide +kernel, self_variable, whole_sound self_built (by decide +kernel), graphOf_ok (by decide +kernel),
    ⟨17, 13, by decide +kernel, ⟨1, by decide +kernel⟩⟩, sampleMeaning, fun _ => 0, 1, 7, selfInLoop, selfAfter_runs, ?_, ?_⟩
  · intro n hk x
    have hn : n ≠ 5 ∧ n ≠ 17 := by
      constructor <;> rintro rfl <;> exact absurd hk (by decide +kernel)
    show (if n = 5 then 1 else if n = 17 then (x 1).getD 0 else 0) = 0
    rw [if_neg hn.1, if_neg hn.2]
  · rintro ⟨init, e, E, h⟩
    have h1 := (self_always E (by decide)).2
    have h2 := h 17 (by decide +kernel) (by decide +kernel)
    rw [h1] at h2
    exact absurd h2 (by decide)

end Verif.Ir
