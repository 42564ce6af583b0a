import Verif.StatesLemmas
import Verif.ScheduleOrderProps
/-!
C87: loads read the memory that they were written to read.
-/
namespace Verif.Ir
open Verif Verif.IrSpec

/-- C87: when the lists of instructions that the compiler makes are executed, on whatever way through the blocks, memory is, at every load, store, call or return,
in the state that this instruction is meant for. Every instruction must be in a block through which this state goes. -/
theorem states_respected_partial {g : Graph} {fs es : List Nat} {fuel : Nat} (h : Scheduled g fs es fuel) {ls : List (List Nat)} {i : Info} {p : Place}
    (h1 : blockTrees fuel g fs = .ok (ls, i)) (h2 : placeAll fuel g i = .ok p) (ht : Tame g p.block) {f e : Nat} (he : IsEntry g f e) {first : Nat → Nat}
    {chain : Nat → List (Nat × Nat)} (hth : Threads g p.block f e first chain) : ∃ os, localSchedule fuel g i ls.flatten = .ok (p, os) ∧
    Faithful g (ls.flatten.zip os) f e ∧ ∀ b, Walk g e b → ∃ w, Runs g (ls.flatten.zip os) f e b w := by
  obtain ⟨os, e1, ho, hl⟩ := instruction_order_partial h h1 h2 ht
  refine ⟨os, e1, faithful_core (inv_built h.built) hth (fun b l hm => (all2_zip ho hm).2), ?_⟩
  intro b hw
  induction hw with
  | start => exact ⟨_, .start⟩
  | @step c b hw hed ih =>
    obtain ⟨w, hr⟩ := ih
    obtain ⟨l, hm⟩ := all2_find ho ((hl c).2 ⟨f, e, he, hw⟩)
    exact ⟨_, .step hr hm hed⟩

/-! ### Checks -/

/-- A check that control can go from `c` to `b`. -/
def edge (g : Graph) (c b : Nat) : Bool :=
  ((g.node b).kind = .region && c ∈ operands g b) ||
  ((g.node b).kind = .project && match (g.node b).args 0 with
    | none => false
    | some i => (g.node i).kind = .ifk && (g.node i).args 0 = some c)

theorem edge_iff {g : Graph} (hg : Inv g) {c b : Nat} : edge g c b = true ↔ Edge g c b := by
  unfold edge Edge IsProjection
  rw [Bool.or_eq_true, Bool.and_eq_true, Bool.and_eq_true]
  refine or_congr (by simp [operands_mem hg]) ?_
  cases ha : (g.node b).args 0 with
  | none => simp
  | some i => simp [and_assoc]

/-- The state that an instruction is meant for. -/
def taken (g : Graph) (u : Nat) : Option Nat :=
  match (g.node u).kind with
  | .load => (g.node u).args 1
  | .ret => (g.node u).args 2
  | _ => prevState g u

theorem taken_iff {g : Graph} {u s : Nat} : Takes g u s ↔ taken g u = some s := by
  unfold Takes taken
  rw [← prevState_iff]
  unfold prevState
  cases (g.node u).kind <;> simp

/-- A check of a chain. -/
def isChain (g : Graph) : Nat → List (Nat × Nat) → Bool
  | _, [] => true
  | s, (n, t) :: r => prevState g n = some s && (t = n || projectionOf g t n) && isChain g t r

theorem isChain_sound {g : Graph} : ∀ {c : List (Nat × Nat)} {s : Nat}, isChain g s c = true → IsChain g s c := by
  intro c
  induction c with
  | nil => exact fun _ => trivial
  | cons p c ih =>
    obtain ⟨n, t⟩ := p
    intro s h
    simp only [isChain, Bool.and_eq_true, Bool.or_eq_true, decide_eq_true_eq, projectionOf_iff] at h
    exact ⟨(prevState_iff g n s).1 h.1.1, h.1.2, ih h.2⟩

/-- A check of the way from `b` to `b'`. -/
def edgeState (g : Graph) (first : Nat → Nat) (chain : Nat → List (Nat × Nat)) (b b' : Nat) : Bool :=
  let q := g.node (first b')
  let isPhi := decide (q.kind = .phi) && decide (q.args 0 = some b')
  let last := lastState (first b) (chain b)
  (decide (first b' = last) && !isPhi) || (isPhi && (List.range 4).any fun k => decide ((g.node b').args k = some b) && decide (q.args (k + 1) = some last))

/-- A check of `Threads` on the blocks `W`. -/
def threads (g : Graph) (block : Nat → Option Nat) (f e : Nat) (W : List Nat) (first : Nat → Nat) (chain : Nat → List (Nat × Nat)) : Bool :=
  e ∈ W && projectionOf g (first e) f && (g.node (first e)).projIdx = 3 &&
  W.all fun b => isChain g (first b) (chain b) && ((chain b).all fun p => block p.1 = some b && block p.2 = some b) &&
    ((List.range g.size).all fun u => block u ≠ some b || (prevState g u = none || ((chain b).map (·.1)).contains u) &&
      match taken g u with
      | none => true
      | some s => s = first b || ((chain b).map (·.2)).contains s) &&
    (List.range g.size).all fun b' => !edge g b b' || b' ∈ W && edgeState g first chain b b'

theorem threads_sound {g : Graph} (hg : Inv g) {block : Nat → Option Nat} (hb : ∀ n, block n ≠ none → n < g.size) {f e : Nat} {W : List Nat} {first : Nat → Nat}
    {chain : Nat → List (Nat × Nat)} (h : threads g block f e W first chain = true) : Threads g block f e first chain := by
  simp only [threads, Bool.and_eq_true, decide_eq_true_eq, projectionOf_iff, List.all_eq_true, List.mem_range, Bool.or_eq_true, Bool.not_eq_true'] at h
  obtain ⟨⟨⟨h1, h2⟩, h3⟩, h4⟩ := h
  have elt : ∀ b b', Edge g b b' → b' < g.size := by
    rintro b b' (⟨-, j, hj⟩ | ⟨i, hi, -⟩)
    · exact (hg.closed _ _ _ hj).2.1
    · exact (hg.closed _ _ _ hi.2).2.1
  have hed : ∀ b b', b ∈ W → Edge g b b' → b' ∈ W ∧ edgeState g first chain b b' = true := by
    intro b b' hb he
    refine ((h4 b hb).2 b' (elt b b' he)).resolve_left fun hx => ?_
    rw [(edge_iff hg).2 he] at hx
    cases hx
  have walk : ∀ b, Walk g e b → b ∈ W := by
    intro b hw
    induction hw with
    | start => exact h1
    | step _ he ih => exact (hed _ _ ih he).1
  refine ⟨⟨h2, h3⟩, fun b hw => isChain_sound (h4 b (walk b hw)).1.1.1, ?_, ?_, ?_, ?_⟩
  · intro b n t hw hm
    exact (h4 b (walk b hw)).1.1.2 (n, t) hm
  · intro b n s hw hbn hr
    have := ((h4 b (walk b hw)).1.2 n (hb n (by rw [hbn]; simp))).resolve_left (fun hx => hx hbn)
    have := this.1.resolve_left (by rw [(prevState_iff g n s).2 hr]; simp)
    rw [List.contains_iff_mem, List.mem_map] at this
    obtain ⟨⟨n', t⟩, h5, h6⟩ := this
    exact ⟨t, h6 ▸ h5⟩
  · intro b u s hw hbu ht
    have := ((h4 b (walk b hw)).1.2 u (hb u (by rw [hbu]; simp))).resolve_left (fun hx => hx hbu)
    have := this.2
    rw [taken_iff.1 ht] at this
    simp only [Bool.or_eq_true, decide_eq_true_eq, List.contains_iff_mem, List.mem_map] at this
    rcases this with h5 | ⟨⟨n', t⟩, h5, h6⟩
    · exact .inl h5
    · exact .inr ⟨n', h6 ▸ h5⟩
  · intro b b' hw he
    have := (hed b b' (walk b hw) he).2
    simp only [edgeState, Bool.or_eq_true, Bool.and_eq_true, decide_eq_true_eq, Bool.not_eq_true', Bool.and_eq_false_iff, decide_eq_false_iff_not, List.any_eq_true, List.mem_range] at this
    rcases this with ⟨h5, h6⟩ | ⟨⟨h5, h6⟩, k, -, h7, h8⟩
    · refine .inl ⟨h5, fun hx => ?_⟩
      rcases h6 with h6 | h6
      · exact h6 hx.1
      · exact h6 hx.2
    · exact .inr ⟨h5, h6, k, h7, h8⟩

/-- A function given by a table. -/
def table {α : Type} (l : List (Nat × α)) (d : α) (n : Nat) : α := (l.lookup n).getD d

set_option maxRecDepth 10000 in
/-- In `int f(int *p, int v) { int x = *p; *p = v; return x + *p; }` the first load reads the memory before the store and the second one that after it. -/
example : ∃ ls i p os, blockTrees 200 swapGraph [0] = .ok (ls, i) ∧ placeAll 200 swapGraph i = .ok p ∧ localSchedule 200 swapGraph i ls.flatten = .ok (p, os) ∧
    Faithful swapGraph (ls.flatten.zip os) 0 1 := by
  obtain ⟨ls, i, p, h1, h2, h3, h4, h5⟩ := ordersOf_eq swap_scheduled (bs := [1]) (os := [[2, 3, 4, 5, 6, 7, 8, 9]])
    (bl := [none, none, some 1, some 1, some 1, some 1, some 1, some 1, some 1, some 1]) (by decide +kernel)
  have hb := (place_bound swap_scheduled h1 h2).1
  have ht : Tame swapGraph p.block := by
    refine tame_sound (inv_built swap_scheduled.built) hb (rank := fun n => min n swapGraph.size) (fun n => Nat.min_le_right _ _) ?_
    rw [h5]
    decide +kernel
  have hth : Threads swapGraph p.block 0 1 (fun _ => 2) (fun _ => [(6, 6)]) := by
    refine threads_sound (inv_built swap_scheduled.built) hb (W := [1]) ?_
    rw [h5]
    decide +kernel
  obtain ⟨os, h6, h7, -⟩ := states_respected_partial swap_scheduled h1 h2 ht ⟨by decide +kernel, by decide +kernel, ⟨by decide +kernel, by decide +kernel⟩, by decide +kernel⟩ hth
  exact ⟨ls, i, p, os, h1, h2, h6, h7⟩

/-! ### The graph of `int f(int c) { int a = 1, *p = &a, b = a; if (c) a = 2; return b; }` -/

/-- The graph. -/
def mkSink (fuel : Nat) : Run Graph := do
  let f := newFunction {}
  let e ← project fuel f.1 f.2 0 0
  let g ← blockStart fuel e.1 e.2
  let c := new g (.op 1) 4
  let a := new c.1 .alloc 8
  let s ← getState fuel a.1
  let st ← newWith fuel s.1 .store [some a.2, some c.2, some s.2] 0
  let g ← Run.ofRes (setState st.1 st.2)
  let s ← getState fuel g
  let l ← newWith fuel s.1 .load [some a.2, some s.2] 4
  let j := newBlock l.1
  let b ← ifSelection fuel j.1 c.2
  let g ← blockStart fuel b.1 b.2.1
  let s ← getState fuel g
  let st ← newWith fuel s.1 .store [some a.2, some c.2, some s.2] 0
  let g ← Run.ofRes (setState st.1 st.2)
  let g ← goto fuel g j.2
  let g ← blockStart fuel g b.2.2
  let g ← goto fuel g j.2
  let g ← blockStart fuel g j.2
  let g ← ret fuel g (some l.2)
  sealBlocks fuel g g.seals

theorem built_sink (fuel : Nat) : Builds (mkSink fuel) id :=
  (builds_project (built_newFunction .empty) _ _ _ _).bind fun _ h =>
  (builds_blockStart h _ _).bind fun _ h => (builds_getState (.new (.new h)) _).bind fun _ h =>
  (builds_newWith h _ _ _ _).bind fun _ h => (builds_setState h _).bind fun _ h => (builds_getState h _).bind fun _ h =>
  (builds_newWith h _ _ _ _).bind fun _ h => (builds_ifSelection (built_newBlock h) _ _).bind fun _ h => (builds_blockStart h _ _).bind fun _ h =>
  (builds_getState h _).bind fun _ h => (builds_newWith h _ _ _ _).bind fun _ h => (builds_setState h _).bind fun _ h => (builds_goto h _ _).bind fun _ h =>
  (builds_blockStart h _ _).bind fun _ h => (builds_goto h _ _).bind fun _ h =>
  (builds_blockStart h _ _).bind fun _ h => (builds_ret h _ _).bind fun _ h => builds_sealBlocks h

/-- The graph. -/
def sinkGraph : Graph := graphOf (mkSink 30)

set_option maxRecDepth 10000 in
theorem sink_scheduled : Scheduled sinkGraph [0] [1] 300 := by
  have hs : sinkGraph.size = 14 := by decide +kernel
  have w9 : Walk sinkGraph 1 9 := .step .start (.inr ⟨8, ⟨by decide +kernel, by decide +kernel⟩, by decide +kernel, by decide +kernel⟩)
  have w10 : Walk sinkGraph 1 10 := .step .start (.inr ⟨8, ⟨by decide +kernel, by decide +kernel⟩, by decide +kernel, by decide +kernel⟩)
  refine scheduled_sound (g := sinkGraph) (built_graphOf (built_sink 30)) (by decide +kernel) ?_ (rank := [9, 8, 7, 8, 7, 6, 5, 0, 5, 4, 4, 5, 8, 0]) (by decide +kernel) (by decide +kernel)
    ⟨by decide +kernel, by decide +kernel, ⟨by decide +kernel, by decide +kernel⟩, by decide +kernel⟩ (by decide +kernel) (by decide +kernel) (by decide +kernel) (by decide +kernel)
    (W := [9, 10]) ?_ (by decide +kernel)
  · intro n hn
    obtain ⟨m, rfl⟩ : ∃ m, n = m + 14 := ⟨n - 14, by omega⟩
    constructor <;> with_unfolding_all exact (id rfl)
  · intro c hc
    rcases List.mem_cons.1 hc with rfl | hc
    · exact w9
    · rw [List.mem_singleton.1 hc]
      exact w10

/-- The blocks of the nodes, and the blocks with the load where it is written. -/
def sinkBlocks : List (Option Nat) := [none, none, some 1, some 1, some 1, some 1, some 7, none, some 1, none, none, some 10, some 7, some 7]
def sinkRight : List (Option Nat) := [none, none, some 1, some 1, some 1, some 1, some 1, none, some 1, none, none, some 10, some 7, some 7]

set_option maxRecDepth 10000 in
/-- With the load where it is written, all is right. -/
theorem sink_right : Faithful sinkGraph ([1, 9, 10, 7].zip [[2, 3, 4, 5, 6, 8], [], [11], [12, 13]]) 0 1 := by
  have hg := inv_built sink_scheduled.built
  have hd := sink_scheduled.done
  have hs : sinkGraph.size = 14 := by decide +kernel
  refine faithful_core hg (block := fun n => sinkRight.getD n none) (first := table [(1, 2), (9, 5), (10, 5), (7, 12)] 0) (chain := table [(1, [(5, 5)]), (10, [(11, 11)])] [])
    (threads_sound hg ?_ (W := [1, 9, 10, 7]) (by decide +kernel)) ?_
  · intro n hn
    rw [hs]
    refine Decidable.byContradiction fun hx => hn ?_
    obtain ⟨m, rfl⟩ : ∃ m, n = m + 14 := ⟨n - 14, by omega⟩
    rfl
  · intro b l hm
    have : (b, l) = (1, [2, 3, 4, 5, 6, 8]) ∨ (b, l) = (9, []) ∨ (b, l) = (10, [11]) ∨ (b, l) = (7, [12, 13]) := by simpa using hm
    rcases this with e | e | e | e <;> cases e <;> exact inOrder_sound hg hd (by decide +kernel)

set_option maxRecDepth 10000 in
/-- C87 is violated: the same instructions can be put into the blocks in a way that respects the states, but the compiler moves a load to the block that
needs its value, behind a store in between. -/
theorem states_respected_violated : ¬∀ (g : Graph) (fs es : List Nat) (fuel : Nat), Scheduled g fs es fuel → ∀ ls i p, blockTrees fuel g fs = .ok (ls, i) →
    placeAll fuel g i = .ok p → Tame g p.block → ∀ f e, IsEntry g f e → (∃ os : List (List Nat), os.length = ls.flatten.length ∧
      (∀ n, n ∈ os.flatten ↔ IsInstruction g n ∧ p.block n ≠ none) ∧ Faithful g (ls.flatten.zip os) f e) →
    ∃ os, localSchedule fuel g i ls.flatten = .ok (p, os) ∧ Faithful g (ls.flatten.zip os) f e := by
  intro hall
  obtain ⟨ls, i, p, h1, h2, h3, h4, h5⟩ := ordersOf_eq sink_scheduled (bs := [1, 9, 10, 7]) (os := [[2, 3, 4, 5, 8], [], [11], [6, 12, 13]]) (bl := sinkBlocks) (by decide +kernel)
  have hg := inv_built sink_scheduled.built
  have ht : Tame sinkGraph p.block := by
    refine tame_sound hg (place_bound sink_scheduled h1 h2).1 (rank := fun n => min n sinkGraph.size) (fun n => Nat.min_le_right _ _) ?_
    rw [h5]
    decide +kernel
  have hall' : ∀ n, n ∈ [2, 3, 4, 5, 6, 8, 11, 12, 13] ↔ IsInstruction sinkGraph n ∧ p.block n ≠ none := by
    intro n
    have hs : sinkGraph.size = 14 := by decide +kernel
    have tab : ∀ n < 14, n ∈ [2, 3, 4, 5, 6, 8, 11, 12, 13] ↔ isInstruction sinkGraph n = .ok true ∧ sinkBlocks.getD n none ≠ none := by decide +kernel
    rw [h5]
    constructor
    · intro hn
      have lt : n < 14 := by
        have : ∀ x ∈ [2, 3, 4, 5, 6, 8, 11, 12, 13], x < 14 := by decide
        exact this n hn
      obtain ⟨h6, h7⟩ := (tab n lt).1 hn
      exact ⟨⟨by omega, (isInstruction_iff sink_scheduled.done n).1 h6⟩, h7⟩
    · rintro ⟨⟨h6, h7⟩, h8⟩
      exact (tab n (by omega)).2 ⟨(isInstruction_iff sink_scheduled.done n).2 h7, h8⟩
  obtain ⟨os, h6, h7⟩ := hall sinkGraph [0] [1] 300 sink_scheduled ls i p h1 h2 ht 0 1
    ⟨by decide +kernel, by decide +kernel, ⟨by decide +kernel, by decide +kernel⟩, by decide +kernel⟩ ⟨[[2, 3, 4, 5, 6, 8], [], [11], [12, 13]], by rw [h3]; rfl, hall', by rw [h3]; exact sink_right⟩
  rw [h3] at h6 h7
  rw [h4] at h6
  injection h6 with h6
  injection h6 with _ h6
  subst h6
  have r1 := Runs.start (g := sinkGraph) (prog := [1, 9, 10, 7].zip [[2, 3, 4, 5, 8], [], [11], [6, 12, 13]]) (f := 0) (e := 1)
  have r2 := r1.step (l := [2, 3, 4, 5, 8]) (b' := 10) (by decide) ((edge_iff hg).1 (by decide +kernel))
  have r3 := r2.step (l := [11]) (b' := 7) (by decide) ((edge_iff hg).1 (by decide +kernel))
  have := h7 7 _ [] 6 [12, 13] 5 r3 (by decide) (.inr (.inl ⟨by decide +kernel, by decide +kernel⟩))
  -- the state is the one after the second store, not the one after the first
  rcases this with ⟨hk, -⟩ | ⟨-, hw⟩
  · revert hk
    decide +kernel
  · have hr : ∃ s, Replaces sinkGraph 11 s := ⟨5, 2, by decide +kernel, by decide +kernel⟩
    rw [List.foldl_cons, List.foldl_nil] at hw
    unfold execute at hw
    rw [if_pos hr] at hw
    rcases hw with hw | hw
    · cases hw
    · have := hw.1
      revert this
      decide +kernel

end Verif.Ir
