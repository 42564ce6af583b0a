import Verif.DefineMapSpec
/-!
Runs of the model and the simulation relation for C06 / C07.
-/
namespace Verif.DefineMap
open Verif

/-- The table after a history (oldest operation first). -/
def runOps (h : Str → Nat) (t : Table) : List Op → Table
  | [] => t
  | .define d :: ops => runOps h (add h t d) ops
  | .undef n :: ops => runOps h (remove h t n) ops

theorem stripEnds_eq_trim (l : List Tok) : trimBody l = stripEnds l := by
  cases l with
  | nil => rfl
  | cons t ts =>
    rcases List.eq_nil_or_concat ts with rfl | ⟨m, z, rfl⟩
    · simp [trimBody_one, stripEnds]
    · rw [List.concat_eq_append, trimBody_two]
      apply List.ext_getElem
      · simp [stripEnds]
      · intro i h1 h2
        simp only [stripEnds, List.getElem_mapIdx]
        cases i with
        | zero => simp
        | succ i =>
          simp only [List.getElem_cons_succ, List.getElem_append]
          simp only [List.length_cons, List.length_append, List.length_nil] at h1
          by_cases hi : i < m.length
          · have h3 : i + 1 + 1 ≠ m.length + 1 + 1 := by omega
            have h4 : i ≠ m.length := by omega
            simp [hi, h4]
          · have : i = m.length := by omega
            simp [this]

theorem runOps_append (h t) (a b : List Op) :
    runOps h t (a ++ b) = runOps h (runOps h t a) b := by
  induction a generalizing t with
  | nil => rfl
  | cons o os ih => cases o <;> simp [runOps, ih]

theorem tabInv_runOps {h t} (ops : List Op) (ht : TabInv t) : TabInv (runOps h t ops) := by
  induction ops generalizing t with
  | nil => exact ht
  | cons o os ih =>
    cases o
    · exact ih (tabInv_add ht)
    · exact ih (tabInv_remove ht)

/-- One operation of the code. -/
def step (h : Str → Nat) (s : State) : MOp → Res State
  | .define d => .ok { s with tab := add h s.tab d }
  | .undef n => .ok { s with tab := remove h s.tab n }
  | .push n => .ok (pushMacro h n s)
  | .pop n => popMacro h n s

/-- A history of operations. -/
def runM (h : Str → Nat) (s : State) : List MOp → Res State
  | [] => .ok s
  | o :: os => do runM h (← step h s o) os

/-- A history of the specification. -/
def Abs.run (s : Abs) : List MOp → Abs
  | [] => s
  | o :: os => Abs.run (s.step o) os

/-! ### Invariant of the saved stacks -/

/-- `find` succeeds: decomposition at the stack found. -/
theorem findStack_some {n ss i} (hi : findStack n ss = some i) :
    ∃ pre d l post, ss = pre ++ (d :: l) :: post ∧ pre.length = i ∧ d.name = n := by
  induction ss generalizing i with
  | nil => simp [findStack] at hi
  | cons s ss ih =>
    unfold findStack at hi
    split at hi
    · next j hj =>
      cases hi
      obtain ⟨pre, d, l, post, h1, h2, h3⟩ := ih hj
      exact ⟨s :: pre, d, l, post, by simp [h1], by simp [h2], h3⟩
    · split at hi
      · next hh =>
        cases hi
        cases s with
        | nil => simp at hh
        | cons d l => exact ⟨[], d, l, ss, rfl, rfl, by simpa using hh⟩
      · cases hi

theorem findStack_none {n ss} (hi : findStack n ss = none) :
    ∀ s ∈ ss, s.head?.map (·.name) ≠ some n := by
  induction ss with
  | nil => simp
  | cons s ss ih =>
    unfold findStack at hi
    split at hi
    · cases hi
    · next hj =>
      split at hi
      · cases hi
      · next hh =>
        intro x hx
        rcases List.mem_cons.mp hx with rfl | hx
        · exact hh
        · exact ih hj x hx

/-- Relation between the array of stacks and the per-name saved list (newest first):
every stack holds definitions of one name only, no name has two stacks, and the
definitions of `n` in the array, oldest first, are the reverse of the saved list. -/
structure StackRel (ss : Stacks) (saved : Str → List Define) : Prop where
  same : ∀ s ∈ ss, ∀ x ∈ s, ∀ y ∈ s, x.name = y.name
  apart : ss.Pairwise (fun a b => ∀ x ∈ a, ∀ y ∈ b, x.name ≠ y.name)
  rel : ∀ n, (ss.flatten.filter (fun d => d.name = n)) = (saved n).reverse

theorem filter_all {n : Str} {l : List Define} (h : ∀ x ∈ l, x.name = n) :
    l.filter (fun d => d.name = n) = l := by
  rw [List.filter_eq_self]; simpa using h

theorem filter_no {n : Str} {l : List Define} (h : ∀ x ∈ l, x.name ≠ n) :
    l.filter (fun d => d.name = n) = [] := by
  rw [List.filter_eq_nil_iff]; simpa using h

theorem relNone {ss saved n} (hr : StackRel ss saved) (hf : findStack n ss = none) :
    (∀ s ∈ ss, ∀ x ∈ s, x.name ≠ n) ∧ saved n = [] := by
  have h1 : ∀ s ∈ ss, ∀ x ∈ s, x.name ≠ n := by
    intro s hs x hx
    have := findStack_none hf s hs
    cases s with
    | nil => simp at hx
    | cons d l =>
      simp only [List.head?_cons, Option.map_some, ne_eq, Option.some.injEq] at this
      rw [hr.same _ hs x hx d (by simp)]
      exact this
  refine ⟨h1, ?_⟩
  have h2 := hr.rel n
  rw [filter_no (by simpa using fun x s hs hx => h1 s hs x hx)] at h2
  simpa using h2.symm

/-- At the stack found: its content is the saved list. -/
theorem relSome {pre d l post saved n} (hr : StackRel (pre ++ (d :: l) :: post) saved)
    (hd : d.name = n) :
    (∀ s ∈ pre, ∀ x ∈ s, x.name ≠ n) ∧ (∀ s ∈ post, ∀ x ∈ s, x.name ≠ n) ∧
    (∀ x ∈ d :: l, x.name = n) ∧ d :: l = (saved n).reverse := by
  have hap := List.pairwise_append.mp hr.apart
  have hap2 := List.pairwise_cons.mp hap.2.1
  have hpre : ∀ s ∈ pre, ∀ x ∈ s, x.name ≠ n := by
    intro s hs x hx
    rw [← hd]
    exact hap.2.2 s hs (d :: l) (by simp) x hx d (by simp)
  have hpost : ∀ s ∈ post, ∀ x ∈ s, x.name ≠ n := by
    intro s hs x hx
    rw [← hd]
    exact (hap2.1 s hs d (by simp) x hx).symm
  have hall : ∀ x ∈ d :: l, x.name = n := by
    intro x hx
    rw [← hd]
    exact hr.same (d :: l) (by simp) x hx d (by simp)
  refine ⟨hpre, hpost, hall, ?_⟩
  have h2 := hr.rel n
  rw [List.flatten_append, List.flatten_cons, List.filter_append, List.filter_append,
    filter_no (by simpa using fun x s hs hx => hpre s hs x hx),
    filter_no (l := post.flatten) (by simpa using fun x s hs hx => hpost s hs x hx),
    filter_all hall] at h2
  simpa using h2

/-- Replacing the stack found by any stack of the same name keeps the relation. -/
theorem relReplace {pre d l post saved n} (hr : StackRel (pre ++ (d :: l) :: post) saved)
    (hd : d.name = n) (l' : List Define) (hl' : ∀ x ∈ l', x.name = n) :
    StackRel (pre ++ l' :: post) (upd saved n l'.reverse) := by
  obtain ⟨hpre, hpost, hall, heq⟩ := relSome hr hd
  have hap := List.pairwise_append.mp hr.apart
  have hap2 := List.pairwise_cons.mp hap.2.1
  constructor
  · intro s hs x hx y hy
    simp only [List.mem_append, List.mem_cons] at hs
    rcases hs with hs | rfl | hs
    · exact hr.same s (by simp [hs]) x hx y hy
    · rw [hl' x hx, hl' y hy]
    · exact hr.same s (by simp [hs]) x hx y hy
  · rw [List.pairwise_append, List.pairwise_cons]
    refine ⟨hap.1, ⟨?_, hap2.2⟩, ?_⟩
    · intro s hs x hx y hy
      rw [hl' x hx]
      exact (hpost s hs y hy).symm
    · intro a ha b hb x hx y hy
      rcases List.mem_cons.mp hb with rfl | hb
      · rw [hl' y hy]; exact hpre a ha x hx
      · exact hap.2.2 a ha b (by simp [hb]) x hx y hy
  · intro m
    unfold upd
    split
    · next hm =>
      subst hm
      rw [List.flatten_append, List.flatten_cons, List.filter_append, List.filter_append,
        filter_no (by simpa using fun x s hs hx => hpre s hs x hx),
        filter_no (l := post.flatten) (by simpa using fun x s hs hx => hpost s hs x hx),
        filter_all hl']
      simp
    · next hm =>
      rw [← hr.rel m]
      simp only [List.flatten_append, List.flatten_cons, List.filter_append]
      rw [filter_no (l := l') (fun x hx => by rw [hl' x hx]; exact fun h => hm h.symm),
        filter_no (l := d :: l) (fun x hx => by rw [hall x hx]; exact fun h => hm h.symm)]

theorem relAppend {ss saved n} (hr : StackRel ss saved)
    (hno : ∀ s ∈ ss, ∀ x ∈ s, x.name ≠ n) (hs : saved n = []) (l' : List Define)
    (hl' : ∀ x ∈ l', x.name = n) :
    StackRel (ss ++ [l']) (upd saved n l'.reverse) := by
  constructor
  · intro s hs x hx y hy
    simp only [List.mem_append, List.mem_singleton] at hs
    rcases hs with hs | rfl
    · exact hr.same s hs x hx y hy
    · rw [hl' x hx, hl' y hy]
  · rw [List.pairwise_append]
    refine ⟨hr.apart, by simp, ?_⟩
    intro a ha b hb x hx y hy
    simp only [List.mem_singleton] at hb; subst hb
    rw [hl' y hy]; exact hno a ha x hx
  · intro m
    have h0 := hr.rel m
    unfold upd
    split
    · next hm =>
      subst hm
      rw [hs] at h0
      simp only [List.flatten_append, List.filter_append, h0]
      simp only [List.flatten_cons, List.flatten_nil, List.append_nil, filter_all hl',
        List.reverse_nil, List.nil_append, List.reverse_reverse]
    · next hm =>
      simp only [List.flatten_append, List.filter_append, h0]
      simp only [List.flatten_cons, List.flatten_nil, List.append_nil]
      rw [filter_no (l := l') (fun x hx => by rw [hl' x hx]; exact fun h => hm h.symm)]
      simp

theorem relErase {pre d l post saved n} (hr : StackRel (pre ++ (d :: l) :: post) saved)
    (hd : d.name = n) : StackRel (pre ++ post) (upd saved n []) := by
  have h := relReplace hr hd [] (by simp)
  constructor
  · intro s hs
    exact h.same s (by simp only [List.mem_append, List.mem_cons] at hs ⊢; grind)
  · have hap := List.pairwise_append.mp h.apart
    have hap2 := List.pairwise_cons.mp hap.2.1
    exact List.pairwise_append.mpr ⟨hap.1, hap2.2, fun a ha b hb => hap.2.2 a ha b (by simp [hb])⟩
  · intro m; have := h.rel m; simpa using this

/-- The whole relation used for C07. -/
structure Rel (h : Str → Nat) (s : State) (cur : Str → Option Define)
    (saved : Str → List Define) : Prop where
  tabInv : TabInv s.tab
  curEq : ∀ n, get h s.tab n = cur n
  trimmed : ∀ n d, cur n = some d → trimBody d.body = d.body
  savedTrimmed : ∀ n, ∀ d ∈ saved n, trimBody d.body = d.body
  stacks : StackRel s.stacks saved

/-- What `push_macro` / `pop_macro` do for *every* history (this is the code's actual
behaviour: a push of an undefined name is ignored). -/
def stepActual (cur : Str → Option Define) (saved : Str → List Define) :
    MOp → (Str → Option Define) × (Str → List Define)
  | .define d => (upd cur d.name (some (stored d)), saved)
  | .undef n => (upd cur n none, saved)
  | .push n =>
    match cur n with
    | some d => (cur, upd saved n (d :: saved n))
    | none => (cur, saved)
  | .pop n =>
    match saved n with
    | [] => (cur, saved)
    | d :: rest => (upd cur n (some d), upd saved n rest)

theorem upd_self {α} (f : Str → α) (n v) (h : f n = v) : upd f n v = f := by
  funext m; unfold upd; split
  · next hm => rw [hm, h]
  · rfl

theorem modify_append_len {α} (pre : List α) (x : α) (post : List α) (f : α → α) :
    (pre ++ x :: post).modify pre.length f = pre ++ f x :: post := by
  induction pre with
  | nil => rfl
  | cons a as ih => simpa using ih

theorem eraseIdx_append_len {α} (pre : List α) (x : α) (post : List α) :
    (pre ++ x :: post).eraseIdx pre.length = pre ++ post := by
  induction pre with
  | nil => rfl
  | cons a as ih => simpa using ih

theorem set_append_len {α} (pre : List α) (x y : α) (post : List α) :
    (pre ++ x :: post).set pre.length y = pre ++ y :: post := by
  induction pre with
  | nil => rfl
  | cons a as ih => simpa using ih

theorem actual_step (h : Str → Nat) (s : State) (cur saved) (hr : Rel h s cur saved) (o : MOp) :
    ∃ s', step h s o = .ok s' ∧ Rel h s' (stepActual cur saved o).1 (stepActual cur saved o).2 := by
  cases o with
  | define d =>
    refine ⟨_, rfl, ⟨tabInv_add hr.tabInv, ?_, ?_, hr.savedTrimmed, hr.stacks⟩⟩
    · intro n
      simp only [stepActual, get_add, upd, stored, stripEnds_eq_trim, hr.curEq]
      by_cases hn : d.name = n
      · simp [hn]
      · have : n ≠ d.name := fun hh => hn hh.symm
        simp [hn, this]
    · intro n e he
      simp only [stepActual, upd] at he
      split at he
      · cases he; simp [stored, ← stripEnds_eq_trim, trimBody_trimBody]
      · exact hr.trimmed n e he
  | undef n =>
    refine ⟨_, rfl, ⟨tabInv_remove hr.tabInv, ?_, ?_, hr.savedTrimmed, hr.stacks⟩⟩
    · intro m
      simp only [stepActual, get_remove hr.tabInv, upd, hr.curEq]
      by_cases hn : n = m
      · simp [hn]
      · have : m ≠ n := fun hh => hn hh.symm
        simp [hn, this]
    · intro m e he
      simp only [stepActual, upd] at he
      split at he
      · cases he
      · exact hr.trimmed m e he
  | push n =>
    refine ⟨_, rfl, ?_⟩
    simp only [pushMacro, stepActual, hr.curEq]
    cases hf : findStack n s.stacks with
    | none =>
      obtain ⟨hno, hs⟩ := relNone hr.stacks hf
      cases hc : cur n with
      | none =>
        refine ⟨hr.tabInv, hr.curEq, hr.trimmed, hr.savedTrimmed, ?_⟩
        have := relAppend hr.stacks hno hs [] (by simp)
        rwa [show upd saved n ([] : List Define).reverse = saved from upd_self _ _ _ hs] at this
      | some d =>
        have hdn : d.name = n := get_name (by rw [hr.curEq, hc])
        refine ⟨hr.tabInv, hr.curEq, hr.trimmed, ?_, ?_⟩
        · intro m e he
          simp only [upd] at he
          split at he
          · simp only [hs, List.mem_singleton] at he
            subst he; exact hr.trimmed n _ hc
          · exact hr.savedTrimmed m e he
        · have h1 := relAppend hr.stacks hno hs [d] (by simpa using hdn)
          simp only [modify_append_len, List.nil_append, hs]
          simpa using h1
    | some i =>
      obtain ⟨pre, e, l, post, h1, h2, h3⟩ := findStack_some hf
      have hst := hr.stacks
      rw [h1] at hst
      obtain ⟨_, _, hall, heq⟩ := relSome hst h3
      cases hc : cur n with
      | none => exact ⟨hr.tabInv, hr.curEq, hr.trimmed, hr.savedTrimmed, hr.stacks⟩
      | some d =>
        have hdn : d.name = n := get_name (by rw [hr.curEq, hc])
        refine ⟨hr.tabInv, hr.curEq, hr.trimmed, ?_, ?_⟩
        · intro m x hx
          simp only [upd] at hx
          split at hx
          · rcases List.mem_cons.mp hx with rfl | hx
            · exact hr.trimmed n _ hc
            · exact hr.savedTrimmed n x hx
          · exact hr.savedTrimmed m x hx
        · simp only [h1, ← h2, modify_append_len]
          have h4 := relReplace hst h3 (e :: l ++ [d]) (by
            intro x hx
            rcases List.mem_append.mp hx with hx | hx
            · exact hall x hx
            · rw [List.mem_singleton.mp hx]; exact hdn)
          rw [heq] at h4 ⊢
          simpa using h4
  | pop n =>
    simp only [step, popMacro, stepActual]
    cases hf : findStack n s.stacks with
    | none =>
      obtain ⟨hno, hs⟩ := relNone hr.stacks hf
      simp only [hs]
      exact ⟨s, rfl, hr⟩
    | some i =>
      obtain ⟨pre, e, l, post, h1, h2, h3⟩ := findStack_some hf
      have hst := hr.stacks
      rw [h1] at hst
      obtain ⟨_, _, hall, heq⟩ := relSome hst h3
      have hget : s.stacks[i]? = some (e :: l) := by rw [h1, ← h2]; simp
      cases hsv : saved n with
      | nil => rw [hsv] at heq; simp at heq
      | cons d rest =>
        have hlast : (e :: l).getLast? = some d := by rw [heq, hsv]; simp
        have hdrop : (e :: l).dropLast = rest.reverse := by rw [heq, hsv]; simp
        have hdn : d.name = n := hall d (by rw [heq, hsv]; simp)
        have hdt : trimBody d.body = d.body := hr.savedTrimmed n d (by rw [hsv]; simp)
        have hcur : ∀ m, get h (add h s.tab d) m = upd cur n (some d) m := by
          intro m
          have hde : ({ d with body := trimBody d.body } : Define) = d := by rw [hdt]
          rw [get_add, hde, hdn]
          unfold upd
          by_cases hm : n = m
          · simp [hm]
          · have : m ≠ n := fun hh => hm hh.symm
            simp [hm, this, hr.curEq]
        have htr : ∀ m x, upd cur n (some d) m = some x → trimBody x.body = x.body := by
          intro m x hx
          unfold upd at hx
          split at hx
          · cases hx; exact hdt
          · exact hr.trimmed m x hx
        have hst2 : ∀ m, ∀ x ∈ upd saved n rest m, trimBody x.body = x.body := by
          intro m x hx
          unfold upd at hx
          split at hx
          · exact hr.savedTrimmed n x (by rw [hsv]; simp [hx])
          · exact hr.savedTrimmed m x hx
        simp only [hget, hlast, hdrop]
        by_cases hz : rest = []
        · subst hz
          refine ⟨_, rfl, ⟨tabInv_add hr.tabInv, hcur, htr, hst2, ?_⟩⟩
          simp only [h1, ← h2, eraseIdx_append_len]
          exact relErase hst h3
        · rw [if_neg (by simpa using hz)]
          refine ⟨_, rfl, ⟨tabInv_add hr.tabInv, hcur, htr, hst2, ?_⟩⟩
          simp only [h1, ← h2, set_append_len]
          have h4 := relReplace hst h3 rest.reverse (by
            intro x hx
            exact hall x (by rw [heq, hsv]; simp at hx; simp [hx]))
          simpa using h4

theorem rel_init (h : Str → Nat) : Rel h ⟨init, []⟩ (fun _ => none) (fun _ => []) :=
  ⟨tabInv_init, fun _ => rfl, by simp, by simp, ⟨by simp, by simp, by simp⟩⟩

/-- Every push in the history is of a name that is defined at that moment. -/
def PushesDefined (s : Abs) : List MOp → Prop
  | [] => True
  | .push n :: os => (s.cur n).isSome ∧ PushesDefined (s.step (.push n)) os
  | o :: os => PushesDefined (s.step o) os

theorem push_pop_aux (h : Str → Nat) (ops : List MOp) (s : State) (a : Abs)
    (saved : Str → List Define) (hr : Rel h s a.cur saved)
    (hsv : ∀ n, a.saved n = (saved n).map some) (hp : PushesDefined a ops) :
    ∃ s', runM h s ops = .ok s' ∧ ∀ n, get h s'.tab n = (a.run ops).cur n := by
  induction ops generalizing s a saved with
  | nil => exact ⟨s, rfl, hr.curEq⟩
  | cons o os ih =>
    obtain ⟨s1, h1, h2⟩ := actual_step h s a.cur saved hr o
    have key : (a.step o).cur = (stepActual a.cur saved o).1 ∧
        (∀ n, (a.step o).saved n = ((stepActual a.cur saved o).2 n).map some) ∧
        PushesDefined (a.step o) os := by
      cases o with
      | define d => exact ⟨rfl, hsv, hp⟩
      | undef n => exact ⟨rfl, hsv, hp⟩
      | push n =>
        obtain ⟨hp1, hp2⟩ := hp
        obtain ⟨d, hd⟩ := Option.isSome_iff_exists.mp hp1
        refine ⟨by simp [Abs.step, stepActual, hd], ?_, hp2⟩
        intro m
        simp only [Abs.step, stepActual, hd, upd]
        split <;> simp [hsv]
      | pop n =>
        refine ⟨?_, ?_, hp⟩
        · simp only [Abs.step, stepActual, hsv]
          cases saved n <;> simp
        · intro m
          simp only [Abs.step, stepActual, hsv]
          cases hn : saved n with
          | nil => simp [hsv]
          | cons d rest => simp only [List.map_cons, upd]; split <;> simp [hsv]
    rw [← key.1] at h2
    obtain ⟨s', h3, h4⟩ := ih s1 (a.step o) _ h2 key.2.1 key.2.2
    exact ⟨s', by simp [runM, h1, h3], h4⟩

end Verif.DefineMap
