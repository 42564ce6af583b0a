import Verif.DefineMapLemmas
/-!
# C06 – the macro table is a finite map; C07 – push_macro / pop_macro

The specification is in `DefineMapSpec.lean`: histories of operations.
-/
namespace Verif.DefineMap
open Verif

/-! ## C06 -/

/-- C06: after any history of definitions and undefinitions, and for any hash
function (so whatever collides), a lookup finds exactly the newest definition of the
name that was not undefined since. -/
theorem lookup_is_last_definition (h : Str → Nat) (ops : List Op) (n : Str) :
    get h (runOps h init ops) n = lastDef n ops.reverse := by
  rw [← List.reverse_reverse (as := ops)]
  generalize ops.reverse = rev
  rw [List.reverse_reverse]
  induction rev with
  | nil => simp [runOps, lastDef, get, init, chainGet]
  | cons o os ih =>
    rw [List.reverse_cons, runOps_append]
    cases o with
    | define d => simp [runOps, get_add, lastDef, ih, stored, stripEnds_eq_trim]
    | undef m => simp [runOps, get_remove (tabInv_runOps _ tabInv_init), lastDef, ih]

/-- The compiler's table: the hash of src/string_view.c:38-46, and the bucket index is
always inside the array of 1024 chains. -/
theorem lookup_is_last_definition_djb2 (ops : List Op) (n : Str) :
    get bucketOf (runOps bucketOf init ops) n = lastDef n ops.reverse ∧ bucketOf n < 1024 :=
  ⟨lookup_is_last_definition _ _ _, Nat.mod_lt _ (by decide)⟩

/-- Operations on other names do not matter. -/
theorem lookup_frame (h : Str → Nat) (t : Table) (ht : TabInv t) (n : Str) :
    (∀ d, d.name ≠ n → get h (add h t d) n = get h t n) ∧
    (∀ m, m ≠ n → get h (remove h t m) n = get h t n) :=
  ⟨fun d hd => by simp [get_add, hd], fun m hm => by simp [get_remove ht, hm]⟩

example : bucketOf (str "a") ≠ bucketOf (str "b") := by decide +kernel

/-- Colliding names under a constant hash, redefinition and undefinition. -/
example : get (fun _ => 0) (runOps (fun _ => 0) init
    [.define { name := str "A", vararg := true }, .define { name := str "B" },
     .undef (str "A"), .define { name := str "A", func := true }]) (str "A")
      = some { name := str "A", func := true } := by decide +kernel

/-! ## C07 -/

/-- The property in full. -/
def PushPopRestores : Prop :=
  ∀ (h : Str → Nat) (ops : List MOp), ∃ s,
    runM h ⟨init, []⟩ ops = .ok s ∧ ∀ n, get h s.tab n = (Abs.run Abs.init ops).cur n

/-- C07 is violated: `push_macro("X")` while X is undefined saves nothing
(src/preprocessor/directives.c:420-422), so after `#define X` the matching
`pop_macro("X")` leaves X defined. -/
theorem push_pop_violated : ¬ PushPopRestores := by
  intro hall
  obtain ⟨s, h1, h2⟩ := hall (fun _ => 0)
    [.push (str "X"), .define { name := str "X" }, .pop (str "X")]
  have hs : runM (fun _ => 0) ⟨init, []⟩
      [.push (str "X"), .define { name := str "X" }, .pop (str "X")]
      = .ok ⟨add (fun _ => 0) init { name := str "X" }, [[]]⟩ := by rfl
  rw [hs] at h1
  cases h1
  have h3 := h2 (str "X")
  revert h3
  decide +kernel

/-- C07, `_partial`: for every history in which each `push_macro` names a macro that is
currently defined, the code agrees with the specification on every name (and never
misbehaves).  Missing: pushes of undefined names (`push_pop_violated`). -/
theorem push_pop_restores_partial (h : Str → Nat) (ops : List MOp)
    (hp : PushesDefined Abs.init ops) : ∃ s,
    runM h ⟨init, []⟩ ops = .ok s ∧ ∀ n, get h s.tab n = (Abs.run Abs.init ops).cur n :=
  push_pop_aux h ops _ Abs.init _ (rel_init h) (by simp [Abs.init]) hp

/-- Two names interleaved, pushed twice, redefined, popped: the hypothesis holds and
the old definition comes back. -/
example :
    let A : Define := { name := str "A" }
    let B : Define := { name := str "B", func := true }
    let A' : Define := { name := str "A", vararg := true }
    let ops : List MOp := [.define A, .define B, .push (str "A"), .push (str "B"), .define A',
      .push (str "A"), .undef (str "B"), .undef (str "A"), .pop (str "A"), .pop (str "A"), .pop (str "B")]
    PushesDefined Abs.init ops ∧ (Abs.run Abs.init ops).cur (str "A") = some A
      ∧ (Abs.run Abs.init ops).cur (str "B") = some B := by
  refine ⟨⟨by decide +kernel, by decide +kernel, by decide +kernel, trivial⟩,
    by decide +kernel, by decide +kernel⟩

/-- For every history whatsoever the pragmas never touch memory outside their arrays,
never stop the compiler, and act as a per-name stack on which a push of an undefined
name is ignored. -/
theorem push_pop_actual (h : Str → Nat) (ops : List MOp) : ∃ s,
    runM h ⟨init, []⟩ ops = .ok s ∧ ∀ n, get h s.tab n =
      (ops.foldl (fun cs o => stepActual cs.1 cs.2 o)
        ((fun _ => none : Str → Option Define), (fun _ => [] : Str → List Define))).1 n := by
  have aux : ∀ (ops : List MOp) (s : State) (cur : Str → Option Define) (saved : Str → List Define),
      Rel h s cur saved → ∃ s', runM h s ops = .ok s' ∧
      ∀ n, get h s'.tab n = (ops.foldl (fun cs o => stepActual cs.1 cs.2 o) (cur, saved)).1 n := by
    intro ops
    induction ops with
    | nil => intro s cur saved hr; exact ⟨s, rfl, hr.curEq⟩
    | cons o os ih =>
      intro s cur saved hr
      obtain ⟨s1, h1, h2⟩ := actual_step h s cur saved hr o
      obtain ⟨s', h3, h4⟩ := ih s1 _ _ h2
      exact ⟨s', by simp [runM, h1, h3], h4⟩
  exact aux ops _ _ _ (rel_init h)

example : ((([MOp.push (str "X"), .define { name := str "X" }, .pop (str "X")]).foldl
    (fun cs o => stepActual cs.1 cs.2 o)
      ((fun _ => none : Str → Option Define), (fun _ => [] : Str → List Define))).1 (str "X")).isSome
    = true := by decide +kernel

end Verif.DefineMap
