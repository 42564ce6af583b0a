import Verif.StatementFunctionLemmas
/-!
C89: a function body is turned into a graph of blocks that does what the statements say.
-/
namespace Verif.Statement
open Verif.StatementSpec
variable {E S V : Type}

/-- C89.  If the compiler accepts the body of a function, the graph it makes returns exactly
what the body returns, with the same effects, whatever the expressions do.  Partial: bodies in
which a case label or default of a switch stands inside a loop that is inside the switch
(`case_in_loop_violated`), a default label does not stand directly in a block
(`default_alone_violated`) or is followed by a named label after other labels
(`default_label_violated`), or control reaches the closing brace of a function that
returns a value (`fall_off_violated`) are left out; expressions are one token, and a body that
is accepted is assumed (`continue_in_switch_violated`). -/
theorem function_returns_partial (M : Sem E S V) {kind : Kind} {body : Items E} {n : Nat}
    {rest rest' : List (STok E)} {G : Cfg E} (ht : body.Tidy) (hn : body.size ≤ n)
    (hl : body.NoneInLoops M.const) (hd : body.Distinct M.const) (h0 : body.defaults = 0)
    (hg : ∀ l, l ∈ body.gotos → l ∈ body.labels)
    (h : function M.const kind n ((Stmt.block body).tokens ++ rest) = .ok (rest', G))
    (σ : S) (r : Result V) (hr : r ≠ .unspecified) (σ' : S) :
    rest' = rest ∧ (Returns M kind body σ r σ' ↔ GraphReturns M G σ r σ') := by
  obtain ⟨h1, h2, L, env, h3, h4⟩ := function_whole ht hn hl hd h0 hg h
  have hrel : Rel G M.const L kind (.next (.seq body .stop) σ)
      (.at 0 (G.code 0) σ (fun _ => none) : Conf E S V) := by
    rw [← conf_zero]; exact .next σ _ h4
  refine ⟨h1, fun hc => ?_, fun hG => ?_⟩
  · obtain ⟨y, hy1, hy2⟩ := follows h3 hc hrel
    cases hy2 with
    | stuck => exact absurd rfl hr
    | done => exact hy1
  · obtain ⟨m, hm⟩ := Steps.count hG
    obtain ⟨d, k1, k2⟩ := followed h3 h2 m _ rfl hrel hm trivial
    rcases k2 with ⟨r', σ'', rfl, e, -⟩ | ⟨_, _, _, _, _, _, -, e⟩
    · cases e; exact k1
    · cases e

/-- C89.  The graph comes to evaluate an expression in a state exactly when the body does.
(The state may be taken to record all evaluations so far, so that both make the same
evaluations in the same order, also when the function does not return.) -/
theorem function_evaluates_partial (M : Sem E S V) {kind : Kind} {body : Items E} {n : Nat}
    {rest rest' : List (STok E)} {G : Cfg E} (ht : body.Tidy) (hn : body.size ≤ n)
    (hl : body.NoneInLoops M.const) (hd : body.Distinct M.const) (h0 : body.defaults = 0)
    (hg : ∀ l, l ∈ body.gotos → l ∈ body.labels)
    (h : function M.const kind n ((Stmt.block body).tokens ++ rest) = .ok (rest', G))
    (σ : S) (e : E) (σ' : S) :
    Evaluates M kind body σ e σ' ↔ GraphEvaluates M G σ e σ' := by
  obtain ⟨h1, h2, L, env, h3, h4⟩ := function_whole ht hn hl hd h0 hg h
  have hrel : Rel G M.const L kind (.next (.seq body .stop) σ)
      (.at 0 (G.code 0) σ (fun _ => none) : Conf E S V) := by
    rw [← conf_zero]; exact .next σ _ h4
  constructor
  · rintro ⟨c, hc, ha⟩
    obtain ⟨y, hy1, hy2⟩ := follows h3 hc hrel
    rcases hy2.sim h3 with hs | ⟨r, σ, rfl⟩
    · cases hs with
      | quiet k1 => rw [ha] at k1; cases k1
      | eval k1 k2 =>
        rw [ha] at k1; cases k1
        exact ⟨_, _, _, _, Steps.trans hy1 k2.steps⟩
    · simp [CState.asks] at ha
  · rintro ⟨b, k, rest, vals, hG⟩
    obtain ⟨m, hm⟩ := Steps.count hG
    obtain ⟨d, k1, k2⟩ := followed h3 h2 m _ rfl hrel hm trivial
    rcases k2 with ⟨r', σ'', rfl, e, -⟩ | ⟨e', σ'', b', k', rest', vals', h5, h6⟩
    · cases e
    · cases h6; exact ⟨d, k1, h5⟩

/-! ### Examples -/

/-- Expressions that are numbers, and a state that records what was evaluated. -/
def numbers : Sem Int (List Int) Int where
  ev e σ := some (σ ++ [e], e)
  truth v := decide (v ≠ 0)
  int v := v
  const e := some e

/-- A list of statements as block items. -/
def list : List (Stmt E) → Items E
  | [] => .nil
  | s :: r => .cons s (list r)

/-- `for (10; 1; 11) { switch (2) { case 1: 20; case 2: 21; goto l; default: 22; } }
while (12) { if (0) continue; else break; } l: return 5;` -/
def sample : Items Int := list [
  .for (.expr 10) (some 1) (some 11) (.block (list [
    .switch 2 (.block (list [.case 1 (.expr 20), .case 2 (.expr 21), .goto [108],
      .dflt (.expr 22)]))])),
  .while 12 (.block (list [.iteElse 0 .cont .brk])),
  .label [108] (.ret (some 5))]

/-- The hypotheses hold of the sample, and the compiler accepts it. -/
example : sample.Tidy ∧ sample.size ≤ 40 ∧ sample.NoneInLoops numbers.const ∧
    sample.Distinct numbers.const ∧ sample.defaults = 0 ∧
    (∀ l, l ∈ sample.gotos → l ∈ sample.labels) ∧
    (∃ G, function numbers.const .value 40 ((Stmt.block sample).tokens ++ []) = .ok ([], G)) ∧
    Returns numbers .value sample [] (.value 5) [10, 1, 2, 21, 5] := by
  refine ⟨?_, ?_, ?_, ?_, ?_, ?_, ⟨_, rfl⟩, ?_⟩
  · simp [sample, list, Items.Tidy, Stmt.Tidy, Stmt.isDefault, Stmt.open, Items.startsDefault]
  · decide
  · simp [sample, list, Items.NoneInLoops, Stmt.NoneInLoops, Items.cases, Stmt.cases,
      Items.defaults, Stmt.defaults]
  · simp [sample, list, Items.Distinct, Stmt.Distinct, Items.cases, Stmt.cases,
      Items.defaults, Stmt.defaults, numbers]
  · decide
  · decide
  · exact crun_steps numbers .value sample 20 (.next (.seq sample .stop) [])

/-! ### Where the code fails -/

/-- `switch (1) { do { default: return 5; } while (0); } return 7;` -/
def inLoop : Items Int := list [
  .switch 1 (.block (list [.doWhile (.block (list [.dflt (.ret (some 5))])) 0])),
  .ret (some 7)]

/-- C89 fails for a label of a switch inside a loop inside the switch: the loop works on a copy
of `jump_blocks`, and the default placed there is lost.  The body returns 5, the graph 7. -/
theorem case_in_loop_violated :
    inLoop.Tidy ∧ inLoop.Distinct numbers.const ∧ inLoop.defaults = 0 ∧
      Returns numbers .value inLoop [] (.value 5) [1, 5] ∧
      ¬ Returns numbers .value inLoop [] (.value 7) [1, 7] ∧
      ∃ G, function numbers.const .value 20 (Stmt.block inLoop).tokens = .ok ([], G) ∧
        GraphReturns numbers G [] (.value 7) [1, 7] := by
  have h5 : Returns numbers .value inLoop [] (.value 5) [1, 5] :=
    crun_steps numbers .value inLoop 20 (.next (.seq inLoop .stop) [])
  refine ⟨?_, ?_, rfl, h5, fun h7 => ?_, _, rfl, ?_⟩
  · simp [inLoop, list, Items.Tidy, Stmt.Tidy, Stmt.isDefault, Items.startsDefault]
  · simp [inLoop, list, Items.Distinct, Stmt.Distinct, Items.cases, Stmt.cases,
      Items.defaults, Stmt.defaults]
  · have := CSteps.det h5 h7
    simp at this
  · exact grun_steps numbers _ 20 _

/-- `while (1) switch (2) { case 2: continue; } return 7;` -/
def contInSwitch : Items Int := list [
  .while 1 (.switch 2 (.block (list [.case 2 .cont]))), .ret (some 7)]

/-- C89 fails for `continue` in a switch in a while statement: the body is valid (it evaluates
1 and 2 for ever) but the assertion of `ir_connect` that a region has at most two predecessors
fails. -/
theorem continue_in_switch_violated :
    contInSwitch.Tidy ∧ contInSwitch.NoneInLoops numbers.const ∧
      contInSwitch.Distinct numbers.const ∧ contInSwitch.defaults = 0 ∧
      Evaluates numbers .value contInSwitch [] 1 [1, 2, 1, 2] ∧
      function numbers.const .value 20 (Stmt.block contInSwitch).tokens = .fail := by
  refine ⟨?_, ?_, ?_, rfl, ?_, rfl⟩
  · simp [contInSwitch, list, Items.Tidy, Stmt.Tidy, Stmt.isDefault]
  · simp [contInSwitch, list, Items.NoneInLoops, Stmt.NoneInLoops, Stmt.cases, Stmt.defaults]
  · simp [contInSwitch, list, Items.Distinct, Stmt.Distinct, Items.cases, Stmt.cases,
      Items.defaults, Stmt.defaults, numbers]
  · exact ⟨_, crun_steps numbers .value contInSwitch 7 _, rfl⟩

/-- `switch (1) default: break; return 7;` -/
def alone : Items Int := list [.switch 1 (.dflt .brk), .ret (some 7)]

/-- C89 fails for a default label that is the body of a switch: `parse_labeled_statement`
returns 0 after it, and the statement that follows is read as part of the body. -/
theorem default_alone_violated :
    alone.NoneInLoops numbers.const ∧ alone.Distinct numbers.const ∧ alone.defaults = 0 ∧
      Returns numbers .main alone [] (.value 7) [1, 7] ∧
      ¬ Returns numbers .main alone [] .zero [1] ∧
      ∃ G, function numbers.const .main 20 (Stmt.block alone).tokens = .ok ([], G) ∧
        GraphReturns numbers G [] .zero [1] := by
  have h5 : Returns numbers .main alone [] (.value 7) [1, 7] :=
    crun_steps numbers .main alone 20 (.next (.seq alone .stop) [])
  refine ⟨?_, ?_, rfl, h5, fun h7 => ?_, _, rfl, ?_⟩
  · simp [alone, list, Items.NoneInLoops, Stmt.NoneInLoops]
  · simp [alone, list, Items.Distinct, Stmt.Distinct, Stmt.cases, Stmt.defaults]
  · have := CSteps.det h5 h7
    simp at this
  · exact grun_steps numbers _ 20 _

/-- `switch (1) { case 1: default: 2; l: return 7; }` -/
def labelled : Items Int := list [
  .switch 1 (.block (list [.case 1 (.dflt (.expr 2)), .label [108] (.ret (some 7))]))]

/-- C89 fails for a named label after a default label that has another label before it: the name
is read as an expression, and the valid body is rejected. -/
theorem default_label_violated :
    labelled.NoneInLoops numbers.const ∧ labelled.Distinct numbers.const ∧
      labelled.defaults = 0 ∧ Returns numbers .main labelled [] (.value 7) [1, 2, 7] ∧
      function numbers.const .main 20 (Stmt.block labelled).tokens = .fail := by
  refine ⟨?_, ?_, rfl, ?_, rfl⟩
  · simp [labelled, list, Items.NoneInLoops, Stmt.NoneInLoops]
  · simp [labelled, list, Items.Distinct, Stmt.Distinct, Items.cases, Stmt.cases,
      Items.defaults, Stmt.defaults]
  · exact crun_steps numbers .main labelled 20 (.next (.seq labelled .stop) [])

/-- C89 fails when control reaches the closing brace of a function that returns a value: C17
6.9.1p12 allows it if the caller does not use the value, but the graph has no way to go on
(the code generator puts an undefined instruction there, codegen.c 549-551). -/
theorem fall_off_violated :
    Returns numbers .value .nil [] .unspecified [] ∧
      ∃ G, function numbers.const .value 20 (Stmt.block (.nil : Items Int)).tokens = .ok ([], G) ∧
        ∀ r σ, ¬ GraphReturns numbers G [] r σ := by
  refine ⟨crun_steps numbers .value .nil 20 (.next (.seq .nil .stop) []), _, rfl, fun r σ h => ?_⟩
  cases h with
  | step h _ =>
    cases h with
    | yes h | no h | ret h => simp [finish, St.initial] at h
    | jump h => simp [finish, St.initial] at h

/-- A jump to a label that is nowhere is accepted (C17 6.8.6.1p1 demands a diagnostic). -/
theorem goto_undefined_violated :
    ∃ G, function numbers.const .main 20
      (Stmt.block (list [.goto [108]] : Items Int)).tokens = .ok ([], G) :=
  ⟨_, rfl⟩

/-- A `break` with nothing to break from is not diagnosed (C17 6.8.6.3p1): a null pointer is
followed. -/
theorem break_outside_violated :
    function numbers.const .main 20 (Stmt.block (list [.brk] : Items Int)).tokens = .ub := rfl

end Verif.Statement
