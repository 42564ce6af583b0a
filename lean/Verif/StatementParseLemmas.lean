import Verif.StatementSpec
/-!
The statement parser reads the tokens of a tree and does what `comp` does on the tree.
-/
namespace Verif.Statement
open Verif.StatementSpec
variable {E : Type}

/-- The first part of a for statement. -/
def compInit (i : Init E) (st : St E) : St E :=
  match i with
  | .none => st
  | .decl d => (evaluate st d).2
  | .expr e => (evaluate st e).2

/-- The second part of a for statement. -/
def compTest (c : Option E) (st : St E) (body fin : Nat) : Run (St E) :=
  match c with
  | some e => loopTest (evaluate st e).2 (evaluate st e).1 body fin
  | none => goto st (some body)

/-- The third part of a for statement. -/
def compAdv (a : Option E) (st : St E) : St E :=
  match a with
  | some e => (evaluate st e).2
  | none => st

mutual
/-- What the parser does with the blocks when it reads the statement. -/
def comp (const : E → Option Int) : Stmt E → Jumps → St E → Run (Jumps × St E)
  | .empty, j, st => .ok (j, st)
  | .expr e, j, st => .ok (j, (evaluate st e).2)
  | .block b, j, st => compItems const b j st
  | .ite e s, j, st => do
    let ev := evaluate st e
    let sel := select ev.2 (.truth ev.1)
    let x ← comp const s j (start sel.2.2 sel.1)
    let nb := newBlock x.2
    let st ← goto nb.2 (some nb.1)
    let st ← goto (start st sel.2.1) (some nb.1)
    .ok (x.1, start st nb.1)
  | .iteElse e s t, j, st => do
    let ev := evaluate st e
    let sel := select ev.2 (.truth ev.1)
    let x ← comp const s j (start sel.2.2 sel.1)
    let nb := newBlock x.2
    let st ← goto nb.2 (some nb.1)
    let x ← comp const t x.1 (start st sel.2.1)
    let st ← goto x.2 (some nb.1)
    .ok (x.1, start st nb.1)
  | .while e s, j, st => do
    let b := newBlock st
    let c := newBlock b.2
    let d := newBlock c.2
    let st ← goto d.2 (some c.1)
    let ev := evaluate (start st c.1) e
    let st ← loopTest ev.2 ev.1 b.1 d.1
    let x ← comp const s { j with brk := some d.1, cont := some c.1 } (start st b.1)
    let st ← goto x.2 x.1.cont
    .ok (j, start st d.1)
  | .doWhile s e, j, st => do
    let b := newBlock st
    let c := newBlock b.2
    let d := newBlock c.2
    let st ← goto d.2 (some b.1)
    let x ← comp const s { j with brk := some d.1, cont := some c.1 } (start st b.1)
    let st ← goto x.2 (some c.1)
    let ev := evaluate (start st c.1) e
    let st ← loopTest ev.2 ev.1 b.1 d.1
    .ok (j, start st d.1)
  | .for i c a s, j, st => do
    let ini := newBlock st
    let ctl := newBlock ini.2
    let adv := newBlock ctl.2
    let bod := newBlock adv.2
    let fin := newBlock bod.2
    let st ← goto fin.2 (some ini.1)
    let st := compInit i (start st ini.1)
    let st ← goto st (some ctl.1)
    let st ← compTest c (start st ctl.1) bod.1 fin.1
    let st := compAdv a (start st adv.1)
    let st ← goto st (some ctl.1)
    let x ← comp const s { j with brk := some fin.1, cont := some adv.1 } (start st bod.1)
    let st ← goto x.2 (some adv.1)
    .ok (j, start st fin.1)
  | .switch e s, j, st => do
    let ev := evaluate st e
    let b := newBlock ev.2
    let c := newBlock b.2
    let d := newBlock c.2
    let st ← goto d.2 (some c.1)
    let x ← comp const s
      { j with entry := some c.1, brk := some d.1, ctl := some ev.1, dflt := none } (start st b.1)
    let st ← endSwitch x.2 x.1 d.1
    .ok (j, st)
  | .case e s, j, st =>
    match const e with
    | none => .fail
    | some v =>
      match j.ctl with
      | none => .fail
      | some ctl => do
        let x ← placeCase st j ctl v
        comp const s x.1 x.2
  | .dflt s, j, st => do
    let x ← placeDefault st j
    comp const s x.1 x.2
  | .label l s, j, st => do
    let st ← placeLabel st l
    comp const s j st
  | .goto l, j, st => do
    let st ← gotoLabel st l
    .ok (j, st)
  | .brk, j, st => do
    let x ← jumpStep st j.brk
    .ok ({ j with brk := some x.1 }, x.2)
  | .cont, j, st => do
    let x ← jumpStep st j.cont
    .ok ({ j with cont := some x.1 }, x.2)
  | .ret o, j, st => .ok (j, returnValue st o)
/-- What the parser does with the blocks when it reads the items. -/
def compItems (const : E → Option Int) : Items E → Jumps → St E → Run (Jumps × St E)
  | .nil, j, st => .ok (j, st)
  | .decl d r, j, st => compItems const r j (evaluate st d).2
  | .cons s r, j, st => do
    let x ← comp const s j st
    compItems const r x.1 x.2
end

/-- The tokens do not begin with `else`. -/
def NotElse (ts : List (STok E)) : Prop := ∀ r, ts ≠ .kElse :: r

/-- The statement has no label before it. -/
def plain : Stmt E → Bool
  | .label .. | .case .. | .dflt .. => false
  | _ => true

/-- What is left of a parse. -/
def after (x : Run (Jumps × St E)) (ts : List (STok E)) : Run (Bool × PS E) :=
  x >>= fun x => .ok (true, ⟨x.1, ts, x.2⟩)

theorem bind_assoc {α β γ : Type} (x : Run α) (f : α → Run β) (g : β → Run γ) :
    (x >>= f) >>= g = x >>= fun a => f a >>= g := by cases x <;> rfl

theorem bind_congr {α β : Type} {x : Run α} {f g : α → Run β} (h : ∀ a, f a = g a) :
    x >>= f = x >>= g := by cases x <;> simp [h]

theorem statement_plain (const : E → Option Int) {s : Stmt E} (hp : plain s = true) (n : Nat)
    (j : Jumps) (st : St E) (rest : List (STok E)) :
    statement const (n + 1) ⟨j, s.tokens ++ rest, st⟩ =
      unlabeled const (statement const n) n ⟨j, s.tokens ++ rest, st⟩ := by
  cases s <;> simp [plain] at hp <;>
    simp [statement, Stmt.tokens, orElse, labeled]


/-- The parser reads the statement as it should, at any place a statement may stand. -/
def Reads (const : E → Option Int) (s : Stmt E) : Prop :=
  ∀ n j st rest, s.size ≤ n → (s.open = true → NotElse rest) →
    statement const n ⟨j, s.tokens ++ rest, st⟩ = after (comp const s j st) rest

/-- The parser reads the statement as it should where labels are not looked for. -/
def ReadsPlain (const : E → Option Int) (s : Stmt E) : Prop :=
  ∀ n j st rest, s.size ≤ n + 1 → (s.open = true → NotElse rest) →
    unlabeled const (statement const n) n ⟨j, s.tokens ++ rest, st⟩ =
      after (comp const s j st) rest

theorem Reads.of_plain {const : E → Option Int} {s : Stmt E} (hp : plain s = true)
    (h : ReadsPlain const s) : Reads const s := by
  intro n j st rest hn ho
  cases n with
  | zero => exfalso; cases s <;> simp [Stmt.size] at hn
  | succ n => rw [statement_plain const hp]; exact h n j st rest hn ho

theorem orElse_after {a b : PS E → Run (Bool × PS E)} {p : PS E} {x : Run (Jumps × St E)}
    {ts : List (STok E)} (h : a p = after x ts) : orElse a b p = after x ts := by
  simp only [orElse, h, after]
  cases x <;> simp

theorem orElse_false {a b : PS E → Run (Bool × PS E)} {p : PS E}
    (h : a p = .ok (false, p)) : orElse a b p = b p := by
  simp [orElse, h]

@[simp] theorem expect_cons {is : STok E → Bool} {j : Jumps} {t : STok E} {r : List (STok E)}
    {st : St E} : expect is ⟨j, t :: r, st⟩ = if is t then .ok ⟨j, r, st⟩ else .fail := by
  unfold expect accept
  by_cases h : is t <;> simp [h]

@[simp] theorem accept_cons {is : STok E → Bool} {j : Jumps} {t : STok E} {r : List (STok E)}
    {st : St E} : accept is ⟨j, t :: r, st⟩ = if is t then some ⟨j, r, st⟩ else none := rfl

@[simp] theorem need_cons {j : Jumps} {e : E} {r : List (STok E)}
    {st : St E} : needExpression ⟨j, .expr e :: r, st⟩ = .ok (e, ⟨j, r, st⟩) := rfl

theorem accept_else {rest : List (STok E)} (ho : NotElse rest) (j : Jumps) (st : St E) :
    accept STok.isElse ⟨j, rest, st⟩ = none := by
  cases rest with
  | nil => rfl
  | cons t r =>
    have : STok.isElse t = false := by
      cases t <;> simp [STok.isElse] <;> exact absurd rfl (ho r)
    simp [this]

theorem reads_empty (const : E → Option Int) : ReadsPlain const (.empty : Stmt E) := by
  intro n j st rest _ _
  simp [unlabeled, orElse, Stmt.tokens, compound, STok.isLbrace, expressionStatement,
    expression, selection, ifStatement, switchStatement, iteration, forStatement,
    doWhileStatement, whileStatement, jump, trailing, after, comp]

theorem reads_expr (const : E → Option Int) (e : E) : ReadsPlain const (.expr e) := by
  intro n j st rest _ _
  simp [unlabeled, orElse, Stmt.tokens, compound, STok.isLbrace, expressionStatement,
    expression, STok.isSemi, after, comp, PS.with]

/-- Alternatives that do not apply are passed over. -/
theorem pass_compound {const : E → Option Int} {rec : PS E → Run (Bool × PS E)} {n : Nat}
    {j : Jumps} {t : STok E} {r : List (STok E)} {st : St E} (h : STok.isLbrace t = false) :
    compound const rec n ⟨j, t :: r, st⟩ = .ok (false, ⟨j, t :: r, st⟩) := by
  simp [compound, h]

/-- The token does not begin an expression. -/
def notExpr : STok E → Bool
  | .expr _ | .ident _ => false
  | _ => true

theorem expression_none {j : Jumps} {t : STok E} {r : List (STok E)} {st : St E}
    (h : notExpr t = true) : expression ⟨j, t :: r, st⟩ = .ok (none, ⟨j, t :: r, st⟩) := by
  cases t <;> simp [notExpr] at h <;> rfl

theorem pass_expression {j : Jumps} {t : STok E} {r : List (STok E)} {st : St E}
    (h : notExpr t = true) :
    expressionStatement ⟨j, t :: r, st⟩ = .ok (false, ⟨j, t :: r, st⟩) := by
  simp [expressionStatement, expression_none h]

theorem unlabeled_of {const : E → Option Int} {rec : PS E → Run (Bool × PS E)} {n : Nat}
    {j : Jumps} {t : STok E} {r : List (STok E)} {st : St E} (h : STok.isLbrace t = false)
    (h' : notExpr t = true) :
    unlabeled const rec n ⟨j, t :: r, st⟩ =
      orElse (selection rec) (orElse (iteration rec) (orElse jump trailing)) ⟨j, t :: r, st⟩ := by
  unfold unlabeled
  rw [orElse_false (pass_compound h), orElse_false (pass_expression h')]

theorem pass_selection {rec : PS E → Run (Bool × PS E)} {j : Jumps} {t : STok E}
    {r : List (STok E)} {st : St E} (h : t ≠ .kIf) (h' : t ≠ .kSwitch) :
    selection rec ⟨j, t :: r, st⟩ = .ok (false, ⟨j, t :: r, st⟩) := by
  unfold selection
  rw [orElse_false (by cases t <;> simp_all [ifStatement])]
  cases t <;> simp_all [switchStatement]

theorem pass_iteration {rec : PS E → Run (Bool × PS E)} {j : Jumps} {t : STok E}
    {r : List (STok E)} {st : St E} (h : t ≠ .kFor) (h' : t ≠ .kDo) (h'' : t ≠ .kWhile) :
    iteration rec ⟨j, t :: r, st⟩ = .ok (false, ⟨j, t :: r, st⟩) := by
  unfold iteration
  rw [orElse_false (by cases t <;> simp_all [forStatement]),
    orElse_false (by cases t <;> simp_all [doWhileStatement])]
  cases t <;> simp_all [whileStatement]

theorem reads_ite {const : E → Option Int} {e : E} {s : Stmt E} (h : Reads const s) :
    ReadsPlain const (.ite e s) := by
  intro n j st rest hn ho
  have hs : s.size ≤ n := by simp [Stmt.size] at hn; omega
  have ho : NotElse rest := ho rfl
  rw [Stmt.tokens]
  simp only [List.cons_append, List.nil_append]
  rw [unlabeled_of rfl rfl]
  refine orElse_after (orElse_after ?_)
  simp only [ifStatement, expect_cons, need_cons, STok.isLpar, STok.isRpar, if_true, Run.bind_ok,
    PS.with]
  rw [h n _ _ _ hs (fun _ => ho)]
  simp only [after, comp, bind_assoc, Run.bind_ok, accept_else ho]

theorem reads_iteElse {const : E → Option Int} {e : E} {s t : Stmt E} (h : Reads const s)
    (h' : Reads const t) (hc : s.open = false) : ReadsPlain const (.iteElse e s t) := by
  intro n j st rest hn ho
  have hs : s.size ≤ n := by simp [Stmt.size] at hn; omega
  have ht : t.size ≤ n := by simp [Stmt.size] at hn; omega
  rw [Stmt.tokens]
  simp only [List.cons_append, List.nil_append, List.append_assoc]
  rw [unlabeled_of rfl rfl]
  refine orElse_after (orElse_after ?_)
  simp only [ifStatement, expect_cons, need_cons, STok.isLpar, STok.isRpar, if_true, Run.bind_ok,
    PS.with]
  rw [h n _ _ _ hs (fun h => by simp [hc] at h)]
  simp only [after, comp, bind_assoc, Run.bind_ok, accept_cons, STok.isElse, if_true]
  refine bind_congr fun x => bind_congr fun y => ?_
  rw [h' n _ _ _ ht ho]
  simp only [after, bind_assoc, Run.bind_ok]

theorem reads_switch {const : E → Option Int} {e : E} {s : Stmt E} (h : Reads const s) :
    ReadsPlain const (.switch e s) := by
  intro n j st rest hn ho
  have hs : s.size ≤ n := by simp [Stmt.size] at hn; omega
  rw [Stmt.tokens]
  simp only [List.cons_append, List.nil_append]
  rw [unlabeled_of rfl rfl]
  refine orElse_after ?_
  unfold selection
  rw [orElse_false rfl]
  simp only [switchStatement, expect_cons, need_cons, STok.isLpar, STok.isRpar, if_true,
    Run.bind_ok, PS.with, after, comp, bind_assoc]
  refine bind_congr fun x => ?_
  rw [h n _ _ _ hs ho]
  simp only [after, bind_assoc, Run.bind_ok]

theorem reads_while {const : E → Option Int} {e : E} {s : Stmt E} (h : Reads const s) :
    ReadsPlain const (.while e s) := by
  intro n j st rest hn ho
  have hs : s.size ≤ n := by simp [Stmt.size] at hn; omega
  rw [Stmt.tokens]
  simp only [List.cons_append, List.nil_append]
  rw [unlabeled_of rfl rfl, orElse_false (pass_selection (by simp) (by simp))]
  refine orElse_after ?_
  unfold iteration
  rw [orElse_false rfl, orElse_false rfl]
  simp only [whileStatement, expect_cons, need_cons, STok.isLpar, STok.isRpar, if_true,
    Run.bind_ok, PS.with, after, comp, bind_assoc]
  refine bind_congr fun x => bind_congr fun y => ?_
  rw [h n _ _ _ hs ho]
  simp only [after, bind_assoc, Run.bind_ok]

theorem reads_do {const : E → Option Int} {e : E} {s : Stmt E} (h : Reads const s) :
    ReadsPlain const (.doWhile s e) := by
  intro n j st rest hn ho
  have hs : s.size ≤ n := by simp [Stmt.size] at hn; omega
  rw [Stmt.tokens]
  simp only [List.cons_append, List.nil_append, List.append_assoc]
  rw [unlabeled_of rfl rfl, orElse_false (pass_selection (by simp) (by simp))]
  refine orElse_after ?_
  unfold iteration
  rw [orElse_false rfl]
  refine orElse_after ?_
  simp only [doWhileStatement, after, comp, bind_assoc]
  refine bind_congr fun x => ?_
  rw [h n _ _ _ hs (fun _ r hr => by simp at hr)]
  simp only [after, bind_assoc, Run.bind_ok, expect_cons, need_cons, STok.isLpar, STok.isRpar,
    STok.isWhile, STok.isSemi, if_true, PS.with]

theorem forInit_tokens (i : Init E) (j : Jumps) (st : St E) (rest : List (STok E)) :
    forInit ⟨j, i.tokens ++ rest, st⟩ = .ok ⟨j, rest, compInit i st⟩ := by
  cases i <;> simp [forInit, Init.tokens, STok.isSemi, orElse, declaration, expressionStatement,
    expression, compInit, PS.with]

theorem forTest_tokens (c : Option E) (j : Jumps) (st : St E) (rest : List (STok E))
    (body fin : Nat) :
    forTest ⟨j, optTokens c ++ .semi :: rest, st⟩ body fin =
      compTest c st body fin >>= fun st => .ok ⟨j, .semi :: rest, st⟩ := by
  cases c <;> simp [forTest, optTokens, expression, compTest, PS.with]

theorem forAdvance_tokens (a : Option E) (j : Jumps) (st : St E) (rest : List (STok E)) :
    forAdvance ⟨j, optTokens a ++ .rpar :: rest, st⟩ = .ok ⟨j, .rpar :: rest, compAdv a st⟩ := by
  cases a <;> simp [forAdvance, optTokens, expression, compAdv, PS.with]

theorem reads_for {const : E → Option Int} {i : Init E} {c a : Option E} {s : Stmt E}
    (h : Reads const s) : ReadsPlain const (.for i c a s) := by
  intro n j st rest hn ho
  have hs : s.size ≤ n := by simp [Stmt.size] at hn; omega
  rw [Stmt.tokens]
  simp only [List.cons_append, List.nil_append, List.append_assoc]
  rw [unlabeled_of rfl rfl, orElse_false (pass_selection (by simp) (by simp))]
  refine orElse_after ?_
  unfold iteration
  refine orElse_after ?_
  simp only [forStatement, expect_cons, STok.isLpar, if_true, Run.bind_ok, PS.with, after, comp,
    bind_assoc]
  refine bind_congr fun x => ?_
  rw [forInit_tokens]
  simp only [Run.bind_ok]
  refine bind_congr fun y => ?_
  rw [forTest_tokens]
  simp only [Run.bind_ok, bind_assoc, expect_cons, STok.isSemi, if_true]
  refine bind_congr fun z => ?_
  rw [forAdvance_tokens]
  simp only [Run.bind_ok, expect_cons, STok.isRpar, if_true]
  refine bind_congr fun w => ?_
  rw [h n _ _ _ hs ho]
  simp only [after, bind_assoc, Run.bind_ok]

theorem reads_jump {const : E → Option Int} {s : Stmt E} {t : STok E} {r : List (STok E)}
    (ht : s.tokens = t :: r) (h1 : t = .kGoto ∨ t = .kBreak ∨ t = .kContinue ∨ t = .kReturn)
    (h : ∀ j st rest, jump ⟨j, s.tokens ++ rest, st⟩ = after (comp const s j st) rest) :
    ReadsPlain const s := by
  intro n j st rest _ _
  have h := h j st rest
  rw [ht] at h ⊢
  simp only [List.cons_append] at h ⊢
  rw [unlabeled_of (by rcases h1 with rfl | rfl | rfl | rfl <;> rfl)
      (by rcases h1 with rfl | rfl | rfl | rfl <;> rfl),
    orElse_false (pass_selection (by rcases h1 with rfl | rfl | rfl | rfl <;> simp)
      (by rcases h1 with rfl | rfl | rfl | rfl <;> simp)),
    orElse_false (pass_iteration (by rcases h1 with rfl | rfl | rfl | rfl <;> simp)
      (by rcases h1 with rfl | rfl | rfl | rfl <;> simp)
      (by rcases h1 with rfl | rfl | rfl | rfl <;> simp))]
  exact orElse_after h

theorem reads_goto (const : E → Option Int) (l : Str) : ReadsPlain const (.goto l : Stmt E) :=
  reads_jump rfl (.inl rfl) fun j st rest => by
    simp [Stmt.tokens, jump, STok.isSemi, PS.with, after, comp, bind_assoc]

theorem reads_brk (const : E → Option Int) : ReadsPlain const (.brk : Stmt E) :=
  reads_jump rfl (.inr (.inl rfl)) fun j st rest => by
    simp [Stmt.tokens, jump, STok.isSemi, after, comp, bind_assoc]

theorem reads_cont (const : E → Option Int) : ReadsPlain const (.cont : Stmt E) :=
  reads_jump rfl (.inr (.inr (.inl rfl))) fun j st rest => by
    simp [Stmt.tokens, jump, STok.isSemi, after, comp, bind_assoc]

theorem reads_ret (const : E → Option Int) (o : Option E) : ReadsPlain const (.ret o) :=
  reads_jump rfl (.inr (.inr (.inr rfl))) fun j st rest => by
    cases o <;> simp [Stmt.tokens, jump, STok.isSemi, after, comp, optTokens, expression, PS.with]

/-! ### Labels -/

theorem labeled_label (const : E → Option Int) (rec : PS E → Run (Bool × PS E)) (l : Str)
    (s : Stmt E) (j : Jumps) (st : St E) (rest : List (STok E)) :
    labeled const rec ⟨j, (Stmt.label l s).tokens ++ rest, st⟩ =
      (placeLabel st l >>= fun st' => rec ⟨j, s.tokens ++ rest, st'⟩ >>= fun q =>
        .ok (true, q.2)) := by
  simp [Stmt.tokens, labeled]

theorem labeled_case (const : E → Option Int) (rec : PS E → Run (Bool × PS E)) (e : E)
    (s : Stmt E) (j : Jumps) (st : St E) (rest : List (STok E)) {v : Int} {ctl : Nat}
    (hv : const e = some v) (hc : j.ctl = some ctl) :
    labeled const rec ⟨j, (Stmt.case e s).tokens ++ rest, st⟩ =
      (placeCase st j ctl v >>= fun x => rec ⟨x.1, s.tokens ++ rest, x.2⟩ >>= fun q =>
        .ok (true, q.2)) := by
  simp [Stmt.tokens, labeled, STok.isColon, hv, hc]

theorem labeled_case_fail (const : E → Option Int) (rec : PS E → Run (Bool × PS E)) (e : E)
    (s : Stmt E) (j : Jumps) (st : St E) (rest : List (STok E))
    (h : const e = none ∨ j.ctl = none) :
    labeled const rec ⟨j, (Stmt.case e s).tokens ++ rest, st⟩ = .fail := by
  rcases h with h | h
  · simp [Stmt.tokens, labeled, STok.isColon, h]
  · simp only [Stmt.tokens, labeled, List.cons_append, need_cons, Run.bind_ok, expect_cons,
      STok.isColon, if_true]
    cases const e <;> simp [h]

theorem labeled_dflt (const : E → Option Int) (rec : PS E → Run (Bool × PS E))
    (s : Stmt E) (j : Jumps) (st : St E) (rest : List (STok E)) :
    labeled const rec ⟨j, (Stmt.dflt s).tokens ++ rest, st⟩ =
      (placeDefault st j >>= fun x => rec ⟨x.1, s.tokens ++ rest, x.2⟩ >>= fun q =>
        .ok (false, q.2)) := by
  simp [Stmt.tokens, labeled, STok.isColon]

/-- The parser reads the labelled statement as it should where labels are looked for. -/
def ReadsLabel (const : E → Option Int) (s : Stmt E) : Prop :=
  ∀ n j st rest, s.size ≤ n + 1 → (s.open = true → NotElse rest) →
    labeled const (statement const n) ⟨j, s.tokens ++ rest, st⟩ = after (comp const s j st) rest

/-- Behind a default with labels before it, one more statement is read. -/
def ReadsLabelDefault (const : E → Option Int) (s : Stmt E) : Prop :=
  ∀ n, s.size ≤ n + 1 → ∃ n', n + 1 ≤ n' + s.size ∧
    ∀ j st rest, (s.open = true → NotElse rest) →
      labeled const (statement const n) ⟨j, s.tokens ++ rest, st⟩ =
        (comp const s j st >>= fun x =>
          unlabeled const (statement const n') n' ⟨x.1, rest, x.2⟩ >>= fun r => .ok (true, r.2))

/-- As `ReadsLabelDefault`, where any statement may stand. -/
def ReadsDefault (const : E → Option Int) (s : Stmt E) : Prop :=
  ∀ n, s.size ≤ n → ∃ (n' : Nat) (f : Bool → Bool), n ≤ n' + s.size ∧
    ∀ j st rest, (s.open = true → NotElse rest) →
      statement const n ⟨j, s.tokens ++ rest, st⟩ =
        (comp const s j st >>= fun x =>
          unlabeled const (statement const n') n' ⟨x.1, rest, x.2⟩ >>= fun r =>
            .ok (f r.1, r.2))

theorem Stmt.size_pos (s : Stmt E) : 0 < s.size := by cases s <;> simp [Stmt.size]

theorem Reads.of_label {const : E → Option Int} {s : Stmt E} (h : ReadsLabel const s) :
    Reads const s := by
  intro n j st rest hn ho
  obtain ⟨n, rfl⟩ : ∃ m, n = m + 1 := ⟨n - 1, by have := Stmt.size_pos s; omega⟩
  exact orElse_after (h n j st rest hn ho)

theorem ReadsDefault.of_label {const : E → Option Int} {s : Stmt E}
    (h : ReadsLabelDefault const s) : ReadsDefault const s := by
  intro n hn
  obtain ⟨n, rfl⟩ : ∃ m, n = m + 1 := ⟨n - 1, by have := Stmt.size_pos s; omega⟩
  obtain ⟨n', h1, h2⟩ := h n hn
  refine ⟨n', fun _ => true, h1, fun j st rest ho => ?_⟩
  show orElse _ _ _ = _
  simp only [orElse, h2 j st rest ho, bind_assoc, Run.bind_ok, if_true]

theorem reads_label_default {const : E → Option Int} {l : Str} {s : Stmt E}
    (h : ReadsDefault const s) : ReadsLabelDefault const (.label l s) := by
  intro n hn
  obtain ⟨n', f, h1, h2⟩ := h n (by simpa [Stmt.size] using hn)
  refine ⟨n', by simp [Stmt.size]; omega, fun j st rest ho => ?_⟩
  rw [labeled_label]
  simp only [comp, bind_assoc]
  refine bind_congr fun x => ?_
  rw [h2 _ _ _ ho]
  simp only [bind_assoc, Run.bind_ok]

theorem reads_case_default {const : E → Option Int} {e : E} {s : Stmt E}
    (h : ReadsDefault const s) : ReadsLabelDefault const (.case e s) := by
  intro n hn
  obtain ⟨n', f, h1, h2⟩ := h n (by simpa [Stmt.size] using hn)
  refine ⟨n', by simp [Stmt.size]; omega, fun j st rest ho => ?_⟩
  cases hv : const e with
  | none => rw [labeled_case_fail _ _ _ _ _ _ _ (.inl hv)]; simp [comp, hv]
  | some v =>
    cases hc : j.ctl with
    | none => rw [labeled_case_fail _ _ _ _ _ _ _ (.inr hc)]; simp [comp, hv, hc]
    | some ctl =>
      rw [labeled_case _ _ _ _ _ _ _ hv hc]
      simp only [comp, hv, hc, bind_assoc]
      refine bind_congr fun x => ?_
      rw [h2 _ _ _ ho]
      simp only [bind_assoc, Run.bind_ok]

theorem labeled_default {const : E → Option Int} {s : Stmt E} (h : Reads const s) (n : Nat)
    (hn : s.size ≤ n) (j : Jumps) (st : St E) (rest : List (STok E))
    (ho : s.open = true → NotElse rest) :
    labeled const (statement const n) ⟨j, (Stmt.dflt s).tokens ++ rest, st⟩ =
      (comp const (.dflt s) j st >>= fun x => .ok (false, ⟨x.1, rest, x.2⟩)) := by
  rw [labeled_dflt]
  simp only [comp, bind_assoc]
  refine bind_congr fun x => ?_
  rw [h n _ _ _ hn ho]
  simp only [after, bind_assoc, Run.bind_ok]

theorem reads_default {const : E → Option Int} {s : Stmt E} (h : Reads const s) :
    ReadsDefault const (.dflt s) := by
  intro n hn
  simp only [Stmt.size] at hn
  obtain ⟨n, rfl⟩ : ∃ m, n = m + 1 := ⟨n - 1, by omega⟩
  refine ⟨n, id, by simp [Stmt.size], fun j st rest ho => ?_⟩
  show orElse _ _ _ = _
  simp only [orElse, labeled_default h n (by omega) j st rest ho, bind_assoc, Run.bind_ok]
  refine bind_congr fun x => ?_
  simp only [Bool.false_eq_true, if_false]
  cases unlabeled const (statement const n) n ⟨x.1, rest, x.2⟩ <;> simp

theorem reads_label {const : E → Option Int} {l : Str} {s : Stmt E} (h : Reads const s) :
    ReadsLabel const (.label l s) := by
  intro n j st rest hn ho
  rw [labeled_label]
  simp only [comp, after, bind_assoc]
  refine bind_congr fun x => ?_
  rw [h n _ _ _ (by simpa [Stmt.size] using hn) ho]
  simp only [after, bind_assoc, Run.bind_ok]

theorem reads_case {const : E → Option Int} {e : E} {s : Stmt E} (h : Reads const s) :
    ReadsLabel const (.case e s) := by
  intro n j st rest hn ho
  cases hv : const e with
  | none => rw [labeled_case_fail _ _ _ _ _ _ _ (.inl hv)]; simp [comp, hv, after]
  | some v =>
    cases hc : j.ctl with
    | none => rw [labeled_case_fail _ _ _ _ _ _ _ (.inr hc)]; simp [comp, hv, hc, after]
    | some ctl =>
      rw [labeled_case _ _ _ _ _ _ _ hv hc]
      simp only [comp, hv, hc, after, bind_assoc]
      refine bind_congr fun x => ?_
      rw [h n _ _ _ (by simpa [Stmt.size] using hn) ho]
      simp only [after, bind_assoc, Run.bind_ok]

/-! ### Items -/

/-- Continue the loop of `parse_compound_statement`. -/
def goOn (const : E → Option Int) (rec : PS E → Run (Bool × PS E)) (m : Nat)
    (r : Bool × PS E) : Run (PS E) :=
  if r.1 then items const rec m r.2 else .ok r.2

/-- The loop reads the items as it should; also after a default, and after a default with
labels before it. -/
structure ReadsItems (const : E → Option Int) (b : Items E) : Prop where
  loop : ∀ n m j st rest, b.size ≤ n → b.size ≤ m →
    items const (statement const n) m ⟨j, b.tokens ++ .rbrace :: rest, st⟩ =
      (compItems const b j st >>= fun x => .ok ⟨x.1, .rbrace :: rest, x.2⟩)
  afterDefault : b.startsDefault = false → ∀ n m j st rest, b.size ≤ n → b.size ≤ m →
    (orElse declaration (statement const n) ⟨j, b.tokens ++ .rbrace :: rest, st⟩ >>=
        goOn const (statement const n) m) =
      (compItems const b j st >>= fun x => .ok ⟨x.1, .rbrace :: rest, x.2⟩)
  afterLabels : b.startsLabel = false → ∀ n m n' j st rest, b.size ≤ n → b.size ≤ m →
    b.size ≤ n' →
    (unlabeled const (statement const n') n' ⟨j, b.tokens ++ .rbrace :: rest, st⟩ >>= fun r =>
        items const (statement const n) m r.2) =
      (compItems const b j st >>= fun x => .ok ⟨x.1, .rbrace :: rest, x.2⟩)

theorem unlabeled_false {const : E → Option Int} {rec : PS E → Run (Bool × PS E)} {n : Nat}
    {j : Jumps} {t : STok E} {r : List (STok E)} {st : St E}
    (ht : t = .rbrace ∨ (∃ d, t = .decl d) ∨ t = .kCase ∨ t = .kDefault) :
    unlabeled const rec n ⟨j, t :: r, st⟩ = .ok (false, ⟨j, t :: r, st⟩) := by
  rcases ht with rfl | ⟨d, rfl⟩ | rfl | rfl <;>
  · rw [unlabeled_of rfl rfl, orElse_false (pass_selection (by simp) (by simp)),
      orElse_false (pass_iteration (by simp) (by simp) (by simp)), orElse_false rfl]
    rfl

theorem statement_rbrace {const : E → Option Int} {n : Nat} {j : Jumps} {r : List (STok E)}
    {st : St E} :
    statement const (n + 1) ⟨j, .rbrace :: r, st⟩ = .ok (false, ⟨j, .rbrace :: r, st⟩) := by
  show orElse _ _ _ = _
  rw [orElse_false rfl, unlabeled_false (.inl rfl)]

theorem items_succ (const : E → Option Int) (rec : PS E → Run (Bool × PS E)) (m : Nat)
    (p : PS E) : items const rec (m + 1) p =
      (orElse (labeled const rec) (orElse declaration rec) p >>= goOn const rec m) := rfl

theorem readsItems_nil (const : E → Option Int) : ReadsItems const (.nil : Items E) := by
  have A : ∀ n m j st rest, (Items.nil : Items E).size ≤ n → (Items.nil : Items E).size ≤ m →
      items const (statement const n) m ⟨j, .rbrace :: rest, st⟩ =
        .ok ⟨j, .rbrace :: rest, st⟩ := by
    intro n m j st rest hn hm
    simp only [Items.size] at hn hm
    obtain ⟨n, rfl⟩ : ∃ k, n = k + 1 := ⟨n - 1, by omega⟩
    obtain ⟨m, rfl⟩ : ∃ k, m = k + 1 := ⟨m - 1, by omega⟩
    rw [items_succ, orElse_false rfl, orElse_false rfl, statement_rbrace]
    rfl
  refine ⟨A, fun _ n m j st rest hn hm => ?_, fun _ n m n' j st rest hn hm _ => ?_⟩
  · simp only [Items.size] at hn hm
    obtain ⟨n, rfl⟩ : ∃ k, n = k + 1 := ⟨n - 1, by omega⟩
    simp only [Items.tokens, List.nil_append, compItems, Run.bind_ok]
    rw [orElse_false rfl, statement_rbrace]
    rfl
  · simp only [Items.tokens, List.nil_append, compItems, Run.bind_ok]
    rw [unlabeled_false (.inl rfl)]
    exact A n m j st rest hn hm

theorem readsItems_decl {const : E → Option Int} {d : E} {r : Items E}
    (h : ReadsItems const r) : ReadsItems const (.decl d r) := by
  have A : ∀ n m j st rest, (Items.decl d r).size ≤ n → (Items.decl d r).size ≤ m →
      items const (statement const n) m ⟨j, .decl d :: (r.tokens ++ .rbrace :: rest), st⟩ =
      (compItems const (.decl d r) j st >>= fun x => .ok ⟨x.1, .rbrace :: rest, x.2⟩) := by
    intro n m j st rest hn hm
    simp only [Items.size] at hn hm
    obtain ⟨m, rfl⟩ : ∃ k, m = k + 1 := ⟨m - 1, by omega⟩
    rw [items_succ, orElse_false rfl]
    simp only [orElse, declaration, Run.bind_ok, if_true, goOn, compItems]
    exact h.loop n m j _ rest (by omega) (by omega)
  refine ⟨A, fun _ n m j st rest hn hm => ?_, fun _ n m n' j st rest hn hm _ => ?_⟩
  · simp only [Items.size] at hn hm
    simp only [Items.tokens, List.cons_append, orElse, declaration, Run.bind_ok, if_true, goOn,
      compItems]
    exact h.loop n m j _ rest (by omega) (by omega)
  · simp only [Items.tokens, List.cons_append]
    rw [unlabeled_false (.inr (.inl ⟨d, rfl⟩))]
    exact A n m j st rest hn hm

theorem notElse_rbrace (r : List (STok E)) : NotElse (.rbrace :: r) := by
  intro x h; simp at h

theorem notElse_items (b : Items E) (r : List (STok E)) :
    NotElse (b.tokens ++ .rbrace :: r) := by
  intro x h
  cases b with
  | nil => simp [Items.tokens] at h
  | decl => simp [Items.tokens] at h
  | cons s r => cases s <;> simp [Items.tokens, Stmt.tokens] at h

theorem goOn_after (const : E → Option Int) (rec : PS E → Run (Bool × PS E)) (m : Nat)
    (x : Run (Jumps × St E)) (ts : List (STok E)) :
    (after x ts >>= goOn const rec m) = (x >>= fun x => items const rec m ⟨x.1, ts, x.2⟩) := by
  simp only [after, bind_assoc, Run.bind_ok, goOn, if_true]

/-- A token of a statement does not begin a declaration. -/
theorem declaration_stmt (s : Stmt E) (j : Jumps) (st : St E) (rest : List (STok E)) :
    declaration ⟨j, s.tokens ++ rest, st⟩ = .ok (false, ⟨j, s.tokens ++ rest, st⟩) := by
  cases s <;> simp [Stmt.tokens, declaration]

theorem labeled_plain (const : E → Option Int) (rec : PS E → Run (Bool × PS E)) {s : Stmt E}
    (hp : plain s = true) (j : Jumps) (st : St E) (rest : List (STok E)) :
    labeled const rec ⟨j, s.tokens ++ rest, st⟩ = .ok (false, ⟨j, s.tokens ++ rest, st⟩) := by
  cases s <;> simp [plain] at hp <;> simp [Stmt.tokens, labeled]

theorem readsItems_plain {const : E → Option Int} {s : Stmt E} {r : Items E}
    (hp : plain s = true) (hs : ReadsPlain const s) (h : ReadsItems const r) :
    ReadsItems const (.cons s r) := by
  have B : ∀ n m j st rest, (Items.cons s r).size ≤ n → s.size + r.size ≤ m →
      (orElse declaration (statement const n) ⟨j, (Items.cons s r).tokens ++ .rbrace :: rest, st⟩
        >>= goOn const (statement const n) m) =
      (compItems const (.cons s r) j st >>= fun x => .ok ⟨x.1, .rbrace :: rest, x.2⟩) := by
    intro n m j st rest hn hm
    simp only [Items.size] at hn hm
    simp only [Items.tokens, List.append_assoc]
    rw [orElse_false (declaration_stmt s j st _),
      Reads.of_plain hp hs n j st _ (by omega) (fun _ => notElse_items r rest), goOn_after]
    simp only [compItems, bind_assoc]
    exact bind_congr fun x => h.loop n m _ _ rest (by omega) (by have := Stmt.size_pos s; omega)
  refine ⟨fun n m j st rest hn hm => ?_,
    fun _ n m j st rest hn hm => B n m j st rest hn (by simp [Items.size] at hm; omega),
    fun _ n m n' j st rest hn hm hn' => ?_⟩
  · simp only [Items.size] at hm
    obtain ⟨m, rfl⟩ : ∃ k, m = k + 1 := ⟨m - 1, by omega⟩
    rw [items_succ]
    rw [orElse_false (by
      simp only [Items.tokens, List.append_assoc]; exact labeled_plain _ _ hp j st _)]
    exact B n m j st rest hn (by omega)
  · simp only [Items.size] at hn hm hn'
    simp only [Items.tokens, List.append_assoc]
    rw [hs n' j st _ (by omega) (fun _ => notElse_items r rest)]
    simp only [after, compItems, bind_assoc, Run.bind_ok]
    exact bind_congr fun x => h.loop n m _ _ rest (by omega) (by omega)

theorem unlabeled_case (const : E → Option Int) (rec : PS E → Run (Bool × PS E)) (n : Nat)
    {s : Stmt E} (hs : plain s = false) (hl : ∀ l t, s ≠ .label l t) (j : Jumps) (st : St E)
    (rest : List (STok E)) :
    unlabeled const rec n ⟨j, s.tokens ++ rest, st⟩ =
      .ok (false, ⟨j, s.tokens ++ rest, st⟩) := by
  cases s with
  | label l t => exact absurd rfl (hl l t)
  | case e t => exact unlabeled_false (.inr (.inr (.inl rfl)))
  | dflt t => exact unlabeled_false (.inr (.inr (.inr rfl)))
  | _ => simp [plain] at hs

theorem readsItems_label {const : E → Option Int} {s : Stmt E} {r : Items E}
    (hp : plain s = false) (hs : ReadsLabel const s) (h : ReadsItems const r) :
    ReadsItems const (.cons s r) := by
  have A : ∀ n m j st rest, (Items.cons s r).size ≤ n → (Items.cons s r).size ≤ m →
      items const (statement const n) m ⟨j, (Items.cons s r).tokens ++ .rbrace :: rest, st⟩ =
      (compItems const (.cons s r) j st >>= fun x => .ok ⟨x.1, .rbrace :: rest, x.2⟩) := by
    intro n m j st rest hn hm
    simp only [Items.size] at hn hm
    obtain ⟨m, rfl⟩ : ∃ k, m = k + 1 := ⟨m - 1, by omega⟩
    rw [items_succ]
    simp only [Items.tokens, List.append_assoc]
    rw [orElse_after (hs n j st _ (by omega) (fun _ => notElse_items r rest)), goOn_after]
    simp only [compItems, bind_assoc]
    exact bind_congr fun x => h.loop n m _ _ rest (by omega) (by have := Stmt.size_pos s; omega)
  refine ⟨A, fun _ n m j st rest hn hm => ?_, fun hl n m n' j st rest hn hm hn' => ?_⟩
  · simp only [Items.size] at hn hm
    simp only [Items.tokens, List.append_assoc]
    rw [orElse_false (declaration_stmt s j st _),
      Reads.of_label hs n j st _ (by omega) (fun _ => notElse_items r rest), goOn_after]
    simp only [compItems, bind_assoc]
    exact bind_congr fun x => h.loop n m _ _ rest (by omega) (by omega)
  · rw [← A n m j st rest hn hm]
    simp only [Items.tokens, List.append_assoc]
    rw [unlabeled_case _ _ _ hp (by rintro l t rfl; simp [Items.startsLabel] at hl)]
    rfl

theorem readsItems_labelDefault {const : E → Option Int} {s : Stmt E} {r : Items E}
    (hp : plain s = false) (hs : ReadsLabelDefault const s) (h : ReadsItems const r)
    (hr : r.startsLabel = false) : ReadsItems const (.cons s r) := by
  have A : ∀ n m j st rest, (Items.cons s r).size ≤ n → (Items.cons s r).size ≤ m →
      items const (statement const n) m ⟨j, (Items.cons s r).tokens ++ .rbrace :: rest, st⟩ =
      (compItems const (.cons s r) j st >>= fun x => .ok ⟨x.1, .rbrace :: rest, x.2⟩) := by
    intro n m j st rest hn hm
    simp only [Items.size] at hn hm
    obtain ⟨m, rfl⟩ : ∃ k, m = k + 1 := ⟨m - 1, by omega⟩
    rw [items_succ]
    simp only [Items.tokens, List.append_assoc]
    obtain ⟨n', h1, h2⟩ := hs n (by omega)
    simp only [orElse, h2 j st _ (fun _ => notElse_items r rest), bind_assoc, Run.bind_ok,
      if_true, goOn, compItems]
    exact bind_congr fun x => h.afterLabels hr n m n' _ _ rest (by omega)
      (by have := Stmt.size_pos s; omega) (by omega)
  refine ⟨A, fun _ n m j st rest hn hm => ?_, fun hl n m n' j st rest hn hm hn' => ?_⟩
  · simp only [Items.size] at hn hm
    simp only [Items.tokens, List.append_assoc]
    obtain ⟨n, rfl⟩ : ∃ k, n = k + 1 := ⟨n - 1, by omega⟩
    rw [orElse_false (declaration_stmt s j st _)]
    show (orElse _ _ _ >>= _) = _
    obtain ⟨n', h1, h2⟩ := hs n (by omega)
    simp only [orElse, h2 j st _ (fun _ => notElse_items r rest), bind_assoc, Run.bind_ok,
      if_true, goOn, compItems]
    exact bind_congr fun x => h.afterLabels hr (n + 1) m n' _ _ rest (by omega)
      (by omega) (by omega)
  · rw [← A n m j st rest hn hm]
    simp only [Items.tokens, List.append_assoc]
    rw [unlabeled_case _ _ _ hp (by rintro l t rfl; simp [Items.startsLabel] at hl)]
    rfl

theorem readsItems_dflt {const : E → Option Int} {s : Stmt E} {r : Items E}
    (hs : Reads const s) (h : ReadsItems const r) (hr : r.startsDefault = false) :
    ReadsItems const (.cons (.dflt s) r) := by
  have A : ∀ n m j st rest, (Items.cons (.dflt s) r).size ≤ n →
      (Items.cons (.dflt s) r).size ≤ m →
      items const (statement const n) m
        ⟨j, (Items.cons (.dflt s) r).tokens ++ .rbrace :: rest, st⟩ =
      (compItems const (.cons (.dflt s) r) j st >>= fun x => .ok ⟨x.1, .rbrace :: rest, x.2⟩) := by
    intro n m j st rest hn hm
    simp only [Items.size, Stmt.size] at hn hm
    obtain ⟨m, rfl⟩ : ∃ k, m = k + 1 := ⟨m - 1, by omega⟩
    rw [items_succ]
    simp only [Items.tokens, List.append_assoc]
    rw [orElse]
    simp only [labeled_default hs n (by omega) j st _ (fun _ => notElse_items r rest), bind_assoc,
      Run.bind_ok, Bool.false_eq_true, if_false, compItems]
    exact bind_congr fun x => h.afterDefault hr n m _ _ rest (by omega) (by omega)
  refine ⟨A, fun hd => by simp [Items.startsDefault] at hd,
    fun hl n m n' j st rest hn hm hn' => ?_⟩
  rw [← A n m j st rest hn hm]
  simp only [Items.tokens, List.append_assoc]
  rw [unlabeled_case _ _ _ rfl (by simp)]
  rfl

theorem reads_block {const : E → Option Int} {b : Items E} (h : ReadsItems const b) :
    ReadsPlain const (.block b) := by
  intro n j st rest hn _
  simp only [Stmt.size] at hn
  refine orElse_after ?_
  simp only [compound, Stmt.tokens, List.cons_append, List.append_assoc, List.nil_append,
    accept_cons, STok.isLbrace, if_true]
  rw [h.loop n n j st rest (by omega) (by omega)]
  simp only [bind_assoc, Run.bind_ok, expect_cons, STok.isRbrace, if_true, comp, after]

/-- What is shown of a statement. -/
structure ReadsAll (const : E → Option Int) (s : Stmt E) : Prop where
  plain : Statement.plain s = true → ReadsPlain const s
  label : Statement.plain s = false → s.isDefault = false → ReadsLabel const s
  labels : Statement.plain s = false → s.isDefault = true → (∀ t, s ≠ .dflt t) → ReadsLabelDefault const s
  dflt : ∀ t, s = .dflt t → Reads const t

theorem ReadsAll.reads {const : E → Option Int} {s : Stmt E} (h : ReadsAll const s)
    (hd : s.isDefault = false) : Reads const s := by
  cases hp : Statement.plain s with
  | true => exact Reads.of_plain hp (h.plain hp)
  | false => exact Reads.of_label (h.label hp hd)

theorem ReadsAll.default {const : E → Option Int} {s : Stmt E} (h : ReadsAll const s)
    (hd : s.isDefault = true) : ReadsDefault const s := by
  by_cases hs : ∃ t, s = .dflt t
  · obtain ⟨t, rfl⟩ := hs
    exact reads_default (h.dflt t rfl)
  · have hp : Statement.plain s = false := by
      cases s <;> simp [Stmt.isDefault] at hd <;> rfl
    exact ReadsDefault.of_label (h.labels hp hd (fun t ht => hs ⟨t, ht⟩))

theorem ReadsAll.of_plain {const : E → Option Int} {s : Stmt E} (hp : Statement.plain s = true)
    (h : ReadsPlain const s) : ReadsAll const s :=
  ⟨fun _ => h, fun h' => by simp [hp] at h', fun h' => by simp [hp] at h',
    fun t ht => by subst ht; simp [Statement.plain] at hp⟩

mutual
theorem reads_all (const : E → Option Int) : (s : Stmt E) → s.Tidy → ReadsAll const s
  | .empty, _ => .of_plain rfl (reads_empty const)
  | .expr e, _ => .of_plain rfl (reads_expr const e)
  | .block b, h => .of_plain rfl (reads_block (reads_items const b h))
  | .ite _ s, h => .of_plain rfl (reads_ite ((reads_all const s h.2).reads h.1))
  | .iteElse _ s t, h => .of_plain rfl (reads_iteElse ((reads_all const s h.2.2.2.1).reads h.1)
      ((reads_all const t h.2.2.2.2).reads h.2.1) h.2.2.1)
  | .while _ s, h => .of_plain rfl (reads_while ((reads_all const s h.2).reads h.1))
  | .doWhile s _, h => .of_plain rfl (reads_do ((reads_all const s h.2).reads h.1))
  | .for _ _ _ s, h => .of_plain rfl (reads_for ((reads_all const s h.2).reads h.1))
  | .switch _ s, h => .of_plain rfl (reads_switch ((reads_all const s h.2).reads h.1))
  | .case _ s, h =>
    have ih := reads_all const s h
    ⟨fun h' => by simp [plain] at h', fun _ hd => reads_case (ih.reads hd),
      fun _ hd _ => reads_case_default (ih.default hd), fun t ht => by simp at ht⟩
  | .label _ s, h =>
    have ih := reads_all const s h
    ⟨fun h' => by simp [plain] at h', fun _ hd => reads_label (ih.reads hd),
      fun _ hd _ => reads_label_default (ih.default hd), fun t ht => by simp at ht⟩
  | .dflt s, h =>
    have ih := reads_all const s h.2
    ⟨fun h' => by simp [plain] at h', fun _ hd => by simp [Stmt.isDefault] at hd,
      fun _ _ h' => absurd rfl (h' s), fun t ht => by
        simp at ht; subst ht; exact ih.reads h.1⟩
  | .goto l, _ => .of_plain rfl (reads_goto const l)
  | .brk, _ => .of_plain rfl (reads_brk const)
  | .cont, _ => .of_plain rfl (reads_cont const)
  | .ret o, _ => .of_plain rfl (reads_ret const o)
theorem reads_items (const : E → Option Int) : (b : Items E) → b.Tidy → ReadsItems const b
  | .nil, _ => readsItems_nil const
  | .decl _ r, h => readsItems_decl (reads_items const r h)
  | .cons s r, h => by
    by_cases hs : ∃ t, s = .dflt t
    · obtain ⟨t, rfl⟩ := hs
      have h' : (Stmt.dflt t).Tidy ∧ r.startsDefault = false ∧ r.Tidy := h
      exact readsItems_dflt ((reads_all const (.dflt t) h'.1).dflt t rfl)
        (reads_items const r h'.2.2) h'.2.1
    · have h' : (s.isDefault = true → r.startsLabel = false) ∧ s.Tidy ∧ r.Tidy := by
        cases s <;> first | exact h | exact absurd ⟨_, rfl⟩ hs
      have ih := reads_all const s h'.2.1
      have ir := reads_items const r h'.2.2
      cases hp : plain s with
      | true => exact readsItems_plain hp (ih.plain hp) ir
      | false =>
        cases hd : s.isDefault with
        | false => exact readsItems_label hp (ih.label hp hd) ir
        | true => exact readsItems_labelDefault hp (ih.labels hp hd (fun t ht => hs ⟨t, ht⟩)) ir (h'.1 hd)
end

/-- The function of the parser on the tokens of a body. -/
theorem function_tokens (const : E → Option Int) (kind : Kind) (body : Items E)
    (ht : body.Tidy) (n : Nat) (hn : body.size ≤ n) (rest : List (STok E)) :
    function const kind n ((Stmt.block body).tokens ++ rest) =
      (compItems const body ⟨none, none, none, none, none⟩ St.initial >>= fun x =>
        .ok (rest, (finish x.2 kind).g)) := by
  have h := (reads_items const body ht).loop n n ⟨none, none, none, none, none⟩ St.initial rest
    hn hn
  simp only [function, compound, Stmt.tokens, List.cons_append, List.append_assoc,
    List.nil_append, accept_cons, STok.isLbrace, if_true, h, bind_assoc, Run.bind_ok,
    expect_cons, STok.isRbrace]

end Verif.Statement
