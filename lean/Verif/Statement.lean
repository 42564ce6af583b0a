import Verif.Run
import Verif.Token
/-!
Model of the statement parser, src/parser/function_parser.c, and of the operations on
control-flow blocks it uses, src/ir/ir.c 143-149 and 262-306.

The parser reads tokens and builds the blocks of the function while it reads.  Simplifications:

* an expression and a declaration are one token each (`STok.expr`, `STok.decl`); the parsing of
  expressions is the subject of C29.  What an expression does is appended, as one action, to
  the block that is current; the blocks an expression makes itself (`&&`, `||`, `?:`) are
  contracted into that action.  `STok.ident` stands for an identifier that is a label name, that
  is, followed by a colon or preceded by `goto`;
* of the graph only the control part is kept: for a region its predecessors (arguments 0 and 1),
  for every block the actions in the order they are made, the IF nodes and the RETURN nodes
  that have the block as argument 0;
* scopes of symbols (C25) and positions of tokens are left out;
* every jump target is made by `new_block` and so is a region: the assertion
  `jump->type == IR_REGION` (ir.c 288) always holds and is left out.
-/
namespace Verif.Statement

/-- Tokens met by the statement parser. -/
inductive STok (E : Type) where
  | ident (l : Str)
  | colon | semi | lpar | rpar | lbrace | rbrace
  | kCase | kDefault | kIf | kElse | kSwitch | kDo | kWhile | kFor
  | kGoto | kContinue | kBreak | kReturn
  /-- a whole expression -/
  | expr (e : E)
  /-- a whole declaration, with its semicolon -/
  | decl (d : E)
  /-- a whole `#pragma` directive -/
  | pragma

/-- The condition of an IF node: the value of an earlier evaluation, or the comparison of one
with the constant of a case label (function_parser.c 97-98). -/
inductive Cond where
  | truth (k : Nat)
  | equal (k : Nat) (v : Int)
  deriving DecidableEq

/-- What a RETURN node returns: nothing, zero (the implicit return of main), or the value
of an evaluation. -/
inductive Ret where
  | nothing
  | zero
  | value (k : Nat)
  deriving DecidableEq

/-- A node that ends a block: IR_IF with its two projections, or IR_RETURN. -/
inductive End where
  | branch (c : Cond) (t f : Nat)
  | ret (r : Ret)
  deriving DecidableEq

/-- The control part of the graph. -/
structure Cfg (E : Type) where
  /-- the number of nodes made so far; the next node gets this number -/
  size : Nat
  /-- arguments 0 and 1 of a region, src/ir/ir.h, `struct node` -/
  preds : Nat → List Nat
  /-- the evaluations made while the block was current, with the node each gave -/
  code : Nat → List (Nat × E)
  /-- the IF and RETURN nodes whose argument 0 is the block -/
  ends : Nat → List End

/-- `struct function_scope_label`, function_parser.c 28-32. -/
structure Label where
  name : Str
  block : Nat
  endBlock : Nat
  used : Bool

/-- `struct jump_blocks`, function_parser.c 17-23; NULL is `none`. -/
structure Jumps where
  brk : Option Nat
  cont : Option Nat
  entry : Option Nat
  dflt : Option Nat
  ctl : Option Nat

/-- The graph, `current_block` (ir.c) and `function_scope` (function_parser.c 25-33). -/
structure St (E : Type) where
  g : Cfg E
  cur : Nat
  labels : List Label

/-- The state of the parser: `*jump_blocks`, the tokens not yet read, and the rest. -/
structure PS (E : Type) where
  j : Jumps
  ts : List (STok E)
  st : St E

variable {E : Type}

/-- ir.c 143-149, `new_block`. -/
def newBlock (st : St E) : Nat × St E :=
  (st.g.size, { st with g := { st.g with size := st.g.size + 1 } })

/-- ir.c 293-301, `ir_connect`. -/
def connect (st : St E) (a b : Nat) : Run (St E) :=
  if (st.g.preds b).length < 2 then
    .ok { st with g := { st.g with preds := set1 st.g.preds b (st.g.preds b ++ [a]) } }
  else .fail
where
  /-- one entry of a table replaced -/
  set1 {α : Type} (f : Nat → α) (n : Nat) (x : α) : Nat → α := fun m => if m = n then x else f m

/-- ir.c 286-291, `ir_goto`; a NULL target is dereferenced at once. -/
def goto (st : St E) : Option Nat → Run (St E)
  | some b => connect st st.cur b
  | none => .ub

/-- ir.c 262-268, `ir_block_start`. -/
def start (st : St E) (b : Nat) : St E := { st with cur := b }

/-- `expression_to_void`, `expression_to_int`, `expression_to_ir`, `expression_evaluate`,
`parse_declaration`: an action in the current block. -/
def evaluate (st : St E) (e : E) : Nat × St E :=
  (st.g.size, { st with g := { st.g with
    size := st.g.size + 1
    code := connect.set1 st.g.code st.cur (st.g.code st.cur ++ [(st.g.size, e)]) } })

/-- ir.c 270-284, `ir_if_selection`: the projection for false is made first. -/
def select (st : St E) (c : Cond) : Nat × Nat × St E :=
  let f := st.g.size + 1
  let t := st.g.size + 2
  (t, f, { st with g := { st.g with
    size := st.g.size + 3
    ends := connect.set1 st.g.ends st.cur (st.g.ends st.cur ++ [.branch c t f]) } })

/-- ir.c 303-306, `ir_return`. -/
def ret (st : St E) (r : Ret) : St E :=
  { st with g := { st.g with
    size := st.g.size + 1
    ends := connect.set1 st.g.ends st.cur (st.g.ends st.cur ++ [.ret r]) } }

/-- `TACCEPT`, src/preprocessor/preprocessor.h: read the token if it is of the kind given. -/
def accept (is : STok E → Bool) (p : PS E) : Option (PS E) :=
  match p.ts with
  | t :: r => if is t then some { p with ts := r } else none
  | [] => none

/-- `TEXPECT`: as `TACCEPT`, but any other token is an error. -/
def expect (is : STok E → Bool) (p : PS E) : Run (PS E) :=
  match accept is p with
  | some q => .ok q
  | none => .fail

/-- Kinds of tokens. -/
def STok.isColon : STok E → Bool | .colon => true | _ => false
/-- See `STok.isColon`. -/
def STok.isSemi : STok E → Bool | .semi => true | _ => false
/-- See `STok.isColon`. -/
def STok.isLpar : STok E → Bool | .lpar => true | _ => false
/-- See `STok.isColon`. -/
def STok.isRpar : STok E → Bool | .rpar => true | _ => false
/-- See `STok.isColon`. -/
def STok.isLbrace : STok E → Bool | .lbrace => true | _ => false
/-- See `STok.isColon`. -/
def STok.isRbrace : STok E → Bool | .rbrace => true | _ => false
/-- See `STok.isColon`. -/
def STok.isElse : STok E → Bool | .kElse => true | _ => false
/-- See `STok.isColon`. -/
def STok.isWhile : STok E → Bool | .kWhile => true | _ => false

/-- `parse_expression` as the statement parser sees it: NULL when no expression begins here.
At a label name it reports an error: either the name is not a variable, or the colon is met
where the expression statement needs its semicolon. -/
def expression (p : PS E) : Run (Option E × PS E) :=
  match p.ts with
  | .expr e :: r => .ok (some e, { p with ts := r })
  | .ident _ :: _ => .fail
  | _ => .ok (none, p)

/-- `parse_expression` where NULL is an error. -/
def needExpression (p : PS E) : Run (E × PS E) := do
  let r ← expression p
  match r.1 with
  | some e => .ok (e, r.2)
  | none => .fail

/-- A state of the parser with another graph. -/
def PS.with (p : PS E) (st : St E) : PS E := { p with st := st }

/-- The first label of the name, function_parser.c 58-67 and 423-424. -/
def findLabel (l : Str) : List Label → Option Label
  | [] => none
  | a :: r => if a.name = l then some a else findLabel l r

/-- Replace the first label of the name. -/
def setLabel (l : Str) (f : Label → Label) : List Label → List Label
  | [] => []
  | a :: r => if a.name = l then f a :: r else a :: setLabel l f r

/-- function_parser.c 56-75: where a label is, and the control flow into it. -/
def placeLabel (st : St E) (l : Str) : Run (St E) :=
  match findLabel l st.labels with
  | some a =>
    if a.used then .fail
    else do
      let st := { st with labels := setLabel l (fun a => { a with used := true }) st.labels }
      let st ← goto st (some a.endBlock)
      .ok (start st a.endBlock)
  | none => do
    let (b, st) := newBlock st
    let st := { st with labels := st.labels ++ [⟨l, b, b, true⟩] }
    let st ← goto st (some b)
    .ok (start st b)

/-- function_parser.c 92-108: a case label. -/
def placeCase (st : St E) (j : Jumps) (ctl : Nat) (v : Int) : Run (Jumps × St E) := do
  let (blockCase, st) := newBlock st
  let (newEntry, st) := newBlock st
  let st ← goto st (some blockCase)
  match j.entry with
  | none => .ub
  | some entry => do
    let st := start st entry
    let (t, f, st) := select st (.equal ctl v)
    let st ← connect st t blockCase
    let st ← connect st f newEntry
    .ok ({ j with entry := some newEntry }, start st blockCase)

/-- function_parser.c 114-119: a default label. -/
def placeDefault (st : St E) (j : Jumps) : Run (Jumps × St E) := do
  let (b, st) := newBlock st
  let st ← goto st (some b)
  let st := start st b
  match j.entry with
  | none => .fail
  | some _ => .ok ({ j with dflt := some b }, st)

/-- function_parser.c 49-124, `parse_labeled_statement`.  `rec` is `parse_statement`, and
`const` the value of a constant expression converted to int (`expression_to_constant`).
After a default label and its statement the function returns 0 (line 123). -/
def labeled (const : E → Option Int) (rec : PS E → Run (Bool × PS E)) (p : PS E) :
    Run (Bool × PS E) :=
  match p.ts with
  | .ident l :: .colon :: r => do
    let st ← placeLabel p.st l
    let q ← rec { p with ts := r, st := st }
    .ok (true, q.2)
  | .kCase :: r => do
    let (e, p) ← needExpression { p with ts := r }
    let p ← expect STok.isColon p
    match const e with
    | none => .fail
    | some v =>
      match p.j.ctl with
      | none => .fail
      | some ctl => do
        let (j, st) ← placeCase p.st p.j ctl v
        let q ← rec { p with j := j, st := st }
        .ok (true, q.2)
  | .kDefault :: r => do
    let p ← expect STok.isColon { p with ts := r }
    let (j, st) ← placeDefault p.st p.j
    let q ← rec { p with j := j, st := st }
    .ok (false, q.2)
  | _ => .ok (false, p)

/-- `a || b` for two parsing functions. -/
def orElse (a b : PS E → Run (Bool × PS E)) (p : PS E) : Run (Bool × PS E) := do
  let r ← a p
  if r.1 then .ok (true, r.2) else b r.2

/-- `parse_declaration(0)` as the statement parser sees it. -/
def declaration (p : PS E) : Run (Bool × PS E) :=
  match p.ts with
  | .decl d :: r => .ok (true, { p with ts := r, st := (evaluate p.st d).2 })
  | _ => .ok (false, p)

/-- The loop of `parse_compound_statement`, function_parser.c 131-132. -/
def items (const : E → Option Int) (rec : PS E → Run (Bool × PS E)) :
    Nat → PS E → Run (PS E)
  | 0, _ => .more
  | n + 1, p => do
    let r ← orElse (labeled const rec) (orElse declaration rec) p
    if r.1 then items const rec n r.2 else .ok r.2

/-- function_parser.c 126-137, `parse_compound_statement`. -/
def compound (const : E → Option Int) (rec : PS E → Run (Bool × PS E)) (n : Nat) (p : PS E) :
    Run (Bool × PS E) :=
  match accept STok.isLbrace p with
  | none => .ok (false, p)
  | some p => do
    let p ← items const rec n p
    let p ← expect STok.isRbrace p
    .ok (true, p)

/-- function_parser.c 139-146, `parse_expression_statement`. -/
def expressionStatement (p : PS E) : Run (Bool × PS E) := do
  let (o, p) ← expression p
  match o with
  | none => .ok (false, p)
  | some e => do
    let p ← expect STok.isSemi p
    .ok (true, p.with (evaluate p.st e).2)

/-- function_parser.c 179-186: the end of a switch statement. -/
def endSwitch (st : St E) (j : Jumps) (blockEnd : Nat) : Run (St E) := do
  let st ← match j.entry, (match j.dflt with | some d => some d | none => j.brk) with
    | some entry, some b => connect st entry b
    | _, _ => .ub
  let st ← goto st (some blockEnd)
  .ok (start st blockEnd)

/-- function_parser.c 148-189, `parse_switch`. -/
def switchStatement (rec : PS E → Run (Bool × PS E)) (p : PS E) : Run (Bool × PS E) :=
  match p.ts with
  | .kSwitch :: r => do
    let p ← expect STok.isLpar { p with ts := r }
    let (e, p) ← needExpression p
    let (ctl, st) := evaluate p.st e
    let p ← expect STok.isRpar (p.with st)
    let (blockBody, st) := newBlock p.st
    let (blockEntry, st) := newBlock st
    let (blockEnd, st) := newBlock st
    let st ← goto st (some blockEntry)
    let st := start st blockBody
    let j' := { p.j with entry := some blockEntry, brk := some blockEnd, ctl := some ctl,
                         dflt := none }
    let q ← rec { p with j := j', st := st }
    let st ← endSwitch q.2.st q.2.j blockEnd
    .ok (true, { j := p.j, ts := q.2.ts, st := st })
  | _ => .ok (false, p)

/-- function_parser.c 192-226: the if statement. -/
def ifStatement (rec : PS E → Run (Bool × PS E)) (p : PS E) : Run (Bool × PS E) :=
  match p.ts with
  | .kIf :: r => do
    let p ← expect STok.isLpar { p with ts := r }
    let (e, p) ← needExpression p
    let (k, st) := evaluate p.st e
    let p ← expect STok.isRpar (p.with st)
    let (t, f, st) := select p.st (.truth k)
    let q ← rec (p.with (start st t))
    let p := q.2
    match accept STok.isElse p with
    | some p => do
      let (blockEnd, st) := newBlock p.st
      let st ← goto st (some blockEnd)
      let q ← rec (p.with (start st f))
      let p := q.2
      let st ← goto p.st (some blockEnd)
      .ok (true, p.with (start st blockEnd))
    | none => do
      let (blockEnd, st) := newBlock p.st
      let st ← goto st (some blockEnd)
      let st := start st f
      let st ← goto st (some blockEnd)
      .ok (true, p.with (start st blockEnd))
  | _ => .ok (false, p)

/-- function_parser.c 191-232, `parse_selection_statement`. -/
def selection (rec : PS E → Run (Bool × PS E)) : PS E → Run (Bool × PS E) :=
  orElse (ifStatement rec) (switchStatement rec)

/-- function_parser.c 264-269 and 306-310: leave or stay in a loop. -/
def loopTest (st : St E) (k body end' : Nat) : Run (St E) := do
  let (t, f, st) := select st (.truth k)
  let st ← connect st t body
  connect st f end'

/-- function_parser.c 234-274, `parse_do_while_statement`. -/
def doWhileStatement (rec : PS E → Run (Bool × PS E)) (p : PS E) : Run (Bool × PS E) :=
  match p.ts with
  | .kDo :: r => do
    let (blockBody, st) := newBlock p.st
    let (blockControl, st) := newBlock st
    let (blockEnd, st) := newBlock st
    let st ← goto st (some blockBody)
    let st := start st blockBody
    let j' := { p.j with brk := some blockEnd, cont := some blockControl }
    let q ← rec { j := j', ts := r, st := st }
    let st ← goto q.2.st (some blockControl)
    let p := { j := p.j, ts := q.2.ts, st := start st blockControl }
    let p ← expect STok.isWhile p
    let p ← expect STok.isLpar p
    let (e, p) ← needExpression p
    let (k, st) := evaluate p.st e
    let p ← expect STok.isRpar (p.with st)
    let st ← loopTest p.st k blockBody blockEnd
    let p ← expect STok.isSemi (p.with (start st blockEnd))
    .ok (true, p)
  | _ => .ok (false, p)

/-- function_parser.c 276-324, `parse_while_statement`.  The jump back is to
`new_jump_blocks.block_continue`, the block the last `continue` left there. -/
def whileStatement (rec : PS E → Run (Bool × PS E)) (p : PS E) : Run (Bool × PS E) :=
  match p.ts with
  | .kWhile :: r => do
    let p ← expect STok.isLpar { p with ts := r }
    let (blockBody, st) := newBlock p.st
    let (blockControl, st) := newBlock st
    let (blockEnd, st) := newBlock st
    let st ← goto st (some blockControl)
    let (e, p) ← needExpression (p.with (start st blockControl))
    let p ← expect STok.isRpar p
    let (k, st) := evaluate p.st e
    let st ← loopTest st k blockBody blockEnd
    let j' := { p.j with brk := some blockEnd, cont := some blockControl }
    let q ← rec { p with j := j', st := start st blockBody }
    let st ← goto q.2.st q.2.j.cont
    .ok (true, { j := p.j, ts := q.2.ts, st := start st blockEnd })
  | _ => .ok (false, p)

/-- function_parser.c 361-364: the first part of a for statement. -/
def forInit (p : PS E) : Run (PS E) :=
  match accept STok.isSemi p with
  | some p => .ok p
  | none => do
    let r ← orElse declaration expressionStatement p
    if r.1 then .ok r.2 else .fail

/-- function_parser.c 369-379: the second part of a for statement. -/
def forTest (p : PS E) (body end' : Nat) : Run (PS E) := do
  let (o, p) ← expression p
  match o with
  | some e => do
    let (k, st) := evaluate p.st e
    let st ← loopTest st k body end'
    .ok (p.with st)
  | none => do
    let st ← goto p.st (some body)
    .ok (p.with st)

/-- function_parser.c 385-387: the third part of a for statement. -/
def forAdvance (p : PS E) : Run (PS E) := do
  let (o, p) ← expression p
  match o with
  | some e => .ok (p.with (evaluate p.st e).2)
  | none => .ok p

/-- function_parser.c 326-404, `parse_for_statement`. -/
def forStatement (rec : PS E → Run (Bool × PS E)) (p : PS E) : Run (Bool × PS E) :=
  match p.ts with
  | .kFor :: r => do
    let p ← expect STok.isLpar { p with ts := r }
    let (blockInit, st) := newBlock p.st
    let (blockControl, st) := newBlock st
    let (blockAdvance, st) := newBlock st
    let (blockBody, st) := newBlock st
    let (blockEnd, st) := newBlock st
    let st ← goto st (some blockInit)
    let p ← forInit (p.with (start st blockInit))
    let st ← goto p.st (some blockControl)
    let p ← forTest (p.with (start st blockControl)) blockBody blockEnd
    let p ← expect STok.isSemi p
    let p ← forAdvance (p.with (start p.st blockAdvance))
    let st ← goto p.st (some blockControl)
    let p ← expect STok.isRpar (p.with (start st blockBody))
    let j' := { p.j with brk := some blockEnd, cont := some blockAdvance }
    let q ← rec { p with j := j' }
    let st ← goto q.2.st (some blockAdvance)
    .ok (true, { j := p.j, ts := q.2.ts, st := start st blockEnd })
  | _ => .ok (false, p)

/-- function_parser.c 406-414, `parse_iteration_statement`. -/
def iteration (rec : PS E → Run (Bool × PS E)) : PS E → Run (Bool × PS E) :=
  orElse (forStatement rec) (orElse (doWhileStatement rec) (whileStatement rec))

/-- function_parser.c 427-431, 446-450 and 455-459: a jump through a block of its own, so that
no block gets more than two predecessors.  Gives the block of its own. -/
def jumpStep (st : St E) (target : Option Nat) : Run (Nat × St E) := do
  let (step, st) := newBlock st
  let st ← goto st (some step)
  let st ← goto (start st step) target
  let (dead, st) := newBlock st
  .ok (step, start st dead)

/-- function_parser.c 423-444: goto. -/
def gotoLabel (st : St E) (l : Str) : Run (St E) :=
  match findLabel l st.labels with
  | some a => do
    let (step, st) ← jumpStep st (some a.block)
    .ok { st with labels := setLabel l (fun a => { a with block := step }) st.labels }
  | none => do
    let (endBlock, st) := newBlock st
    let (step, st) := newBlock st
    let st := { st with labels := st.labels ++ [⟨l, step, endBlock, false⟩] }
    let st ← goto st (some step)
    let st ← goto (start st step) (some endBlock)
    let (dead, st) := newBlock st
    .ok (start st dead)

/-- function_parser.c 467-475: return. -/
def returnValue (st : St E) (o : Option E) : St E :=
  match o with
  | some e =>
    let (k, st) := evaluate st e
    let (dead, st) := newBlock (ret st (.value k))
    start st dead
  | none =>
    let (dead, st) := newBlock (ret st .nothing)
    start st dead

/-- function_parser.c 418-480, `parse_jump_statement`. -/
def jump (p : PS E) : Run (Bool × PS E) :=
  match p.ts with
  | .kGoto :: .ident l :: r => do
    let p ← expect STok.isSemi { p with ts := r }
    let st ← gotoLabel p.st l
    .ok (true, p.with st)
  | .kGoto :: _ => .fail
  | .kContinue :: r => do
    let (step, st) ← jumpStep p.st p.j.cont
    let p ← expect STok.isSemi { j := { p.j with cont := some step }, ts := r, st := st }
    .ok (true, p)
  | .kBreak :: r => do
    let (step, st) ← jumpStep p.st p.j.brk
    let p ← expect STok.isSemi { j := { p.j with brk := some step }, ts := r, st := st }
    .ok (true, p)
  | .kReturn :: r => do
    let (o, p) ← expression { p with ts := r }
    let p ← expect STok.isSemi p
    .ok (true, p.with (returnValue p.st o))
  | _ => .ok (false, p)

/-- The two last alternatives of `parse_statement`, function_parser.c 489-490. -/
def trailing (p : PS E) : Run (Bool × PS E) :=
  match p.ts with
  | .pragma :: r => .ok (true, { p with ts := r })
  | .semi :: r => .ok (true, { p with ts := r })
  | _ => .ok (false, p)

/-- function_parser.c 484-490: the alternatives of `parse_statement` after the first. -/
def unlabeled (const : E → Option Int) (rec : PS E → Run (Bool × PS E)) (n : Nat) :
    PS E → Run (Bool × PS E) :=
  orElse (compound const rec n) (orElse expressionStatement (orElse (selection rec)
    (orElse (iteration rec) (orElse jump trailing))))

/-- function_parser.c 482-491, `parse_statement`. -/
def statement (const : E → Option Int) : Nat → PS E → Run (Bool × PS E)
  | 0, _ => .more
  | n + 1, p =>
    orElse (labeled const (statement const n)) (unlabeled const (statement const n) n) p

/-- What kind of function is compiled, function_parser.c 525 and 533. -/
inductive Kind where
  | main
  /-- not main, returns void -/
  | void
  /-- not main, returns a value -/
  | value
  deriving DecidableEq

/-- function_parser.c 525-537: the end of the function. -/
def finish (st : St E) : Kind → St E
  | .main => ret st .zero
  | .void => ret st .nothing
  | .value => st

/-- The graph of a function before its body: the entry block (the projection `abi_expr_function`
starts) and nothing else. -/
def St.initial : St E :=
  { g := { size := 1, preds := fun _ => [], code := fun _ => [], ends := fun _ => [] },
    cur := 0, labels := [] }

/-- function_parser.c 499-540, `parse_function`, for the body of the function. -/
def function (const : E → Option Int) (kind : Kind) (n : Nat) (ts : List (STok E)) :
    Run (List (STok E) × Cfg E) := do
  let r ← compound const (statement const n) n
    { j := ⟨none, none, none, none, none⟩, ts := ts, st := St.initial }
  .ok (r.2.ts, (finish r.2.st kind).g)

end Verif.Statement
