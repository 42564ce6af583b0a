import Verif.Statement
/-!
Specification for the statement parser: the statements of C17 6.8 as trees, the tokens they
are written with, what executing them means, and what executing a graph of blocks means.

The meaning of a tree is given by small steps with a continuation, the rest of the execution of
the function.  A label, a case or a default is found by searching the body for it, with the
continuation of the place where it is.
-/
namespace Verif.StatementSpec
open Verif.Statement (STok Kind Cfg Cond Ret End)

/-- The first part of a for statement. -/
inductive Init (E : Type) where
  | none
  | decl (d : E)
  | expr (e : E)

mutual
/-- Statements, C17 6.8. -/
inductive Stmt (E : Type) where
  | empty
  | expr (e : E)
  | block (b : Items E)
  | ite (e : E) (s : Stmt E)
  | iteElse (e : E) (s t : Stmt E)
  | while (e : E) (s : Stmt E)
  | doWhile (s : Stmt E) (e : E)
  | for (i : Init E) (c a : Option E) (s : Stmt E)
  | switch (e : E) (s : Stmt E)
  | case (e : E) (s : Stmt E)
  | dflt (s : Stmt E)
  | label (l : Str) (s : Stmt E)
  | goto (l : Str)
  | brk
  | cont
  | ret (o : Option E)
/-- Block items, C17 6.8.2. -/
inductive Items (E : Type) where
  | nil
  | decl (d : E) (r : Items E)
  | cons (s : Stmt E) (r : Items E)
end

variable {E S V : Type}

/-- The tokens of an optional expression. -/
def optTokens : Option E → List (STok E)
  | none => []
  | some e => [.expr e]

/-- The tokens of the first part of a for statement. -/
def Init.tokens : Init E → List (STok E)
  | .none => [.semi]
  | .decl d => [.decl d]
  | .expr e => [.expr e, .semi]

mutual
/-- The tokens of a statement. -/
def Stmt.tokens : Stmt E → List (STok E)
  | .empty => [.semi]
  | .expr e => [.expr e, .semi]
  | .block b => .lbrace :: (b.tokens ++ [.rbrace])
  | .ite e s => [.kIf, .lpar, .expr e, .rpar] ++ s.tokens
  | .iteElse e s t => [.kIf, .lpar, .expr e, .rpar] ++ s.tokens ++ [.kElse] ++ t.tokens
  | .while e s => [.kWhile, .lpar, .expr e, .rpar] ++ s.tokens
  | .doWhile s e => .kDo :: (s.tokens ++ [.kWhile, .lpar, .expr e, .rpar, .semi])
  | .for i c a s => [.kFor, .lpar] ++ i.tokens ++ optTokens c ++ [.semi] ++ optTokens a ++
      [.rpar] ++ s.tokens
  | .switch e s => [.kSwitch, .lpar, .expr e, .rpar] ++ s.tokens
  | .case e s => [.kCase, .expr e, .colon] ++ s.tokens
  | .dflt s => [.kDefault, .colon] ++ s.tokens
  | .label l s => [.ident l, .colon] ++ s.tokens
  | .goto l => [.kGoto, .ident l, .semi]
  | .brk => [.kBreak, .semi]
  | .cont => [.kContinue, .semi]
  | .ret o => .kReturn :: (optTokens o ++ [.semi])
/-- The tokens of block items. -/
def Items.tokens : Items E → List (STok E)
  | .nil => []
  | .decl d r => .decl d :: r.tokens
  | .cons s r => s.tokens ++ r.tokens
end

mutual
/-- The number of nodes of the tree. -/
def Stmt.size : Stmt E → Nat
  | .block b => b.size + 1
  | .ite _ s | .while _ s | .doWhile s _ | .for _ _ _ s | .switch _ s => s.size + 1
  | .case _ s | .dflt s | .label _ s => s.size + 1
  | .iteElse _ s t => s.size + t.size + 1
  | _ => 1
/-- The number of nodes of the tree. -/
def Items.size : Items E → Nat
  | .nil => 1
  | .decl _ r => r.size + 1
  | .cons s r => s.size + r.size + 1
end

/-! ### What executing a statement means -/

/-- What expressions do: `ev` gives the state after the evaluation and the value, or nothing
when the evaluation does not come to an end (or has undefined behaviour); `truth` compares a
value with zero; `int` is the value of the controlling expression of a switch, and `const`
the value of a constant expression. -/
structure Sem (E S V : Type) where
  ev : E → S → Option (S × V)
  truth : V → Bool
  int : V → Int
  const : E → Option Int

/-- What the function returns; `unspecified` when a function that returns a value reaches the
closing brace (C17 6.9.1p12: the caller may not use the value, but the call itself is valid). -/
inductive Result (V : Type) where
  | nothing
  | zero
  | value (v : V)
  | unspecified

/-- The rest of an execution. -/
inductive Kont (E : Type) where
  | stop
  /-- the items, then the rest -/
  | seq (b : Items E) (k : Kont E)
  /-- after the body of a while statement: the test, and so on -/
  | whileK (e : E) (s : Stmt E) (k : Kont E)
  /-- after the body of a do statement: the test, and so on -/
  | doK (s : Stmt E) (e : E) (k : Kont E)
  /-- before the test of a for statement -/
  | forK (c a : Option E) (s : Stmt E) (k : Kont E)
  /-- after the body of a for statement -/
  | advK (c a : Option E) (s : Stmt E) (k : Kont E)
  /-- after the body of a switch statement -/
  | switchK (k : Kont E)

/-- What `break` continues with (C17 6.8.6.3). -/
def Kont.break : Kont E → Option (Kont E)
  | .stop => none
  | .seq _ k | .forK _ _ _ k => k.break
  | .whileK _ _ k | .doK _ _ k | .advK _ _ _ k | .switchK k => some k

/-- What `continue` continues with (C17 6.8.6.2). -/
def Kont.continue : Kont E → Option (Kont E)
  | .stop => none
  | .seq _ k | .forK _ _ _ k | .switchK k => k.continue
  | .whileK e s k => some (.whileK e s k)
  | .doK s e k => some (.doK s e k)
  | .advK c a s k => some (.advK c a s k)

/-- What a jump looks for. -/
inductive Target where
  | label (l : Str)
  | case (v : Int)
  | dflt
  deriving DecidableEq

/-- Whether the target is looked for inside a switch statement: a case label or default belongs
to the smallest switch around it (C17 6.8.4.2p3). -/
def Target.entersSwitch : Target → Bool
  | .label _ => true
  | _ => false

/-- The first of two searches that finds something. -/
def first {α : Type} : Option α → Option α → Option α
  | some a, _ => some a
  | none, b => b

mutual
/-- The labelled statement, with the rest of the execution after it. -/
def Stmt.find (const : E → Option Int) (t : Target) : Stmt E → Kont E → Option (Stmt E × Kont E)
  | .block b, k => b.find const t k
  | .ite _ s, k => s.find const t k
  | .iteElse _ s u, k => first (s.find const t k) (u.find const t k)
  | .while e s, k => s.find const t (.whileK e s k)
  | .doWhile s e, k => s.find const t (.doK s e k)
  | .for _ c a s, k => s.find const t (.advK c a s k)
  | .switch _ s, k => if t.entersSwitch then s.find const t (.switchK k) else none
  | .case e s, k =>
      if (const e).map Target.case = some t then some (s, k) else s.find const t k
  | .dflt s, k => if t = .dflt then some (s, k) else s.find const t k
  | .label l s, k => if t = .label l then some (s, k) else s.find const t k
  | _, _ => none
/-- As `Stmt.find`, in block items. -/
def Items.find (const : E → Option Int) (t : Target) : Items E → Kont E → Option (Stmt E × Kont E)
  | .nil, _ => none
  | .decl _ r, k => r.find const t k
  | .cons s r, k => first (s.find const t (.seq r k)) (r.find const t k)
end

/-- A state of the execution of a function. -/
inductive CState (E S V : Type) where
  /-- the statement is next -/
  | stmt (s : Stmt E) (k : Kont E) (σ : S)
  /-- the rest is next -/
  | next (k : Kont E) (σ : S)
  /-- the function has returned -/
  | done (r : Result V) (σ : S)

/-- Where the test of a loop leads. -/
def branch (M : Sem E S V) (e : E) (σ : S) (yes no : S → CState E S V) :
    Option (CState E S V) :=
  (M.ev e σ).map fun (σ', v) => if M.truth v then yes σ' else no σ'

/-- Where a switch leads: to the case with the value, else to default, else past it. -/
def dispatch (M : Sem E S V) (s : Stmt E) (k : Kont E) (v : Int) (σ : S) : CState E S V :=
  match s.find M.const (.case v) (.switchK k) with
  | some (s', k') => .stmt s' k' σ
  | none =>
    match s.find M.const .dflt (.switchK k) with
    | some (s', k') => .stmt s' k' σ
    | none => .next k σ

/-- What a function that reaches its closing brace returns (C17 5.1.2.2.3 for main,
6.9.1p12 otherwise). -/
def atEnd : Kind → Result V
  | .main => .zero
  | .void => .nothing
  | .value => .unspecified

/-- One step of the execution of a function with the body given; nothing when an expression
does not come to an end, or there is nothing to break from, to continue or to go to. -/
def cstep (M : Sem E S V) (kind : Kind) (body : Items E) : CState E S V → Option (CState E S V)
  | .stmt .empty k σ => some (.next k σ)
  | .stmt (.expr e) k σ => (M.ev e σ).map fun r => .next k r.1
  | .stmt (.block b) k σ => some (.next (.seq b k) σ)
  | .stmt (.ite e s) k σ => branch M e σ (.stmt s k) (.next k)
  | .stmt (.iteElse e s t) k σ => branch M e σ (.stmt s k) (.stmt t k)
  | .stmt (.while e s) k σ => branch M e σ (.stmt s (.whileK e s k)) (.next k)
  | .stmt (.doWhile s e) k σ => some (.stmt s (.doK s e k) σ)
  | .stmt (.for .none c a s) k σ => some (.next (.forK c a s k) σ)
  | .stmt (.for (.decl d) c a s) k σ => (M.ev d σ).map fun r => .next (.forK c a s k) r.1
  | .stmt (.for (.expr e) c a s) k σ => (M.ev e σ).map fun r => .next (.forK c a s k) r.1
  | .stmt (.switch e s) k σ => (M.ev e σ).map fun r => dispatch M s k (M.int r.2) r.1
  | .stmt (.case _ s) k σ => some (.stmt s k σ)
  | .stmt (.dflt s) k σ => some (.stmt s k σ)
  | .stmt (.label _ s) k σ => some (.stmt s k σ)
  | .stmt (.goto l) _ σ => (body.find M.const (.label l) .stop).map fun r => .stmt r.1 r.2 σ
  | .stmt .brk k σ => k.break.map fun k' => .next k' σ
  | .stmt .cont k σ => k.continue.map fun k' => .next k' σ
  | .stmt (.ret none) _ σ => some (.done .nothing σ)
  | .stmt (.ret (some e)) _ σ => (M.ev e σ).map fun r => .done (.value r.2) r.1
  | .next .stop σ => some (.done (atEnd kind) σ)
  | .next (.seq .nil k) σ => some (.next k σ)
  | .next (.seq (.decl d r) k) σ => (M.ev d σ).map fun x => .next (.seq r k) x.1
  | .next (.seq (.cons s r) k) σ => some (.stmt s (.seq r k) σ)
  | .next (.whileK e s k) σ => branch M e σ (.stmt s (.whileK e s k)) (.next k)
  | .next (.doK s e k) σ => branch M e σ (.stmt s (.doK s e k)) (.next k)
  | .next (.forK none a s k) σ => some (.stmt s (.advK none a s k) σ)
  | .next (.forK (some e) a s k) σ => branch M e σ (.stmt s (.advK (some e) a s k)) (.next k)
  | .next (.advK c none s k) σ => some (.next (.forK c none s k) σ)
  | .next (.advK c (some e) s k) σ => (M.ev e σ).map fun r => .next (.forK c (some e) s k) r.1
  | .next (.switchK k) σ => some (.next k σ)
  | .done _ _ => none

/-- One state reaches another. -/
inductive CSteps (M : Sem E S V) (kind : Kind) (body : Items E) :
    CState E S V → CState E S V → Prop
  | refl (c) : CSteps M kind body c c
  | step {c d e} : cstep M kind body c = some d → CSteps M kind body d e → CSteps M kind body c e

/-- The function with the body, called in state `σ`, returns `r` in state `σ'`. -/
def Returns (M : Sem E S V) (kind : Kind) (body : Items E) (σ : S) (r : Result V) (σ' : S) :
    Prop :=
  CSteps M kind body (.next (.seq body .stop) σ) (.done r σ')

/-- The expression (or declaration) a state is about to evaluate, and the state it does it
in. -/
def CState.asks : CState E S V → Option (E × S)
  | .stmt (.expr e) _ σ | .stmt (.ite e _) _ σ | .stmt (.iteElse e _ _) _ σ => some (e, σ)
  | .stmt (.while e _) _ σ | .stmt (.switch e _) _ σ => some (e, σ)
  | .stmt (.for (.decl e) _ _ _) _ σ | .stmt (.for (.expr e) _ _ _) _ σ => some (e, σ)
  | .stmt (.ret (some e)) _ σ => some (e, σ)
  | .next (.seq (.decl e _) _) σ | .next (.whileK e _ _) σ | .next (.doK _ e _) σ => some (e, σ)
  | .next (.forK (some e) _ _ _) σ | .next (.advK _ (some e) _ _) σ => some (e, σ)
  | _ => none

/-- The function with the body, called in state `σ`, comes to evaluate `e` in state `σ'`. -/
def Evaluates (M : Sem E S V) (kind : Kind) (body : Items E) (σ : S) (e : E) (σ' : S) : Prop :=
  ∃ c, CSteps M kind body (.next (.seq body .stop) σ) c ∧ c.asks = some (e, σ')

/-! ### What executing a graph of blocks means -/

/-- A state of the execution of a graph: the actions of the block still to come, the state,
and the values of the evaluations made so far; or the result. -/
inductive Conf (E S V : Type) where
  | at (b : Nat) (rest : List (Nat × E)) (σ : S) (vals : Nat → Option V)
  | done (r : Result V) (σ : S)

/-- The condition of an IF node. -/
def Holds (M : Sem E S V) (vals : Nat → Option V) : Cond → Bool → Prop
  | .truth k, b => ∃ v, vals k = some v ∧ M.truth v = b
  | .equal k c, b => ∃ v, vals k = some v ∧ decide (M.int v = c) = b

/-- What a RETURN node returns. -/
def Gives (vals : Nat → Option V) : Ret → Result V → Prop
  | .nothing, r => r = .nothing
  | .zero, r => r = .zero
  | .value k, r => ∃ v, vals k = some v ∧ r = .value v

/-- The values after an evaluation. -/
def record (vals : Nat → Option V) (k : Nat) (v : V) : Nat → Option V :=
  fun m => if m = k then some v else vals m

/-- One step of the execution of a graph.  A block that is a predecessor of a region goes on
there; nothing makes the choice if there are several ways to go on. -/
inductive Step (M : Sem E S V) (G : Cfg E) : Conf E S V → Conf E S V → Prop
  | eval {b k e rest σ vals σ' v} : M.ev e σ = some (σ', v) →
      Step M G (.at b ((k, e) :: rest) σ vals) (.at b rest σ' (record vals k v))
  | yes {b c t f σ vals} : End.branch c t f ∈ G.ends b → Holds M vals c true →
      Step M G (.at b [] σ vals) (.at t (G.code t) σ vals)
  | no {b c t f σ vals} : End.branch c t f ∈ G.ends b → Holds M vals c false →
      Step M G (.at b [] σ vals) (.at f (G.code f) σ vals)
  | jump {b r σ vals} : b ∈ G.preds r → Step M G (.at b [] σ vals) (.at r (G.code r) σ vals)
  | ret {b x r σ vals} : End.ret x ∈ G.ends b → Gives vals x r →
      Step M G (.at b [] σ vals) (.done r σ)

/-- One state of a graph reaches another. -/
inductive Steps (M : Sem E S V) (G : Cfg E) : Conf E S V → Conf E S V → Prop
  | refl (c) : Steps M G c c
  | step {c d e} : Step M G c d → Steps M G d e → Steps M G c e

/-- The graph, entered at block 0 in state `σ`, returns `r` in state `σ'`. -/
def GraphReturns (M : Sem E S V) (G : Cfg E) (σ : S) (r : Result V) (σ' : S) : Prop :=
  Steps M G (.at 0 (G.code 0) σ (fun _ => none)) (.done r σ')

/-- The graph, entered at block 0 in state `σ`, comes to evaluate `e` in state `σ'`. -/
def GraphEvaluates (M : Sem E S V) (G : Cfg E) (σ : S) (e : E) (σ' : S) : Prop :=
  ∃ b k rest vals, Steps M G (.at 0 (G.code 0) σ (fun _ => none))
    (.at b ((k, e) :: rest) σ' vals)

/-! ### The statements the theorems are about -/

mutual
/-- The labels the statement defines, in order. -/
def Stmt.labels : Stmt E → List Str
  | .block b => b.labels
  | .ite _ s | .while _ s | .doWhile s _ | .for _ _ _ s | .switch _ s => s.labels
  | .case _ s | .dflt s => s.labels
  | .iteElse _ s t => s.labels ++ t.labels
  | .label l s => l :: s.labels
  | _ => []
/-- As `Stmt.labels`. -/
def Items.labels : Items E → List Str
  | .nil => []
  | .decl _ r => r.labels
  | .cons s r => s.labels ++ r.labels
end

mutual
/-- The labels the statement jumps to. -/
def Stmt.gotos : Stmt E → List Str
  | .block b => b.gotos
  | .ite _ s | .while _ s | .doWhile s _ | .for _ _ _ s | .switch _ s => s.gotos
  | .case _ s | .dflt s | .label _ s => s.gotos
  | .iteElse _ s t => s.gotos ++ t.gotos
  | .goto l => [l]
  | _ => []
/-- As `Stmt.gotos`. -/
def Items.gotos : Items E → List Str
  | .nil => []
  | .decl _ r => r.gotos
  | .cons s r => s.gotos ++ r.gotos
end

mutual
/-- The case labels of the statement that belong to the switch around it. -/
def Stmt.cases (const : E → Option Int) : Stmt E → List (Option Int)
  | .block b => b.cases const
  | .ite _ s | .while _ s | .doWhile s _ | .for _ _ _ s => s.cases const
  | .dflt s | .label _ s => s.cases const
  | .case e s => const e :: s.cases const
  | .iteElse _ s t => s.cases const ++ t.cases const
  | _ => []
/-- As `Stmt.cases`. -/
def Items.cases (const : E → Option Int) : Items E → List (Option Int)
  | .nil => []
  | .decl _ r => r.cases const
  | .cons s r => s.cases const ++ r.cases const
end

mutual
/-- How many default labels of the statement belong to the switch around it. -/
def Stmt.defaults : Stmt E → Nat
  | .block b => b.defaults
  | .ite _ s | .while _ s | .doWhile s _ | .for _ _ _ s => s.defaults
  | .case _ s | .label _ s => s.defaults
  | .dflt s => s.defaults + 1
  | .iteElse _ s t => s.defaults + t.defaults
  | _ => 0
/-- As `Stmt.defaults`. -/
def Items.defaults : Items E → Nat
  | .nil => 0
  | .decl _ r => r.defaults
  | .cons s r => s.defaults + r.defaults
end

mutual
/-- In every switch statement the case constants are distinct and there is at most one default
(C17 6.8.4.2p3). -/
def Stmt.Distinct (const : E → Option Int) : Stmt E → Prop
  | .block b => b.Distinct const
  | .ite _ s | .while _ s | .doWhile s _ | .for _ _ _ s => s.Distinct const
  | .case _ s | .dflt s | .label _ s => s.Distinct const
  | .iteElse _ s t => s.Distinct const ∧ t.Distinct const
  | .switch _ s => (s.cases const).Nodup ∧ s.defaults ≤ 1 ∧ s.Distinct const
  | _ => True
/-- As `Stmt.Distinct`. -/
def Items.Distinct (const : E → Option Int) : Items E → Prop
  | .nil => True
  | .decl _ r => r.Distinct const
  | .cons s r => s.Distinct const ∧ r.Distinct const
end

mutual
/-- No case label or default stands inside a loop that is inside the switch it belongs to. -/
def Stmt.NoneInLoops (const : E → Option Int) : Stmt E → Prop
  | .block b => b.NoneInLoops const
  | .while _ s | .doWhile s _ | .for _ _ _ s =>
      s.cases const = [] ∧ s.defaults = 0 ∧ s.NoneInLoops const
  | .ite _ s | .switch _ s => s.NoneInLoops const
  | .case _ s | .dflt s | .label _ s => s.NoneInLoops const
  | .iteElse _ s t => s.NoneInLoops const ∧ t.NoneInLoops const
  | _ => True
/-- As `Stmt.NoneInLoops`. -/
def Items.NoneInLoops (const : E → Option Int) : Items E → Prop
  | .nil => True
  | .decl _ r => r.NoneInLoops const
  | .cons s r => s.NoneInLoops const ∧ r.NoneInLoops const
end

/-- The statement could be followed by an `else` of its own. -/
def Stmt.open : Stmt E → Bool
  | .ite _ _ => true
  | .iteElse _ _ t => t.open
  | .while _ s | .for _ _ _ s | .switch _ s => s.open
  | .case _ s | .dflt s | .label _ s => s.open
  | _ => false

/-- The statement, behind its labels, is a default label. -/
def Stmt.isDefault : Stmt E → Bool
  | .dflt _ => true
  | .case _ s | .label _ s => s.isDefault
  | _ => false

/-- The next item is a default label. -/
def Items.startsDefault : Items E → Bool
  | .cons (.dflt _) _ => true
  | _ => false

/-- The next item begins with the name of a label. -/
def Items.startsLabel : Items E → Bool
  | .cons (.label _ _) _ => true
  | _ => false

mutual
/-- An `else` belongs to the nearest `if` (C17 6.8.4.1p3), and a default label stands directly
in a block, perhaps behind other labels; no statement with the name of a label follows such
a default that has labels before it. -/
def Stmt.Tidy : Stmt E → Prop
  | .block b => b.Tidy
  | .ite _ s | .while _ s | .doWhile s _ | .for _ _ _ s | .switch _ s | .dflt s =>
      s.isDefault = false ∧ s.Tidy
  | .iteElse _ s t =>
      s.isDefault = false ∧ t.isDefault = false ∧ s.open = false ∧ s.Tidy ∧ t.Tidy
  | .case _ s | .label _ s => s.Tidy
  | _ => True
/-- As `Stmt.Tidy`. -/
def Items.Tidy : Items E → Prop
  | .nil => True
  | .decl _ r => r.Tidy
  | .cons (.dflt s) r => (Stmt.dflt s).Tidy ∧ r.startsDefault = false ∧ r.Tidy
  | .cons s r => (s.isDefault = true → r.startsLabel = false) ∧ s.Tidy ∧ r.Tidy
end

end Verif.StatementSpec
