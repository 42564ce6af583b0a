import Verif.Simple
/-!
Model of what the compiler accepts as the left operand of an assignment: the construction of typed
expressions with `const` and with constants folded, src/parser/expression.c 54-471, 534-557,
590-620, 775-900 and 903-1093, and which form the translation gives them,
src/parser/expression_to_ir.c 60-732, as far as it decides whether an expression is accepted.

Simplifications:

* types are simple types, pointers, structures and unions, arrays and functions; of the
  qualifiers only `const` (the program keeps no other);
* constants have no value: whether an operator on two constants is folded, and whether a constant
  is a null pointer constant, is given by functions of which nothing is assumed;
* names are resolved: a variable with automatic storage is its type, one with a label (at file
  scope, or static) is its type; a call is the type of the result; the initialiser of a compound
  literal is left out;
* the nodes that are made are left out.
-/
namespace Verif.Lvalue
open Verif Simple

/-- src/types.h:63-99 `struct type`, with `is_const`. -/
inductive Ty where
  | simple (s : ST) (const : Bool)
  | ptr (t : Ty) (const : Bool)
  | record (id : Nat) (const : Bool)
  | array (t : Ty)
  | func (ret : Ty)
  deriving DecidableEq, Repr

/-- `type->is_const`. -/
def Ty.isConst : Ty → Bool
  | .simple _ c | .ptr _ c | .record _ c => c
  | _ => false

/-- src/types.c:165-169 `type_make_const(type, 0)`. -/
def Ty.unconst : Ty → Ty
  | .simple s _ => .simple s false
  | .ptr t _ => .ptr t false
  | .record i _ => .record i false
  | t => t

/-- src/types.c:297-299 `type_is_pointer`. -/
def Ty.isPtr : Ty → Bool
  | .ptr .. => true
  | _ => false

/-- src/types.c:230-259 `type_is_integer`. -/
def Ty.isInt : Ty → Bool
  | .simple s _ => isInteger s
  | _ => false

/-- `type_is_arithmetic`, src/types.c:292-295. -/
def Ty.isArith : Ty → Bool
  | .simple s _ => isInteger s || isFloating s
  | _ => false

/-- `int`. -/
abbrev int : Ty := .simple .int false
/-- `void`. -/
abbrev void : Ty := .simple .void false

/-- What the expressions are about. -/
structure Decls where
  abi : Abi
  /-- type and width of bit-field (-1: none) of a member -/
  field : Nat → Nat → Option (Ty × Int)
  /-- `calculate_size` -/
  size : Ty → Nat
  /-- the result of a call is in memory (src/abi/sysv.c:259-287, src/abi/microsoft.c:96-113) -/
  inMemory : Ty → Bool
  /-- `type_make_composite` -/
  composite : Ty → Ty → Option Ty

/-- Source expressions. -/
inductive SE where
  | num (s : ST)
  | var (t : Ty)
  | glob (t : Ty)
  | lit (t : Ty)
  | call (t : Ty)
  | deref (e : SE)
  | addr (e : SE)
  | member (e : SE) (i : Nat)
  | cast (t : Ty) (e : SE)
  | un (op : UOp) (e : SE)
  | bin (op : Op) (a b : SE)
  | cond (c a b : SE)
  | comma (a b : SE)
  | assign (a b : SE)
  /-- compound assignment, and with `post` the postfix operators `++` and `--` -/
  | assignOp (op : Op) (post : Bool) (a b : SE)
  deriving DecidableEq, Repr

/-- src/parser/expression.h `struct constant`: CONSTANT_TYPE, CONSTANT_LABEL, CONSTANT_LABEL_POINTER,
with `data_type`. -/
inductive K where
  | num (t : Ty)
  | label (t : Ty)
  | labelPtr (t : Ty)
  deriving DecidableEq, Repr

/-- `constant.data_type`. -/
def K.ty : K → Ty
  | .num t | .label t | .labelPtr t => t

/-- src/parser/expression.h:10-61 `struct expr`. -/
inductive TE where
  | const (k : K)
  | sym (t : Ty)
  | lit (t : Ty)
  | call (t : Ty)
  | ind (e : TE)
  | addrOf (e : TE)
  | decay (e : TE)
  | dot (e : TE) (i : Nat)
  | cast (t : Ty) (e : TE)
  | un (op : UOp) (e : TE)
  | bin (op : Op) (a b : TE)
  | ptrAdd (a b : TE)
  | ptrSub (a b : TE)
  | ptrDiff (a b : TE)
  | cond (c a b : TE)
  | comma (a b : TE)
  | constRemove (e : TE)
  | assign (a b : TE)
  | assignOp (op : Op) (post : Bool) (a b : TE)
  | assignPtr (sub post : Bool) (a b : TE)
  deriving DecidableEq, Repr

/-- Facts about values that the model leaves open. -/
structure World where
  /-- `operators_constant` folds the operator on these constants -/
  folds : Op → TE → TE → Bool
  /-- `is_null_pointer_constant`, `constant_is_zero` -/
  null : TE → Bool

/-- src/ir/operators.c:11-18: the operators that give `int` and take pointers. -/
def relational : Op → Bool
  | .less | .greater | .lessEq | .greaterEq | .equal | .notEqual => true
  | _ => false

/-- src/types.c:301-304 `type_select` of a structure: the type of the member as it was declared. -/
def Decls.select (d : Decls) (t : Ty) (i : Nat) : Res (Ty × Int) :=
  match t with
  | .record id _ =>
    match d.field id i with
    | some f => .ok f
    | none => .ub
  | _ => .fail

/-- src/parser/expression.c:115-200 `calculate_type`; the type of arguments has been calculated
before. -/
def Decls.typeOf (d : Decls) : TE → Res Ty
  | .const k => .ok k.ty
  | .sym t | .lit t | .call t | .cast t _ => .ok t
  | .ind e => do
    match ← d.typeOf e with
    | .ptr t _ => .ok t
    | _ => .fail
  | .addrOf e => do .ok (.ptr (← d.typeOf e) false)
  | .decay e => do
    match ← d.typeOf e with
    | .array t => .ok (.ptr t false)
    | _ => .fail
  | .dot e i => do .ok (← d.select (← d.typeOf e) i).1
  | .un _ e => d.typeOf e
  | .bin op a b => do
    let ta ← d.typeOf a
    let tb ← d.typeOf b
    if ta ≠ tb ∧ (relational op = false ∨ ta.isPtr ≠ tb.isPtr) then .fail
    else .ok (if relational op then int else ta)
  | .ptrAdd a _ | .ptrSub a _ => d.typeOf a
  | .ptrDiff _ _ => .ok (.simple .long false)
  | .cond _ a b => do
    let ta ← d.typeOf a
    let tb ← d.typeOf b
    if ta = tb then .ok ta else .fail
  | .comma _ b => d.typeOf b
  | .constRemove e => do .ok (← d.typeOf e).unconst
  | .assign a _ | .assignOp _ _ a _ | .assignPtr _ _ a _ => d.typeOf a

/-- src/arch/x64.c:574-615 `constant_cast` of a constant that is no label. -/
def constantCast (k : K) (t : Ty) : Res K :=
  let retype : K → K
    | .num _ => .num t
    | .label _ => .label t
    | .labelPtr _ => .labelPtr t
  if k.ty = t then .ok k
  else if t.isPtr && (k.ty.isPtr || k.ty.isInt) then .ok (retype k)
  else match t, k.ty with
    | .simple s _, .simple _ _ => .ok (.num (.simple s false))
    | _, _ => .fail

/-- src/parser/expression.c:903-1084 `evaluate_constant_expression` for an expression whose
operands have been folded already. -/
def Decls.fold (d : Decls) (W : World) : TE → Res (Option K)
  | .cast t (.const k) =>
    match k with
    | .label _ => .ok none
    | k =>
      if k.ty.isPtr && !t.isPtr then .ok none
      else do .ok (some (← constantCast k t))
  | .ptrAdd (.const (.labelPtr t)) (.const (.num i)) | .ptrSub (.const (.labelPtr t)) (.const (.num i)) =>
    match i with
    | .simple .int _ => .ok (some (.labelPtr t))
    | _ => .ok none
  | .dot (.const (.label t)) i => do
    let (u, w) ← d.select t i
    if w ≠ -1 then .ok none else .ok (some (.label u))
  | .bin op (.const (.num t)) (.const (.num u)) =>
    match t with
    | .simple s c =>
      if t = u && W.folds op (.const (.num t)) (.const (.num u)) then
        .ok (some (.num (if relational op then int else .simple s c)))
      else .ok none
    | _ => .ok none
  | .un _ (.const (.num t)) =>
    match t with
    | .simple _ _ => .ok (some (.num t))
    | _ => .ok none
  | .decay (.const k) =>
    match k with
    | .label (.array t) => .ok (some (.labelPtr (.ptr t false)))
    | _ => .fail
  | .cond (.const (.num _)) (.const (.num t)) (.const (.num _)) => .ok (some (.num t))
  | .addrOf (.const (.label t)) => .ok (some (.labelPtr (.ptr t false)))
  | .ind (.const (.labelPtr t)) =>
    match t with
    | .ptr u _ => .ok (some (.label u))
    | _ => .fail
  | .comma (.const _) (.const k) => .ok (some k)
  | .constRemove (.const k) => .ok (some k)
  | _ => .ok none

/-- src/parser/expression.c:374-386 `check_const_correctness`. -/
def Decls.checkConst (d : Decls) : TE → Res Unit
  | .assign a _ | .assignOp _ _ a _ | .assignPtr _ _ a _ => do
    if (← d.typeOf a).isConst then .fail else .ok ()
  | _ => .ok ()

/-- src/parser/expression.c:451-470: the end of `expr_new`. -/
def Decls.new (d : Decls) (W : World) (e : TE) : Res TE := do
  let _ ← d.typeOf e
  match ← d.fold W e with
  | some k => .ok (.const k)
  | none => do
    d.checkConst e
    .ok e

/-- src/parser/expression.c:83-95 `decay_array`. -/
def Decls.decayE (d : Decls) (W : World) (e : TE) : Res TE := do
  let e ← (match ← d.typeOf e with
    | .array _ => d.new W (.decay e)
    | .func _ => d.new W (.addrOf e)
    | _ => .ok e)
  if (← d.typeOf e).isConst then d.new W (.constRemove e) else .ok e

/-- src/parser/expression.c:1086-1093 `expression_cast`. -/
def Decls.castTo (d : Decls) (W : World) (e : TE) (t : Ty) : Res TE := do
  let e ← d.decayE W e
  if (← d.typeOf e) = t then .ok e else d.new W (.cast t e)

/-- src/parser/expression.c:54-62 `get_expression_bitfield`. -/
def Decls.bitfield (d : Decls) : TE → Res Int
  | .dot e i => do .ok (← d.select (← d.typeOf e) i).2
  | _ => .ok (-1)

/-- src/parser/expression.c:97-106 `do_integer_promotion`. -/
def Decls.promoteE (d : Decls) (W : World) (e : TE) : Res TE := do
  let t ← d.typeOf e
  let w ← d.bitfield e
  match t with
  | .simple s _ =>
    if isInteger s then do
      if ← isContainedIn d.abi .int (-1) s w then d.castTo W e int else .ok e
    else .ok e
  | _ => .ok e

/-- src/parser/expression.c:64-81 `convert_arithmetic`. -/
def Decls.convert (d : Decls) (W : World) (a b : TE) : Res (TE × TE) := do
  match ← d.typeOf a, ← d.typeOf b with
  | .simple sa _, .simple sb _ => do
    let t ← arithType d.abi sa (← d.bitfield a) sb (← d.bitfield b)
    let a ← d.castTo W a (.simple t false)
    let b ← d.castTo W b (.simple t false)
    .ok (a, b)
  | _, _ => .ok (a, b)

/-- `expression_to_constant(e) != NULL && constant_is_zero(...)`. -/
def isNull (W : World) : TE → Bool
  | .const (.num t) => W.null (.const (.num t))
  | _ => false

/-- src/parser/expression.c:228-266 `cast_conditional`. -/
def Decls.castArms (d : Decls) (W : World) (a b : TE) : Res (TE × TE) := do
  let ta ← d.typeOf a
  let tb ← d.typeOf b
  if ta = tb then .ok (a, b)
  else match ta, tb with
    | .ptr u _, .ptr v _ =>
      if u.unconst = void then do .ok (← d.castTo W a tb, b)
      else if v.unconst = void then do .ok (a, ← d.castTo W b ta)
      else match d.composite u.unconst v.unconst with
        | some t => do
          let b ← d.castTo W b (.ptr t false)
          let a ← d.castTo W a (.ptr t false)
          .ok (a, b)
        | none => .fail
    | _, _ =>
      if ta.isPtr && isNull W b then do .ok (a, ← d.castTo W b ta)
      else if tb.isPtr && isNull W a then do .ok (← d.castTo W a tb, b)
      else if ta.isArith && tb.isArith then d.convert W a b
      else .fail

/-- src/parser/expression.c:268-344 `fix_binary_operator`. -/
def Decls.fixBinary (d : Decls) (W : World) (op : Op) (a b : TE) : Res TE := do
  let (a, b) ← (match op with
    | .lshift | .rshift => do .ok (a, ← d.castTo W b (← d.typeOf a))
    | _ => d.convert W a b)
  let pa := (← d.typeOf a).isPtr
  let pb := (← d.typeOf b).isPtr
  match op with
  | .sub =>
    if pa && pb then .ok (.ptrDiff a b)
    else if pa then .ok (.ptrSub a b)
    else if pb then .fail
    else .ok (.bin .sub a b)
  | .add =>
    if pa && pb then .fail
    else if pa then .ok (.ptrAdd a b)
    else if pb then .ok (.ptrAdd b a)
    else .ok (.bin .add a b)
  | .equal | .notEqual =>
    if pa = pb then .ok (.bin op a b)
    else if !pb then do
      if isNull W b then .ok (.bin op a (← d.castTo W b (.ptr void false))) else .fail
    else do
      if isNull W a then .ok (.bin op (← d.castTo W a (.ptr void false)) b) else .fail
  | op => .ok (.bin op a b)

/-- src/parser/expression.c:351-357: casts are taken off the left operand. -/
def strip : TE → TE
  | .cast _ (.cast _ e) => e
  | .cast _ e => e
  | e => e

/-- src/parser/expression.c:346-371 `fix_assignment_operators`. -/
def Decls.fixAssign (d : Decls) (W : World) (op : Op) (post : Bool) (a b : TE) : Res TE := do
  let (a, b) ← d.convert W a b
  let a := strip a
  match ← d.typeOf a, op with
  | .ptr _ _, .add => .ok (.assignPtr false post a b)
  | .ptr _ _, .sub => .ok (.assignPtr true post a b)
  | _, _ => .ok (.assignOp op post a b)

/-- The parser on a source expression: src/parser/expression.c:508-900 with `expr_new`, 402-471. -/
def Decls.build (d : Decls) (W : World) : SE → Res TE
  | .num s => .ok (.const (.num (.simple s false)))
  | .var t => .ok (.sym t)
  | .glob t => .ok (.const (.label t))
  | .lit t => .ok (.lit t)
  | .call t => .ok (.call t)
  | .deref e => do d.new W (.ind (← d.decayE W (← d.build W e)))
  | .addr e => do d.new W (.addrOf (← d.build W e))
  | .member e i => do d.new W (.dot (← d.build W e) i)
  | .cast t e => do d.castTo W (← d.build W e) t
  | .un op e => do d.new W (.un op (← d.promoteE W (← d.decayE W (← d.build W e))))
  | .bin op a b => do
    let a ← d.promoteE W (← d.decayE W (← d.build W a))
    let b ← d.promoteE W (← d.decayE W (← d.build W b))
    d.new W (← d.fixBinary W op a b)
  | .cond c a b => do
    let c ← d.promoteE W (← d.decayE W (← d.build W c))
    let a ← d.promoteE W (← d.decayE W (← d.build W a))
    let b ← d.promoteE W (← d.decayE W (← d.build W b))
    let (a, b) ← d.castArms W a b
    d.new W (.cond c a b)
  | .comma a b => do
    let a ← d.decayE W (← d.build W a)
    let b ← d.decayE W (← d.build W b)
    d.new W (.comma a b)
  | .assign a b => do
    let a ← d.build W a
    let b ← d.decayE W (← d.build W b)
    d.new W (.assign a b)
  | .assignOp op post a b => do
    let a ← d.promoteE W (← d.build W a)
    let b ← d.promoteE W (← d.decayE W (← d.build W b))
    d.new W (← d.fixAssign W op post a b)

/-! ### Evaluation -/

/-- src/parser/expression_to_ir.h `enum evaluated_expression_type`. -/
inductive Form where
  | variable | pointer | bits | constant | void
  deriving DecidableEq, Repr

/-- `struct evaluated_expression`, without the nodes. -/
structure EV where
  form : Form
  lv : Bool
  ty : Ty
  deriving DecidableEq, Repr

/-- src/parser/expression_to_ir.c:102-125 `evaluated_expression_to_var`, and 64-100
`evaluated_expression_to_address`: a void expression has neither. -/
def EV.hasValue (e : EV) : Res Unit := if e.form = .void then .fail else .ok ()

/-- src/parser/expression_to_ir.c:154-170 `evaluated_expression_cast`. -/
def EV.castTo (e : EV) (t : Ty) : Res EV :=
  if e.ty = t then .ok e
  else match t with
    | .simple .void _ => .ok ⟨.void, false, t⟩
    | t => do
      e.hasValue
      .ok ⟨.variable, false, t⟩

/-- src/parser/expression_to_ir.c:172-188 `assign_to_ee`. -/
def EV.assignTo (l : EV) : Res Unit :=
  match l.form with
  | .pointer | .bits => .ok ()
  | _ => .fail

/-- src/parser/expression_to_ir.c:190-206 `assign_ee_to_ee`: the cast before has made the types
equal, except for `void`. -/
def Decls.assignEE (d : Decls) (l r : EV) : Res Unit := do
  r.hasValue
  if d.size r.ty ≤ 8 then l.assignTo
  else match l.form with
    | .pointer => .ok ()
    | _ => .fail

/-- src/parser/expression_to_ir.c:9-59 `ir_from_type_and_op`. -/
def irOk (t : Ty) (op : Op) : Res Unit :=
  match t with
  | .simple s _ =>
    if isFloating s then
      match op with
      | .mod | .bxor | .bor | .band | .lshift | .rshift => .fail
      | _ => .ok ()
    else do
      let _ ← isSigned s
      .ok ()
  | .ptr .. => .ok ()
  | _ => .fail

/-- src/parser/expression_to_ir.c:208-732 `expression_evaluate`. -/
def Decls.eval (d : Decls) : TE → Res EV
  | .const k =>
    match k with
    | .label t => .ok ⟨.pointer, true, t⟩
    | k => .ok ⟨.constant, false, k.ty⟩
  | .sym t => .ok ⟨.pointer, true, t⟩
  | .lit t => .ok ⟨.pointer, false, t⟩
  | .call t =>
    match t with
    | .simple .void _ => .ok ⟨.void, false, t⟩
    | t => .ok ⟨if d.inMemory t then .pointer else .variable, false, t⟩
  -- 209-247
  | .ind e => do
    let v ← d.eval e
    let t ← d.typeOf (.ind e)
    match v.form with
    | .variable | .pointer => .ok ⟨.pointer, true, t⟩
    | .constant => .ok ⟨.constant, true, t⟩
    | _ => .fail
  -- 394-420
  | .addrOf e => do
    let v ← d.eval e
    match v.form with
    | .pointer => .ok ⟨.variable, false, ← d.typeOf (.addrOf e)⟩
    | _ => .fail
  | .decay e => do
    let v ← d.eval e
    match v.form with
    | .pointer => .ok ⟨.variable, false, ← d.typeOf (.decay e)⟩
    | _ => .fail
  -- 354-387
  | .dot e i => do
    let v ← d.eval e
    let (u, w) ← d.select v.ty i
    v.hasValue
    .ok ⟨if w ≠ -1 then .bits else .pointer, v.lv, u⟩
  | .cast t e => do (← d.eval e).castTo t
  -- 445-480
  | .un op e => do
    let v ← d.eval e
    match op with
    | .plus => .ok v
    | op => do
      v.hasValue
      match v.ty with
      | .simple s _ =>
        if isInteger s || (isFloating s && decide (op = .neg)) then .ok ⟨.variable, false, v.ty⟩ else .fail
      | _ => .fail
  | .bin op a b => do
    let va ← d.eval a
    let vb ← d.eval b
    va.hasValue
    vb.hasValue
    irOk va.ty op
    .ok ⟨.variable, false, ← d.typeOf (.bin op a b)⟩
  | .ptrAdd a b | .ptrSub a b => do
    let va ← d.eval a
    let vb ← d.eval b
    let vb ← vb.castTo (.simple .ulong false)
    va.hasValue
    vb.hasValue
    .ok ⟨.variable, false, va.ty⟩
  | .ptrDiff a b => do
    let va ← d.eval a
    let vb ← d.eval b
    va.hasValue
    vb.hasValue
    .ok ⟨.variable, false, .simple .long false⟩
  -- 541-593
  | .cond c a b => do
    let vc ← d.eval c
    vc.hasValue
    let va ← d.eval a
    let vb ← d.eval b
    match va.ty with
    | .simple .void _ => .ok ⟨.void, false, va.ty⟩
    | t => do
      va.hasValue
      vb.hasValue
      .ok ⟨.pointer, false, t⟩
  | .comma a b => do
    let _ ← d.eval a
    d.eval b
  | .constRemove e => do
    let v ← d.eval e
    .ok { v with ty := v.ty.unconst }
  -- 482-493
  | .assign a b => do
    let l ← d.eval a
    let r ← d.eval b
    let r ← r.castTo l.ty
    if l.lv then do
      d.assignEE l r
      .ok r
    else .fail
  -- 495-539
  | .assignOp op _ a b => do
    let l ← d.eval a
    let r ← d.eval b
    irOk r.ty op
    l.hasValue
    r.hasValue
    l.assignTo
    .ok ⟨.variable, false, l.ty⟩
  -- 595-626
  | .assignPtr _ _ a b => do
    let l ← d.eval a
    let r ← d.eval b
    let r ← r.castTo (.simple .ulong false)
    l.hasValue
    r.hasValue
    l.assignTo
    .ok ⟨.variable, false, l.ty⟩

/-- An expression statement, src/parser/function_parser.c `parse_expression_statement` and
src/parser/expression_to_ir.c:754-756 `expression_to_void`. -/
def Decls.statement (d : Decls) (W : World) (e : SE) : Res EV := do d.eval (← d.build W e)

/-- The right operand of an assignment: src/parser/expression.c:409-412 and
src/parser/expression_to_ir.c:484. -/
def Decls.operand (d : Decls) (W : World) (e : SE) : Res EV := do d.eval (← d.decayE W (← d.build W e))

end Verif.Lvalue
