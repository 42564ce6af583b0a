import Verif.Codegen
import Verif.Bitfield
import Verif.X86
/-!
Model of the translation of expressions: the construction of typed expressions with the
conversions C inserts, src/parser/expression.c 54-471, 534-557, 590-620 and 775-900, and their
translation to nodes of the intermediate language, src/parser/expression_to_ir.c 60-732, with the
constructors of nodes and blocks it uses, src/ir/ir.c 143-158, 262-342 and 430-690.

Simplifications:

* types are integers, pointers, arrays of known length, structures given by their layout (C19,
  C20, C70), and functions.  Floating types, variable-length arrays, qualifiers, unions of
  pointers to compatible types (`type_make_composite`), compound literals and the `va_` operators
  are left out: where the parser meets them the model fails;
* names are resolved: a variable is a number, a member is its index (C24, C25), a static
  variable or function is a variable too (`evaluate_symbol` and the label case of
  `evaluate_constant` both give the address);
* constant expressions are not folded when the tree is built (C16 and C17 are about folding);
* a call of a variadic function or of one that returns a structure is left out; how arguments are
  placed is the subject of C41, C77 and C80;
* `ir_get_bits` and `ir_set_bits` are one instruction each (C21);
* an instruction is put at the end of the current block.  The C code threads a state through the
  nodes instead; C86 and C87 show that the nodes that touch memory end up in this order.
-/
namespace Verif.ExprIr
open Verif Simple
open Verif.Codegen (IrOp irFromTypeAndOp irBinaryOp)

/-! ### Types and trees -/

/-- src/types.h `struct type`, for the types of the model. -/
inductive Ty where
  | simple (s : ST)
  | ptr (t : Ty)
  | arr (t : Ty) (n : Nat)
  | struct (id : Nat)
  | func (id : Nat)
  deriving DecidableEq, Repr, Inhabited

/-- src/types.h `struct field`: `bits` is `(bit_offset, bitfield)`, `none` for no bit-field. -/
structure Field where
  ty : Ty
  offset : Nat
  bits : Option (Nat × Nat)
  deriving DecidableEq, Repr

/-- src/types.h `struct struct_data`. -/
structure Struct where
  size : Nat
  fields : List Field

/-- The return type and the parameter types of a function type. -/
structure Sig where
  ret : Ty
  params : List Ty

/-- What is declared; the variables have the numbers below `nvars`. -/
structure Decls where
  nvars : Nat
  structs : Nat → Struct
  sigs : Nat → Sig
  vars : Nat → Ty

/-- `void` -/
abbrev Ty.void : Ty := .simple .void
/-- `int` -/
abbrev Ty.int : Ty := .simple .int
/-- `unsigned long`: `abi_info.pointer_type`, `abi_info.size_type`, src/abi/sysv.c 528-529. -/
abbrev Ty.ulong : Ty := .simple .ulong

/-- src/types.c `calculate_size`. -/
def Decls.size (d : Decls) : Ty → Nat
  | .simple s => sizeOf .sysv s
  | .ptr _ => 8
  | .arr t n => n * d.size t
  | .struct i => (d.structs i).size
  | .func _ => 0

/-- The expressions as they are written.  An argument list is `anil` or `acons`. -/
inductive SE where
  | const (t : ST) (x : Nat)
  | var (x : Nat)
  | un (op : UOp) (e : SE)
  | not (e : SE)
  | bin (op : Op) (a b : SE)
  | land (a b : SE)
  | lor (a b : SE)
  | cond (c a b : SE)
  | comma (a b : SE)
  | cast (t : Ty) (e : SE)
  | addr (e : SE)
  | deref (e : SE)
  | index (a b : SE)
  | member (e : SE) (i : Nat)
  | arrow (e : SE) (i : Nat)
  | assign (a b : SE)
  | assignOp (op : Op) (a b : SE)
  | incr (sub post : Bool) (e : SE)
  | call (f args : SE)
  | anil
  | acons (a rest : SE)
  deriving Repr

/-- src/parser/expression.h `struct expr`, for the kinds of the model. -/
inductive TE where
  | const (t : ST) (x : Nat)
  | sym (x : Nat)
  | un (op : UOp) (e : TE)
  | bin (op : Op) (a b : TE)
  | ptrArith (sub : Bool) (a b : TE)
  | ptrDiff (a b : TE)
  | assign (a b : TE)
  | assignOp (op : Op) (post : Bool) (a b : TE)
  | assignPtr (sub post : Bool) (a b : TE)
  | cond (c a b : TE)
  | comma (a b : TE)
  | cast (t : Ty) (e : TE)
  | addr (e : TE)
  | deref (e : TE)
  | decay (e : TE)
  | member (e : TE) (i : Nat)
  | call (f args : TE)
  | anil
  | acons (a rest : TE)
  deriving Repr

/-- src/types.c `type_deref`; not a pointer: an error, here `void`. -/
def Ty.target : Ty → Ty
  | .ptr t => t
  | _ => .void

/-- `type->children[0]` of an array type. -/
def Ty.element : Ty → Ty
  | .arr t _ => t
  | _ => .void

/-- `type_is_pointer` -/
def Ty.isPtr : Ty → Bool
  | .ptr _ => true
  | _ => false

/-- `type_is_integer` -/
def Ty.isInt : Ty → Bool
  | .simple s => isInteger s
  | _ => false

/-- The operators of `returns_int`, src/ir/operators.c 11-18. -/
def returnsInt (op : Op) : Bool :=
  op ∈ [Op.less, .greater, .lessEq, .greaterEq, .equal, .notEqual]

/-- `data->fields[idx]` of an expression of structure type. -/
def Decls.field (d : Decls) (t : Ty) (i : Nat) : Option Field :=
  match t with
  | .struct s => (d.structs s).fields[i]?
  | _ => none

/-- expression.c 115-198 `calculate_type`.  The type of an argument list is of no use. -/
def Decls.tyOf (d : Decls) : TE → Ty
  | .const t _ => .simple t
  | .sym x => d.vars x
  | .un _ e => d.tyOf e
  | .bin op a _ => if returnsInt op then .int else d.tyOf a
  | .ptrArith _ a _ => d.tyOf a
  | .ptrDiff _ _ => .simple .long
  | .assign a _ => d.tyOf a
  | .assignOp _ _ a _ => d.tyOf a
  | .assignPtr _ _ a _ => d.tyOf a
  | .cond _ a _ => d.tyOf a
  | .comma _ b => d.tyOf b
  | .cast t _ => t
  | .addr e => .ptr (d.tyOf e)
  | .deref e => (d.tyOf e).target
  | .decay e => .ptr (d.tyOf e).element
  | .member e i => match d.field (d.tyOf e) i with | some f => f.ty | none => .void
  | .call f _ => match (d.tyOf f).target with | .func s => (d.sigs s).ret | _ => .void
  | .anil => .void
  | .acons _ _ => .void

/-! ### Construction of the tree: expression.c -/

/-- expression.c 54-62 `get_expression_bitfield`. -/
def Decls.bitfield (d : Decls) : TE → Int
  | .member e i =>
    match d.field (d.tyOf e) i with
    | some f => match f.bits with | some (_, n) => n | none => -1
    | none => -1
  | _ => -1

/-- expression.c 83-95 `decay_array`, without qualifiers. -/
def Decls.decay (d : Decls) (e : TE) : TE :=
  match d.tyOf e with
  | .arr _ _ => .decay e
  | .func _ => .addr e
  | _ => e

/-- expression.c 1086-1093 `expression_cast`. -/
def Decls.castTo (d : Decls) (e : TE) (t : Ty) : TE :=
  if d.tyOf (d.decay e) = t then d.decay e else .cast t (d.decay e)

/-- expression.c 97-106 `do_integer_promotion`. -/
def Decls.promote (d : Decls) (e : TE) : Res TE :=
  match d.tyOf e with
  | .simple s =>
    if isInteger s then do
      if ← isContainedIn .sysv .int (-1) s (d.bitfield e) then pure (d.castTo e .int) else pure e
    else .ok e
  | _ => .ok e

/-- expression.c 64-81 `convert_arithmetic`. -/
def Decls.convert (d : Decls) (a b : TE) : Res (TE × TE) :=
  match d.tyOf a, d.tyOf b with
  | .simple sa, .simple sb => do
    let t ← arithType .sysv sa (d.bitfield a) sb (d.bitfield b)
    pure (d.castTo a (.simple t), d.castTo b (.simple t))
  | _, _ => .ok (a, b)

/-- expression.c 227-231 `is_null_pointer_constant`, and the test of lines 330-331, without
folding. -/
def isNull : TE → Bool
  | .const _ x => x = 0
  | _ => false

/-- expression.c 274-345 `fix_binary_operator` and the check of src/ir/operators.c 29-36; the
operands are promoted. -/
def Decls.fixBinary (d : Decls) (op : Op) (a b : TE) : Res TE := do
  let (a, b) ← if op = .lshift ∨ op = .rshift then .ok (a, d.castTo b (d.tyOf a)) else d.convert a b
  let pa := (d.tyOf a).isPtr
  let pb := (d.tyOf b).isPtr
  if op = .sub ∧ pa ∧ pb then .ok (.ptrDiff a b)
  else if op = .sub ∧ pa then .ok (.ptrArith true a b)
  else if op = .sub ∧ pb then .fail
  else if op = .add ∧ pa ∧ pb then .fail
  else if op = .add ∧ pa then .ok (.ptrArith false a b)
  else if op = .add ∧ pb then .ok (.ptrArith false b a)
  else if op = .equal ∨ op = .notEqual then
    if pa ∧ ¬ pb then
      if isNull b then .ok (.bin op a (d.castTo b (.ptr .void))) else .fail
    else if pb ∧ ¬ pa then
      if isNull a then .ok (.bin op (d.castTo a (.ptr .void)) b) else .fail
    else finish op a b
  else finish op a b
where
  /-- src/ir/operators.c 29-36 -/
  finish (op : Op) (a b : TE) : Res TE :=
    if d.tyOf a = d.tyOf b then .ok (.bin op a b)
    else if returnsInt op ∧ (d.tyOf a).isPtr = (d.tyOf b).isPtr then .ok (.bin op a b)
    else .fail

/-- `expr_new` of E_BINARY_OP, expression.c 404-471. -/
def Decls.mkBin (d : Decls) (op : Op) (a b : TE) : Res TE := do
  let a ← d.promote (d.decay a)
  let b ← d.promote (d.decay b)
  d.fixBinary op a b

/-- `expr_new` of E_UNARY_OP. -/
def Decls.mkUn (d : Decls) (op : UOp) (e : TE) : Res TE := do
  let e ← d.promote (d.decay e)
  .ok (.un op e)

/-- expression.c 233-271 `cast_conditional`, on the last two operands. -/
def Decls.castArms (d : Decls) (a b : TE) : Res (TE × TE) :=
  let ta := d.tyOf a
  let tb := d.tyOf b
  if ta = tb then .ok (a, b)
  else if ta.isPtr ∧ tb.isPtr then
    if ta.target = .void then .ok (d.castTo a tb, b)
    else if tb.target = .void then .ok (a, d.castTo b ta)
    else .fail
  else if ta.isPtr ∧ isNull b then .ok (a, d.castTo b ta)
  else if tb.isPtr ∧ isNull a then .ok (d.castTo a tb, b)
  else if ta.isInt ∧ tb.isInt then d.convert a b
  else .fail

/-- `expr_new` of E_CONDITIONAL. -/
def Decls.mkCond (d : Decls) (c a b : TE) : Res TE := do
  let c ← d.promote (d.decay c)
  let a ← d.promote (d.decay a)
  let b ← d.promote (d.decay b)
  let (a, b) ← d.castArms a b
  .ok (.cond c a b)

/-- expression.c 353-358: the casts around the left operand are taken away, two at most. -/
def strip : TE → TE
  | .cast _ (.cast _ e) => e
  | .cast _ e => e
  | e => e

/-- `expr_new` of E_ASSIGNMENT_OP with expression.c 347-370 `fix_assignment_operators`.  The left
operand does not decay (200-206). -/
def Decls.mkAssignOp (d : Decls) (op : Op) (post : Bool) (a b : TE) : Res TE := do
  let a ← d.promote a
  let b ← d.promote (d.decay b)
  let (a, b) ← d.convert a b
  let a := strip a
  if (d.tyOf a).isPtr ∧ (op = .add ∨ op = .sub) then .ok (.assignPtr (op = .sub) post a b)
  else .ok (.assignOp op post a b)

/-- The constant `EXPR_INT(n)`. -/
def int (n : Nat) : TE := .const .int n

/-- The tree that the parser builds: expression.c 523-620 (`parse_prefix`), 775-900
(`parse_pratt_with_lhs`). -/
def Decls.build (d : Decls) : SE → Res TE
  | .const t x => .ok (.const t x)
  | .var x => .ok (.sym x)
  | .un op e => do d.mkUn op (← d.build e)
  -- expression.c 544-548
  | .not e => do d.mkCond (← d.build e) (int 0) (int 1)
  | .bin op a b => do
    let a ← d.build a
    let b ← d.build b
    d.mkBin op a b
  -- expression.c 832-838
  | .land a b => do
    let a ← d.build a
    let b ← d.build b
    d.mkCond a (← d.mkCond b (int 1) (int 0)) (int 0)
  -- expression.c 827-831
  | .lor a b => do
    let a ← d.build a
    let b ← d.build b
    d.mkCond a (int 1) (← d.mkCond b (int 1) (int 0))
  | .cond c a b => do
    let c ← d.build c
    let a ← d.build a
    let b ← d.build b
    d.mkCond c a b
  | .comma a b => do
    let a ← d.build a
    let b ← d.build b
    .ok (.comma (d.decay a) (d.decay b))
  | .cast t e => do
    let e ← d.build e
    .ok (d.castTo e t)
  | .addr e => do
    let e ← d.build e
    .ok (.addr e)
  | .deref e => do
    let e ← d.build e
    .ok (.deref (d.decay e))
  -- expression.c 840-848
  | .index a b => do
    let a ← d.build a
    let b ← d.build b
    let s ← d.mkBin .add a b
    .ok (.deref (d.decay s))
  | .member e i => do
    let e ← d.build e
    .ok (.member e i)
  | .arrow e i => do
    let e ← d.build e
    .ok (.member (.deref (d.decay e)) i)
  | .assign a b => do
    let a ← d.build a
    let b ← d.build b
    .ok (.assign a (d.decay b))
  | .assignOp op a b => do
    let a ← d.build a
    let b ← d.build b
    d.mkAssignOp op false a b
  | .incr sub post e => do
    let e ← d.build e
    d.mkAssignOp (if sub then .sub else .add) post e (int 1)
  -- expression.c 420-424, 433-442; the number of arguments is checked
  | .call f args => do
    let f ← d.build f
    let args ← d.build args
    let f := d.decay f
    match d.tyOf f with
    | .ptr (.func s) => if count args = (d.sigs s).params.length then .ok (.call f args) else .fail
    | _ => .fail
  | .anil => .ok .anil
  | .acons a rest => do
    let a ← d.build a
    let rest ← d.build rest
    .ok (.acons (d.decay a) rest)
where
  /-- `expr.call.n_args` -/
  count : TE → Nat
    | .acons _ rest => count rest + 1
    | _ => 0

/-! ### Nodes and blocks: ir.c -/

/-- Nodes that compute or touch memory; the first number is the node, sizes are in bytes. -/
inductive Ins where
  /-- IR_CONSTANT -/
  | const (n : Nat) (x : Nat)
  /-- IR_ALLOC -/
  | alloc (n size : Nat)
  /-- IR_LOAD, IR_LOAD_VOLATILE -/
  | load (n p size : Nat)
  /-- IR_STORE; `size` is `value->size` -/
  | store (p v size : Nat)
  /-- IR_COPY_MEMORY -/
  | copy (dst src size : Nat)
  /-- the operators of two operands; `size` is `lhs->size` -/
  | op (n : Nat) (o : IrOp) (a b size : Nat)
  /-- IR_BINARY_NOT -/
  | bnot (n a size : Nat)
  /-- IR_NEGATE_INT -/
  | neg (n a size : Nat)
  /-- IR_INT_CAST_SIGN from `from` to `size` bytes -/
  | sext (n a source size : Nat)
  /-- IR_INT_CAST_ZERO -/
  | zext (n a size : Nat)
  /-- IR_BOOL_CAST -/
  | bool (n a : Nat)
  /-- the nodes of `ir_get_bits` -/
  | getBits (n a off len : Nat) (sgn : Bool) (size : Nat)
  /-- the nodes of `ir_set_bits`: field, value, and their size -/
  | setBits (n f v off len size : Nat)
  /-- IR_PHI -/
  | phi (n a b : Nat)
  /-- the nodes of `abi_expr_call`: the callee, the addresses and sizes of the arguments -/
  | call (n f : Nat) (args : List (Nat × Nat)) (size : Nat)
  deriving DecidableEq, Repr

/-- The uses of a block: it is argument `i` of a region, or argument 0 of an IR_IF node whose
projections are the blocks `t` and `f`. -/
inductive Use where
  | region (r i : Nat)
  | branch (c t f : Nat)
  deriving DecidableEq, Repr

/-- The nodes made so far and `current_block`. -/
structure St where
  /-- the next node gets this number -/
  next : Nat
  /-- `current_block` -/
  cur : Nat
  /-- `node->size` -/
  size : Nat → Nat
  /-- the instructions of a block -/
  code : Nat → List Ins
  /-- the uses of a block as a block -/
  uses : Nat → List Use
  /-- `node_argument_count` of a region -/
  preds : Nat → Nat

/-- One entry of a table replaced. -/
def set {α : Type} (f : Nat → α) (n : Nat) (x : α) : Nat → α := fun m => if m = n then x else f m

/-- A new node of the size in the current block, ir.c `ir_new`. -/
def emit (st : St) (size : Nat) (i : Nat → Ins) : Nat × St :=
  (st.next, { st with
    next := st.next + 1
    size := set st.size st.next size
    code := set st.code st.cur (st.code st.cur ++ [i st.next]) })

/-- ir.c 143-149 `new_block`. -/
def newBlock (st : St) : Nat × St := (st.next, { st with next := st.next + 1 })

/-- ir.c 293-301 `ir_connect`, also the two `node_set_argument` of `ir_region` (151-158). -/
def connect (st : St) (a r : Nat) : Res St :=
  if st.preds r < 2 then .ok { st with
    uses := set st.uses a (st.uses a ++ [.region r (st.preds r)])
    preds := set st.preds r (st.preds r + 1) }
  else .fail

/-- ir.c 151-158 `ir_region`. -/
def region (st : St) (a b : Nat) : Res (Nat × St) := do
  let (r, st) := newBlock st
  let st ← connect st a r
  let st ← connect st b r
  .ok (r, st)

/-- ir.c 262-268 `ir_block_start`. -/
def start (st : St) (b : Nat) : St := { st with cur := b }

/-- ir.c 270-284 `ir_if_selection`: the blocks for true and for false; the projection for false is
made first. -/
def select (st : St) (c : Nat) : Nat × Nat × St :=
  let f := st.next + 1
  let t := st.next + 2
  (t, f, { st with
    next := st.next + 3
    uses := set st.uses st.cur (st.uses st.cur ++ [.branch c t f]) })

/-! ### Translation: expression_to_ir.c -/

/-- src/parser/expression_to_ir.h `struct evaluated_expression`, its kinds. -/
inductive EE where
  | void
  | const (size x : Nat)
  | var (n : Nat)
  | ptr (n : Nat)
  | bits (n off len : Nat) (sgn : Bool)
  deriving DecidableEq, Repr

/-- `struct evaluated_expression` -/
structure EV where
  ty : Ty
  lv : Bool
  ee : EE
  deriving Repr

/-- expression_to_ir.c 103-127 `evaluated_expression_to_var`. -/
def Decls.toVar (d : Decls) (e : EV) (st : St) : Res (Nat × St) :=
  match e.ee with
  | .bits p off len sgn =>
    let n := d.size e.ty
    let (v, st) := emit st n (fun k => .load k p n)
    .ok (emit st n (fun k => .getBits k v off len sgn n))
  | .const n x => .ok (emit st n (fun k => .const k x))
  | .ptr p => .ok (emit st (d.size e.ty) (fun k => .load k p (d.size e.ty)))
  | .var n => .ok (n, st)
  | .void => .fail

/-- A slot with the value of a node: `ir_allocate`, `ir_store`. -/
def spill (st : St) (size v : Nat) : Nat × St :=
  let (a, st) := emit st 8 (fun k => .alloc k size)
  let (_, st) := emit st 0 (fun _ => .store a v (st.size v))
  (a, st)

/-- expression_to_ir.c 60-101 `evaluated_expression_to_address`.  The slot of a constant and of a
variable is allocated before the value is made (78-80, 88-90), for a bit-field after (63-65). -/
def Decls.toAddress (d : Decls) (e : EV) (st : St) : Res (Nat × St) :=
  match e.ee with
  | .bits _ _ _ _ => do
    let (v, st) ← d.toVar e st
    .ok (spill st (d.size e.ty) v)
  | .const n x =>
    let (a, st) := emit st 8 (fun k => .alloc k (d.size e.ty))
    let (v, st) := emit st n (fun k => .const k x)
    let (_, st) := emit st 0 (fun _ => .store a v (st.size v))
    .ok (a, st)
  | .ptr p => .ok (p, st)
  | .var v => .ok (spill st (d.size e.ty) v)
  | .void => .fail

/-- expression_to_ir.c 129-152 `variable_cast`. -/
def Decls.castVar (d : Decls) (v : Nat) (src dst : Ty) (st : St) : Nat × St :=
  if src = dst then (v, st)
  else if dst = .simple .bool then emit st 1 (fun k => .bool k v)
  else if (dst.isInt || dst.isPtr) && (src.isInt || src.isPtr) then
    if d.size dst ≠ d.size src then
      match src with
      | .simple s =>
        if isSigned s = .ok true then emit st (d.size dst) (fun k => .sext k v (st.size v) (d.size dst))
        else emit st (d.size dst) (fun k => .zext k v (d.size dst))
      | _ => emit st (d.size dst) (fun k => .zext k v (d.size dst))
    else (v, st)
  else (v, st)

/-- expression_to_ir.c 154-171 `evaluated_expression_cast`. -/
def Decls.castEV (d : Decls) (e : EV) (t : Ty) (st : St) : Res (EV × St) :=
  if e.ty = t then .ok (e, st)
  else if t = .void then .ok (⟨t, false, .void⟩, st)
  else do
    let (v, st) ← d.toVar e st
    let (v, st) := d.castVar v e.ty t st
    .ok (⟨t, false, .var v⟩, st)

/-- expression_to_ir.c 173-189 `assign_to_ee`. -/
def assignTo (lhs : EV) (v : Nat) (st : St) : Res St :=
  match lhs.ee with
  | .ptr p => .ok (emit st 0 (fun _ => .store p v (st.size v))).2
  | .bits p off len _ =>
    let n := st.size v
    let (prev, st) := emit st n (fun k => .load k p n)
    let (new, st) := emit st n (fun k => .setBits k prev v off len n)
    .ok (emit st 0 (fun _ => .store p new n)).2
  | _ => .fail

/-- expression_to_ir.c 191-206 `assign_ee_to_ee`; 192: assertion. -/
def Decls.assignEE (d : Decls) (lhs rhs : EV) (st : St) : Res St :=
  if lhs.ty ≠ rhs.ty then .fail
  else if d.size rhs.ty ≤ 8 then do
    let (v, st) ← d.toVar rhs st
    assignTo lhs v st
  else do
    let (a, st) ← d.toAddress rhs st
    match lhs.ee with
    | .ptr p => .ok (emit st 0 (fun _ => .copy p a (d.size lhs.ty))).2
    | _ => .fail

/-- ir.c 308-311 `ir_get_offset`. -/
def getOffset (st : St) (a off : Nat) : Nat × St :=
  let (c, st) := emit st 8 (fun k => .const k off)
  emit st (st.size a) (fun k => .op k .add a c (st.size a))

/-- ir.c 555-565 `ir_binary_op`. -/
def binaryOp (st : St) (o : IrOp) (a b : Nat) : Nat × St :=
  emit st (st.size a) (fun k => .op k (irBinaryOp o) a b (st.size a))

/-- The type as `ir_from_type_and_op` distinguishes it. -/
def Ty.scalar : Ty → Res (Option ST)
  | .simple s => .ok (some s)
  | .ptr _ => .ok none
  | _ => .fail

/-- The addresses of the arguments, src/abi/sysv.c 204-207. -/
def Decls.addresses (d : Decls) : List EV → St → Res (List (Nat × Nat) × St)
  | [], st => .ok ([], st)
  | e :: r, st => do
    let (a, st) ← d.toAddress e st
    let (l, st) ← d.addresses r st
    .ok ((a, d.size e.ty) :: l, st)

/-- src/abi/sysv.c 195-290 `sysv_expr_call` for a result that is no structure. -/
def Decls.callIr (d : Decls) (callee : EV) (args : List EV) (st : St) : Res (EE × St) :=
  match callee.ty with
  | .ptr (.func s) => do
    let (as, st) ← d.addresses args st
    let (f, st) ← d.toVar callee st
    match (d.sigs s).ret with
    | .simple .void => .ok (.void, (emit st 0 (fun k => .call k f as 0)).2)
    | .simple r =>
      if isInteger r then
        let (v, st) := emit st (sizeOf .sysv r) (fun k => .call k f as (sizeOf .sysv r))
        .ok (.var v, st)
      else .fail
    | .ptr _ =>
      let (v, st) := emit st 8 (fun k => .call k f as 8)
      .ok (.var v, st)
    | _ => .fail
  | _ => .fail

/-- `type_sizeof(type_deref(…))` evaluated, expression_to_ir.c 312: a constant. -/
def Decls.sizeEV (d : Decls) (t : Ty) : EV := ⟨.ulong, false, .const 8 (d.size t)⟩

/-- The nodes of a pointer and an index times the size, expression_to_ir.c 314-329, 594-608. -/
def Decls.pointerStep (d : Decls) (sub : Bool) (pointer index : EV) (st : St) : Res (Nat × Nat × St) := do
  let (index, st) ← d.castEV index .ulong st
  let (p, st) ← d.toVar pointer st
  let (i, st) ← d.toVar index st
  let (s, st) ← d.toVar (d.sizeEV pointer.ty.target) st
  let (i, st) := emit st (st.size i) (fun k => .op k .mul i s (st.size i))
  let (r, st) := emit st (st.size p) (fun k => .op k (if sub then .sub else .add) p i (st.size p))
  .ok (p, r, st)

mutual
/-- expression_to_ir.c 674-726 `expression_evaluate`: the type of the result is the type of the
expression. -/
def Decls.evaluate (d : Decls) (e : TE) (st : St) : Res (EV × St) := do
  let (lv, ee, st) ← d.kind e st
  .ok (⟨d.tyOf e, lv, ee⟩, st)
termination_by (sizeOf e, 1)

/-- The functions that `expression_evaluate` calls, by the kind of the expression. -/
def Decls.kind (d : Decls) (e : TE) (st : St) : Res (Bool × EE × St) :=
  match e with
  -- 282-307, CONSTANT_TYPE
  | .const t x => .ok (false, .const (Simple.sizeOf .sysv t) x, st)
  -- 247-254: the node with the address of the variable was made by its declaration; its number
  -- is the number of the variable
  | .sym x => .ok (true, .ptr x, st)
  -- 209-245; a constant address is left out
  | .deref a => do
    let (r, st) ← d.evaluate a st
    match r.ee with
    | .var n => .ok (true, .ptr n, st)
    | .ptr p =>
      let (v, st) := emit st 8 (fun k => .load k p 8)
      .ok (true, .ptr v, st)
    | _ => .fail
  -- 264-280
  | .call f args => do
    let (callee, st) ← d.evaluate f st
    match callee.ty with
    | .ptr (.func s) => do
      let (as, st) ← d.arguments (d.sigs s).params args st
      let (ee, st) ← d.callIr callee as st
      .ok (false, ee, st)
    | _ => .fail
  -- 309-335
  | .ptrArith sub a b => do
    let (p, st) ← d.evaluate a st
    let (i, st) ← d.evaluate b st
    let (_, r, st) ← d.pointerStep sub p i st
    .ok (false, .var r, st)
  -- 337-352
  | .ptrDiff a b => do
    let (l, st) ← d.evaluate a st
    let (r, st) ← d.evaluate b st
    let (lv, st) ← d.toVar l st
    let (rv, st) ← d.toVar r st
    let (s, st) ← d.toVar (d.sizeEV (d.tyOf a).target) st
    let (x, st) := emit st (st.size lv) (fun k => .op k .sub lv rv (st.size lv))
    let (q, st) := emit st (st.size x) (fun k => .op k .idiv x s (st.size x))
    .ok (false, .var q, st)
  -- 354-387
  | .member a i => do
    let (l, st) ← d.evaluate a st
    match d.field l.ty i with
    | some f => do
      let (p, st) ← d.toAddress l st
      let (p, st) := getOffset st p f.offset
      match f.bits with
      | some (off, len) =>
        match f.ty with
        | .simple s => do
          let sgn ← isSigned s
          .ok (l.lv, .bits p off len sgn, st)
        | _ => .fail
      | none => .ok (l.lv, .ptr p, st)
    | none => .fail
  -- 389-392
  | .cast t a => do
    let (r, st) ← d.evaluate a st
    let (r, st) ← d.castEV r t st
    .ok (r.lv, r.ee, st)
  -- 394-406
  | .addr a => do
    let (r, st) ← d.evaluate a st
    match r.ee with
    | .ptr p => .ok (false, .var p, st)
    | _ => .fail
  -- 408-420
  | .decay a => do
    let (r, st) ← d.evaluate a st
    match r.ee with
    | .ptr p => .ok (false, .var p, st)
    | _ => .fail
  -- 432-445
  | .bin op a b => do
    let (l, st) ← d.evaluate a st
    let (r, st) ← d.evaluate b st
    let (lv, st) ← d.toVar l st
    let (rv, st) ← d.toVar r st
    let o ← irFromTypeAndOp (← (d.tyOf a).scalar) op
    let (v, st) := binaryOp st o lv rv
    .ok (false, .var v, st)
  -- 447-480
  | .un op a => do
    let (r, st) ← d.evaluate a st
    if op = .plus then .ok (r.lv, r.ee, st)
    else do
      let (v, st) ← d.toVar r st
      if (d.tyOf a).isInt then
        match op with
        | .bnot =>
          let (n, st) := emit st (st.size v) (fun k => .bnot k v (st.size v))
          .ok (false, .var n, st)
        | _ =>
          let (n, st) := emit st (st.size v) (fun k => .neg k v (st.size v))
          .ok (false, .var n, st)
      else .fail
  -- 482-493
  | .assign a b => do
    let (l, st) ← d.evaluate a st
    let (r, st) ← d.evaluate b st
    let (r, st) ← d.castEV r (d.tyOf a) st
    if l.lv then do
      let st ← d.assignEE l r st
      .ok (r.lv, r.ee, st)
    else .fail
  -- 495-534
  | .assignOp op post a b => do
    let (l, st) ← d.evaluate a st
    let (r, st) ← d.evaluate b st
    let o ← irFromTypeAndOp (← (d.tyOf b).scalar) op
    let (lv, st) ← d.toVar l st
    let (rv, st) ← d.toVar r st
    let (x, st) := d.castVar lv l.ty (d.tyOf b) st
    let (x, st) := binaryOp st o x rv
    let (x, st) := d.castVar x (d.tyOf b) l.ty st
    let st ← assignTo l x st
    .ok (false, .var (if post then lv else x), st)
  -- 536-587
  | .cond c a b => do
    let (cv, st) ← d.evaluate c st
    let (cn, st) ← d.toVar cv st
    if d.tyOf a = .void then do
      let (blockEnd, st) := newBlock st
      let (t, f, st) := select st cn
      let (_, st) ← d.evaluate a (start st t)
      let st ← connect st st.cur blockEnd
      let (_, st) ← d.evaluate b (start st f)
      let st ← connect st st.cur blockEnd
      .ok (false, .void, start st blockEnd)
    else do
      let (t, f, st) := select st cn
      let (av, st) ← d.evaluate a (start st t)
      let (ap, st) ← d.toAddress av st
      let t := st.cur
      let (bv, st) ← d.evaluate b (start st f)
      let (bp, st) ← d.toAddress bv st
      let f := st.cur
      let (r, st) ← region st t f
      let (p, st) := emit (start st r) (st.size ap) (fun k => .phi k ap bp)
      .ok (false, .ptr p, st)
  -- 589-619
  | .assignPtr sub post a b => do
    let (p, st) ← d.evaluate a st
    let (i, st) ← d.evaluate b st
    let (old, new, st) ← d.pointerStep sub p i st
    let st ← assignTo p new st
    .ok (false, .var (if post then old else new), st)
  -- 713-716
  | .comma a b => do
    let (_, st) ← d.evaluate a st
    let (r, st) ← d.evaluate b st
    .ok (r.lv, r.ee, st)
  | .anil => .fail
  | .acons _ _ => .fail
termination_by (sizeOf e, 0)

/-- expression_to_ir.c 269-277: the arguments, converted to the types of the parameters. -/
def Decls.arguments (d : Decls) (params : List Ty) (args : TE) (st : St) : Res (List EV × St) :=
  match args with
  | .acons a rest => do
    let (e, st) ← d.evaluate a st
    match params with
    | p :: ps => do
      let (e, st) ← d.castEV e p st
      let (l, st) ← d.arguments ps rest st
      .ok (e :: l, st)
    | [] => do
      let (l, st) ← d.arguments [] rest st
      .ok (e :: l, st)
  | _ => .ok ([], st)
termination_by (sizeOf args, 0)
end

/-- expression_to_ir.c 729-732 `expression_to_ir`: the node with the value. -/
def Decls.expressionToIr (d : Decls) (e : TE) (st : St) : Res (Nat × St) := do
  let (r, st) ← d.evaluate e st
  d.toVar r st

end Verif.ExprIr
