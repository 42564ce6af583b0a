import Verif.Simple
/-!
Model of constant expressions: what `expr_new` and `expression_cast` (src/parser/expression.c
64-115, 221-300, 401-471, 534-620, 620-660, 775-860, 897-1093) make of an expression without side
effects, and what `expression_to_constant` and `constant_is_zero` (1095-1116) say about it.
`_Static_assert` (src/parser/declaration.c:1400-1427) is the simplest user; enumerators are in
`Enumerators.lean`.

Every subexpression is folded when it is built, so a tree is a constant or something that
`evaluate_constant_expression` gives up on (it gives up again when asked about it as an operand).
Of the latter only the type matters here.

Simplifications:

* types are simple types: addresses, null pointers and members of objects with an address are
  left out;
* floating constants occur (as the 64 bits of the union), but arithmetic and conversions with them
  are outside the model and fail;
* names are enumeration constants; an object is a leaf with its type;
* the results of `sizeof` and `_Alignof` and character constants are leaves (C05, C19, C62).
-/
namespace Verif.ConstExpr
open Verif Simple

/-- Expressions as they are written. -/
inductive E where
  /-- an integer constant with its spelling -/
  | num (s : Str)
  /-- a character constant, `sizeof` or `_Alignof` -/
  | lit (t : ST) (v : Int)
  /-- a floating constant of type double -/
  | dbl (bits : BitVec 64)
  /-- an identifier declared as an enumeration constant -/
  | name (x : Str)
  /-- an object of type `t` -/
  | obj (t : ST)
  | un (op : UOp) (e : E)
  | bin (op : Op) (a b : E)
  | cast (t : ST) (e : E)
  | not (e : E)
  | and (a b : E)
  | or (a b : E)
  | cond (c a b : E)
  | comma (a b : E)
  deriving DecidableEq, Repr

/-- A `struct expr` that has been built: `E_CONSTANT`, or another with its `data_type`. -/
inductive Tree where
  | const (c : Const)
  | other (t : ST)
  deriving DecidableEq, Repr

/-- `expr->data_type`. -/
def Tree.ty : Tree → ST
  | .const c => c.ty
  | .other t => t

/-- src/arch/x64.c:647-661 `constant_simple_signed` and `constant_simple_unsigned`. -/
def simpleConst (t : ST) (v : Int) : Const := ⟨t, BitVec.ofInt 64 v⟩

/-- `EXPR_INT` (src/parser/expression.h). -/
def exprInt (v : Int) : Tree := .const (simpleConst .int v)

/-- expression.c:1086-1093 `expression_cast` with the case `E_CAST` of `expr_new` (905-924):
nothing to do for the same type; a constant is converted (`constant_cast`, src/arch/x64.c:575-616). -/
def castTo (abi : Abi) (e : Tree) (t : ST) : Res Tree :=
  if e.ty = t then .ok e
  else match e with
    | .const c => do
      let c' ← simpleCast abi c t
      pure (.const c')
    | .other _ => .ok (.other t)

/-- expression.c:97-106 `do_integer_promotion` (no bit-fields). -/
def promoteTree (abi : Abi) (e : Tree) : Res Tree :=
  if isInteger e.ty then do
    if ← isContainedIn abi .int (-1) e.ty (-1) then castTo abi e .int else pure e
  else .ok e

/-- expression.c:64-81 `convert_arithmetic`. -/
def convertArith (abi : Abi) (a b : Tree) : Res (Tree × Tree) := do
  let t ← arithType abi a.ty (-1) b.ty (-1)
  let a' ← castTo abi a t
  let b' ← castTo abi b t
  pure (a', b')

/-- `EXPR_UNARY_OP`: expression.c:426-431, 124-125, 972-980. -/
def unary (abi : Abi) (op : UOp) (e : Tree) : Res Tree := do
  match ← promoteTree abi e with
  | .const c => do
    let r ← foldUnary abi op c
    pure (.const r)
  | .other t => pure (.other t)

/-- `EXPR_BINARY_OP`: the promotions (426-431), `fix_binary_operator` (272-290: a shift converts
its right operand to the type of the left one), the result type (120-122) and the folding
(962-970). -/
def binary (abi : Abi) (op : Op) (a b : Tree) : Res Tree := do
  let a ← promoteTree abi a
  let b ← promoteTree abi b
  let (a, b) ← (if op = .lshift ∨ op = .rshift then do
      let b ← castTo abi b a.ty
      pure (a, b)
    else convertArith abi a b)
  match a, b with
  | .const l, .const r => do
    match ← foldBinary abi op l r with
    | some c => pure (.const c)
    | none => pure (.other (resultType op l.ty))
  | _, _ => pure (.other (resultType op a.ty))

/-- expression.c:1099-1116 `constant_is_zero`: for a float it looks at `double_d`, for a double at
`float_d`, the lower half of the union. -/
def constIsZero (c : Const) : Bool :=
  match c.ty with
  | .float => c.bits &&& 0x7fffffffffffffff = 0
  | .double => c.bits &&& 0x7fffffff = 0
  | t => if isInteger t then c.bits = 0 else false

/-- src/types.c `type_is_arithmetic` on a simple type. -/
def isArithmetic (t : ST) : Bool := isInteger t || isFloating t

/-- `EXPR_ARGS(E_CONDITIONAL, c, a, b)`: the promotions, `cast_conditional` (233-268) and the
folding (1011-1033), which needs three constants. -/
def conditional (abi : Abi) (c a b : Tree) : Res Tree := do
  let c ← promoteTree abi c
  let a ← promoteTree abi a
  let b ← promoteTree abi b
  let (a, b) ← (if a.ty = b.ty then pure (a, b)
    else if isArithmetic a.ty && isArithmetic b.ty then convertArith abi a b
    else .fail)
  match c, a, b with
  | .const z, .const x, .const y => pure (.const (if constIsZero z then y else x))
  | _, _, _ => pure (.other a.ty)

/-- `E_COMMA`: 1063-1071 and 186-187. -/
def commaOp (a b : Tree) : Tree :=
  match a, b with
  | .const _, .const y => .const y
  | _, _ => .other b.ty

/-- The expression built by the parser.  `names` are the enumeration constants in scope. -/
def build (abi : Abi) (names : Str → Option Const) : E → Res Tree
  | .num s => if isFloat s then .fail else do
      -- expression.c:638-644
      let c ← integerConstant abi s
      pure (.const c)
  | .lit t v => .ok (.const (simpleConst t v))
  | .dbl b => .ok (.const ⟨.double, b⟩)
  | .name x => match names x with
      -- expression.c:590-620: `ERROR` if unknown
      | some c => .ok (.const c)
      | none => .fail
  | .obj t => .ok (.other t)
  | .un op e => do
      let e ← build abi names e
      unary abi op e
  | .bin op a b => do
      let a ← build abi names a
      let b ← build abi names b
      binary abi op a b
  | .cast t e => do
      -- expression.c:546-549
      let e ← build abi names e
      castTo abi e t
  | .not e => do
      -- expression.c:565-569
      let e ← build abi names e
      conditional abi e (exprInt 0) (exprInt 1)
  | .and a b => do
      -- expression.c:832-838
      let a ← build abi names a
      let b ← build abi names b
      let b ← conditional abi b (exprInt 1) (exprInt 0)
      conditional abi a b (exprInt 0)
  | .or a b => do
      -- expression.c:827-831
      let a ← build abi names a
      let b ← build abi names b
      let b ← conditional abi b (exprInt 1) (exprInt 0)
      conditional abi a (exprInt 1) b
  | .cond c a b => do
      -- expression.c:822-826
      let c ← build abi names c
      let a ← build abi names a
      let b ← build abi names b
      conditional abi c a b
  | .comma a b => do
      let a ← build abi names a
      let b ← build abi names b
      pure (commaOp a b)

/-- expression.c:1095-1097 `expression_to_constant`. -/
def Tree.constant? : Tree → Option Const
  | .const c => some c
  | .other _ => none

/-- src/parser/declaration.c:1400-1427: `_Static_assert (e)`: `.ok ()` if it is accepted. -/
def staticAssert (abi : Abi) (names : Str → Option Const) (e : E) : Res Unit := do
  let e ← build abi names e
  let r ← binary abi .equal (exprInt 0) e
  match r.constant? with
  | none => .fail
  | some c =>
    if c.ty ≠ .int then .fail
    else if c.bits ≠ 0 then .fail
    else .ok ()

end Verif.ConstExpr
