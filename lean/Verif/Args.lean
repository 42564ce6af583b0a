import Verif.Simple
import Verif.Float
import Verif.X86
/-!
Model of the calls of functions: which calls are accepted and with which types and values the arguments
arrive at the part that follows the calling convention (C41, C77, C98).  src/parser/expression.c:54-62,
83-113, 117-134, 402-449, 475-506, 1086-1093; src/parser/expression_to_ir.c:60-171, 264-280.

Simplifications.  The expressions that are the operands of a call are given by their type, their width if
they are bit-fields, and their value; how the value is computed is the subject of C92.  A constant operand is
an operand like any other: casts of constants are folded (C16).  Arrays and functions have no `const` of
their own.  The nodes made by a conversion are summarised by their effect; that the code of a node has this
effect is the subject of C34 and C74.
-/
namespace Verif.Args
open Verif Simple

/-- src/types.h:63-99 `struct type`; structures and function types are known by a number. -/
inductive Ty where
  | simple (s : ST) (const : Bool)
  | ptr (t : Ty) (const : Bool)
  | record (k : Nat) (const : Bool)
  | array (t : Ty)
  | func (k : Nat)
  deriving DecidableEq, Repr

/-- The type of a function: `children[0]`, the rest of `children`, `function.is_variadic`. -/
structure Sig where
  ret : Ty
  params : List Ty
  variadic : Bool
  deriving DecidableEq, Repr

/-- What the numbers of types mean, and the ABI. -/
structure Decls where
  abi : Abi
  sig : Nat → Sig
  /-- the size of a structure -/
  size : Nat → Nat

/-- `type->is_const`. -/
def Ty.isConst : Ty → Bool
  | .simple _ c | .ptr _ c | .record _ c => c
  | _ => false

/-- src/types.c:165-169 `type_make_const(type, 0)`. -/
def Ty.unconst : Ty → Ty
  | .simple s _ => .simple s false
  | .ptr t _ => .ptr t false
  | .record k _ => .record k false
  | t => t

/-- src/arch/x64.c:166-193 `calculate_size`, of the types of values. -/
def Ty.size (d : Decls) : Ty → Nat
  | .simple s _ => sizeOf d.abi s
  | .ptr _ _ => 8
  | .record k _ => d.size k
  | _ => 0

/-- `type_is_integer`, src/types.c:230-259. -/
def Ty.isInt : Ty → Bool
  | .simple s _ => isInteger s
  | _ => false

/-- `type_is_pointer`, src/types.c:297-299. -/
def Ty.isPtr : Ty → Bool
  | .ptr _ _ => true
  | _ => false

/-- `type_is_floating`, src/types.c:261-290. -/
def Ty.isFlt : Ty → Bool
  | .simple s _ => isFloating s
  | _ => false

/-- `type_is_simple`. -/
def Ty.isSimple (s : ST) : Ty → Bool
  | .simple s' _ => decide (s' = s)
  | _ => false

/-- src/parser/expression.h:10-61 `struct expr`. -/
inductive Ex where
  /-- any expression, with its type; it is a bit-field of the width `bf` (`E_DOT_OPERATOR`) or `bf` is -1;
  `i` stands for its value -/
  | leaf (i : Nat) (t : Ty) (bf : Int)
  | arrayPtrDecay (e : Ex)
  | addressOf (e : Ex)
  | constRemove (e : Ex)
  | cast (e : Ex) (t : Ty)
  deriving DecidableEq, Repr

/-- src/parser/expression.c:117-199 `calculate_type`. -/
def Ex.ty : Ex → Ty
  | .leaf _ t _ => t
  | .arrayPtrDecay e => match e.ty with | .array t => .ptr t false | t => .ptr t false
  | .addressOf e => .ptr e.ty false
  | .constRemove e => e.ty.unconst
  | .cast _ t => t

/-- src/parser/expression.c:54-62 `get_expression_bitfield`. -/
def Ex.bitfield : Ex → Int
  | .leaf _ _ bf => bf
  | _ => -1

/-- src/parser/expression.c:83-95 `decay_array`. -/
def Ex.decay (e : Ex) : Ex :=
  let e := match e.ty with
    | .array _ => .arrayPtrDecay e
    | .func _ => .addressOf e
    | _ => e
  if e.ty.isConst then .constRemove e else e

/-- src/parser/expression.c:1086-1093 `expression_cast`. -/
def Ex.castTo (e : Ex) (t : Ty) : Ex :=
  if e.decay.ty = t then e.decay else .cast e.decay t

/-- src/parser/expression.c:97-106 `do_integer_promotion`. -/
def integerPromotion (abi : Abi) (e : Ex) : Res Ex :=
  match e.ty with
  | .simple s _ =>
    if isInteger s then do
      if ← isContainedIn abi .int (-1) s e.bitfield then .ok (e.castTo (.simple .int false)) else .ok e
    else .ok e
  | _ => .ok e

/-- src/parser/expression.c:108-113 `do_default_argument_promotion`. -/
def defaultPromotion (abi : Abi) (e : Ex) : Res Ex := do
  let e ← integerPromotion abi e
  if e.ty.isSimple .float then .ok (e.castTo (.simple .double false)) else .ok e

/-- `E_CALL`: what is called, the arguments, the type of the result. -/
structure CallEx where
  callee : Ex
  args : List Ex
  ty : Ty

/-- `do_default_argument_promotion` of a list. -/
def defaultPromotions (abi : Abi) : List Ex → Res (List Ex)
  | [] => .ok []
  | e :: es => do
    let e ← defaultPromotion abi e
    let es ← defaultPromotions abi es
    .ok (e :: es)

/-- src/parser/expression.c:420-447 (`expr_new`) and 127-134 (`calculate_type`).

When what is called points to something else than a function, `n` of its type is the number of its
`children`, and `is_variadic` is what else is in the union: the enumerator of a simple type, the address of
the data of a structure.  With no children the loop of 444 begins with `args[-1]`. -/
def makeCall (d : Decls) (callee : Ex) (args : List Ex) : Res CallEx :=
  match callee.decay.ty with
  | .ptr t _ =>
    match t with
    | .func k =>
      let named := (d.sig k).params.length
      -- 437-442
      if if (d.sig k).variadic then named ≤ args.length else named = args.length then do
        let rest ← defaultPromotions d.abi ((args.map Ex.decay).drop named)
        .ok ⟨callee.decay, (args.map Ex.decay).take named ++ rest, (d.sig k).ret⟩
      else .fail
    -- -1 arguments are expected
    | .simple .void _ => .fail
    | .simple _ _ => .ub
    | .record _ _ => .ub
    -- 133
    | _ => .fail
  -- the assertion of 434
  | _ => .fail

/-- src/parser/expression.c:475-506 `parse_call_parameters`, 852-858. -/
def parseCall (d : Decls) (callee : Ex) (args : List Ex) : Res CallEx :=
  if args.length < 128 then makeCall d callee args else .fail

/-! ### Evaluation -/

/-- What a node holds: its size in bytes and its bits. -/
structure V where
  size : Nat
  bits : Nat
  deriving DecidableEq, Repr

/-- The bits as a signed number. -/
def V.sval (v : V) : Int := if v.bits < 2 ^ (8 * v.size - 1) then v.bits else (v.bits : Int) - 2 ^ (8 * v.size)

/-- `IR_BOOL_CAST`, src/codegen/codegen.c:325-332. -/
def boolCast (v : V) : V := ⟨1, if v.bits = 0 then 0 else 1⟩

/-- `IR_INT_CAST_SIGN`, `IR_INT_CAST_ZERO`, src/codegen/codegen.c:304-323, to `n` bytes. -/
def castInt (n : Nat) (sign : Bool) (v : V) : V :=
  ⟨n, if sign ∧ v.size < n then (v.sval % 2 ^ (8 * n)).toNat else v.bits % 2 ^ (8 * n)⟩

/-- `IR_FLOAT_CAST`, src/codegen/codegen.c:334-354, to `n` bytes. -/
def castFloat (F : X86.FP) (n : Nat) (v : V) : Res V :=
  if v.size = 4 ∧ n = 8 then .ok ⟨8, (F.widen (BitVec.ofNat 32 v.bits)).toNat⟩
  else if v.size = 8 ∧ n = 4 then .ok ⟨4, (F.narrow (BitVec.ofNat 64 v.bits)).toNat⟩
  else if v.size = n then .ok v
  else .fail

/-- The format of a floating number of `n` bytes, src/codegen/codegen.c:370-379. -/
def format (n : Nat) : Res Float.Fmt :=
  if n = 4 then .ok Float.f32 else if n = 8 then .ok Float.f64 else .fail

/-- `IR_INT_FLOAT_CAST`, `IR_UINT_FLOAT_CAST`, src/codegen/codegen.c:358-402: the operand as it is in
`%rax`; a signed one of one or two bytes is extended to 32 bits only. -/
def inRax (sign : Bool) (v : V) : Int :=
  if sign then
    if v.size < 4 then v.sval % 2 ^ 32 else v.sval
  else if v.bits < 2 ^ 63 then v.bits else v.bits - 2 ^ 64

/-- `IR_INT_FLOAT_CAST`, `IR_UINT_FLOAT_CAST`, to `n` bytes. -/
def castIntFloat (n : Nat) (sign : Bool) (v : V) : Res V := do
  let f ← format n
  .ok ⟨n, Float.ofInt f (inRax sign v)⟩

/-- `IR_FLOAT_INT_CAST`, src/codegen/codegen.c:404-417: to 64 bits with a sign, 2^63 if that is not
possible. -/
def castFloatInt (n : Nat) (v : V) : Res V := do
  let f ← format v.size
  let x : Int := match Float.trunc f v.bits with
    | some x => if -2 ^ 63 ≤ x ∧ x < 2 ^ 63 then x else -2 ^ 63
    | none => -2 ^ 63
  .ok ⟨n, (x % 2 ^ (8 * n)).toNat⟩

/-- `is_signed`, src/arch/x64.c:16-39. -/
def Ty.signed : Ty → Res Bool
  | .simple s _ => isSigned s
  | _ => .ok false

/-- src/parser/expression_to_ir.c:129-152 `variable_cast`. -/
def variableCast (F : X86.FP) (d : Decls) (v : V) (t u : Ty) : Res V :=
  if t = u then .ok v
  else if u.isSimple .bool then .ok (boolCast v)
  else if (u.isInt || u.isPtr) && (t.isInt || t.isPtr) then
    if u.size d ≠ t.size d then do
      let s ← t.signed
      .ok (castInt (u.size d) s v)
    else .ok v
  else if u.isFlt && t.isFlt then castFloat F (u.size d) v
  else if u.isFlt && t.isInt then do
    let s ← t.signed
    castIntFloat (u.size d) s v
  else if u.isInt && t.isFlt then castFloatInt (u.size d) v
  else .ok v

/-- `struct evaluated_expression`: its type, and its value unless it is `EE_VOID`. -/
structure EE where
  ty : Ty
  v : Option V
  deriving DecidableEq

/-- `evaluated_expression_to_var`, `evaluated_expression_to_address`,
src/parser/expression_to_ir.c:60-127. -/
def EE.var (e : EE) : Res V :=
  match e.v with
  | some v => .ok v
  | none => .fail

/-- src/parser/expression_to_ir.c:154-171 `evaluated_expression_cast`. -/
def EE.cast (F : X86.FP) (d : Decls) (e : EE) (u : Ty) : Res EE :=
  if e.ty = u then .ok e
  else if u.isSimple .void then .ok ⟨u, none⟩
  else do
    let v ← e.var
    let w ← variableCast F d v e.ty u
    .ok ⟨u, some w⟩

/-- src/parser/expression_to_ir.c:673-732 `expression_evaluate`; `env` has the values of the operands, of
arrays and functions their addresses. -/
def Ex.eval (F : X86.FP) (d : Decls) (env : Nat → Option V) : Ex → Res EE
  | .leaf i t _ => .ok ⟨t, env i⟩
  | .arrayPtrDecay e => do
    let r ← e.eval F d env
    .ok ⟨(Ex.arrayPtrDecay e).ty, r.v⟩
  | .addressOf e => do
    let r ← e.eval F d env
    .ok ⟨.ptr e.ty false, r.v⟩
  -- 708-710 with 729
  | .constRemove e => do
    let r ← e.eval F d env
    .ok ⟨e.ty.unconst, r.v⟩
  | .cast e t => do
    let r ← e.eval F d env
    r.cast F d t

/-- src/parser/expression_to_ir.c:270-277: the arguments; each with a parameter is converted to its type. -/
def evalArgs (F : X86.FP) (d : Decls) (env : Nat → Option V) : List Ex → List Ty → Res (List EE)
  | [], _ => .ok []
  | e :: es, [] => do
    let r ← e.eval F d env
    let rs ← evalArgs F d env es []
    .ok (r :: rs)
  | e :: es, p :: ps => do
    let r ← e.eval F d env
    let r ← r.cast F d p
    let rs ← evalArgs F d env es ps
    .ok (r :: rs)

/-- src/abi/sysv.c:204-207, src/abi/microsoft.c: types and values of the arguments are taken. -/
def takeArgs : List EE → Res (List (Ty × V))
  | [] => .ok []
  | e :: es => do
    let v ← e.var
    let vs ← takeArgs es
    .ok ((e.ty, v) :: vs)

/-- What a call does before control goes to the function: its address, the arguments, the type of the
result. -/
structure Passed where
  address : V
  args : List (Ty × V)
  ret : Ty
  deriving DecidableEq

/-- src/parser/expression_to_ir.c:264-280 `evaluate_call`. -/
def evalCall (F : X86.FP) (d : Decls) (env : Nat → Option V) (c : CallEx) : Res Passed := do
  let f ← c.callee.eval F d env
  let sig ← match f.ty with
    | .ptr (.func k) _ => .ok (d.sig k)
    | _ => .fail
  let args ← evalArgs F d env c.args sig.params
  let args ← takeArgs args
  let a ← f.var
  .ok ⟨a, args, c.ty⟩

/-- A call, from its operands to the arguments that are passed. -/
def call (F : X86.FP) (d : Decls) (env : Nat → Option V) (callee : Ex) (args : List Ex) : Res Passed := do
  let c ← parseCall d callee args
  evalCall F d env c

end Verif.Args
