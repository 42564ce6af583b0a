import Verif.Simple
import Verif.StaticInit
/-!
Address constants and compound literals in static initialisers
(src/parser/expression.c:82-106, 274-317, 389-471, 899-1093, src/codegen/rodata.c:82-85, 163-250,
src/arch/x64.c:574-616, src/parser/declaration.c:1151).

Simplifications: `const` and the nodes `E_CONST_REMOVE` that it makes are left out, sizes are those
below 2^31 (C109 is about larger ones), a bit-field is no operand of an addition, and the operators
on integers are not repeated here: an integer constant expression is the constant it folds to
(C16, C21).  Of the expressions that are no constants there are those that lead to a compound
literal.
-/
namespace Verif.AddrConst
open Verif Verif.Simple Verif.StaticInit

/-- Types: src/types.h:64-108.  A structure or union is its number in `Decls`. -/
inductive Ty where
  | simple (s : ST)
  | ptr (t : Ty)
  | array (t : Ty) (n : Nat)
  | record (k : Nat)
  | func
  deriving DecidableEq, Repr, Inhabited

/-- What `type_get_offsets` (src/types.c:315-334) and `type_select` (301-313) give for a member;
`bitSize` is -1 for a member that is no bit-field. -/
structure Member where
  offset : Nat
  bitSize : Int
  ty : Ty
  deriving DecidableEq, Repr, Inhabited

/-- The ABI, the sizes of the structures and unions and their members. -/
structure Decls where
  abi : Abi
  size : Nat → Nat
  member : Nat → Nat → Option Member

/-- src/arch/x64.c:166-193 `calculate_size`. -/
def sizeOf (d : Decls) : Ty → Int
  | .simple s => Simple.sizeOf d.abi s
  | .ptr _ => 8
  | .array t n => n * sizeOf d t
  | .record k => d.size k
  | .func => -1

/-- src/types.c:297-299 `type_is_pointer`. -/
def Ty.isPtr : Ty → Bool
  | .ptr _ => true
  | _ => false

/-- src/types.c:230-259 `type_is_integer`. -/
def Ty.isInt : Ty → Bool
  | .simple s => isInteger s
  | _ => false

/-- src/arch/x64.h:49-72 `struct constant`: `CONSTANT_TYPE`, `CONSTANT_LABEL` (the object at the
label) and `CONSTANT_LABEL_POINTER` (its address).  Offsets are of type `int64_t`. -/
inductive K where
  | num (t : Ty) (v : BitVec 64)
  | lab (t : Ty) (label : Int) (offset : Int)
  | ptr (t : Ty) (label : Int) (offset : Int)
  deriving DecidableEq, Repr, Inhabited

/-- `constant->data_type`. -/
def K.ty : K → Ty
  | .num t _ => t
  | .lab t _ _ => t
  | .ptr t _ _ => t

mutual
/-- src/parser/expression.h `struct expr`; the last type of a node is its `data_type`. -/
inductive T where
  /-- `E_CONSTANT` -/
  | const (k : K)
  /-- `E_COMPOUND_LITERAL` -/
  | literal (t : Ty) (init : TI)
  /-- `E_ARRAY_PTR_DECAY` -/
  | decay (a : T) (t : Ty)
  /-- `E_ADDRESS_OF` -/
  | addr (a : T) (t : Ty)
  /-- `E_INDIRECTION` -/
  | deref (a : T) (t : Ty)
  /-- `E_DOT_OPERATOR` -/
  | dot (a : T) (i : Nat) (t : Ty)
  /-- `E_POINTER_ADD` -/
  | padd (a b : T) (t : Ty)
  /-- `E_POINTER_SUB` -/
  | psub (a b : T) (t : Ty)
  /-- `E_CAST` -/
  | cast (a : T) (t : Ty)
/-- src/parser/declaration.h:9-28 `struct initializer`, as in `StaticInit.Node`. -/
inductive TI where
  | empty
  | string (bs : List Byte) (room : Nat)
  | expr (e : T)
  | last
  | entry (offset : Nat) (bitOffset bitSize : Int) (i rest : TI)
end

/-- `expr->data_type`. -/
def T.ty : T → Ty
  | .const k => k.ty
  | .literal t _ => t
  | .decay _ t => t
  | .addr _ t => t
  | .deref _ t => t
  | .dot _ _ t => t
  | .padd _ _ t => t
  | .psub _ _ t => t
  | .cast _ t => t

/-- A result of type `int64_t`: overflow is undefined. -/
def int64 (x : Int) : Res Int := if -2 ^ 63 ≤ x ∧ x < 2 ^ 63 then .ok x else .ub

/-- src/arch/x64.c:574-616 `constant_cast`; `constant_to_u64` (562-573) of an integer is its bits. -/
def constantCast (d : Decls) (k : K) (t : Ty) : Res K :=
  match k with
  | .lab u l o => if u.isPtr && t.isPtr then .ok (.lab t l o) else .fail
  | .ptr u l o => if u = t then .ok k else if t.isPtr && u.isPtr then .ok (.ptr t l o) else .fail
  | .num u v =>
    if u = t then .ok k
    else if t.isPtr && u.isPtr then .ok (.num t v)
    else if t.isPtr && u.isInt then .ok (.num t v)
    else match u, t with
      | .simple a, .simple b => do
        let c ← simpleCast d.abi ⟨a, v⟩ b
        .ok (.num (.simple c.ty) c.bits)
      | _, _ => .fail

/-- src/parser/expression.c:906-925 the case `E_CAST`. -/
def evalCast (d : Decls) (k : K) (t : Ty) : Res (Option K) :=
  match k with
  | .lab _ _ _ => .ok none
  | .ptr u l o =>
    if u.isPtr && !t.isPtr then
      if l = -1 then .ok (some (.num t (BitVec.ofInt 64 o))) else .ok none
    else do .ok (some (← constantCast d k t))
  | .num u _ =>
    if u.isPtr && !t.isPtr then .ok none
    else do .ok (some (← constantCast d k t))

/-- src/parser/expression.c:936-954 the cases `E_POINTER_ADD` (`sign` is 1) and `E_POINTER_SUB`
(`sign` is -1). -/
def evalStep (d : Decls) (sign : Int) (l r : K) : Res (Option K) :=
  match l, r with
  | .ptr (.ptr u) label o, .num (.simple .int) v => do
    let step ← int64 (v.toInt * sizeOf d u)
    let o ← int64 (o + sign * step)
    .ok (some (.ptr (.ptr u) label o))
  -- `type_deref` of another type
  | .ptr _ _ _, .num (.simple .int) _ => .fail
  | _, _ => .ok none

/-- src/parser/expression.c:956-979 the case `E_DOT_OPERATOR`. -/
def evalDot (d : Decls) (k : K) (i : Nat) : Res (Option K) :=
  match k with
  | .lab (.record r) l o =>
    match d.member r i with
    | none => .ub
    | some m =>
      if m.bitSize ≠ -1 then .ok none
      else do .ok (some (.lab m.ty l (← int64 (o + m.offset))))
  | .lab _ _ _ => .fail
  | _ => .ok none

/-- src/parser/expression.c:1000-1011 the case `E_ARRAY_PTR_DECAY`. -/
def evalDecay (a : T) (t : Ty) : Res (Option K) :=
  match a with
  | .const (.lab _ l o) => .ok (some (.ptr t l o))
  | .const _ => .fail
  | _ => .ok none

/-- src/parser/expression.c:1035-1047 the case `E_ADDRESS_OF`. -/
def evalAddr (k : K) (t : Ty) : Option K :=
  match k with
  | .lab _ l o => some (.ptr t l o)
  | _ => none

/-- src/parser/expression.c:1049-1061 the case `E_INDIRECTION`. -/
def evalDeref (k : K) (t : Ty) : Option K :=
  match k with
  | .ptr _ l o => some (.lab t l o)
  | _ => none

/-- An operand that is no constant: the expression is none. -/
def onConst (x : Res (Option K)) (f : K → Res (Option K)) : Res (Option K) := do
  match ← x with
  | none => .ok none
  | some k => f k

/-- src/parser/expression.c:899-1083 `evaluate_constant_expression`. -/
def eval (d : Decls) : T → Res (Option K)
  | .const k => .ok (some k)
  | .literal _ _ => .ok none
  | .decay a t => evalDecay a t
  | .addr a t => onConst (eval d a) fun k => .ok (evalAddr k t)
  | .deref a t => onConst (eval d a) fun k => .ok (evalDeref k t)
  | .dot a i _ => onConst (eval d a) fun k => evalDot d k i
  | .padd a b _ => onConst (eval d a) fun l => onConst (eval d b) fun r => evalStep d 1 l r
  | .psub a b _ => onConst (eval d a) fun l => onConst (eval d b) fun r => evalStep d (-1) l r
  | .cast a t => onConst (eval d a) fun k => evalCast d k t

/-- src/parser/expression.c:451-460 (and src/codegen/rodata.c:222-230): an expression that is a
constant is replaced by it. -/
def fold (d : Decls) (e : T) : Res T := do
  match ← eval d e with
  | none => .ok e
  | some k => .ok (.const k)

/-- src/parser/expression.c:82-95 `decay_array`. -/
def decayArray (d : Decls) (e : T) : Res T :=
  match e.ty with
  | .array t _ => fold d (.decay e (.ptr t))
  | .func => fold d (.addr e (.ptr .func))
  | _ => .ok e

/-- src/parser/expression.c:1086-1093 `expression_cast`. -/
def mkCast (d : Decls) (e : T) (t : Ty) : Res T := do
  let e ← decayArray d e
  if e.ty = t then .ok e else fold d (.cast e t)

/-- src/parser/expression.c:97-106 `do_integer_promotion`. -/
def promoteInt (d : Decls) (e : T) : Res T :=
  match e.ty with
  | .simple s =>
    if isInteger s then do
      if ← isContainedIn d.abi .int (-1) s (-1) then mkCast d e (.simple .int) else .ok e
    else .ok e
  | _ => .ok e

/-- `&` (src/parser/expression.c:551-557, 404-471). -/
def mkAddr (d : Decls) (e : T) : Res T := fold d (.addr e (.ptr e.ty))

/-- `*` (src/parser/expression.c:404-471, 138-139). -/
def mkDeref (d : Decls) (e : T) : Res T := do
  let e ← decayArray d e
  match e.ty with
  | .ptr t => fold d (.deref e t)
  | _ => .fail

/-- One `E_DOT_OPERATOR` of src/parser/expression.c:389-402 `expr_dot_operator`. -/
def mkDot (d : Decls) (e : T) (i : Nat) : Res T :=
  match e.ty with
  | .record r =>
    match d.member r i with
    | some m => fold d (.dot e i m.ty)
    | none => .fail
  | _ => .fail

/-- `+` (src/parser/expression.c:404-431, 301-317) with a pointer: the pointer goes to the left.
Other sums are not part of this model. -/
def mkAdd (d : Decls) (a b : T) : Res T := do
  let a ← decayArray d a
  let b ← decayArray d b
  let a ← promoteInt d a
  let b ← promoteInt d b
  if a.ty.isPtr && b.ty.isPtr then .fail
  else if a.ty.isPtr then fold d (.padd a b a.ty)
  else if b.ty.isPtr then fold d (.padd b a b.ty)
  else .fail

/-- `-` (src/parser/expression.c:404-431, 291-299) of a pointer and an integer.  Other differences
are not part of this model. -/
def mkSub (d : Decls) (a b : T) : Res T := do
  let a ← decayArray d a
  let b ← decayArray d b
  let a ← promoteInt d a
  let b ← promoteInt d b
  if a.ty.isPtr && !b.ty.isPtr then fold d (.psub a b a.ty) else .fail

mutual
/-- Expressions as written.  `e[i]` is `*(e + i)` (src/parser/expression.c:840-848) and `e->m` is
`(*e).m` (864-868).  `place` tells the compound literals apart: their position in the source. -/
inductive E where
  /-- a static object, a function or a string literal (src/parser/expression.c:598-607,
  src/parser/expression.h:38-44) -/
  | obj (label : Int) (t : Ty)
  | lit (place : Nat) (t : Ty) (init : I)
  /-- an integer constant expression -/
  | num (s : ST) (v : Int)
  | addr (e : E)
  | deref (e : E)
  | dot (e : E) (i : Nat)
  | add (a b : E)
  | sub (a b : E)
  | cast (t : Ty) (e : E)
/-- Initialisers after `parse_initializer` has matched them with the members and elements: an
expression comes with the type of what it initialises. -/
inductive I where
  | empty
  | string (bs : List Byte) (room : Nat)
  | expr (t : Ty) (e : E)
  | last
  | entry (offset : Nat) (bitOffset bitSize : Int) (i rest : I)
end

mutual
/-- What the parser builds (src/parser/expression.c:490-894). -/
def build (d : Decls) : E → Res T
  | .obj l t => .ok (.const (.lab t l 0))
  | .lit _ t i => do .ok (.literal t (← buildI d i))
  | .num s v => .ok (.const (.num (.simple s) (BitVec.ofInt 64 v)))
  | .addr e => do mkAddr d (← build d e)
  | .deref e => do mkDeref d (← build d e)
  | .dot e i => do mkDot d (← build d e) i
  | .add a b => do
    let a ← build d a
    mkAdd d a (← build d b)
  | .sub a b => do
    let a ← build d a
    mkSub d a (← build d b)
  | .cast t e => do mkCast d (← build d e) t
/-- src/parser/declaration.c:1151: the expressions of an initialiser are converted to the type of
what they initialise. -/
def buildI (d : Decls) : I → Res TI
  | .empty => .ok .empty
  | .string bs room => .ok (.string bs room)
  | .expr t e => do .ok (.expr (← mkCast d (← build d e) t))
  | .last => .ok .last
  | .entry o bo bs i rest => do
    let i ← buildI d i
    .ok (.entry o bo bs i (← buildI d rest))
end

/-- A step of a member designator: `.m` or `[v]` with a constant of type `s`. -/
inductive Step where
  | member (i : Nat)
  | index (s : ST) (v : Int)

/-- The expression with one more step (src/parser/expression.c:389-402, 840-848). -/
def addStep (e : E) : Step → E
  | .member i => .dot e i
  | .index s v => .deref (.add e (.num s v))

/-- src/parser/expression.c:744-768 `offsetof`: the address of the member of an object at the label
-1, cast to `unsigned long`. -/
def offsetof (t : Ty) (p : List Step) : E := .cast (.simple .ulong) (.addr (p.foldl addStep (.obj (-1) t)))

/-- The compound literals met: the label, the type and the initialiser of each. -/
abbrev Lits := List (Int × Ty × TI)

/-- src/codegen/rodata.c:163-234 `codegen_compound_literals`; `next` is `tmp_label_idx` of
`register_label` (82-85).  The result is the expression, the new `tmp_label_idx` and the literals
that are emitted. -/
def literals (d : Decls) (lvalue : Bool) (next : Int) : T → Res (T × Int × Lits)
  | .const k => .ok (.const k, next, [])
  | .dot a i t =>
    if lvalue then do
      let (a, next, ls) ← literals d true next a
      .ok (← fold d (.dot a i t), next, ls)
    else .fail
  | .literal t init =>
    if lvalue then .ok (.const (.lab t next 0), next - 1, [(next, t, init)])
    else .ok (.literal t init, next, [])
  | .decay a t => do
    let (a, next, ls) ← literals d true next a
    .ok (← fold d (.decay a t), next, ls)
  | .addr a t => do
    let (a, next, ls) ← literals d true next a
    .ok (← fold d (.addr a t), next, ls)
  | .deref a t => do
    let (a, next, ls) ← literals d false next a
    .ok (← fold d (.deref a t), next, ls)
  | .cast a t => do
    let (a, next, ls) ← literals d lvalue next a
    .ok (← fold d (.cast a t), next, ls)
  | .padd a b t => do
    let (a, next, ls) ← literals d lvalue next a
    let (b, next, ms) ← literals d lvalue next b
    .ok (← fold d (.padd a b t), next, ls ++ ms)
  | .psub a b t => do
    let (a, next, ls) ← literals d lvalue next a
    let (b, next, ms) ← literals d lvalue next b
    .ok (← fold d (.psub a b t), next, ls ++ ms)

/-- src/codegen/rodata.c:236-250 `codegen_pre_initializer`. -/
def preInitializer (d : Decls) (next : Int) : TI → Res (TI × Int × Lits)
  | .expr e => do
    let (e, next, ls) ← literals d false next e
    .ok (.expr e, next, ls)
  | .entry o bo bs i rest => do
    let (i, next, ls) ← preInitializer d next i
    let (rest, next, ms) ← preInitializer d next rest
    .ok (.entry o bo bs i rest, next, ls ++ ms)
  | i => .ok (i, next, [])

mutual
/-- An expression as src/codegen/rodata.c:120-147 takes it. -/
def exprNode (d : Decls) : T → Node
  | .const (.num t v) => .const (sizeOf d t).toNat v
  | .const (.ptr _ l o) => .address l (BitVec.ofInt 64 o)
  | .const (.lab _ _ _) => .labelConst
  | .literal _ i => .literal (node d i)
  | _ => .other
/-- An initialiser as src/codegen/rodata.c:108-159 `codegen_initializer_recursive` takes it. -/
def node (d : Decls) : TI → Node
  | .empty => .empty
  | .string bs room => .string bs room
  | .expr e => exprNode d e
  | .last => .last
  | .entry o bo bs i rest => .entry o bo bs (node d i) (node d rest)
end

/-- src/codegen/rodata.c:174-177: what is emitted for a compound literal. -/
def pendingOf (d : Decls) (l : Int × Ty × TI) : Int × Nat × Node :=
  (l.1, (sizeOf d l.2.1).toNat, node d l.2.2)

/-- The parts that `codegen_static_var` (src/codegen/rodata.c:304-326) emits for an initialiser: the
compound literals and the initialiser itself, the arguments of `StaticInit.codegenStaticVar`. -/
def parts (d : Decls) (next : Int) (i : I) : Res (Pending × Node) := do
  let i ← buildI d i
  let (i, _, ls) ← preInitializer d next i
  .ok (ls.map (pendingOf d), node d i)

end Verif.AddrConst
