import Verif.Basic
/-!
Model of the sizes of types and of the lengths of variable length arrays: src/types.c:346-431,
src/arch/x64.c:166-193, the operator `sizeof` (src/parser/expression.c:558-573), type names and
declarations (src/parser/declaration.c:653-696, 1187-1202, 1247-1256, 1361-1385) and address arithmetic
(src/parser/expression_to_ir.c:309-334).

The parser writes instructions while it reads: the length of an array in a type name is evaluated as soon
as the type name is read, the expression around it when it has been read to its end.

Simplifications.  The variables are of type `unsigned long` or pointers, and a length has that type, so
that the conversion to `size_t` (declaration.c:669) is none; conversions are the subject of C92.  Memory is
not written through pointers; names are declared once.  A `struct type` with an array that is not yet
evaluated belongs to one declaration, so that the mark `is_evaluated` is kept in the tree of the type.
Of constant folding (C100) sums and products of constants are modelled.  The instructions of an expression
are summarised by their effect `TE.eval` (C92).
-/
namespace Verif.SizeOf
open Verif

mutual
/-- Expressions. -/
inductive E where
  | lit (v : BitVec 64)
  | var (x : Nat)
  | assign (x : Nat) (e : E)
  | add (a b : E)
  | mul (a b : E)
  /-- a pointer and an integer are added -/
  | plus (p i : E)
  | deref (p : E)
  | comma (a b : E)
  | cond (c a b : E)
  | sizeofType (t : T)
  | sizeofExpr (e : E)

/-- Type names and the types of declarations. -/
inductive T where
  | ulong
  /-- another complete type that is no array, with its size -/
  | base (size : Nat)
  | void
  | func
  | pointer (t : T)
  /-- `t[]` -/
  | unknown (t : T)
  /-- `t[e]` -/
  | array (e : E) (t : T)
  /-- a name made by `typedef` -/
  | name (x : Nat)
end

/-- Statements of a block. -/
inductive S where
  | typedef (x : Nat) (t : T)
  | decl (x : Nat) (t : T)
  | expr (e : E)

/-- Typed expressions, src/parser/expression.h; all have eight bytes but `node` and `int`. -/
inductive TE where
  | const (v : BitVec 64)
  /-- `EXPR_INT`, expression.h:46-49: a constant of type `int` with a value of 64 bits -/
  | int (v : BitVec 64)
  /-- `EXPR_VAR (…, type_simple(ST_INT), 0)`: the instruction `r`, said to be an `int` -/
  | node (r : Nat)
  | load (x : Nat)
  /-- an array that has become a pointer -/
  | addr (x : Nat)
  | mem (p : TE)
  | assign (x : Nat) (e : TE)
  | add (a b : TE)
  | mul (a b : TE)
  /-- the conversion of an `int` to `unsigned long` -/
  | cast (e : TE)
  /-- pointer, index, size of the element -/
  | padd (p i s : TE)
  | comma (a b : TE)
  | cond (c a b : TE)
  deriving DecidableEq, Repr

/-- src/types.h:79-83: `length_expr` of an array that is not evaluated, `length_var` of one that is. -/
inductive Len where
  | pending (e : TE)
  | done (r : Nat)
  deriving DecidableEq, Repr

/-- src/types.h:63-99 `struct type`. -/
inductive Ty where
  | ulong
  | base (size : Nat)
  | void
  | func
  | pointer (t : Ty)
  | unknown (t : Ty)
  | array (length : BitVec 64) (t : Ty)
  | vla (len : Len) (t : Ty)
  deriving DecidableEq, Repr

/-- src/types.c:346-368 `type_has_variable_size`. -/
def hasVariableSize : Ty → Bool
  | .array _ t => hasVariableSize t
  | .vla _ _ => true
  | _ => false

/-- src/arch/x64.c:166-193 `calculate_size`, with the type `int`. -/
def calculateSize : Ty → Res (BitVec 32)
  | .ulong => .ok 8
  | .base n => .ok (BitVec.ofNat 32 n)
  -- src/abi/sysv.c:519
  | .void => .ok 0
  | .func => .ok (-1)
  | .pointer _ => .ok 8
  -- 181: `size_t` times `int`
  | .array n t => do
    let s ← calculateSize t
    .ok ((n * s.signExtend 64).setWidth 32)
  | .unknown _ => .ok (-1)
  | .vla _ _ => .fail

/-- The usual arithmetic conversions on an operand of type `int` whose partner is an `unsigned long`;
a constant is converted at once (C16). -/
def toUlong : TE → TE
  | .int v => .const v
  | e => .cast e

/-- src/types.c:381-402 `type_sizeof`; the multiplication is `EXPR_BINARY_OP` (C18). -/
def typeSizeof (t : Ty) : Res TE :=
  if hasVariableSize t then
    match t with
    | .vla (.done r) t => do
      let s ← typeSizeof t
      .ok (.mul (toUlong (.node r)) s)
    -- the assertion of 385
    | .vla (.pending _) _ => .fail
    | .array n t => do
      let s ← typeSizeof t
      .ok (.mul (toUlong (.int n)) s)
    | _ => .fail
  else do
    let s ← calculateSize t
    .ok (.const (s.signExtend 64))

/-- What a name stands for. -/
inductive Entry where
  | tdef (t : Ty)
  | obj (t : Ty)
  deriving DecidableEq, Repr

/-- Instructions. -/
inductive Ins where
  /-- the instruction `r` has the value of the expression -/
  | len (r : Nat) (e : TE)
  /-- an expression statement -/
  | expr (e : TE)
  /-- storage for an object, with its size: `ir_vla_alloc` or `ir_allocate` -/
  | alloc (x : Nat) (e : TE)
  deriving DecidableEq, Repr

/-- The parser: the names, the instructions so far, and the number of the next instruction. -/
structure P where
  names : List (Nat × Entry) := []
  code : List Ins := []
  next : Nat := 0

/-- What a name stands for. -/
def P.find (p : P) (x : Nat) : Option Entry := p.names.lookup x

/-- src/types.c:413-423 `type_evaluate_vla`: the components first; an array is evaluated once. -/
def evaluateVla : Ty → P → Ty × P
  | .pointer t, p => let (t, p) := evaluateVla t p; (.pointer t, p)
  | .unknown t, p => let (t, p) := evaluateVla t p; (.unknown t, p)
  | .array n t, p => let (t, p) := evaluateVla t p; (.array n t, p)
  | .vla len t, p =>
    let (t, p) := evaluateVla t p
    match len with
    | .done r => (.vla (.done r) t, p)
    | .pending e => (.vla (.done p.next) t, { p with code := p.code ++ [.len p.next e], next := p.next + 1 })
  | t, p => (t, p)

/-- src/types.c:425-431 `type_contains_unevaluated_vla`, as it is written. -/
def containsUnevaluatedVla : Ty → Bool
  | .pointer t => containsUnevaluatedVla t
  | .unknown t => containsUnevaluatedVla t
  | .array _ t => containsUnevaluatedVla t
  | .vla len t => containsUnevaluatedVla t || (match len with | .done _ => true | .pending _ => false)
  | _ => false

/-- src/parser/expression.c:84-92 `decay_array`. -/
def decay : Ty → Ty
  | .array _ t => .pointer t
  | .unknown t => .pointer t
  | .vla _ t => .pointer t
  | t => t

/-- A sum or product; constants are folded. -/
def binary (op : TE → TE → TE) (f : BitVec 64 → BitVec 64 → BitVec 64) : TE → TE → TE
  | .const a, .const b => .const (f a b)
  | a, b => op a b

mutual
/-- Reading an expression: the tree, its type, and what has been written meanwhile. -/
def parseE : E → P → Res (TE × Ty × P)
  | .lit v, p => .ok (.const v, .ulong, p)
  | .var x, p =>
    match p.find x with
    | some (.obj t) =>
      match t with
      | .ulong | .pointer _ => .ok (.load x, t, p)
      | .array _ _ | .unknown _ | .vla _ _ => .ok (.addr x, t, p)
      | _ => .fail
    | _ => .fail
  | .assign x e, p => do
    let (e, _, p) ← parseE e p
    match p.find x with
    | some (.obj .ulong) => .ok (.assign x e, .ulong, p)
    | some (.obj (.pointer t)) => .ok (.assign x e, .pointer t, p)
    | _ => .fail
  | .add a b, p => do
    let (a, _, p) ← parseE a p
    let (b, _, p) ← parseE b p
    .ok (binary .add (· + ·) a b, .ulong, p)
  | .mul a b, p => do
    let (a, _, p) ← parseE a p
    let (b, _, p) ← parseE b p
    .ok (binary .mul (· * ·) a b, .ulong, p)
  -- expression_to_ir.c:309-312
  | .plus a i, p => do
    let (a, t, p) ← parseE a p
    let (i, _, p) ← parseE i p
    match decay t with
    | .pointer t => do
      let s ← typeSizeof t
      .ok (.padd a i s, .pointer t, p)
    | _ => .fail
  | .deref a, p => do
    let (a, t, p) ← parseE a p
    match decay t with
    | .pointer t =>
      match t with
      | .array _ _ | .unknown _ | .vla _ _ => .ok (a, t, p)
      | _ => .ok (.mem a, t, p)
    | _ => .fail
  | .comma a b, p => do
    let (a, _, p) ← parseE a p
    let (b, t, p) ← parseE b p
    .ok (.comma a b, t, p)
  | .cond c a b, p => do
    let (c, _, p) ← parseE c p
    let (a, t, p) ← parseE a p
    let (b, _, p) ← parseE b p
    .ok (.cond c a b, t, p)
  -- expression.c:561-564, 573 with declaration.c:1187-1202
  | .sizeofType t, p => do
    let (t, p) ← parseT t p
    let (t, p) := evaluateVla t p
    let s ← typeSizeof t
    .ok (s, .ulong, p)
  -- expression.c:566-573
  | .sizeofExpr e, p => do
    let (_, t, p) ← parseE e p
    let s ← typeSizeof t
    .ok (s, .ulong, p)

/-- Reading a type; the lengths are read from left to right.  declaration.c:656-684: a constant length
makes an array, another one a variable length array that is not yet evaluated. -/
def parseT : T → P → Res (Ty × P)
  | .ulong, p => .ok (.ulong, p)
  | .base n, p => .ok (.base n, p)
  | .void, p => .ok (.void, p)
  | .func, p => .ok (.func, p)
  | .pointer t, p => do
    let (t, p) ← parseT t p
    .ok (.pointer t, p)
  | .unknown t, p => do
    let (t, p) ← parseT t p
    .ok (.unknown t, p)
  | .array e t, p => do
    let (e, _, p) ← parseE e p
    let (t, p) ← parseT t p
    match e with
    | .const v => .ok (.array v t, p)
    | e => .ok (.vla (.pending e) t, p)
  | .name x, p =>
    match p.find x with
    | some (.tdef t) => .ok (t, p)
    | _ => .fail
end

/-- One statement of a block, src/parser/declaration.c:1247-1256, 1361-1385. -/
def parseS (s : S) (p : P) : Res P :=
  match s with
  | .typedef x t => do
    let (t, p) ← parseT t p
    let (t, p) := evaluateVla t p
    .ok { p with names := (x, .tdef t) :: p.names }
  | .decl x t => do
    let (t, p) ← parseT t p
    let (t, p) := evaluateVla t p
    let s ← typeSizeof t
    .ok { p with names := (x, .obj t) :: p.names, code := p.code ++ [.alloc x s] }
  | .expr e => do
    let (e, _, p) ← parseE e p
    .ok { p with code := p.code ++ [.expr e] }

/-- A block. -/
def parseBlock : List S → P → Res P
  | [], p => .ok p
  | s :: ss, p => do
    let p ← parseS s p
    parseBlock ss p

/-- A declaration outside of functions, declaration.c:1247-1250; what follows is in C90. -/
def parseExternal (x : Nat) (t : T) (p : P) : Res P := do
  let (t, p) ← parseT t p
  if containsUnevaluatedVla t then .fail
  else .ok { p with names := (x, .obj t) :: p.names }

/-! ### Execution -/

/-- The value of an instruction: its size in bytes and its bits. -/
structure V where
  size : Nat
  bits : BitVec 64
  deriving DecidableEq

/-- The addresses of the arrays and what memory contains. -/
structure M where
  addr : Nat → BitVec 64
  mem : BitVec 64 → BitVec 64

/-- The values of the variables. -/
abbrev Vars := Nat → BitVec 64

/-- A variable with a new value. -/
def Vars.set (vars : Vars) (x : Nat) (v : BitVec 64) : Vars := fun y => if y = x then v else vars y

/-- src/codegen/codegen.c:314-328 `IR_INT_CAST_SIGN` to eight bytes. -/
def castSign (v : V) : V :=
  if 8 > v.size then ⟨8, (v.bits.setWidth (8 * v.size)).signExtend 64⟩ else ⟨8, v.bits⟩

/-- The value of an expression and the variables after it. -/
def TE.eval (m : M) (regs : Nat → V) : TE → Vars → V × Vars
  | .const v, vars => (⟨8, v⟩, vars)
  | .int v, vars => (⟨4, v⟩, vars)
  | .node r, vars => (regs r, vars)
  | .load x, vars => (⟨8, vars x⟩, vars)
  | .addr x, vars => (⟨8, m.addr x⟩, vars)
  | .mem p, vars => let (a, vars) := p.eval m regs vars; (⟨8, m.mem a.bits⟩, vars)
  | .assign x e, vars => let (a, vars) := e.eval m regs vars; (⟨8, a.bits⟩, Vars.set vars x a.bits)
  | .add a b, vars =>
    let (a, vars) := a.eval m regs vars
    let (b, vars) := b.eval m regs vars
    (⟨8, a.bits + b.bits⟩, vars)
  | .mul a b, vars =>
    let (a, vars) := a.eval m regs vars
    let (b, vars) := b.eval m regs vars
    (⟨8, a.bits * b.bits⟩, vars)
  | .cast e, vars => let (a, vars) := e.eval m regs vars; (castSign a, vars)
  -- expression_to_ir.c:310-325
  | .padd p i s, vars =>
    let (p, vars) := p.eval m regs vars
    let (i, vars) := i.eval m regs vars
    let (s, vars) := s.eval m regs vars
    (⟨8, p.bits + i.bits * s.bits⟩, vars)
  | .comma a b, vars =>
    let (_, vars) := a.eval m regs vars
    b.eval m regs vars
  | .cond c a b, vars =>
    let (c, vars) := c.eval m regs vars
    if c.bits = 0 then b.eval m regs vars else a.eval m regs vars

/-- What can be seen of an execution. -/
inductive Out where
  /-- the value of an expression statement -/
  | value (v : BitVec 64)
  /-- an object gets storage of a size -/
  | storage (x : Nat) (size : BitVec 64)
  deriving DecidableEq, Repr

/-- A function that is being executed. -/
structure R where
  vars : Vars
  regs : Nat → V

/-- One instruction. -/
def Ins.run (m : M) (r : R) : Ins → List Out × R
  | .len k e =>
    let (v, vars) := e.eval m r.regs r.vars
    ([], ⟨vars, fun i => if i = k then v else r.regs i⟩)
  | .expr e =>
    let (v, vars) := e.eval m r.regs r.vars
    ([.value v.bits], ⟨vars, r.regs⟩)
  | .alloc x e =>
    let (v, vars) := e.eval m r.regs r.vars
    ([.storage x v.bits], ⟨vars, r.regs⟩)

/-- A list of instructions. -/
def runAll (m : M) : List Ins → R → List Out × R
  | [], r => ([], r)
  | i :: is, r =>
    let (o, r) := i.run m r
    let (os, r) := runAll m is r
    (o ++ os, r)

end Verif.SizeOf
