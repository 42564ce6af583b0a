import Verif.Bitfield
/-!
Model of the initialisation of objects with automatic storage duration and of compound literals in functions:
src/ir/ir.c:344-397, src/parser/expression_to_ir.c:84-127, 422-430, 757-770, src/arch/x64.c:195-207,
src/types.c:302-313, src/parser/declaration.c:1373-1378.

Simplifications.  The functions build nodes; here they are given what the nodes do to memory when they are
executed, in the order of the states (C87).  An expression is a function on memory: it may change the memory
and is evaluated to a node with bytes or to the address of an object.  Addresses do not wrap around.  The
types carry their layout (C19).
-/
namespace Verif.AutoInit
open Verif

/-- Memory. -/
abbrev Mem := Nat → Byte

/-- The `n` bytes from address `a` on. -/
def fetch (m : Mem) (a : Nat) : Nat → List Byte
  | 0 => []
  | n + 1 => m a :: fetch m (a + 1) n

/-- A store (`IR_STORE`, C73): the bytes of the node. -/
def put (m : Mem) (a : Nat) (bs : List Byte) : Mem := fun x =>
  if a ≤ x then match bs[x - a]? with | some b => b | none => m x else m x

/-- src/types.h:63-99, 101-122 `struct type` and `struct field` with the offsets of C19. -/
inductive Ty where
  | scalar (size : Nat)
  | array (elem : Ty) (size : Nat)
  /-- the fields: `offset`, `bit_offset`, `bitfield` (-1: no bit-field), `type` -/
  | record (fields : List (Nat × Int × Int × Ty)) (size : Nat)
  deriving Inhabited

/-- src/arch/x64.c:166-193 `calculate_size`. -/
def Ty.size : Ty → Nat
  | .scalar n => n
  | .array _ n => n
  | .record _ n => n

/-- src/parser/expression_to_ir.h: `struct evaluated_expression` of a type that is not void: a node with its bytes
(`EE_VARIABLE`, `EE_CONSTANT`, `EE_BITFIELD_POINTER` after it was loaded) or the address of an object
(`EE_POINTER`). -/
inductive EE where
  | node (bs : List Byte)
  | pointer (a : Nat)
  deriving DecidableEq, Repr, Inhabited

/-- An expression: what its evaluation does to memory, and its result. -/
abbrev Expr := Mem → Res (Mem × EE)

/-- src/parser/declaration.h:9-28 `struct initializer`; an expression has been converted to the type of its object.
The entries of a brace are a chain. -/
inductive Init where
  /-- `INIT_EMPTY` -/
  | empty
  /-- `INIT_STRING` -/
  | string (bs : List Byte)
  /-- `INIT_EXPRESSION` -/
  | expr (e : Expr)
  /-- `INIT_BRACE` -/
  | brace (entries : Init)
  /-- no more entries -/
  | last
  /-- an entry, and those after it -/
  | entry (n rest : Init)

/-- src/arch/x64.c:195-207 `calculate_offset`, src/types.c:302-313 `type_select`, and the fields `bit_offset`, `bitfield`
(src/ir/ir.c:348-359).  Outside of the fields of a structure the behaviour is undefined, as is an offset that is
too large for an `int`. -/
def select (t : Ty) (i : Nat) : Res (Nat × Int × Int × Ty) :=
  match t with
  | .scalar _ => .fail
  | .array e _ => if e.size * i < 2 ^ 31 then .ok (e.size * i, -1, -1, e) else .ub
  | .record fs _ => match fs[i]? with
    | some f => .ok f
    | none => .ub

/-- src/parser/expression_to_ir.c:757-770 `expression_to_address` with `ir_copy_memory` (C36). -/
def expressionToAddress (e : Expr) (size a : Nat) (m : Mem) : Res Mem := do
  let (m, r) ← e m
  match r with
  | .pointer b => .ok (put m a (fetch m b size))
  | .node bs => .ok (put m a bs)

/-- src/parser/expression_to_ir.c:102-127 `evaluated_expression_to_var`. -/
def toVar (r : EE) (size : Nat) (m : Mem) : List Byte :=
  match r with
  | .pointer b => fetch m b size
  | .node bs => bs

/-- src/ir/ir.c:370-375: a bit-field. -/
def setField (e : Expr) (size a : Nat) (bitOffset bitSize : Int) (m : Mem) : Res Mem := do
  let (m, r) ← e m
  let value := toVar r size m
  let prev := fetch m a value.length
  let new ← Bitfield.setBits (BitVec.ofNat (8 * value.length) (Bytes.leVal prev))
    (BitVec.ofNat (8 * value.length) (Bytes.leVal value)) bitOffset bitSize
  .ok (put m a (Bytes.leBytes value.length new.toNat))

/-- src/ir/ir.c:379-387: each byte of a string. -/
def putString (m : Mem) (a : Nat) : List Byte → Mem
  | [] => m
  | b :: bs => putString (put m a [b]) (a + 1) bs

/-- src/ir/ir.c:344-391 `ir_init_var_recursive`; `i` is the index of the next entry of a brace. -/
def initVar (t : Ty) (a : Nat) (bitOffset bitSize : Int) (i : Nat) : Init → Mem → Res Mem
  | .empty, m => .ok m
  | .string bs, m => .ok (putString m a bs)
  | .expr e, m => if bitSize = -1 then expressionToAddress e t.size a m else setField e t.size a bitOffset bitSize m
  | .brace n, m => initVar t a bitOffset bitSize 0 n m
  | .last, m => .ok m
  | .entry n rest, m => do
    let (offset, bo, bs, u) ← select t i
    let m ← initVar u (a + offset) bo bs 0 n m
    initVar t a bitOffset bitSize (i + 1) rest m

/-- src/ir/ir.c:393-397 `ir_init_ptr`: a declaration (src/parser/declaration.c:1373-1378) or a compound literal
(src/parser/expression_to_ir.c:422-430) in a function. -/
def initPtr (n : Init) (t : Ty) (a : Nat) (m : Mem) : Res Mem :=
  initVar t a (-1) (-1) 0 n (put m a (List.replicate t.size 0))

end Verif.AutoInit
