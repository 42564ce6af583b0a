import Verif.Simple
/-!
Model of src/types.c: hash-consed types (13-175), member search (186-213), composite types
(435-464).  A `struct type *` is an index into a growing heap; `children` are such indices.
`struct struct_data *` and `struct expr *` are abstract numbers.
-/
namespace Verif.Types
open Verif Simple

/-- src/types.h:64-72 with the union 74-89: `type->type` and what is compared. -/
inductive Kind where
  | array (length : Nat)
  | incompleteArray
  | struct (data : Nat)
  | pointer
  | function (variadic : Bool)
  | simple (s : ST)
  /-- `length_expr`; `is_evaluated` and `length_var` are neither compared nor hashed -/
  | vla (expr : Nat)
  deriving DecidableEq, Repr, Inhabited

/-- src/types.h:63-99 `struct type`, without `next`. -/
structure Obj where
  kind : Kind
  isConst : Bool := false
  children : List Nat := []
  deriving DecidableEq, Repr, Inhabited

/-- All types created so far. -/
abbrev Heap := List Obj

/-- src/types.c:13-69 `compare_types (a, a_children, b)`, `b` an object of the heap. The
recursion is bounded by `fuel`; dereferencing an invalid pointer is undefined. -/
def compare (heap : Heap) : Nat → Obj → Nat → Res Bool
  | 0, _, _ => .ub
  | fuel + 1, a, b =>
    match heap[b]? with
    | none => .ub
    | some ob =>
      if a.kind ≠ ob.kind then .ok false
      else if a.children.length ≠ ob.children.length then .ok false
      else if a.isConst ≠ ob.isConst then .ok false
      else go fuel a.children ob.children
where
  /-- 63-66 -/
  go (fuel : Nat) : List Nat → List Nat → Res Bool
    | c :: cs, d :: ds =>
      match heap[c]? with
      | none => .ub
      | some oc => do
        if ← compare heap fuel oc d then go fuel cs ds else pure false
    | _, _ => .ok true

/-- The part of `type_hash` (74-98) that depends on the object itself; `h` is `hash32`
(src/common.c:7-14), the tag numbers are those of the enumerations (src/types.h). -/
def hashOwn (h : BitVec 32 → BitVec 32) (o : Obj) : BitVec 32 :=
  let tag : Nat := match o.kind with
    | .array _ => 0 | .incompleteArray => 1 | .struct _ => 2 | .pointer => 3 | .function _ => 4 | .simple _ => 5 | .vla _ => 6
  let own : BitVec 32 := match o.kind with
    | .simple s => h (BitVec.ofNat 32 s.ctorIdx)
    | .function v => h (if v then 1 else 0)
    | .struct d => h (BitVec.ofNat 32 d)
    | .array n => h (BitVec.ofNat 32 n)
    | .vla e => h (BitVec.ofNat 32 e)
    | .pointer | .incompleteArray => 0
  h (BitVec.ofNat 32 tag) ^^^ h (if o.isConst then 1 else 0) ^^^ own

/-- src/types.c:71-105 `type_hash`. -/
def hash (h : BitVec 32 → BitVec 32) (heap : Heap) : Nat → Obj → Res (BitVec 32)
  | 0, _ => .ub
  | fuel + 1, o => go fuel o.children (hashOwn h o)
where
  /-- 100-102 -/
  go (fuel : Nat) : List Nat → BitVec 32 → Res (BitVec 32)
    | [], acc => .ok acc
    | c :: cs, acc =>
      match heap[c]? with
      | none => .ub
      | some oc => do
        let x ← hash h heap fuel oc
        go fuel cs (acc ^^^ x)

/-- The static hash table of `type_create`: chains of pointers, 1024 buckets (108-117). -/
abbrev Table := Nat → List Nat

/-- The compiler's types. -/
structure Store where
  heap : Heap := []
  table : Table := fun _ => []

/-- The search of 123-124. -/
def find (heap : Heap) (fuel : Nat) (o : Obj) : List Nat → Res (Option Nat)
  | [] => .ok none
  | p :: ps => do
    if ← compare heap fuel o p then pure (some p) else find heap fuel o ps

/-- src/types.c:107-138 `type_create`; result: the pointer.  `fuel` covers the recursion
depth of comparison and hashing. -/
def create (h : BitVec 32 → BitVec 32) (fuel : Nat) (o : Obj) (s : Store) : Res (Nat × Store) := do
  let hv ← hash h s.heap fuel o
  let idx := hv.toNat % 1024
  match ← find s.heap fuel o (s.table idx) with
  | some p => pure (p, s)
  | none =>
    let p := s.heap.length
    pure (p, { heap := s.heap ++ [o]
               table := fun i => if i = idx then p :: s.table idx else s.table i })

/-- One call of a type constructor (140-175 and the callers of `type_create`): the object to
create, its component types given as the numbers of earlier calls. -/
structure Req where
  kind : Kind
  isConst : Bool := false
  children : List Nat := []

/-- A run of the compiler: a sequence of constructor calls; `rs` are the pointers returned so
far.  The recursion depth needed is bounded by the number of types. -/
def run (h : BitVec 32 → BitVec 32) : List Req → List Nat → Store → Res (List Nat × Store)
  | [], rs, s => .ok (rs, s)
  | q :: qs, rs, s => do
    let (p, s) ← create h (s.heap.length + 1) ⟨q.kind, q.isConst, q.children.map (fun i => rs.getD i 0)⟩ s
    run h qs (rs ++ [p]) s

/-! ### Member search -/

/-- A record as the search sees it: for each field its name and, if its type is a structure
or union, that record (src/types.h:101-119). -/
inductive Rec where
  | mk (fields : List (Str × Option Rec))

/-- The fields. -/
def Rec.fields : Rec → List (Str × Option Rec)
  | .mk fs => fs

mutual
/-- src/types.c:186-213 `type_search_member` on a complete record: the indices in the order
they are pushed, innermost first. `none`: not found. -/
def search (name : Str) : Rec → Option (List Nat)
  | .mk fs => searchFields name fs 0

/-- The loop 198-211 from field number `i`. -/
def searchFields (name : Str) : List (Str × Option Rec) → Nat → Option (List Nat)
  | [], _ => none
  | f :: fs, i =>
    if f.1 = name then some [i]
    else
      match searchField name f with
      | some p => some (p ++ [i])
      | none => searchFields name fs (i + 1)

/-- 201-203: an unnamed field of record type. -/
def searchField (name : Str) : Str × Option Rec → Option (List Nat)
  | (n, some r) => if n.length = 0 then search name r else none
  | (_, none) => none
end

/-- The expressions `expr_dot_operator` builds: the operand, or a field number of one. -/
inductive Access where
  | operand
  | member (e : Access) (index : Nat)
  deriving DecidableEq, Repr

/-- src/parser/expression.c:389-402 `expr_dot_operator`: the indices are used last to first. -/
def dotOperator (name : Str) (r : Rec) : Option Access :=
  match search name r with
  | none => none
  | some indices => some (indices.reverse.foldl Access.member .operand)

/-! ### Composite types -/

/-- A type as a tree (what a pointer denotes, see C22). -/
inductive Ty where
  | node (kind : Kind) (isConst : Bool) (children : List Ty)

/-- `type->type`. -/
inductive Tag where
  | array | incompleteArray | struct | pointer | function | simple | vla
  deriving DecidableEq, Repr

/-- The constructor of a kind. -/
def Kind.tag : Kind → Tag
  | .array _ => .array | .incompleteArray => .incompleteArray | .struct _ => .struct | .pointer => .pointer
  | .function _ => .function | .simple _ => .simple | .vla _ => .vla

mutual
/-- Equality of types: pointer equality in the compiler, by C22. -/
def Ty.beq : Ty → Ty → Bool
  | .node k c l, .node k' c' l' => decide (k = k') && (decide (c = c') && Ty.beqs l l')
/-- Equality of lists of types. -/
def Ty.beqs : List Ty → List Ty → Bool
  | [], [] => true
  | a :: as, b :: bs => Ty.beq a b && Ty.beqs as bs
  | _, _ => false
end

/-- src/types.c:435-464 `type_make_composite`; `none` is NULL (not compatible). -/
def composite (a b : Ty) : Option Ty :=
  if a.beq b then some a else
    match a, b with
    | .node ka _ as, .node kb _ bs =>
      if ka.tag = .array ∧ kb.tag = .incompleteArray then some a
      else if kb.tag = .array ∧ ka.tag = .incompleteArray then some b
      else if ka.tag ≠ kb.tag then none
      else
        match ka, kb with
        | .function va, .function vb =>
          if va = true ∧ as.length = 1 then some b
          else if vb = true ∧ bs.length = 1 then some a
          else none
        | _, _ => none

end Verif.Types
