import Verif.Basic
/-!
Model of structure layout: src/arch/x64.c:209-297, src/common.c:44-49, src/types.h:95-119.

A member's type is seen only through `calculate_size`, `calculate_alignment`
(src/arch/x64.c:142-193) and the test for `TY_INCOMPLETE_ARRAY`; `tag` stands for its
identity (the pointer).  `int` is 32 bits; overflow of a signed `int` is undefined.
-/
namespace Verif.Layout
open Verif

/-- What layout sees of a `struct type`. -/
structure FTy where
  /-- `calculate_size` (-1 for an incomplete array) -/
  size : Int
  /-- `calculate_alignment` -/
  align : Int
  /-- `type->type == TY_INCOMPLETE_ARRAY` -/
  flex : Bool := false
  /-- identity of the type -/
  tag : Nat := 0
  deriving DecidableEq, Repr, Inhabited

/-- src/types.h:106-112 `struct field` (without its name). `parse_struct` creates it with
`offset` and `bit_offset` zero (src/parser/declaration.c:405-409). -/
structure Field where
  ty : FTy
  /-- -1: not a bit-field -/
  bitfield : Int := -1
  offset : Int := 0
  bitOffset : Int := 0
  deriving DecidableEq, Repr, Inhabited

/-- The result of `int` arithmetic. -/
def i32 (x : Int) : Res Int := if -2147483648 ≤ x ∧ x ≤ 2147483647 then .ok x else .ub

/-- src/common.c:44-49 `round_up_to_nearest`; `%` truncates; division by zero is undefined. -/
def roundUp (num div : Int) : Res Int :=
  if div = 0 then .ub
  else if num.tmod div ≠ 0 then do i32 (num + (← i32 (div - num.tmod div)))
  else .ok num

/-- src/arch/x64.c:209-216 `calculate_alignment_with_max`. -/
def alignMax (t : FTy) (packing : Int) : Int :=
  if packing = 0 then t.align else if t.align > packing then packing else t.align

/-- The locals of `calculate_offsets` (219-223); `prev` are `data->fields[i - 1]`,
`data->fields[i - 2]`, …, as already laid out. -/
structure St where
  cur : Int := 0
  max : Int := 0
  align : Int := 1
  last : Int := 0
  prev : List Field := []
  deriving DecidableEq, Repr, Inhabited

/-- The condition of the loop 240-247 for field `j`; `i` is the current field. -/
def fitsAt (last : Int) (before : Option Field) (i j : Field) : Res Bool :=
  if last = 0 then .ok false else
    match before with
    | none => .ub
    | some b =>
      if j.offset = b.offset then do
        let l ← i32 (last + i.bitfield)
        let r ← i32 (8 * j.ty.size)
        pure (decide (l ≤ r))
      else .ok false

/-- The loop 240-247: the type of the first field, going down from `i`, where it fits. -/
def findFit (last : Int) (before : Option Field) (i : Field) : List Field → Res (Option FTy)
  | [] => .ok none
  | j :: js => do
    if ← fitsAt last before i j then pure (some j.ty) else findFit last before i js

/-- 235-236: `offset` of the current bit-field before the search. -/
def startOffset (s : St) (cur : Int) : Res Int :=
  if s.last = 0 then .ok cur else
    match s.prev.head? with
    | none => .ub
    | some b => .ok (if b.bitfield ≠ 0 then b.offset else cur)

/-- 249-261: placing a bit-field. Result: the field, the current offset, `last_bit_offset`. -/
def placeBits (isUnion : Bool) (packing : Int) (s : St) (cur : Int) (f : Field) : Res (Field × Int × Int) := do
  let off ← startOffset s cur
  let f1 : Field := { f with offset := off, bitOffset := 0 }
  match ← findFit s.last s.prev.head? f1 (f1 :: s.prev) with
  | some ft => pure ({ f1 with bitOffset := s.last, ty := ft }, off, s.last)
  | none =>
    let cur' ← if isUnion then pure cur else roundUp s.max (alignMax f.ty packing)
    pure ({ f1 with offset := cur' }, cur', 0)

/-- 263-264, the end of the bit-field branch, and 231-267 for both kinds of members. -/
def place (isUnion : Bool) (packing : Int) (s : St) (cur : Int) (f : Field) : Res (Field × Int × Int) :=
  if f.bitfield ≠ -1 then do
    let (f1, c, l) ← placeBits isUnion packing s cur f
    let l' ← if isUnion then pure l else i32 (l + f.bitfield)
    pure (f1, c, l')
  else .ok ({ f with offset := cur, bitOffset := 0 }, cur, 0)

/-- 269-277: the member's contribution to the size. -/
def newSize (isLast : Bool) (f : Field) : Res Int :=
  if isLast && f.ty.flex then .ok 0
  else if f.ty.size = -1 then .fail
  else .ok f.ty.size

/-- One iteration of the loop 224-290; `isLast` is `i == data->n - 1`. -/
def step (isUnion : Bool) (packing : Int) (isLast : Bool) (s : St) (f : Field) : Res St := do
  let cur ← roundUp s.cur (alignMax f.ty packing)
  if f.bitfield = 0 then pure { s with cur := cur, prev := f :: s.prev }
  else
    let (f1, cur, last) ← place isUnion packing s cur f
    let sz ← newSize isLast f
    let na := alignMax f.ty packing
    let al := if na > s.align then na else s.align
    if isUnion then
      pure { cur := cur, max := if sz > s.max then sz else s.max, align := al, last := last, prev := f1 :: s.prev }
    else do
      let c ← i32 (cur + sz)
      pure { cur := c, max := if c > s.max then c else s.max, align := al, last := last, prev := f1 :: s.prev }

/-- The loop 224-290. -/
def loop (isUnion : Bool) (packing : Int) : List Field → St → Res St
  | [], s => .ok s
  | f :: fs, s => do
    let s ← step isUnion packing fs.isEmpty s f
    loop isUnion packing fs s

/-- The laid-out structure: `data->fields`, `data->size`, `data->alignment`. -/
structure Layout where
  fields : List Field
  size : Int
  align : Int
  deriving DecidableEq, Repr, Inhabited

/-- src/arch/x64.c:218-297 `calculate_offsets`. -/
def calculateOffsets (isUnion : Bool) (packing : Int) (fs : List Field) : Res Layout := do
  let s ← loop isUnion packing fs {}
  let al := if packing > 0 ∧ s.align > packing then packing else s.align
  let size ← roundUp s.max al
  pure ⟨s.prev.reverse, size, al⟩

end Verif.Layout
