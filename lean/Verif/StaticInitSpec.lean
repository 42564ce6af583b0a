import Verif.StaticInit
import Verif.ObjectSpec
/-!
What a static initialiser means: the bits and the addresses it puts into an object.
-/
namespace Verif.StaticInitSpec
open Verif Verif.StaticInit Verif.Object Verif.ObjectSpec

/-- A part of an object that is initialised: `len` bits from bit `pos` on, or the address of a label
in the eight bytes from byte `pos` on. -/
inductive Leaf where
  | bits (pos len : Nat) (f : Nat → Bool)
  | addr (pos : Nat) (label : Int) (offset : BitVec 64)

/-- Bit `i` of a sequence of bytes. -/
def bitOf (bs : List Byte) (i : Nat) : Bool := ((bs[i / 8]?).getD 0).getLsbD (i % 8)

/-- The bits that a leaf takes up. -/
def Leaf.Owns : Leaf → Nat → Prop
  | .bits pos len _, p => pos ≤ p ∧ p < pos + len
  | .addr pos _ _, p => 8 * pos ≤ p ∧ p < 8 * pos + 64

/-- No bit is initialised twice. -/
def Disjoint (a b : Leaf) : Prop := ∀ p, ¬ (a.Owns p ∧ b.Owns p)

/-- The leaves of an initialiser at byte `base`.  A string fills as much of its array as there is
room for (C17 6.7.9p14); a bit-field gets the low bits of the value. -/
def leaves (base : Nat) (bitSize bitOffset : Int) : Node → List Leaf
  | .string bs room => [.bits (8 * base) (8 * min bs.length room) (bitOf bs)]
  | .const size value =>
    if bitSize = -1 then [.bits (8 * base) (8 * size) value.getLsbD]
    else [.bits (8 * base + bitOffset.toNat) bitSize.toNat value.getLsbD]
  | .address label offset => [.addr base label offset]
  | .literal n => leaves base (-1) (-1) n
  | .entry offset cbitOffset cbitSize n rest =>
    leaves (base + offset) cbitSize cbitOffset n ++ leaves base bitSize bitOffset rest
  | .empty | .labelConst | .other | .last => []

/-- Everything is inside an object of `total` bytes: strings and addresses, the storage units of
constants (of 1, 2, 4 or 8 bytes), bit-fields inside their unit; every expression is a constant
the compiler can emit. -/
def Fits (total base : Nat) (bitSize bitOffset : Int) : Node → Prop
  | .empty | .last => True
  | .string _ room => base + room ≤ total
  | .const size _ => (size = 1 ∨ size = 2 ∨ size = 4 ∨ size = 8) ∧ base + size ≤ total ∧
      (bitSize = -1 ∨ 1 ≤ bitSize ∧ 0 ≤ bitOffset ∧ bitOffset + bitSize ≤ 8 * size)
  | .address label _ => base + 8 ≤ total ∧ label ≠ -1
  | .labelConst | .other => False
  | .literal n => Fits total base (-1) (-1) n
  | .entry offset cbitOffset cbitSize n rest =>
    Fits total (base + offset) cbitSize cbitOffset n ∧ Fits total base bitSize bitOffset rest

/-- No string is longer than its array. -/
def NoLongString : Node → Prop
  | .string bs room => bs.length ≤ room
  | .literal n => NoLongString n
  | .entry _ _ _ n rest => NoLongString n ∧ NoLongString rest
  | _ => True

/-- `bytes` and `refs` (with offsets into `bytes`) are the object that the leaves describe: the
right size, every leaf in its place, zeros elsewhere; exactly one reference for every address, in
increasing order. -/
structure Image (es : List Entry) (total : Nat) (ls : List Leaf) (bytes : List Byte) (refs : List Ref) : Prop where
  size : bytes.length = total
  value : ∀ pos len f, Leaf.bits pos len f ∈ ls → ∀ k, k < len → bitOf bytes (pos + k) = f k
  zero : ∀ p, (∀ pos len f, Leaf.bits pos len f ∈ ls → ¬ (Leaf.bits pos len f).Owns p) → bitOf bytes p = false
  references : ∀ r, r ∈ refs ↔ ∃ label, Leaf.addr r.offset label r.add ∈ ls ∧ getLabel es label = .ok r.name ∧
    r.type = .r64
  ordered : refs.Pairwise fun a b => a.offset < b.offset

/-- The view after emitting bytes with references into them. -/
def emitted (v : View) (bytes : List Byte) (refs : List Ref) : View :=
  { v with
    content := upd v.content v.cur (v.content v.cur ++ bytes)
    refs := upd v.refs v.cur
      (v.refs v.cur ++ refs.map fun r => { r with offset := (v.content v.cur).length + r.offset }) }

end Verif.StaticInitSpec
