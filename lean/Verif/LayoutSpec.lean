import Verif.Layout
/-!
Specification of structure layout, independent of the model's state machine
(System V psABI, 3.1.2 "Aggregates and Unions", "Bit-Fields"; C17 6.7.2.1).
-/
namespace Verif.LayoutSpec
open Verif Verif.Layout

/-- `r` is the least multiple of `a` that is not below `x`. -/
def RoundUp (x a r : Int) : Prop := a ∣ r ∧ x ≤ r ∧ ∀ r', a ∣ r' → x ≤ r' → r ≤ r'

/-- The alignment of a member under `#pragma pack`. -/
def eff (packing align : Int) : Int := if packing = 0 then align else min align packing

/-- Members `(size, alignment)` placed one after another from `e`, each at the first
suitable place. -/
inductive Placed : Int → List (Int × Int) → List Int → Int → Prop
  | nil (e) : Placed e [] [] e
  | cons {e s a o ms os e'} : RoundUp e a o → Placed (o + s) ms os e' → Placed e ((s, a) :: ms) (o :: os) e'

/-- What an ordinary member of a structure contributes to the size: a
flexible array member at the end nothing. -/
def contrib (isLast : Bool) (t : FTy) : Int := if isLast && t.flex then 0 else t.size

/-- Contributions of the members of a structure; only the last may be an incomplete array. -/
def contribs : List Field → List (Int × Int) 
  | [] => []
  | f :: fs => (contrib fs.isEmpty f.ty, f.ty.align) :: contribs fs

/-- `m` is the largest of 1 and the given alignments. -/
def Largest (as : List Int) (m : Int) : Prop := (m = 1 ∨ m ∈ as) ∧ 1 ≤ m ∧ ∀ a ∈ as, a ≤ m

/-- First bit of a member, counted from the start of the structure. -/
def first (f : Field) : Int := 8 * f.offset + f.bitOffset
/-- Number of bits of a member of the declared type. -/
def bits (f : Field) : Int := if f.bitfield = -1 then 8 * f.ty.size else f.bitfield

/-- The members of a structure are in order and do not overlap. -/
def Disjoint (fs : List Field) : Prop := fs.Pairwise fun f g => first f + bits f ≤ first g

/-- The member lies inside an object of its type at its offset, which lies inside the
structure. -/
def Inside (size : Int) (f : Field) : Prop :=
  0 ≤ f.offset ∧ 0 ≤ f.bitOffset ∧ f.bitOffset + bits f ≤ 8 * f.ty.size ∧ f.offset + f.ty.size ≤ size

/-- The declaration of a member is legal: size and alignment positive, width within the type. -/
def Legal (f : Field) : Prop :=
  0 < f.ty.size ∧ 0 < f.ty.align ∧ f.ty.flex = false ∧
    (f.bitfield = -1 ∨ 0 ≤ f.bitfield ∧ f.bitfield ≤ 8 * f.ty.size)

/-- What C and the ABI promise for bit-fields in a structure: members keep their types,
do not overlap, lie inside the structure, and bit-fields inside aligned units. -/
def BitfieldsSound : Prop :=
  ∀ (fs : List Field) (l : Layout), (∀ f ∈ fs, Legal f) → calculateOffsets false 0 fs = .ok l →
    l.fields.map (·.ty) = fs.map (·.ty) ∧
    Disjoint (l.fields.filter (·.bitfield ≠ 0)) ∧
    (∀ f ∈ l.fields, f.bitfield ≠ 0 → Inside l.size f) ∧
    (∀ f ∈ l.fields, f.bitfield ≠ 0 → f.ty.align ∣ f.offset)

/-- Adjacent members satisfy `R`. -/
def Adjacent {α : Type} (R : α → α → Prop) : List α → Prop
  | a :: b :: l => R a b ∧ Adjacent R (b :: l)
  | _ => True

/-- Bit position of bit-fields `(width)` of one type of `u` bits in the psABI: the next free
bit, unless the field would cross a boundary of `u` bits. -/
inductive SysvBits (u : Int) : Int → List Int → List Int → Prop
  | nil (p) : SysvBits u p [] []
  | here {p w ws ps} : p / u = (p + w - 1) / u → SysvBits u (p + w) ws ps → SysvBits u p (w :: ws) (p :: ps)
  | skip {p w ws ps q} : p / u ≠ (p + w - 1) / u → RoundUp p u q → SysvBits u (q + w) ws ps →
      SysvBits u p (w :: ws) (q :: ps)

end Verif.LayoutSpec
