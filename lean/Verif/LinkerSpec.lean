import Verif.Linker
/-!
What linking means: where sections go, what a symbol refers to, what a relocation writes.
-/
namespace Verif.LinkerSpec
open Verif Verif.Object Verif.Linker

/-- The number of bytes of sections. -/
def bytes (ss : List Section) : Nat := (ss.map fun s => s.data.length).sum

/-- The number of bytes of objects. -/
def total (os : List Obj) : Nat := (os.map fun o => bytes o.sections).sum

/-- Section `s` of object `a`. -/
def sect (os : List Obj) (a s : Nat) : Option Section := (os[a]?).bind fun o => o.sections[s]?

/-- Where section `s` of object `a` starts in the segment: after all earlier ones. -/
def start (os : List Obj) (a s : Nat) : Nat :=
  total (os.take a) + bytes (((os[a]?).map fun o => o.sections.take s).getD [])

/-- The address of that section. -/
def addr (os : List Obj) (a s : Nat) : BitVec 64 := 0x10000 + BitVec.ofNat 64 (start os a s)

/-- Symbol `y` of object `a` stands for offset `v` in section `s` of object `b`: it is defined there,
or it is undefined and a global symbol of that name is. -/
inductive Target (os : List Obj) (a : Nat) (y : Symbol) : Nat → Nat → BitVec 64 → Prop where
  | own {s} : y.sect = some s → Target os a y a s y.value
  | other {b s o z} : y.sect = none → os[b]? = some o → z ∈ o.symbols → z.name = y.name → y.name ≠ none →
      z.global = true → z.sect = some s → Target os a y b s z.value

/-- The width of a relocated field. -/
def width : RelType → Nat
  | .r64 => 8
  | .r32 => 4
  | .r32rel => 4

/-- What is written: S + A, or S + A - P. -/
def fieldValue (ty : RelType) (S A P : BitVec 64) : BitVec 64 :=
  match ty with
  | .r64 => S + A
  | .r32 => S + A
  | .r32rel => S + A - P

/-- Byte `i` of a section is in the field of the relocation. -/
def InField (r : Relocation) (i : Nat) : Prop := r.offset.toNat ≤ i ∧ i < r.offset.toNat + width r.type

/-- The fields of a section lie inside it and do not overlap. -/
def FieldsOk (s : Section) : Prop :=
  (∀ r ∈ s.relocs, r.offset.toNat + width r.type ≤ s.data.length) ∧
  s.relocs.Pairwise fun r q => ∀ i, ¬ (InField r i ∧ InField q i)

/-- Objects that can be linked: indices exist, fields are in order, every undefined symbol has a
name and one global definition; the addresses fit in 64 bits. -/
structure Linkable (os : List Obj) : Prop where
  symbols : ∀ o ∈ os, ∀ s ∈ o.sections, ∀ r ∈ s.relocs, r.idx < o.symbols.length
  sections : ∀ o ∈ os, ∀ y ∈ o.symbols, ∀ s, y.sect = some s → s < o.sections.length
  fields : ∀ o ∈ os, ∀ s ∈ o.sections, FieldsOk s
  defined : ∀ a o y, os[a]? = some o → y ∈ o.symbols → ∃ b s v, Target os a y b s v
  unique : ∀ a o y b s v b' s' v', os[a]? = some o → y ∈ o.symbols → Target os a y b s v → Target os a y b' s' v' →
    b = b' ∧ s = s' ∧ v = v'
  single : os.length = 1 → ∀ o ∈ os, ∀ y ∈ o.symbols, y.sect ≠ none
  small : 0x10000 + total os < 2 ^ 64

/-- The sections are in the segment one after the other, and every byte is that of its section
unless it is relocated. -/
structure Placed (os : List Obj) (e : Executable) : Prop where
  size : e.data.length = total os
  rest : ∀ a s sec, sect os a s = some sec → ∀ i, i < sec.data.length → (∀ r ∈ sec.relocs, ¬ InField r i) →
    e.data[start os a s + i]? = sec.data[i]?

/-- Every relocated field holds the value of what the relocation refers to. -/
def Relocated (os : List Obj) (e : Executable) : Prop :=
  ∀ a s o sec r y b t v, os[a]? = some o → o.sections[s]? = some sec → r ∈ sec.relocs → o.symbols[r.idx]? = some y →
    Target os a y b t v → ∀ k, k < width r.type →
    e.data[start os a s + r.offset.toNat + k]? = (Bytes.leBytes (width r.type)
      (fieldValue r.type (addr os b t + v) r.add (addr os a s + r.offset)).toNat)[k]?

/-- Sections do not overlap. -/
def NoOverlap (os : List Obj) : Prop :=
  ∀ a s sec a' s' sec', sect os a s = some sec → sect os a' s' = some sec' → (a, s) ≠ (a', s') →
    start os a s + sec.data.length ≤ start os a' s' ∨ start os a' s' + sec'.data.length ≤ start os a s

end Verif.LinkerSpec
