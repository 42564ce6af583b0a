import Verif.Coff
import Verif.ElfSpec
/-!
What is where in a COFF object file (Microsoft PE format, sections "COFF File Header", "Section Table", "COFF Relocations",
"COFF Symbol Table" and "COFF String Table").
-/
namespace Verif.CoffSpec
open Verif Verif.Object Verif.ElfSpec

/-- A name of at most 8 bytes, padded with zeros. -/
def ShortName (file : List Byte) (p : Nat) (n : List Byte) : Prop :=
  n.length ≤ 8 ∧ At file p (n ++ List.replicate (8 - n.length) 0)

/-- The name is in the string table, at an offset that counts from the start of the table, with its size field. -/
def InTable (file : List Byte) (strtab off : Nat) (n : List Byte) : Prop := At file (strtab + off) (n ++ [0])

/-- The name of a symbol: short, or four zero bytes and the offset in the string table. -/
def IsSymName (file : List Byte) (strtab p : Nat) (n : List Byte) : Prop :=
  ShortName file p n ∨ (8 < n.length ∧ Num file p 4 0 ∧ ∃ off, Num file (p + 4) 4 off ∧ InTable file strtab off n)

/-- The value of decimal digits. -/
def decValue (ds : List Nat) : Nat := ds.foldl (fun v d => 10 * v + d) 0

/-- The name of a section: short, or a slash and the offset in the string table in decimal. -/
def IsSectName (file : List Byte) (strtab p : Nat) (n : List Byte) : Prop :=
  ShortName file p n ∨ (8 < n.length ∧ ∃ ds : List Nat, ds ≠ [] ∧ (∀ d ∈ ds, d < 10) ∧
    ShortName file p (ch '/' :: ds.map fun d => BitVec.ofNat 8 (48 + d)) ∧ InTable file strtab (decValue ds) n)

/-- The number of a kind of relocation: `IMAGE_REL_AMD64_ADDR64`, `ADDR32`, `REL32`. -/
def relNumber : RelType → Nat
  | .r64 => 1
  | .r32 => 2
  | .r32rel => 4

/-- The size of the field of a relocation. -/
def relSize : RelType → Nat
  | .r64 => 8
  | _ => 4

/-- The addend that the field holds: `REL32` is relative to the byte after the field. -/
def implicit (r : Relocation) : Int :=
  match r.type with
  | .r32rel => r.add.toInt + 4
  | _ => r.add.toInt

/-- A number of `w` bytes in two's complement. -/
def IntAt (d : List Byte) (off w : Nat) (v : Int) : Prop := At d off (Bytes.leBytes w (v % (256 : Int) ^ w).toNat)

/-- The contents of a section with the addends in the fields. -/
structure IsData (s : Section) (d : List Byte) : Prop where
  length : d.length = s.data.length
  fields : ∀ r ∈ s.relocs, IntAt d r.offset.toNat (relSize r.type) (implicit r)
  rest : ∀ p, (∀ r ∈ s.relocs, p < r.offset.toNat ∨ r.offset.toNat + relSize r.type ≤ p) → d[p]? = s.data[p]?

/-- A relocation. -/
structure IsRel (file : List Byte) (p : Nat) (r : Relocation) : Prop where
  va : Num file p 4 r.offset.toNat
  sym : Num file (p + 4) 4 r.idx
  type : Num file (p + 8) 2 (relNumber r.type)

/-- A section header at `p` with the contents at `raw` and the relocations at `rel`. -/
structure IsSection (file : List Byte) (strtab p : Nat) (s : Section) (raw rel : Nat) : Prop where
  name : IsSectName file strtab p (s.name.getD [])
  virtualSize : Num file (p + 8) 4 s.data.length
  virtualAddress : Num file (p + 12) 4 0
  rawSize : Num file (p + 16) 4 s.data.length
  rawPtr : Num file (p + 20) 4 raw
  relPtr : Num file (p + 24) 4 rel
  linePtr : Num file (p + 28) 4 0
  nrel : Num file (p + 32) 2 s.relocs.length
  nline : Num file (p + 34) 2 0
  chars : ∃ k, Num file (p + 36) 4 (0xE0000020 + k * 2 ^ 20) ∧ ((s.alignment = 0 ∧ k = 0) ∨ (0 < k ∧ k < 15 ∧ s.alignment = 2 ^ (k - 1)))
  data : ∃ d, IsData s d ∧ At file raw d
  relocs : ∀ (j : Nat) r, s.relocs[j]? = some r → IsRel file (rel + 10 * j) r

/-- A symbol. -/
structure IsSymbol (file : List Byte) (strtab p : Nat) (y : Symbol) : Prop where
  name : IsSymName file strtab p (y.name.getD [])
  value : Num file (p + 8) 4 y.value.toNat
  sect : Num file (p + 12) 2 (match y.sect with | none => 0 | some s => s + 1)
  type : Num file (p + 14) 2 0
  cls : Num file (p + 16) 1 (if y.global then 2 else 3)
  aux : Num file (p + 17) 1 0

/-- A COFF object file for an object; `strings` is the size of the strings, `raw i` where the contents of section `i` are. -/
structure IsCoff (o : Obj) (file : List Byte) (strings : Nat) (raw : Nat → Nat) : Prop where
  machine : Num file 0 2 0x8664
  nsect : Num file 2 2 o.sections.length
  time : Num file 4 4 0
  symPtr : Num file 8 4 (20 + 40 * o.sections.length)
  nsym : Num file 12 4 o.symbols.length
  optional : Num file 16 2 0
  chars : Num file 18 2 4
  sections : ∀ (i : Nat) s, o.sections[i]? = some s →
    IsSection file (20 + 40 * o.sections.length + 18 * o.symbols.length) (20 + 40 * i) s (raw i) (raw i + s.data.length)
  symbols : ∀ (i : Nat) y, o.symbols[i]? = some y →
    IsSymbol file (20 + 40 * o.sections.length + 18 * o.symbols.length) (20 + 40 * o.sections.length + 18 * i) y
  strtab : Num file (20 + 40 * o.sections.length + 18 * o.symbols.length) 4 (4 + strings)
  first : raw 0 = 20 + 40 * o.sections.length + 18 * o.symbols.length + 4 + strings
  next : ∀ (i : Nat) s, o.sections[i]? = some s → raw (i + 1) = raw i + s.data.length + 10 * s.relocs.length
  length : file.length = raw o.sections.length

/-- An object that can be written: alignments that COFF can express, relocations with addends that fit, whose fields lie in the
section, do not overlap and hold zeros, and counts and sizes that fit in their fields. -/
structure Writable (o : Obj) : Prop where
  align : ∀ s ∈ o.sections, s.alignment = 0 ∨ ∃ k, k < 14 ∧ s.alignment = 2 ^ k
  add : ∀ s ∈ o.sections, ∀ r ∈ s.relocs, -2 ^ 31 ≤ r.add.toInt ∧ implicit r < 2 ^ 31
  field : ∀ s ∈ o.sections, ∀ r ∈ s.relocs, r.offset.toNat + relSize r.type ≤ s.data.length ∧
    ∀ k, k < relSize r.type → s.data[r.offset.toNat + k]? = some 0
  apart : ∀ s ∈ o.sections, s.relocs.Pairwise fun r q =>
    r.offset.toNat + relSize r.type ≤ q.offset.toNat ∨ q.offset.toNat + relSize q.type ≤ r.offset.toNat
  index : ∀ s ∈ o.sections, ∀ r ∈ s.relocs, r.idx < o.symbols.length
  sect : ∀ y ∈ o.symbols, ∀ s, y.sect = some s → s < o.sections.length
  value : ∀ y ∈ o.symbols, y.value.toNat < 2 ^ 32
  nsect : o.sections.length < 2 ^ 16 - 1
  nrel : ∀ s ∈ o.sections, s.relocs.length < 2 ^ 16
  dataSize : ∀ s ∈ o.sections, s.data.length < 2 ^ 31
  small : 20 + 40 * o.sections.length + 18 * o.symbols.length + 4 + 1 +
    (o.symbols.map fun y => (y.name.getD []).length + 1).sum + (o.sections.map fun s => (s.name.getD []).length + 1).sum +
    (o.sections.map fun s => s.data.length + 10 * s.relocs.length).sum < 2 ^ 32

end Verif.CoffSpec
