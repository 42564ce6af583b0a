import Verif.Elf
/-!
What is where in an ELF file (System V ABI, chapter 4; ELF-64 data structures), and what it means that an object is read back.
-/
namespace Verif.ElfSpec
open Verif Verif.Object Verif.Elf

/-- The file has these bytes at an offset. -/
def At (file : List Byte) (off : Nat) (bs : List Byte) : Prop :=
  off + bs.length ≤ file.length ∧ ∀ k, k < bs.length → file[off + k]? = bs[k]?

/-- The file has a little-endian number of `w` bytes at an offset. -/
def Num (file : List Byte) (off w v : Nat) : Prop := v < 256 ^ w ∧ At file off (Bytes.leBytes w v)

/-- `Elf64_Ehdr`. -/
structure IsHeader (file : List Byte) (type entry phoff shoff phnum shnum shstrndx : Nat) : Prop where
  ident : At file 0 [0x7f, 0x45, 0x4c, 0x46, 2, 1, 1, 0, 0, 0, 0, 0, 0, 0, 0, 0]
  type : Num file 16 2 type
  machine : Num file 18 2 62
  version : Num file 20 4 1
  entry : Num file 24 8 entry
  phoff : Num file 32 8 phoff
  shoff : Num file 40 8 shoff
  flags : Num file 48 4 0
  ehsize : Num file 52 2 64
  phentsize : Num file 54 2 (if phnum = 0 then 0 else 56)
  phnum : Num file 56 2 phnum
  shentsize : Num file 58 2 (if shnum = 0 then 0 else 64)
  shnum : Num file 60 2 shnum
  shstrndx : Num file 62 2 shstrndx

/-- `Elf64_Shdr`, with another offset and size. -/
structure IsSection (file : List Byte) (at_ : Nat) (h : SHdr) (offset size : Nat) : Prop where
  name : Num file at_ 4 h.name.toNat
  type : Num file (at_ + 4) 4 h.type.toNat
  flags : Num file (at_ + 8) 8 h.flags.toNat
  addr : Num file (at_ + 16) 8 h.addr.toNat
  offset : Num file (at_ + 24) 8 offset
  size : Num file (at_ + 32) 8 size
  link : Num file (at_ + 40) 4 h.link.toNat
  info : Num file (at_ + 44) 4 h.info.toNat
  addralign : Num file (at_ + 48) 8 h.addralign.toNat
  entsize : Num file (at_ + 56) 8 h.entsize.toNat

/-- `Elf64_Phdr`, with another offset and size. -/
structure IsSegment (file : List Byte) (at_ : Nat) (h : PHdr) (offset size : Nat) : Prop where
  type : Num file at_ 4 h.type.toNat
  flags : Num file (at_ + 4) 4 h.flags.toNat
  offset : Num file (at_ + 8) 8 offset
  vaddr : Num file (at_ + 16) 8 h.vaddr.toNat
  paddr : Num file (at_ + 24) 8 h.paddr.toNat
  filesz : Num file (at_ + 32) 8 size
  memsz : Num file (at_ + 40) 8 h.memsz.toNat
  align : Num file (at_ + 48) 8 h.align.toNat

/-- The size of the contents of sections. -/
def contents (ss : List ESect) : Nat := (ss.map fun s => s.data.length).sum

/-- The offset of the contents of section `i`: after the header, the section headers and the earlier ones. -/
def secOffset (f : File) (i : Nat) : Nat := 64 + 64 * f.sections.length + contents (f.sections.take i)

/-- The offset of the program headers: after all of that. -/
def phOffset (f : File) : Nat := 64 + 64 * f.sections.length + contents f.sections

/-- Each segment is at the first multiple of its alignment after what comes before. -/
def SegOffsets : List ESeg → Nat → List Nat → Prop
  | [], _, offs => offs = []
  | s :: ss, a, offs => ∃ o os, offs = o :: os ∧ a ≤ o ∧ o < a + s.hdr.align.toNat ∧ s.hdr.align.toNat ∣ o ∧
      SegOffsets ss (o + s.data.length) os

/-- A file whose layout can be computed without overflow: the first section, if any, is the null section,
alignments are not 0, counts fit in 16 bits. -/
structure Fits (f : File) : Prop where
  null : ∀ s, f.sections[0]? = some s → s.data = [] ∧ s.hdr.offset = 0
  aligns : ∀ s ∈ f.segments, 0 < s.hdr.align.toNat
  nsect : f.sections.length < 2 ^ 16
  nseg : f.segments.length < 2 ^ 16
  small : phOffset f + 56 * f.segments.length + (f.segments.map fun s => s.data.length + s.hdr.align.toNat).sum < 2 ^ 64

/-- The file is what its headers say: every header is where the ELF header says, and every content
is where its header says. -/
structure Layout (f : File) (file : List Byte) (offs : List Nat) : Prop where
  header : IsHeader file f.hdr.type.toNat f.hdr.entry.toNat
    (if f.segments = [] then f.hdr.phoff.toNat else phOffset f)
    (if f.sections = [] then f.hdr.shoff.toNat else 64) f.segments.length f.sections.length f.hdr.shstrndx.toNat
  sections : ∀ (i : Nat) s, f.sections[i]? = some s →
    IsSection file (64 + 64 * i) s.hdr (if i = 0 then 0 else secOffset f i) s.data.length ∧
    (s.data ≠ [] → At file (secOffset f i) s.data)
  offsets : SegOffsets f.segments (phOffset f + 56 * f.segments.length) offs
  segments : ∀ (i : Nat) s o, f.segments[i]? = some s → offs[i]? = some o →
    IsSegment file (phOffset f + 56 * i) s.hdr o s.data.length ∧ (s.data ≠ [] → At file o s.data)

/-- An object that can be written: everything has a name without NUL, section names fit in a buffer,
indices exist, and the counts and sizes fit in the fields of the format. -/
structure Writable (o : Obj) : Prop where
  sectName : ∀ s ∈ o.sections, ∃ n, s.name = some n ∧ 0 ∉ n ∧ n.length + 5 < 256
  symName : ∀ y ∈ o.symbols, ∃ n, y.name = some n ∧ 0 ∉ n
  symSect : ∀ y ∈ o.symbols, ∀ s, y.sect = some s → s < o.sections.length
  relSym : ∀ s ∈ o.sections, ∀ r ∈ s.relocs, r.idx < o.symbols.length
  nsect : 2 * o.sections.length + 4 < 2 ^ 16
  nsym : o.sections.length + o.symbols.length + 1 < 2 ^ 32
  strings : (o.symbols.map fun y => (y.name.getD []).length + 1).sum + 1 < 2 ^ 32
  small : (o.sections.map fun s => s.data.length + 24 * s.relocs.length).sum < 2 ^ 62

/-- A string table holds a string, with its NUL, at an offset. -/
def StrAt (strs : List Byte) (off : Nat) (n : List Byte) : Prop := At strs off (n ++ [0])

/-- `Elf64_Sym` at index `k`. -/
structure IsSym (data : List Byte) (k name info shndx value size : Nat) : Prop where
  name : Num data (24 * k) 4 name
  info : Num data (24 * k + 4) 1 info
  other : Num data (24 * k + 5) 1 0
  shndx : Num data (24 * k + 6) 2 shndx
  value : Num data (24 * k + 8) 8 value
  size : Num data (24 * k + 16) 8 size

/-- The number of a kind of relocation in the psABI: `R_X86_64_64`, `R_X86_64_32S`, `R_X86_64_PC32`. -/
def relNumber : RelType → Nat
  | .r64 => 1
  | .r32 => 11
  | .r32rel => 2

/-- `Elf64_Rela` at index `k`: the symbol is in the upper half of `r_info`. -/
structure IsRela (data : List Byte) (k sym : Nat) (r : Relocation) : Prop where
  offset : Num data (24 * k) 8 r.offset.toNat
  info : Num data (24 * k + 8) 8 (sym * 2 ^ 32 + relNumber r.type)
  addend : Num data (24 * k + 16) 8 r.add.toNat

/-- The file is a relocatable object file for an object: sections 1 to n are those of the object, section n+1 is the
symbol table, sections n+2 to 2n+1 are the relocations, then come the two string tables.  `κ i` is the
index of symbol `i` in the symbol table, where local symbols come before `sh_info` and global ones do not. -/
structure IsObject (o : Obj) (f : File) (κ : Nat → Nat) : Prop where
  type : f.hdr.type = 1
  segments : f.segments = []
  count : f.sections.length = 2 * o.sections.length + 4
  null : ∃ e, f.sections[0]? = some e ∧ e.hdr = { name := 0, type := 0 } ∧ e.data = []
  progs : ∀ (i : Nat) s, o.sections[i]? = some s → ∃ e, f.sections[i + 1]? = some e ∧ e.hdr.type = 1 ∧ e.data = s.data ∧
    e.hdr.addralign = BitVec.ofNat 64 s.alignment ∧ StrAt f.shstrings e.hdr.name.toNat (s.name.getD [])
  table : ∃ e, f.sections[o.sections.length + 1]? = some e ∧ e.hdr.type = 2 ∧ e.hdr.entsize = 24 ∧
    e.hdr.link.toNat = 2 * o.sections.length + 2 ∧ e.data.length = 24 * (o.sections.length + o.symbols.length + 1) ∧
    IsSym e.data 0 0 0 0 0 0 ∧
    (∀ (i : Nat) s, o.sections[i]? = some s → IsSym e.data (i + 1) 0 3 (i + 1) 0 s.data.length) ∧
    (∀ (i : Nat) y, o.symbols[i]? = some y → (∃ name, StrAt f.strings name (y.name.getD []) ∧
      IsSym e.data (κ i) name (if y.global then 16 else 0) (match y.sect with | none => 0 | some s => s + 1)
        y.value.toNat y.size.toNat) ∧ (κ i < e.hdr.info.toNat ↔ y.global = false)) ∧
    o.sections.length < e.hdr.info.toNat
  range : ∀ i, i < o.symbols.length → o.sections.length < κ i ∧ κ i < o.sections.length + o.symbols.length + 1
  inj : ∀ i j, i < o.symbols.length → j < o.symbols.length → κ i = κ j → i = j
  relas : ∀ (i : Nat) s, o.sections[i]? = some s → ∃ e, f.sections[o.sections.length + 2 + i]? = some e ∧ e.hdr.type = 4 ∧
    e.hdr.entsize = 24 ∧ e.hdr.link.toNat = o.sections.length + 1 ∧ e.hdr.info.toNat = i + 1 ∧
    e.data.length = 24 * s.relocs.length ∧ ∀ (j : Nat) r, s.relocs[j]? = some r → IsRela e.data j (κ r.idx) r
  strtab : ∃ e, f.sections[2 * o.sections.length + 2]? = some e ∧ e.hdr.type = 3 ∧ e.data = f.strings
  shstrtab : ∃ e, f.sections[f.hdr.shstrndx.toNat]? = some e ∧ e.hdr.type = 3 ∧ e.data = f.shstrings

/-- The objects are the same, except that symbol `i` of the first is symbol `σ i` of the second and that the second has no
alignments. -/
structure Same (o o' : Obj) (σ : Nat → Nat) : Prop where
  sections : o'.sections = o.sections.map fun s =>
    { s with alignment := 0, relocs := s.relocs.map fun r => { r with idx := σ r.idx } }
  count : o'.symbols.length = o.symbols.length
  symbols : ∀ (i : Nat) y, o.symbols[i]? = some y → o'.symbols[σ i]? = some y
  inj : ∀ i j, i < o.symbols.length → j < o.symbols.length → σ i = σ j → i = j

end Verif.ElfSpec
