import Verif.Bytes
import Verif.Object
/-!
COFF object files (src/linker/coff.c).

Arrays whose length is in a header (`number_of_sections`, `number_of_relocations`, `number_of_symbols`) are lists of that
length.  Names contain no NUL.  The warning about truncated values is not modelled.
-/
namespace Verif.Coff
open Verif Verif.Object Verif.Bytes

/-- src/linker/coff.c:35-46 `struct coff_section_header`; the fields that are always 0 are left out. -/
structure SHdr where
  name : List Byte := List.replicate 8 0
  virtualSize : BitVec 32
  rawSize : BitVec 32
  rawPtr : BitVec 32 := 0
  relPtr : BitVec 32 := 0
  nrel : BitVec 16
  chars : BitVec 32
  deriving DecidableEq, Repr, Inhabited

/-- src/linker/coff.c:80-84 `struct coff_relocation`. -/
structure Rel where
  va : BitVec 32
  sym : BitVec 32
  type : BitVec 16
  deriving DecidableEq, Repr, Inhabited

/-- src/linker/coff.c:92-99 `struct coff_symbol`; the fields that are always 0 are left out. -/
structure Sym where
  name : List Byte := List.replicate 8 0
  value : BitVec 32
  sect : BitVec 16
  cls : BitVec 8
  deriving DecidableEq, Repr, Inhabited

/-- src/linker/coff.c:145-150 `struct coff_section`. -/
structure Sect where
  hdr : SHdr
  data : List Byte
  relocs : List Rel
  deriving DecidableEq, Repr, Inhabited

/-- src/linker/coff.c:152-160 `struct coff_file`; the constant fields of the header are left out. -/
structure File where
  nsect : BitVec 16 := 0
  nsym : BitVec 32 := 0
  symPtr : BitVec 32 := 0
  sections : List Sect := []
  symbols : List Sym := []
  strings : List Byte := []
  deriving DecidableEq, Repr, Inhabited

/-- src/linker/coff.c:162-168 `coff_register_string`. -/
def register (strings : List Byte) (s : Name) : List Byte × Nat := (strings ++ s ++ [0], strings.length)

/-- src/linker/coff.c:193-210 the flag for an alignment. -/
def alignFlag : Nat → Res (BitVec 32)
  | 0 => .ok 0
  | 1 => .ok 0x00100000
  | 2 => .ok 0x00200000
  | 4 => .ok 0x00300000
  | 8 => .ok 0x00400000
  | 16 => .ok 0x00500000
  | 32 => .ok 0x00600000
  | 64 => .ok 0x00700000
  | 128 => .ok 0x00800000
  | 256 => .ok 0x00900000
  | 512 => .ok 0x00A00000
  | 1024 => .ok 0x00B00000
  | 2048 => .ok 0x00C00000
  | 4096 => .ok 0x00D00000
  | 8192 => .ok 0x00E00000
  | _ => .fail

/-- `strncpy` of at most 8 characters into an array of 8 zeros. -/
def pad8 (n : Name) : List Byte := n.take 8 ++ List.replicate (8 - n.length) 0

/-- `%d` of a number that is not negative. -/
def decimal (n : Nat) : List Byte := (Nat.toDigits 10 n).map ch

/-- src/linker/coff.c:224-232 the name of a section; `sprintf` writes a NUL after the number. -/
def sectName (strings : List Byte) : Option Name → Res (List Byte × List Byte)
  | none => .ok (strings, List.replicate 8 0)
  | some n =>
    if n.length > 8 then
      let r := register strings n
      let text := ch '/' :: decimal r.2
      if text.length + 1 > 8 then .ub
      else .ok (r.1, text ++ List.replicate (8 - text.length) 0)
    else .ok (strings, pad8 n)

/-- src/linker/coff.c:302-309 the name of a symbol. -/
def symName (strings : List Byte) : Option Name → Res (List Byte × List Byte)
  | none => .ok (strings, List.replicate 8 0)
  | some n =>
    if n.length > 8 then do
      let r := register strings n
      let name ← write32 (List.replicate 8 0) 4 (BitVec.ofNat 64 (r.2 + 4))
      .ok (r.1, name)
    else .ok (strings, pad8 n)

/-- src/linker/coff.c:248-262 the type, the addend and the size of a relocation; adding 4 to the greatest `int32_t`
overflows. -/
def relKind (r : Relocation) : Res (BitVec 16 × BitVec 32 × Nat) :=
  let addend := r.add.setWidth 32
  match r.type with
  | .r32 => .ok (2, addend, 4)
  | .r64 => .ok (1, addend, 8)
  | .r32rel => if addend.toInt + 4 > 2147483647 then .ub else .ok (4, addend + 4, 4)

/-- src/linker/coff.c:236-277 the relocations of a section; addends are written into the data. -/
def addRelocs : List Relocation → List Byte → Res (List Byte × List Rel)
  | [], data => .ok (data, [])
  | r :: rs, data =>
    if r.add.toInt < -2147483648 ∨ r.add.toInt > 2147483647 then .fail
    else if r.offset.toNat > 2147483647 then .fail
    else do
      let k ← relKind r
      let data ←
        if k.2.1 = 0 then .ok data
        else if k.2.2 = 4 then write32 data r.offset.toNat (k.2.1.signExtend 64)
        else write64 data r.offset.toNat (k.2.1.signExtend 64)
      let rest ← addRelocs rs data
      .ok (rest.1, { va := r.offset.setWidth 32, sym := BitVec.ofNat 32 r.idx, type := k.1 } :: rest.2)

/-- src/linker/coff.c:184-278 the sections. -/
def addSections : List Section → List Byte → Res (List Byte × List Sect)
  | [], strings => .ok (strings, [])
  | s :: ss, strings => do
    let flag ← alignFlag s.alignment
    let n ← sectName strings s.name
    let nrel := BitVec.ofNat 16 s.relocs.length
    let r ← addRelocs (s.relocs.take nrel.toNat) s.data
    let rest ← addSections ss n.1
    .ok (rest.1, { hdr := { name := n.2, virtualSize := BitVec.ofNat 32 s.data.length, rawSize := BitVec.ofNat 32 s.data.length,
                            nrel := nrel, chars := 0xE0000020 ||| flag }, data := r.1, relocs := r.2 } :: rest.2)

/-- src/linker/coff.c:281-310 the symbols. -/
def addSymbols : List Symbol → List Byte → Res (List Byte × List Sym)
  | [], strings => .ok (strings, [])
  | y :: ys, strings => do
    let n ← symName strings y.name
    let sect : BitVec 16 := match y.sect with
      | none => 0
      | some s => BitVec.ofNat 16 (s + 1)
    let rest ← addSymbols ys n.1
    .ok (rest.1, { name := n.2, value := y.value.setWidth 32, sect := sect, cls := if y.global then 2 else 3 } :: rest.2)

/-- src/linker/coff.c:170-315 `coff_from_object`. -/
def coffFromObject (o : Obj) : Res File := do
  let r := register [] []
  let nsect := BitVec.ofNat 16 o.sections.length
  let nsym := BitVec.ofNat 32 o.symbols.length
  let s ← addSections (o.sections.take nsect.toNat) r.1
  let y ← addSymbols (o.symbols.take nsym.toNat) s.1
  .ok { nsect := nsect, nsym := nsym, sections := s.2, symbols := y.2, strings := y.1 }

/-- src/linker/coff.c:327-333 the positions of the sections. -/
def place : List Sect → BitVec 32 → List Sect
  | [], _ => []
  | s :: ss, address =>
    let rel := address + s.hdr.rawSize
    { s with hdr := { s.hdr with rawPtr := address, relPtr := rel } } ::
      place ss (rel + BitVec.ofNat 32 (s.hdr.nrel.toNat * (4 + 4 + 2)))

/-- src/linker/coff.c:317-334 `coff_allocate`. -/
def allocate (f : File) : File :=
  let address : BitVec 32 := BitVec.ofNat 32 (5 * 4)
  let address := address + BitVec.ofNat 32 ((8 + 8 * 4) * f.nsect.toNat)
  let symPtr := address
  let address := address + BitVec.ofNat 32 (8 + 4 + 2 + 2 + 1 + 1) * f.nsym
  let address := address + BitVec.ofNat 32 (4 + f.strings.length)
  { f with symPtr := symPtr, sections := place f.sections address }

/-- src/linker/coff.c:107-115 `coff_write_header`. -/
def headerBytes (f : File) : List Byte :=
  fileWord 0x8664 ++ fileWord f.nsect ++ fileLong 0 ++ fileLong f.symPtr ++ fileLong f.nsym ++ fileWord 0 ++ fileWord 4

/-- src/linker/coff.c:117-128 `coff_write_section_header`. -/
def sectionHeaderBytes (s : Sect) : List Byte :=
  s.hdr.name ++ fileLong s.hdr.virtualSize ++ fileLong 0 ++ fileLong s.hdr.rawSize ++ fileLong s.hdr.rawPtr ++
  fileLong s.hdr.relPtr ++ fileLong 0 ++ fileWord s.hdr.nrel ++ fileWord 0 ++ fileLong s.hdr.chars

/-- src/linker/coff.c:130-137 `coff_write_symbol`. -/
def symbolBytes (y : Sym) : List Byte :=
  y.name ++ fileLong y.value ++ fileWord y.sect ++ fileWord 0 ++ fileByte y.cls ++ fileByte 0

/-- src/linker/coff.c:139-143 `coff_write_relocation`. -/
def relocBytes (r : Rel) : List Byte := fileLong r.va ++ fileLong r.sym ++ fileWord r.type

/-- src/linker/coff.c:351-357 the contents of a section and its relocations. -/
def bodyBytes (s : Sect) : List Byte := s.data.take s.hdr.rawSize.toNat ++ (s.relocs.map relocBytes).flatten

/-- src/linker/coff.c:336-360 `coff_write`: the file. -/
def coffWrite (f : File) : List Byte :=
  headerBytes f ++ (f.sections.map sectionHeaderBytes).flatten ++ (f.symbols.map symbolBytes).flatten ++
  fileLong (BitVec.ofNat 32 (f.strings.length + 4)) ++ f.strings ++ (f.sections.map bodyBytes).flatten

/-- src/linker/coff.c:362-366 `coff_write_object`: the file. -/
def writeObject (o : Obj) : Res (List Byte) := do
  let f ← coffFromObject o
  .ok (coffWrite (allocate f))

end Verif.Coff
