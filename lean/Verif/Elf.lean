import Verif.Bytes
import Verif.Linker
/-!
ELF files (src/linker/elf.c).

A `uint8_t *data` with its `size` is a list of bytes.  Memory from `cc_malloc` holds arbitrary bytes
(`junk`).  Offsets into string tables are `int` in the code; they are converted to 32 bits, and
sizes are unbounded.  A file that is read is a list of bytes; where the code reads one item after the
other, the position is given explicitly.  The `data` of a section of size 0, which `read_sections` leaves
uninitialised, is empty.
-/
namespace Verif.Elf
open Verif Verif.Object Verif.Bytes

/-- src/linker/elf.c:72-77 `struct elf_section_header`. -/
structure SHdr where
  name : BitVec 32
  type : BitVec 32
  flags : BitVec 64 := 0
  addr : BitVec 64 := 0
  offset : BitVec 64 := 0
  size : BitVec 64 := 0
  link : BitVec 32 := 0
  info : BitVec 32 := 0
  addralign : BitVec 64 := 0
  entsize : BitVec 64 := 0
  deriving DecidableEq, Repr, Inhabited

/-- src/linker/elf.c:79-86 `struct elf_header`. -/
structure Hdr where
  type : BitVec 16 := 0
  entry : BitVec 64 := 0
  shoff : BitVec 64 := 0
  phoff : BitVec 64 := 0
  shstrndx : BitVec 16 := 0
  deriving DecidableEq, Repr, Inhabited

/-- src/linker/elf.c:88-92 `struct elf_section`. -/
structure ESect where
  hdr : SHdr
  data : List Byte := []
  deriving DecidableEq, Repr, Inhabited

/-- src/linker/elf.c:94-98 `struct elf_program_header`. -/
structure PHdr where
  type : BitVec 32
  flags : BitVec 32 := 0
  offset : BitVec 64 := 0
  vaddr : BitVec 64 := 0
  paddr : BitVec 64 := 0
  filesz : BitVec 64 := 0
  memsz : BitVec 64 := 0
  align : BitVec 64 := 0
  deriving DecidableEq, Repr, Inhabited

/-- src/linker/elf.c:100-104 `struct elf_segment`. -/
structure ESeg where
  hdr : PHdr
  data : List Byte := []
  deriving DecidableEq, Repr, Inhabited

/-- src/linker/elf.c:113-127 `struct elf_file`. -/
structure File where
  hdr : Hdr := {}
  shstrings : List Byte := []
  strings : List Byte := []
  sections : List ESect := []
  segments : List ESeg := []
  deriving DecidableEq, Repr, Inhabited

/-- src/linker/elf.c:129-135 `elf_register_shstring`. -/
def registerShstring (f : File) (s : Name) : File × BitVec 32 :=
  ({ f with shstrings := f.shstrings ++ s ++ [0] }, BitVec.ofNat 32 f.shstrings.length)

/-- src/linker/elf.c:137-143 `elf_register_string`. -/
def registerString (f : File) (s : Name) : File × BitVec 32 :=
  ({ f with strings := f.strings ++ s ++ [0] }, BitVec.ofNat 32 f.strings.length)

/-! ### Layout -/

/-- src/linker/elf.c:176-181 the offsets of the sections from index 1 on. -/
def placeSections : List ESect → BitVec 64 → List ESect × BitVec 64
  | [], address => ([], address)
  | s :: ss, address =>
    let r := placeSections ss (address + BitVec.ofNat 64 s.data.length)
    ({ s with hdr := { s.hdr with offset := address } } :: r.1, r.2)

/-- src/linker/elf.c:187-195 the offsets of the segments; `round_up_to_nearest` takes `int`s, which
are not bounded here. -/
def placeSegments : List ESeg → BitVec 64 → Res (List ESeg)
  | [], _ => .ok []
  | s :: ss, address => do
    let a ← roundUp address.toNat s.hdr.align.toNat
    let address := BitVec.ofNat 64 a
    let rest ← placeSegments ss (address + BitVec.ofNat 64 s.data.length)
    .ok ({ s with hdr := { s.hdr with offset := address } } :: rest)

/-- src/linker/elf.c:168-197 `elf_allocate_sections`. -/
def allocate (f : File) : Res File :=
  let address : BitVec 64 := 64
  let (f, address) : File × BitVec 64 :=
    match f.sections with
    | [] => (f, address)
    | s :: ss =>
      let r := placeSections ss (address + BitVec.ofNat 64 (64 * (ss.length + 1)))
      ({ f with hdr := { f.hdr with shoff := address }, sections := s :: r.1 }, r.2)
  match f.segments with
  | [] => .ok f
  | gs => do
    let segs ← placeSegments gs (address + BitVec.ofNat 64 (7 * 8 * gs.length))
    .ok { f with hdr := { f.hdr with phoff := address }, segments := segs }

/-! ### Writing -/

/-- src/linker/elf.c:555, 603-611 the magic number and the rest of `e_ident`. -/
def ident : List Byte := [0x7f, 0x45, 0x4c, 0x46, 2, 1, 1, 0, 0] ++ fileZero 7

/-- src/linker/elf.c:601-633 `write_header`. -/
def headerBytes (f : File) : List Byte :=
  ident ++ fileWord f.hdr.type ++ fileWord 0x3e ++ fileLong 1 ++ fileQuad f.hdr.entry ++ fileQuad f.hdr.phoff ++
  fileQuad f.hdr.shoff ++ fileLong 0 ++ fileWord 64 ++
  fileWord (if f.segments.length ≠ 0 then 7 * 8 else 0) ++ fileWord (BitVec.ofNat 16 f.segments.length) ++
  fileWord (if f.sections.length ≠ 0 then 64 else 0) ++ fileWord (BitVec.ofNat 16 f.sections.length) ++
  fileWord f.hdr.shstrndx

/-- src/linker/elf.c:651-665 `write_section_header`. -/
def sectionHeaderBytes (s : ESect) : List Byte :=
  fileLong s.hdr.name ++ fileLong s.hdr.type ++ fileQuad s.hdr.flags ++ fileQuad s.hdr.addr ++ fileQuad s.hdr.offset ++
  fileQuad (BitVec.ofNat 64 s.data.length) ++ fileLong s.hdr.link ++ fileLong s.hdr.info ++
  fileQuad s.hdr.addralign ++ fileQuad s.hdr.entsize

/-- src/linker/elf.c:704-712 the contents of the sections. -/
def writeContents : List ESect → List Byte → Res (List Byte)
  | [], out => .ok out
  | s :: ss, out =>
    if s.data.length = 0 then writeContents ss out
    else do
      let out ← fileSkip out s.hdr.offset.toNat
      writeContents ss (out ++ s.data)

/-- src/linker/elf.c:692-713 `write_sections`. -/
def writeSections (f : File) (out : List Byte) : Res (List Byte) :=
  if f.sections.length = 0 then .ok out
  else do
    let out ← fileSkip out f.hdr.shoff.toNat
    writeContents f.sections (out ++ (f.sections.map sectionHeaderBytes).flatten)

/-- src/linker/elf.c:715-726 `write_program_header`. -/
def programHeaderBytes (s : ESeg) : List Byte :=
  fileLong s.hdr.type ++ fileLong s.hdr.flags ++ fileQuad s.hdr.offset ++ fileQuad s.hdr.vaddr ++ fileQuad s.hdr.paddr ++
  fileQuad (BitVec.ofNat 64 s.data.length) ++ fileQuad s.hdr.memsz ++ fileQuad s.hdr.align

/-- src/linker/elf.c:740-748 the contents of the segments. -/
def writeSegContents : List ESeg → List Byte → Res (List Byte)
  | [], out => .ok out
  | s :: ss, out =>
    if s.data.length = 0 then writeSegContents ss out
    else do
      let out ← fileSkip out s.hdr.offset.toNat
      writeSegContents ss (out ++ s.data)

/-- src/linker/elf.c:728-749 `write_segments`. -/
def writeSegments (f : File) (out : List Byte) : Res (List Byte) :=
  if f.segments.length = 0 then .ok out
  else do
    let out ← fileSkip out f.hdr.phoff.toNat
    writeSegContents f.segments (out ++ (f.segments.map programHeaderBytes).flatten)

/-- src/linker/elf.c:751-759 `elf_write`. -/
def elfWrite (f : File) : Res (List Byte) := do
  let out ← writeSections f (headerBytes f)
  writeSegments f out

/-! ### From an object -/

/-- src/linker/elf.c:321-339 the sections of the object. -/
def addSections : List Section → File → Res File
  | [], f => .ok f
  | s :: ss, f =>
    match s.name with
    | none => .ub
    | some n =>
      let r := registerShstring f n
      addSections ss { r.1 with
        sections := r.1.sections ++ [{ hdr := { name := r.2, type := 1, flags := 2 ||| 4,
                                                addralign := BitVec.ofNat 64 s.alignment }, data := s.data }] }

/-- src/linker/elf.c:364-369, 405-410 an entry of the symbol table. -/
def writeSymbol (data : List Byte) (at_ : Nat) (name : BitVec 32) (info : BitVec 8) (shndx : BitVec 16)
    (value size : BitVec 64) : Res (List Byte) := do
  let data ← write32 data at_ (name.setWidth 64)
  let data ← write8 data (at_ + 4) (info.setWidth 64)
  let data ← write8 data (at_ + 5) 0
  let data ← write16 data (at_ + 6) (shndx.setWidth 64)
  let data ← write64 data (at_ + 8) value
  write64 data (at_ + 16) size

/-- src/linker/elf.c:358-373 the symbols of the sections, from index `i` on. -/
def sectionSymbols : List Section → Nat → List Byte → Res (List Byte)
  | [], _, data => .ok data
  | s :: ss, i, data => do
    let data ← writeSymbol data (24 * (i + 1)) 0 3 (BitVec.ofNat 16 (i + 1)) 0 (BitVec.ofNat 64 s.data.length)
    sectionSymbols ss (i + 1) data

/-- What the loop of src/linker/elf.c:379-411 changes. -/
structure SymState where
  file : File
  data : List Byte
  loc : Nat
  glob : Nat
  mapping : List Nat

/-- src/linker/elf.c:379-411 the symbols.  A symbol without a name is `strlen(NULL)`. -/
def addSymbols : List Symbol → SymState → Res SymState
  | [], st => .ok st
  | y :: ys, st =>
    match y.name with
    | none => .ub
    | some n => do
      let idx := if y.global then st.glob else st.loc
      let r := registerString st.file n
      let shndx : BitVec 16 := match y.sect with
        | none => 0
        | some s => BitVec.ofNat 16 (1 + s)
      let data ← writeSymbol st.data (24 * idx) r.2 (if y.global then 16 else 0) shndx y.value y.size
      addSymbols ys { file := r.1, data := data, loc := if y.global then st.loc else st.loc + 1,
                      glob := if y.global then st.glob + 1 else st.glob, mapping := st.mapping ++ [idx] }

/-- src/linker/elf.c:437-442 `R_X86_64_64`, `R_X86_64_32S`, `R_X86_64_PC32`. -/
def elfType : RelType → BitVec 64
  | .r64 => 1
  | .r32 => 11
  | .r32rel => 2

/-- src/linker/elf.c:429-447 the relocations of a section, from index `j` on. -/
def addRelas (mapping : List Nat) : List Relocation → Nat → List Byte → Res (List Byte)
  | [], _, data => .ok data
  | r :: rs, j, data =>
    match mapping[r.idx]? with
    | none => .ub
    | some sym => do
      let data ← write64 data (24 * j) r.offset
      let data ← write64 data (24 * j + 8) ((BitVec.ofNat 64 sym <<< 32) + elfType r.type)
      let data ← write64 data (24 * j + 16) r.add
      addRelas mapping rs (j + 1) data

/-- src/linker/elf.c:414-448 the relocation sections, from section `i` on. -/
def addRelaSections (junk : Nat → Byte) (mapping : List Nat) (symIdx : Nat) :
    List Section → Nat → File → Res File
  | [], _, f => .ok f
  | s :: ss, i, f =>
    match s.name with
    | none => .ub
    | some n =>
      if 5 + n.length ≥ 256 then .fail
      else do
        let r := registerShstring f (str ".rela" ++ n)
        let data ← addRelas mapping s.relocs 0 ((List.range (24 * s.relocs.length)).map junk)
        addRelaSections junk mapping symIdx ss (i + 1) { r.1 with
          sections := r.1.sections ++ [{ hdr := { name := r.2, type := 4, flags := 64, link := BitVec.ofNat 32 symIdx,
                                                  info := BitVec.ofNat 32 (i + 1), entsize := 24 }, data := data }] }

/-- src/linker/elf.c:312-475 `elf_from_object`. -/
def elfFromObject (junk : Nat → Byte) (o : Obj) : Res File := do
  let f : File := { hdr := { type := 1 } }
  let f := (registerString f []).1
  let r := registerShstring f []
  let f : File := { r.1 with sections := [{ hdr := { name := r.2, type := 0 } }] }
  let f ← addSections o.sections f
  -- the symbol section
  let symIdx := f.sections.length
  let r := registerShstring f (str ".symtab")
  let f := r.1
  let size := (o.sections.length + o.symbols.length + 1) * 24
  let data := (List.range size).map junk
  let nLocal := 1 + o.symbols.countP (fun y => !y.global)
  let data := patch data 0 (List.replicate 24 0)
  let data ← sectionSymbols o.sections 0 data
  let nLocal := nLocal + o.sections.length
  let st ← addSymbols o.symbols { file := f, data := data, loc := 1 + o.sections.length, glob := nLocal, mapping := [] }
  let sym : ESect :=
    { hdr := { name := r.2, type := 2, info := BitVec.ofNat 32 nLocal, entsize := 24 }, data := st.data }
  let f : File := { st.file with sections := st.file.sections ++ [sym] }
  -- the relocation sections
  let f ← addRelaSections junk st.mapping symIdx o.sections 0 f
  -- the string tables
  let strtab := f.sections.length
  let r := registerShstring f (str ".strtab")
  let q := registerShstring r.1 (str ".shstrtab")
  let f := q.1
  let sections := f.sections ++ [{ hdr := { name := r.2, type := 3 }, data := f.strings },
                                 { hdr := { name := q.2, type := 3 }, data := f.shstrings }]
  let sections := sections.set symIdx { sym with hdr := { sym.hdr with link := BitVec.ofNat 32 strtab } }
  allocate { f with sections := sections, hdr := { f.hdr with shstrndx := BitVec.ofNat 16 (strtab + 1) } }

/-- src/linker/elf.c:477-510 `elf_from_executable`; there is one segment, readable, writable and executable
(src/linker/linker.c:101-107, 188). -/
def elfFromExecutable (e : Linker.Executable) : Res File :=
  allocate { hdr := { type := 2, entry := e.entry },
             segments := [{ hdr := { type := 1, flags := 1 ||| 4 ||| 2, vaddr := e.loadAddress, paddr := e.loadAddress,
                                     filesz := BitVec.ofNat 64 e.data.length, memsz := BitVec.ofNat 64 e.data.length,
                                     align := 0x1000 }, data := e.data }] }

/-! ### Reading -/

/-- src/linker/elf.c:523-526 `read_byte`; past the end is an ICE. -/
def readByte (file : List Byte) (pos : Nat) : Res Byte :=
  match file[pos]? with
  | some b => .ok b
  | none => .fail

/-- src/linker/elf.c:529-532 `read_word`. -/
def readWord (file : List Byte) (pos : Nat) : Res (BitVec 16) := do
  let a ← readByte file pos
  let b ← readByte file (pos + 1)
  pure (a.setWidth 16 ||| (b.setWidth 16 <<< 8))

/-- src/linker/elf.c:534-537 `read_long`. -/
def readLong (file : List Byte) (pos : Nat) : Res (BitVec 32) := do
  let a ← readWord file pos
  let b ← readWord file (pos + 2)
  pure (a.setWidth 32 ||| (b.setWidth 32 <<< 16))

/-- src/linker/elf.c:539-542 `read_quad`. -/
def readQuad (file : List Byte) (pos : Nat) : Res (BitVec 64) := do
  let a ← readLong file pos
  let b ← readLong file (pos + 4)
  pure (a.setWidth 64 ||| (b.setWidth 64 <<< 32))

/-- src/linker/elf.c:518-521 `read` of `size ≠ 0` bytes. -/
def readBytes (file : List Byte) (pos size : Nat) : Res (List Byte) :=
  if pos + size ≤ file.length then .ok ((file.drop pos).take size) else .fail

/-- `assert`. -/
def check (b : Bool) : Res Unit := if b then .ok () else .fail

/-- src/linker/elf.c:557-599 `read_header`: `none` if the file is not ELF, else the header, the number of
segments and the number of sections. -/
def readHeader (file : List Byte) : Res (Option (Hdr × BitVec 16 × BitVec 16)) := do
  let m ← readBytes file 0 4
  if m ≠ [0x7f, 0x45, 0x4c, 0x46] then .ok none
  else do
    check ((← readByte file 4) = 2)
    check ((← readByte file 5) = 1)
    check ((← readByte file 6) = 1)
    check ((← readByte file 7) = 0)
    check ((← readByte file 8) = 0)
    let _ ← readBytes file 9 7
    let type ← readWord file 16
    check ((← readWord file 18) = 0x3e)
    check ((← readLong file 20) = 1)
    let entry ← readQuad file 24
    let phoff ← readQuad file 32
    let shoff ← readQuad file 40
    check ((← readLong file 48) = 0)
    check ((← readWord file 52) = 64)
    let phentsize ← readWord file 54
    let phnum ← readWord file 56
    check (phnum = 0 ∨ phentsize = 7 * 8)
    let shentsize ← readWord file 58
    let shnum ← readWord file 60
    check (shnum = 0 ∨ shentsize = 8 * 8)
    let shstrndx ← readWord file 62
    .ok (some ({ type := type, entry := entry, shoff := shoff, phoff := phoff, shstrndx := shstrndx }, phnum, shnum))

/-- src/linker/elf.c:635-649 `read_section_header`. -/
def readSectionHeader (file : List Byte) (pos : Nat) : Res SHdr := do
  let name ← readLong file pos
  let type ← readLong file (pos + 4)
  let flags ← readQuad file (pos + 8)
  let addr ← readQuad file (pos + 16)
  let offset ← readQuad file (pos + 24)
  let size ← readQuad file (pos + 32)
  let link ← readLong file (pos + 40)
  let info ← readLong file (pos + 44)
  let addralign ← readQuad file (pos + 48)
  let entsize ← readQuad file (pos + 56)
  .ok { name := name, type := type, flags := flags, addr := addr, offset := offset, size := size, link := link,
        info := info, addralign := addralign, entsize := entsize }

/-- src/linker/elf.c:675-679 the section headers: `n` of them at `pos`. -/
def readSectionHeaders (file : List Byte) : Nat → Nat → Res (List SHdr)
  | 0, _ => .ok []
  | n + 1, pos => do
    let h ← readSectionHeader file pos
    let hs ← readSectionHeaders file n (pos + 64)
    .ok (h :: hs)

/-- src/linker/elf.c:681-689 the contents of the sections. -/
def readContents (file : List Byte) : List SHdr → Res (List ESect)
  | [] => .ok []
  | h :: hs => do
    let data ← if h.size.toNat = 0 then .ok [] else readBytes file h.offset.toNat h.size.toNat
    let rest ← readContents file hs
    .ok ({ hdr := h, data := data } :: rest)

/-- src/linker/elf.c:783-795 the string table of the symbol table. -/
def findStrings (sections : List ESect) : List ESect → Option (List Byte) → Res (Option (List Byte))
  | [], found => .ok found
  | s :: ss, found =>
    if s.hdr.type ≠ 2 then findStrings sections ss found
    else match found with
      | some _ => .fail
      | none =>
        match sections[s.hdr.link.toNat]? with
        | none => .ub
        | some t => if t.hdr.type = 3 then findStrings sections ss (some t.data) else .fail

/-- src/linker/elf.c:761-800 `elf_read`. -/
def elfRead (file : List Byte) : Res (Option File) := do
  match ← readHeader file with
  | none => .ok none
  | some (hdr, phnum, shnum) =>
    if phnum ≠ 0 then .fail
    else do
      let hs ← readSectionHeaders file shnum.toNat hdr.shoff.toNat
      let sections ← readContents file hs
      let shstrings ← if hdr.shstrndx = 0 then .ok [] else
        match sections[hdr.shstrndx.toNat]? with
        | none => .ub
        | some s => if s.hdr.type = 3 then .ok s.data else .fail
      let strings ← findStrings sections sections none
      .ok (some { hdr := hdr, shstrings := shstrings, strings := strings.getD [], sections := sections })

/-- The C string at an offset; without a NUL it is read out of bounds. -/
def cstrAt : List Byte → Nat → Res Name
  | [], _ => .ub
  | b :: bs, 0 => if b = 0 then .ok [] else do .ok (b :: (← cstrAt bs 0))
  | _ :: bs, n + 1 => cstrAt bs n

/-- src/linker/elf.c:205-226 the sections of the object and the index of each ELF section. -/
def progbits (shstrings : List Byte) : List ESect → List Section → List (Option Nat) →
    Res (List Section × List (Option Nat))
  | [], ss, mapping => .ok (ss, mapping)
  | e :: es, ss, mapping =>
    if e.hdr.type ≠ 1 then progbits shstrings es ss (mapping ++ [none])
    else do
      let name ← if e.hdr.name = 0 then .ok none else do .ok (some (← cstrAt shstrings e.hdr.name.toNat))
      progbits shstrings es (ss ++ [{ name := name, data := e.data }]) (mapping ++ [some ss.length])

/-- src/linker/elf.c:240-264 the symbols from entry `j` on, `k` of them; the mapping of an entry that is
not a symbol of the object is not initialised. -/
def readSymbols (strings : List Byte) (mapping : List (Option Nat)) (data : List Byte) (ent : Nat) :
    Nat → Nat → List Symbol → List (Option Nat) → Res (List Symbol × List (Option Nat))
  | 0, _, ys, ms => .ok (ys, ms)
  | k + 1, j, ys, ms => do
    let name ← read32 data (j * ent)
    let info ← read8 data (j * ent + 4)
    let _ ← read8 data (j * ent + 5)
    let shndx ← read16 data (j * ent + 6)
    let value ← read64 data (j * ent + 8)
    let size ← read64 data (j * ent + 16)
    if info &&& 0xf ≠ 0 then readSymbols strings mapping data ent k (j + 1) ys (ms ++ [none])
    else do
      let n ← if name = 0 then .ok none else do .ok (some (← cstrAt strings name.toNat))
      match mapping[shndx.toNat]? with
      | none => .ub
      | some s =>
        readSymbols strings mapping data ent k (j + 1)
          (ys ++ [{ name := n, value := value, size := size, global := info &&& 16 ≠ 0, sect := s }])
          (ms ++ [some ys.length])

/-- src/linker/elf.c:230-265 the symbol tables. -/
def symtabs (strings : List Byte) (mapping : List (Option Nat)) : List ESect → List Symbol →
    Option (List (Option Nat)) → Res (List Symbol × Option (List (Option Nat)))
  | [], ys, ms => .ok (ys, ms)
  | e :: es, ys, ms =>
    if e.hdr.type ≠ 2 then symtabs strings mapping es ys ms
    else if e.hdr.entsize = 0 then .ub
    else do
      let count := e.hdr.size.toNat / e.hdr.entsize.toNat
      let r ← readSymbols strings mapping e.data e.hdr.entsize.toNat (count - 1) 1 ys [none]
      symtabs strings mapping es r.1 (some r.2)

/-- src/linker/elf.c:284-290 the kind of a relocation. -/
def relType (info : BitVec 64) : Res RelType :=
  if info &&& 0xffff = 1 then .ok .r64
  else if info &&& 0xffff = 11 then .ok .r32
  else if info &&& 0xffff = 2 then .ok .r32rel
  else .fail

/-- src/linker/elf.c:277-304 the relocations from entry `j` on, `k` of them. -/
def readRelas (ms : Option (List (Option Nat))) (data : List Byte) (ent : Nat) :
    Nat → Nat → List Relocation → Res (List Relocation)
  | 0, _, rs => .ok rs
  | k + 1, j, rs => do
    let offset ← read64 data (ent * j)
    let info ← read64 data (ent * j + 8)
    let add ← read64 data (ent * j + 16)
    let type ← relType info
    match ms with
    | none => .fail
    | some ms =>
      match ms[((info >>> 32) &&& 0xffff).toNat]? with
      | some (some idx) =>
        readRelas (some ms) data ent k (j + 1) (rs ++ [{ type := type, idx := idx, offset := offset, add := add }])
      | _ => .ub

/-- src/linker/elf.c:267-305 the relocation sections. -/
def relas (mapping : List (Option Nat)) (ms : Option (List (Option Nat))) : List ESect → List Section →
    Res (List Section)
  | [], ss => .ok ss
  | e :: es, ss =>
    if e.hdr.type ≠ 4 then relas mapping ms es ss
    else match mapping[e.hdr.info.toNat]? with
      | some (some t) =>
        match ss[t]? with
        | none => .ub
        | some s =>
          if e.hdr.entsize = 0 then .ub
          else do
            let rs ← readRelas ms e.data e.hdr.entsize.toNat (e.hdr.size.toNat / e.hdr.entsize.toNat) 0 s.relocs
            relas mapping ms es (ss.set t { s with relocs := rs })
      | _ => .ub

/-- src/linker/elf.c:199-310 `object_from_elf`. -/
def objectFromElf (f : File) : Res Obj := do
  let p ← progbits f.shstrings f.sections [] []
  let y ← symtabs f.strings p.2 f.sections [] none
  let ss ← relas p.2 y.2 f.sections p.1
  .ok { sections := ss, symbols := y.1 }

/-- src/linker/elf.c:802-807 `elf_write_object`: the file. -/
def writeObject (junk : Nat → Byte) (o : Obj) : Res (List Byte) := do elfWrite (← elfFromObject junk o)

/-- src/linker/elf.c:809-814 `elf_write_executable`: the file. -/
def writeExecutable (e : Linker.Executable) : Res (List Byte) := do elfWrite (← elfFromExecutable e)

/-- src/linker/elf.c:816-819 `elf_read_object`. -/
def readObject (file : List Byte) : Res (Option Obj) := do
  match ← elfRead file with
  | none => .ok none
  | some f => do .ok (some (← objectFromElf f))

end Verif.Elf
