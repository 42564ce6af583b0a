import Verif.Object
import Verif.Bytes
/-!
The linker (src/linker/linker.c).

Sizes, counts and indices are unbounded; values and addresses are 64-bit.  All sections go into one
segment, whose data, load address and entry are the executable here.  Writing into the segment at
a place outside of it is undefined, and so is the use of a section index that does not exist.
-/
namespace Verif.Linker
open Verif Verif.Object

/-- src/linker/linker.h:8-22 `struct executable` with its one segment. -/
structure Executable where
  entry : BitVec 64 := 0
  loadAddress : BitVec 64 := 0x10000
  data : List Byte := []
  deriving DecidableEq, Repr, Inhabited

/-- src/linker/linker.c:43-53 a section with its relocations moved to the symbols of the whole. -/
def moveSection (symbols : Nat) (s : Section) : Section :=
  { s with relocs := s.relocs.map fun r => { r with idx := r.idx + symbols } }

/-- src/linker/linker.c:55-62 a symbol with its section moved to the sections of the whole. -/
def moveSymbol (sections : Nat) (y : Symbol) : Symbol := { y with sect := y.sect.map (· + sections) }

/-- src/linker/linker.c:41-66 the sections and symbols of the remaining objects, after so many
symbols and sections. -/
def concat : List Obj → Nat → Nat → List Section × List Symbol
  | [], _, _ => ([], [])
  | o :: os, symbols, sections =>
    let r := concat os (symbols + o.symbols.length) (sections + o.sections.length)
    (o.sections.map (moveSection symbols) ++ r.1, o.symbols.map (moveSymbol sections) ++ r.2)

/-- src/linker/linker.c:77-84 the section of the last definition of a name. -/
def findDefinition (n : Name) : List Symbol → Option Nat → Option Nat
  | [], found => found
  | y :: ys, found =>
    findDefinition n ys (if y.name = some n ∧ y.global = true ∧ y.sect ≠ none then y.sect else found)

/-- src/linker/linker.c:69-88 linking the symbols from index `i` on, `k` of them. -/
def linkSymbols (symbols : List Symbol) : Nat → Nat → Res (List Symbol)
  | _, 0 => .ok symbols
  | i, k + 1 =>
    match symbols[i]? with
    | none => .ub
    | some y =>
      if y.sect = none then
        match y.name with
        | none => .fail
        | some n => linkSymbols (symbols.set i { y with sect := findDefinition n symbols none }) (i + 1) k
      else linkSymbols symbols (i + 1) k

/-- src/linker/linker.c:30-91 `combine_objects`. -/
def combineObjects (objects : List Obj) : Res Obj := do
  let r := concat objects 0 0
  .ok { sections := r.1, symbols := ← linkSymbols r.2 0 r.2.length }

/-- src/linker/linker.c:117-131 the sections moved into the segment: its data and the offset of each
section.  The offset of an empty section is that of the start of the segment. -/
def place : List Section → List Byte → List Byte × List Nat
  | [], data => (data, [])
  | s :: ss, data =>
    let r := place ss (data ++ s.data)
    (r.1, (if s.data = [] then 0 else data.length) :: r.2)

/-- src/linker/linker.c:141-171 one relocation of the section at offset `here`. -/
def relocate (o : Obj) (infos : List Nat) (load : BitVec 64) (here : Nat) (r : Relocation) (data : List Byte) :
    Res (List Byte) :=
  match o.symbols[r.idx]? with
  | none => .ub
  | some y =>
    match y.sect with
    | none => .fail
    | some s =>
      match infos[s]? with
      | none => .ub
      | some there =>
        let value := y.value + BitVec.ofNat 64 there + load
        let position := r.offset + BitVec.ofNat 64 here + load
        let place := (r.offset + BitVec.ofNat 64 here).toNat
        match r.type with
        | .r64 => Bytes.write64 data place (value + r.add)
        | .r32 => Bytes.write32 data place (value + r.add)
        | .r32rel => Bytes.write32 data place (value - position + r.add)

/-- src/linker/linker.c:138-172 the relocations of a section. -/
def relocateAll (o : Obj) (infos : List Nat) (load : BitVec 64) (here : Nat) : List Relocation → List Byte → Res (List Byte)
  | [], data => .ok data
  | r :: rs, data => do relocateAll o infos load here rs (← relocate o infos load here r data)

/-- src/linker/linker.c:133-173 the relocations of the sections. -/
def relocateSections (o : Obj) (infos : List Nat) (load : BitVec 64) : List (Section × Nat) → List Byte → Res (List Byte)
  | [], data => .ok data
  | (s, here) :: ss, data => do
    relocateSections o infos load ss (← relocateAll o infos load here s.relocs data)

/-- src/linker/linker.c:175-186 the entry point: the last symbol called `_start`. -/
def findEntry (infos : List Nat) (load : BitVec 64) : List Symbol → BitVec 64 → Res (BitVec 64)
  | [], entry => .ok entry
  | y :: ys, entry =>
    match y.sect with
    | none => .ub
    | some s =>
      match infos[s]? with
      | none => .ub
      | some there =>
        findEntry infos load ys
          (if y.name = some (str "_start") then y.value + BitVec.ofNat 64 there + load else entry)

/-- src/linker/linker.c:95 the object to be laid out. -/
def whole : List Obj → Res Obj
  | [o] => .ok o
  | os => combineObjects os

/-- src/linker/linker.c:93-191 `linker_link`. -/
def linkerLink (objects : List Obj) : Res Executable := do
  let o ← whole objects
  let load : BitVec 64 := 0x10000
  let p := place o.sections []
  let data ← relocateSections o p.2 load (o.sections.zip p.2) p.1
  let entry ← findEntry p.2 load o.symbols 0
  .ok { entry := entry, loadAddress := load, data := data }

end Verif.Linker
