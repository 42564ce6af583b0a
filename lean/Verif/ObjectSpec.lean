import Verif.Object
/-!
What a sequence of assembler calls means, with sections and symbols as maps from names.
-/
namespace Verif.ObjectSpec
open Verif Verif.Object

/-- A relocation by the name of its symbol. -/
structure Ref where
  type : RelType
  name : Name
  offset : Nat
  add : BitVec 64
  deriving DecidableEq, Repr, Inhabited

/-- Where a symbol is defined. -/
structure Def where
  sect : Name
  pos : Nat
  global : Bool
  deriving DecidableEq, Repr, Inhabited

/-- The calls with names for labels; `emit` is whatever writes bytes. -/
inductive Call where
  | sect (name : Name)
  | emit (bs : List Byte)
  | align (n : Nat)
  | define (name : Name) (global : Bool)
  | refer (r : Ref)
  deriving Repr, Inhabited

/-- Sections and symbols as maps.  `req` is the largest alignment requested in a section, `pad` the
largest one that was requested at a position that was not aligned yet. -/
structure View where
  cur : Name
  content : Name → List Byte
  defs : Name → Option Def
  refs : Name → List Ref
  req : Name → Nat
  pad : Name → Nat

/-- Update of a map. -/
def upd {α : Type} (f : Name → α) (n : Name) (a : α) : Name → α := fun m => if m = n then a else f m

/-- The start: an empty `.text`. -/
def start : View := ⟨str ".text", fun _ => [], fun _ => none, fun _ => [], fun _ => 0, fun _ => 0⟩

/-- The smallest number of bytes that makes the position `p` a multiple of `n`. -/
def padding (p n : Nat) : Nat := if p % n = 0 then 0 else n - p % n

/-- What a call does. -/
def step (v : View) : Call → View
  | .sect n => { v with cur := n }
  | .emit bs => { v with content := upd v.content v.cur (v.content v.cur ++ bs) }
  | .align n =>
    { v with
      content := upd v.content v.cur
        (v.content v.cur ++ List.replicate (padding (v.content v.cur).length n) 0)
      req := upd v.req v.cur (max (v.req v.cur) n)
      pad := if (v.content v.cur).length % n = 0 then v.pad
             else upd v.pad v.cur (max (v.pad v.cur) n) }
  | .define n g => { v with defs := upd v.defs n (some ⟨v.cur, (v.content v.cur).length, g⟩) }
  | .refer r =>
    { v with
      refs := upd v.refs v.cur
        (v.refs v.cur ++ [{ r with offset := (v.content v.cur).length + r.offset }]) }

/-- What a sequence of calls does. -/
def view (calls : List Call) : View := calls.foldl step start

/-- The little-endian bytes of a 64-bit number. -/
def quadBytes (v : BitVec 64) : List Byte := (List.range 8).map fun i => BitVec.ofNat 8 (v.toNat / 256 ^ i)

/-- A call by the names that the labels have. -/
def CallOf (es : List Entry) : Op → Call → Prop
  | .sect n, c => c = .sect n
  | .write bs, c => c = .emit bs
  | .quad v, c => c = .emit (quadBytes v)
  | .zero n, c => c = .emit (List.replicate n 0)
  | .align n, c => c = .align n ∧ 0 < n
  | .label g id, c => ∃ n, getLabel es id = .ok n ∧ id ≠ -1 ∧ c = .define n g
  | .reloc id off add ty, c => ∃ n, getLabel es id = .ok n ∧ id ≠ -1 ∧ c = .refer ⟨ty, n, off, add⟩

/-- Calls one by one. -/
def CallsOf (es : List Entry) : List Op → List Call → Prop
  | [], [] => True
  | op :: ops, c :: cs => CallOf es op c ∧ CallsOf es ops cs
  | _, _ => False

/-- A relocation of the object is a reference by name. -/
def RefOf (symbols : List Symbol) (r : Relocation) (f : Ref) : Prop :=
  r.type = f.type ∧ r.offset = BitVec.ofNat 64 f.offset ∧ r.add = f.add ∧
  ∃ s, symbols[r.idx]? = some s ∧ s.name = some f.name

/-- References one by one, in order. -/
def RefsOf (symbols : List Symbol) : List Relocation → List Ref → Prop
  | [], [] => True
  | r :: rs, f :: fs => RefOf symbols r f ∧ RefsOf symbols rs fs
  | _, _ => False

/-- A symbol of the object is the definition, or none. -/
def DefOf (sections : List Section) (s : Symbol) : Option Def → Prop
  | none => s.sect = none
  | some d => ∃ i t, s.sect = some i ∧ sections[i]? = some t ∧ t.name = some d.sect ∧
      s.value = BitVec.ofNat 64 d.pos ∧ s.global = d.global

/-- The object is what the view says: every section has its own name, and that section's content,
references in order and alignment; nothing is missing; every symbol has its own name, and that
name's definition. -/
structure Shows (o : Obj) (v : View) : Prop where
  sectNames : o.sections.Pairwise fun a b => a.name ≠ b.name
  sections : ∀ s ∈ o.sections, ∃ n, s.name = some n ∧ s.data = v.content n ∧
    RefsOf o.symbols s.relocs (v.refs n) ∧ s.alignment = v.pad n
  noneLost : ∀ n, (∀ s ∈ o.sections, s.name ≠ some n) → v.content n = [] ∧ v.refs n = [] ∧ v.pad n = 0
  symNames : o.symbols.Pairwise fun a b => a.name ≠ b.name
  symbols : ∀ s ∈ o.symbols, ∃ n, s.name = some n ∧ DefOf o.sections s (v.defs n)
  noDefLost : ∀ n, v.defs n ≠ none → ∃ s ∈ o.symbols, s.name = some n

/-- Every section is aligned at least as every request in it asks. -/
def Aligned (o : Obj) (v : View) : Prop := ∀ s ∈ o.sections, ∀ n, s.name = some n → v.req n ≤ s.alignment

/-! ### Names -/

/-- A C identifier, as far as it matters: not empty, no NUL, and neither a dot nor a digit first. -/
def Ident : Name → Prop
  | [] => False
  | c :: cs => c ≠ ch '.' ∧ ¬ (ch '0' ≤ c ∧ c ≤ ch '9') ∧ (0 : Byte) ∉ c :: cs

/-- A name that the compiler registers for a label: an identifier, or the name made for a static
variable in block scope. -/
def LabelName (n : Name) : Prop := Ident n ∨ ∃ k x, Ident x ∧ n = localVarName k x

/-- The entries after registering these strings and names in order. -/
def registered (es : List Entry) (reqs : List (EntryType × Name)) : List Entry :=
  reqs.foldl (fun es r => (labelRegister es r.1 r.2).1) es

/-- `x` occurs in `l` at position `p`. -/
def Occurs (l x : List Byte) (p : Nat) : Prop := ∃ a b, l = a ++ x ++ b ∧ a.length = p

end Verif.ObjectSpec
