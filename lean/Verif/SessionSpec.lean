import Verif.Session
import Verif.ObjectSpec
/-!
What the object of a file is, whatever else is on the command line.

The calls are those of C45, with a name for every label.  `Naming` says which names will do:
identifiers keep their names, the other labels have names of their own that are not identifiers.
-/
namespace Verif.SessionSpec
open Verif Object ObjectSpec Session

/-- The labels that a call mentions. -/
def opLabs : FOp → List Lab
  | .code _ => []
  | .refer l _ _ _ => [l]
  | .label _ l => [l]

/-- The labels that a piece mentions. -/
def pieceLabs : Piece → List Lab
  | .addr l _ => [l]
  | _ => []

/-- The labels that a variable mentions. -/
def varLabs (v : SVar) : List Lab := v.label :: v.image.flatMap pieceLabs

/-- The labels that a file mentions. -/
def labs (f : File) : List Lab := f.code.flatMap opLabs ++ f.vars.flatMap varLabs

/-- A file that the parser can produce: every label is registered or counted, names are identifiers
that are not too long, alignments are positive. -/
structure Valid (f : File) : Prop where
  known : ∀ l ∈ labs f, (∃ k, l = .tmp k) ∨ l ∈ f.regs
  tmps : ∀ k, Lab.tmp k ∈ f.regs ++ labs f → k < f.tmps
  locals : ∀ k n, Lab.localVar k n ∈ f.regs → k < f.locals ∧ Ident n ∧ n.length < 40
  names : ∀ n, Lab.name n ∈ f.regs → Ident n ∧ n.length < 64
  aligns : ∀ v ∈ f.vars, 0 < v.align

/-- Counts that `int` and the names of labels hold. -/
def Small (f : File) : Prop := f.regs.length ≤ 2 ^ 31 ∧ f.locals ≤ 2 ^ 31 ∧ f.tmps ≤ 2 ^ 30

/-- Names for the labels of a file. -/
structure Naming (f : File) (ρ : Lab → Name) : Prop where
  keeps : ∀ n, ρ (.name n) = n
  fresh : ∀ l ∈ labs f, (∀ n, l ≠ .name n) → ¬ Ident (ρ l)
  inj : ∀ l ∈ labs f, ∀ m ∈ labs f, ρ l = ρ m → l = m

/-- The call of a function. -/
def opCall (ρ : Lab → Name) : FOp → Call
  | .code bs => .emit bs
  | .refer l off add ty => .refer ⟨ty, ρ l, off, add⟩
  | .label g l => .define (ρ l) g

/-- The calls for a piece: an address is eight zeros and a reference. -/
def pieceCalls (ρ : Lab → Name) : Piece → List Call
  | .bytes bs => [.emit bs]
  | .zero n => [.emit (List.replicate n 0)]
  | .addr l add => [.refer ⟨.r64, ρ l, 0, add⟩, .emit (List.replicate 8 0)]

/-- A variable: aligned in `.data`, its symbol at its start. -/
def varCalls (ρ : Lab → Name) (v : SVar) : List Call :=
  [.sect (str ".data"), .align v.align, .define (ρ v.label) v.global] ++ v.image.flatMap (pieceCalls ρ)
    ++ [.sect (str ".text")]

/-- A string constant with its NUL. -/
def stringCalls (ρ : Lab → Name) (s : Name) : List Call :=
  [.define (ρ (.string s)) false, .emit s, .emit [0]]

/-- All of a file: its functions, string constants, its variables. -/
def fileCalls (ρ : Lab → Name) (strings : List Name) (f : File) : List Call :=
  f.code.map (opCall ρ) ++ .sect (str ".rodata") :: strings.flatMap (stringCalls ρ)
    ++ f.vars.flatMap (varCalls ρ)

/-- The object of a file: the functions and variables of the file and string constants with all
that the file uses, and nothing else. -/
def ObjectOf (f : File) (o : Obj) : Prop :=
  ∃ ρ strings, Naming f ρ ∧ (∀ s, Lab.string s ∈ labs f → s ∈ strings) ∧
    (∀ s t, s ∈ strings → t ∈ strings → ρ (.string s) = ρ (.string t) → s = t) ∧
    (∀ s ∈ strings, ¬ Ident (ρ (.string s))) ∧
    Shows o (view (fileCalls ρ strings f))

/-- The identifiers that a file defines. -/
def Defines (f : File) (n : Name) : Prop :=
  (∃ g, FOp.label g (.name n) ∈ f.code) ∨ ∃ v ∈ f.vars, v.label = .name n

/-- The names that an object defines. -/
def Defined (o : Obj) (n : Name) : Prop := ∃ s ∈ o.symbols, s.name = some n ∧ s.sect ≠ none

/-- One by one. -/
def Each {α β : Type} (R : α → β → Prop) : List α → List β → Prop
  | [], [] => True
  | a :: as, b :: bs => R a b ∧ Each R as bs
  | _, _ => False

/-- The labels of a file that comes after others with so many temporary labels and static variables
in blocks. -/
def shift (tmps locals : Nat) : Lab → Lab
  | .localVar k n => .localVar (locals + k) n
  | .tmp k => .tmp (tmps + k)
  | l => l

/-- A call with other labels. -/
def mapOp (h : Lab → Lab) : FOp → FOp
  | .code bs => .code bs
  | .refer l off add ty => .refer (h l) off add ty
  | .label g l => .label g (h l)

/-- A piece with other labels. -/
def mapPiece (h : Lab → Lab) : Piece → Piece
  | .addr l add => .addr (h l) add
  | p => p

/-- A variable with other labels. -/
def mapVar (h : Lab → Lab) (v : SVar) : SVar := { v with label := h v.label, image := v.image.map (mapPiece h) }

/-- A file after others: its functions, but the variables and labels of all. -/
def after (m f : File) : File :=
  let h := shift m.tmps m.locals
  { regs := m.regs ++ f.regs.map h
    code := f.code.map (mapOp h)
    vars := m.vars ++ f.vars.map (mapVar h)
    tmps := m.tmps + f.tmps
    locals := m.locals + f.locals
    pushes := m.pushes + f.pushes }

/-- The files before any. -/
def noFiles : File := ⟨[], [], [], 0, 0, 0⟩

/-- Each file after those before it. -/
def cumulative : File → List File → List File
  | _, [] => []
  | m, f :: fs => after m f :: cumulative (after m f) fs

end Verif.SessionSpec
