import Verif.Initial
/-!
What C17 6.7.9 says about initialisers: which part of the object each initialiser in a list is for
(with designators, with braces left out, and after the current object has been passed), and what
the object finally holds.
-/
namespace Verif.Initial
open Verif Simple

/-! ### Syntax (6.7.9p1) -/

/-- A designator. -/
inductive Desig where
  | index (n : Nat)
  | member (name : Str)
  deriving DecidableEq, Repr

mutual
/-- An initialiser. -/
inductive Ini where
  | expr (e : Nat) (ofRec : Option RecTy)
  | str (k : StrKind) (s : Nat) (len : Nat)
  | brace (items : Items)
/-- A list of initialisers, each with its designators; there may be a comma at the end. -/
inductive Items where
  | one (ds : List Desig) (i : Ini) (comma : Bool)
  | more (ds : List Desig) (i : Ini) (rest : Items)
end

/-- How designators are written. -/
def writeDesigs : List Desig → List Tk
  | [] => []
  | .index n :: ds => .lbrack :: .num n :: .rbrack :: writeDesigs ds
  | .member x :: ds => .dot :: .ident x :: writeDesigs ds

/-- With the equals sign. -/
def writeDesignation (ds : List Desig) : List Tk :=
  if ds = [] then [] else writeDesigs ds ++ [.assign]

mutual
/-- How an initialiser is written. -/
def Ini.write : Ini → List Tk
  | .expr e r => [.expr e r]
  | .str k s n => [.str k s n]
  | .brace items => .lbrace :: (items.write ++ [.rbrace])
/-- How a list is written. -/
def Items.write : Items → List Tk
  | .one ds i comma => writeDesignation ds ++ (i.write ++ (if comma then [.comma] else []))
  | .more ds i rest => writeDesignation ds ++ (i.write ++ (.comma :: rest.write))
end

/-- Not a list in braces. -/
def Ini.isLeaf : Ini → Bool
  | .brace _ => false
  | _ => true

/-! ### Objects and their parts -/

/-- A part of an object: the indices of elements and members that lead to it. -/
abbrev Path := List Nat

/-- The part of number `i`. -/
def T.sub : T → Nat → Option T
  | .array n t, i => if i < n then some t else none
  | .unknown t, _ => some t
  | .record _ _ fs, i => fs.get i
  | _, _ => none

/-- The part at a path. -/
def T.at : T → Path → Option T
  | t, [] => some t
  | t, i :: p => match t.sub i with
    | some u => u.at p
    | none => none

/-- How many parts a list without designators goes through (6.7.9p17): of a union only the first
member; `none`: no end. -/
def T.parts : T → Option Nat
  | .array n _ => some n
  | .unknown _ => none
  | .record true _ _ => some 1
  | .record false _ fs => some fs.length
  | _ => some 0

/-- There is a part behind number `i`. -/
def T.hasNext (t : T) (i : Nat) : Bool :=
  match t.parts with
  | some n => decide (i + 1 < n)
  | none => true

/-- 6.7.9p17, p20: the part that follows in order. -/
def next : T → Path → Option Path
  | _, [] => none
  | t, i :: p =>
    match (match t.sub i with | some u => next u p | none => none) with
    | some q => some (i :: q)
    | none => if t.hasNext i then some [i + 1] else none

/-! ### Designators -/

/-- Member number `i` has this name and type. -/
def Fields.named : Fields → Nat → Str → T → Prop
  | .nil, _, _, _ => False
  | .cons y t _, 0, x, u => x = y ∧ t = u
  | .cons _ _ r, i + 1, x, u => r.named i x u

/-- 6.7.2.1p13: a member, or a member of an anonymous structure or union. -/
inductive Names (x : Str) : T → Path → Prop where
  | here {u id fs i t} : Fields.named fs i x t → Names x (.record u id fs) [i]
  | inner {u id fs i t p} : Fields.named fs i [] t → Names x t p → Names x (.record u id fs) (i :: p)

/-- 6.7.9p6, p7: what a list of designators means. -/
inductive Resolves : T → List Desig → Path → Prop where
  | nil {t} : Resolves t [] []
  | index {t n u ds q} : (∀ v id fs, t ≠ .record v id fs) → t.sub n = some u → Resolves u ds q →
      Resolves t (.index n :: ds) (n :: q)
  | member {t x p u ds q} : x ≠ [] → Names x t p → (∀ p', Names x t p' → p' = p) → t.at p = some u →
      Resolves u ds q → Resolves t (.member x :: ds) (p ++ q)

/-! ### Initialisation -/

/-- 6.7.9p14, p15: arrays that a string literal can initialise. -/
def isCharArray (k : StrKind) : T → Bool
  | .array _ (.simple s) | .unknown (.simple s) =>
    match k with
    | .char => s == .char || s == .schar || s == .uchar
    | .wchar => s == .int
    | .char16 => s == .ushort
    | .char32 => s == .uint
  | _ => false

/-- 6.7.9p11, p13, p14: the object takes this initialiser as a whole; whether the object or the
expression is `const` does not matter (6.5.16.1p1, 6.3.2.1p2). -/
def takes (t : T) : Ini → Bool
  | .expr _ r =>
    match t with
    | .record _ id _ => decide (r.map (·.data) = some id.data)
    | t => !t.isAggregate
  | .str k _ _ => isCharArray k t || !t.isAggregate
  | .brace _ => false

/-- An expression for a structure or union is `const` if and only if the object is. -/
def sameConst (t : T) : Ini → Bool
  | .expr _ (some r) =>
    match t with
    | .record _ id _ => r.isConst == id.isConst
    | _ => true
  | _ => true

/-- 6.7.9p11, p14: the initialiser may stand in braces of its own. -/
def single (t : T) : Ini → Bool
  | .expr _ _ => !t.isAggregate
  | .str k _ _ => isCharArray k t || !t.isAggregate
  | .brace _ => false

/-- The value a part gets: an expression converted to the type of the part, or characters. -/
inductive Leaf where
  | value (v : Value) (to : T)
  | chars (s : Nat)

/-- The value of an initialiser for an object that takes it. -/
def leafOf (t : T) : Ini → Leaf
  | .expr e _ => .value (.expr e) t
  | .str _ s _ => if t.isAggregate then .chars s else .value (.address s) t
  | .brace _ => .chars 0

/-- What happens in order: the initialisation of an object by a list begins, or a part gets its
value. -/
inductive Ev where
  | start (p : Path)
  | set (p : Path) (v : Leaf)

/-- The same inside a part. -/
def Ev.under (q : Path) : Ev → Ev
  | .start p => .start (q ++ p)
  | .set p v => .set (q ++ p) v

/-- The first initialiser of a list has designators. -/
def Items.designated : Items → Bool
  | .one ds _ _ => !ds.isEmpty
  | .more ds _ _ => !ds.isEmpty

/-- No index on the path is that of the last part. -/
def roomyIn : T → Path → Bool
  | _, [] => true
  | t, i :: p => t.hasNext i && (match t.sub i with | some u => roomyIn u p | none => true)

/-- No index behind the first one is that of a last part. -/
def roomy (t : T) : Path → Bool
  | [] => true
  | i :: p => match t.sub i with
    | some u => roomyIn u p
    | none => true

/-- 6.7.9p17, p18: what an initialiser in a list is for. -/
inductive Target (t : T) : Option Path → List Desig → Path → Prop where
  | current {q} : Target t (some q) [] q
  | designated {cur ds q} : ds ≠ [] → Resolves t ds q → Target t cur ds q

mutual
/-- The initialiser initialises an object of this type (6.7.9p11-p21).  With `plain` three forms are
left out: an expression for a structure or union when only one of the two is `const`; a comma behind the only expression in braces of a scalar or behind the only string in
braces of a character array; and an initialiser without designator that follows one with several
designators (counting those through anonymous members) of which not only the first chooses a last
part. -/
inductive InitObj (plain : Bool) : T → Ini → List Ev → Prop where
  | whole {t i} : takes t i = true → (plain = true → sameConst t i = true) →
      InitObj plain t i [.set [] (leafOf t i)]
  | braced {t i comma} : single t i = true → (plain = true → comma = false) →
      InitObj plain t (.brace (.one [] i comma)) [.set [] (leafOf t i)]
  | list {t items evs} : t.isAggregate = true →
      (∀ i comma, items = .one [] i comma → single t i = false) →
      InitItems plain t (some [0]) items evs → InitObj plain t (.brace items) (.start [] :: evs)
/-- An initialiser for a part: if the part does not take it and there are no braces, it is for the
first part of the part (6.7.9p13, p20). -/
inductive Puts (plain : Bool) : T → Ini → Path → List Ev → Prop where
  | here {t i evs} : InitObj plain t i evs → Puts plain t i [] evs
  | down {t i u p evs} : i.isLeaf = true → takes t i = false → t.sub 0 = some u → Puts plain u i p evs →
      Puts plain t i (0 :: p) (evs.map (Ev.under [0]))
/-- The initialisers of a list, where the current part is given; `none`: all parts are passed. -/
inductive InitItems (plain : Bool) : T → Option Path → Items → List Ev → Prop where
  | one {t cur ds i comma q u p evs} : Target t cur ds q → t.at q = some u → Puts plain u i p evs →
      InitItems plain t cur (.one ds i comma) (evs.map (Ev.under q))
  | more {t cur ds i rest q u p evs evs'} : Target t cur ds q → t.at q = some u → Puts plain u i p evs →
      InitItems plain t (next t (q ++ p)) rest evs' →
      (plain = true → ds ≠ [] → rest.designated = false → roomy t q = true) →
      InitItems plain t cur (.more ds i rest) (evs.map (Ev.under q) ++ evs')
end

/-! ### The result -/

/-- Two different paths part at a member of a union. -/
def partAtUnion : T → Path → Path → Bool
  | t, i :: p, j :: q =>
    if i = j then match t.sub i with
      | some u => partAtUnion u p q
      | none => false
    else match t with
      | .record true _ _ => true
      | _ => false
  | _, _, _ => false

/-- 6.7.9p19, p21: what is given explicitly to the part `p` in the end. A later initialiser
overrides earlier ones for the same part; a list, or a value for a larger part, overrides all that
was given to its parts; so does another member of the union. -/
def finalAt (t : T) (p : Path) : List Ev → Option Leaf → Option Leaf
  | [], acc => acc
  | .start q :: evs, acc => finalAt t p evs (if q.isPrefixOf p then none else acc)
  | .set q v :: evs, acc =>
    finalAt t p evs (if q = p then some v else if q.isPrefixOf p || partAtUnion t q p then none else acc)

/-- Not empty. -/
def isThere : Init → Bool
  | .empty => false
  | _ => true

/-- What the generated code gives to the part `p`: the entries are written in the order of their
indices (src/codegen/rodata.c:147-157 and src/ir/ir.c:351-365), so of a union the last entry that
is there stays. -/
def codeAt : T → Init → Path → Option Leaf
  | _, .expr v to, [] => some (.value v to)
  | _, .str s, [] => some (.chars s)
  | t, .brace l, i :: p =>
    match t with
    | .record true _ _ =>
      if (l.drop (i + 1)).any isThere then none
      else match t.sub i with
        | some u => codeAt u (l.getD i .empty) p
        | none => none
    | t =>
      match t.sub i with
      | some u => codeAt u (l.getD i .empty) p
      | none => none
  | _, _, _ => none

/-- Two parts are the same, or they part at an element of an array or a member of a structure. -/
def apart : T → Path → Path → Bool
  | _, [], [] => true
  | t, i :: p, j :: q =>
    if i = j then match t.sub i with
      | some u => apart u p q
      | none => false
    else match t with
      | .record true _ _ => false
      | _ => true
  | _, _, _ => false

/-- Does the event `later` leave alone what `earlier` did? -/
def harmless (t : T) (earlier later : Ev) : Bool :=
  match earlier, later with
  | .set p _, .set q _ => apart t p q
  | .set p _, .start q => !q.isPrefixOf p && !p.isPrefixOf q
  | .start _, _ => true

/-- Nothing is overridden, except that a part may get a value twice. -/
def Separate (t : T) (evs : List Ev) : Prop := evs.Pairwise (fun a b => harmless t a b = true)

/-- 6.7.9p22: the size of an array is given by the largest index that is initialised. -/
def largest : List Ev → Nat
  | [] => 0
  | .set (i :: _) _ :: evs | .start (i :: _) :: evs => max (i + 1) (largest evs)
  | _ :: evs => largest evs

/-- The type of the object with the initialiser. -/
def fullType (t : T) (i : Ini) (evs : List Ev) : T :=
  match t with
  | .unknown u =>
    match i with
    | .str _ _ n => .array n u
    | .brace (.one [] (.str k _ n) _) => if isCharArray k t then .array n u else .array (largest evs) u
    | _ => .array (largest evs) u
  | t => t

end Verif.Initial
