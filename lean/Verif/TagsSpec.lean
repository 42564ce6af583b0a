import Verif.Tags
/-!
C17 6.2.1 and 6.7.2.3: the types that tags stand for.

A tag has a scope that begins just after its appearance in the specifier that declares it
(6.2.1p7), so it is visible in its own members.  `struct T` with a brace declares `T` in the
current scope unless this scope has a declaration of it (6.7.2.3p5); so does `struct T;` alone
(p7); without either, `struct T` stands for the visible declaration, if there is one (p9), and
otherwise declares a type (p8).  A type is complete from the closing brace on (p4) and is
completed at most once (p1); all its declarations use the same keyword (p2).  An enumeration is
used only when it is complete (p3).
-/
namespace Verif.TagsSpec
open Verif.Tags (TagKind Item)

/-- What a specifier stands for: `int` (an enumeration, whose type is compatible with it) or the
type with a number. -/
inductive Den where
  | int
  | record (e : Nat)
  deriving DecidableEq, Repr

/-- What a specifier stands for, and whether it is complete at this place. -/
structure Out where
  den : Den
  complete : Bool
  deriving DecidableEq, Repr

/-- The tags declared in the scopes, the innermost first, and the types: how many there are, the
keyword of each, and its content if it is complete. -/
structure State where
  scopes : List (Nat → Option Nat)
  next : Nat
  kind : Nat → TagKind
  content : Nat → Option (List Out)

/-- The start of a translation unit. -/
def start : State := ⟨[fun _ => none], 0, fun _ => .struct, fun _ => none⟩

/-- The innermost declaration. -/
def visible {α : Type} : List (Nat → Option α) → Nat → Option α
  | [], _ => none
  | s :: r, t => (s t).orElse fun _ => visible r t

/-- The declaration in the current scope. -/
def here {α : Type} : List (Nat → Option α) → Nat → Option α
  | [], _ => none
  | s :: _, t => s t

/-- A declaration in the current scope. -/
def bind {α : Type} (t : Nat) (e : α) : List (Nat → Option α) → List (Nat → Option α)
  | [] => []
  | s :: r => (fun u => if u = t then some e else s u) :: r

/-- A new type. -/
def State.create (s : State) (k : TagKind) : State :=
  { s with next := s.next + 1, kind := fun e => if e = s.next then k else s.kind e, content := fun e => if e = s.next then none else s.content e }

/-- A new type with a tag. -/
def State.declare (s : State) (k : TagKind) (t : Nat) : State :=
  { s.create k with scopes := bind t s.next s.scopes }

/-- The content of a type is now known. -/
def State.define (s : State) (e : Nat) (o : List Out) : State :=
  { s with content := fun x => if x = e then some o else s.content x }

/-- What a specifier for the type stands for. -/
def State.out (s : State) (e : Nat) : Out :=
  if s.kind e = .enum then ⟨.int, true⟩ else ⟨.record e, (s.content e).isSome⟩

/-- The types that the specifiers in a text stand for, in their order. -/
inductive Says : State → List Item → State → List Out → Prop
  | done (s : State) : Says s [] s []
  /-- `struct T`, where a declaration is visible -/
  | seen {s s' : State} {k : TagKind} {t e : Nat} {is : List Item} {o : List Out} :
      visible s.scopes t = some e → s.kind e = k → (k = .enum → (s.content e).isSome) → Says s is s' o →
      Says s (.ref k t false :: is) s' (s.out e :: o)
  /-- `struct T`, where none is -/
  | unseen {s s' : State} {k : TagKind} {t : Nat} {is : List Item} {o : List Out} :
      visible s.scopes t = none → k ≠ .enum → Says (s.declare k t) is s' o →
      Says s (.ref k t false :: is) s' ((s.declare k t).out s.next :: o)
  /-- `struct T;` again -/
  | again {s s' : State} {k : TagKind} {t e : Nat} {is : List Item} {o : List Out} :
      here s.scopes t = some e → s.kind e = k → k ≠ .enum → Says s is s' o →
      Says s (.ref k t true :: is) s' (s.out e :: o)
  /-- `struct T;` -/
  | alone {s s' : State} {k : TagKind} {t : Nat} {is : List Item} {o : List Out} :
      here s.scopes t = none → k ≠ .enum → Says (s.declare k t) is s' o →
      Says s (.ref k t true :: is) s' ((s.declare k t).out s.next :: o)
  /-- `struct T { }` -/
  | define {s s1 s' : State} {k : TagKind} {t : Nat} {ms is : List Item} {om o : List Out} :
      here s.scopes t = none →
      Says (s.declare k t) ms s1 om → s1.content s.next = none →
      Says (s1.define s.next om) is s' o →
      Says s (.define k (some t) ms :: is) s' ((s1.define s.next om).out s.next :: om ++ o)
  /-- `struct T { }` after another declaration in its scope -/
  | complete {s s1 s' : State} {k : TagKind} {t e : Nat} {ms is : List Item} {om o : List Out} :
      here s.scopes t = some e → s.kind e = k →
      Says s ms s1 om → s1.content e = none →
      Says (s1.define e om) is s' o →
      Says s (.define k (some t) ms :: is) s' ((s1.define e om).out e :: om ++ o)
  /-- `struct { }` -/
  | unnamed {s s1 s' : State} {k : TagKind} {ms is : List Item} {om o : List Out} :
      Says (s.create k) ms s1 om →
      Says (s1.define s.next om) is s' o →
      Says s (.define k none ms :: is) s' ((s1.define s.next om).out s.next :: om ++ o)
  /-- a block or a parameter list -/
  | scope {s s1 s' : State} {is js : List Item} {oi o : List Out} :
      Says { s with scopes := (fun _ => none) :: s.scopes } is s1 oi →
      Says { s1 with scopes := s1.scopes.tail } js s' o →
      Says s (.scope is :: js) s' (oi ++ o)

/-- The types of the compiler are those of C under other names: `f` gives the name of each type in
the compiler. -/
def DenIs (f : Nat → Option Nat) : Den → Tags.Den → Prop
  | .int, .int => True
  | .record e, .record d => f e = some d
  | _, _ => False

/-- The specifiers stand for the same types. -/
inductive OutsAre (f : Nat → Option Nat) : List Out → List Tags.Out → Prop
  | nil : OutsAre f [] []
  | cons {a : Out} {b : Tags.Out} {l : List Out} {r : List Tags.Out} :
      DenIs f a.den b.den → a.complete = b.complete → OutsAre f l r → OutsAre f (a :: l) (b :: r)

/-- The content of the types is the same. -/
def ContentIs (f : Nat → Option Nat) (s : State) (t : Tags.St) : Prop :=
  ∀ e d, f e = some d →
    match s.content e, t.fields d with
    | none, none => True
    | some o, some (k, o') => k = s.kind e ∧ OutsAre f o o'
    | _, _ => False

/-- Different types of C are different types of the compiler. -/
def Distinct (f : Nat → Option Nat) : Prop := ∀ e e' d, f e = some d → f e' = some d → e = e'

/-- The compiler understands a text as C does. -/
def Agrees (is : List Item) : Prop :=
  ∀ s o, Says start is s o →
    ∃ st o' f, Tags.items is Tags.init = .ok (st, o') ∧ Distinct f ∧ OutsAre f o o' ∧ ContentIs f s st

/-! The texts for which this is proved.  A tag that is being defined and that had no declaration in
its scope before must not occur in a scope inside its members before it occurs in them otherwise,
and must not occur in them at all if an outer declaration of it is visible; its keyword must be
the same in its members (C demands this, but the compiler notices it only at the closing brace);
`struct T;` must not hide an outer declaration. -/

/-- A tag is opened from an opening brace to the closing brace or to the first use in between. -/
inductive Mark where
  | opened (k : TagKind)
  | declared
  deriving DecidableEq, Repr

/-- The tags in each scope. -/
abbrev Marks := List (Nat → Option Mark)

mutual
/-- See above. -/
def clearItem : Item → Marks → Option Marks
  | .ref k t false, m =>
    match visible m t with
    | none => some (bind t .declared m)
    | some .declared => some m
    | some (.opened k') =>
      if k' = k ∧ here m t = some (.opened k') ∧ visible m.tail t = none then some (bind t .declared m) else none
  | .ref _ t true, m =>
    match here m t, visible m t with
    | some .declared, _ => some m
    | none, none => some (bind t .declared m)
    | _, _ => none
  | .define k (some t) ms, m =>
    match here m t with
    | none => (clear ms (bind t (.opened k) m)).map (bind t .declared)
    | some .declared => (clear ms m).map (bind t .declared)
    | some (.opened k') => if k' = k then (clear ms m).map (bind t .declared) else none
  | .define _ none ms, m => clear ms m
  | .scope is, m => (clear is ((fun _ => none) :: m)).map List.tail

/-- One after the other. -/
def clear : List Item → Marks → Option Marks
  | [], m => some m
  | i :: is, m =>
    match clearItem i m with
    | some m => clear is m
    | none => none
end

/-- The text keeps to the limits. -/
def Clear (is : List Item) : Prop := (clear is [fun _ => none]).isSome

mutual
/-- There is no enumeration. -/
def recordsItem : Item → Bool
  | .ref k _ _ => k ≠ .enum
  | .define k _ ms => k ≠ .enum && records ms
  | .scope is => records is

/-- There is no enumeration. -/
def records : List Item → Bool
  | [] => true
  | i :: is => recordsItem i && records is
end

end Verif.TagsSpec
