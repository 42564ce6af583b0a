import Verif.AddrConst
import Verif.SimpleSpec
/-!
What address constants mean (C17 6.6p7, p9), what `offsetof` means (7.19p3) and what a static
initialiser with address constants and compound literals makes of an object (6.5.2.5p5, 6.7.9).
-/
namespace Verif.AddrConstSpec
open Verif Verif.Simple Verif.SimpleSpec Verif.StaticInit Verif.AddrConst

/-- Bytes of an object of the type; 0 for types that have no objects. -/
def bytes (d : Decls) : Ty → Int
  | .simple .bool => 1
  | .simple .float => 4
  | .simple .double => 8
  | .simple .ldouble => 16
  | .simple s => (width d.abi s / 8 : Nat)
  | .ptr _ => 8
  | .array t n => n * bytes d t
  | .record k => d.size k
  | .func => 0

/-- Not a function. -/
def IsObject : Ty → Prop
  | .func => False
  | .array t _ => IsObject t
  | _ => True

/-- Where an object with static storage duration is: at a label, where the compound literal at a
place of the source is put, or at an absolute address. -/
inductive Base where
  | named (label : Int)
  | literal (place : Nat) (t : Ty) (init : I)
  | absolute

/-- What an expression in an initialiser is: an lvalue, an address (of an object of type `t`), or an
integer. -/
inductive V where
  | lv (t : Ty) (b : Base) (offset : Int)
  | pv (t : Ty) (b : Base) (offset : Int)
  | num (s : ST) (v : Int)

/-- 6.3.2.1p3, p4: an array is converted to the address of its first element, a function to its
address; an address stays. -/
inductive Converts : V → Ty → Base → Int → Prop where
  | pv (t b o) : Converts (.pv t b o) t b o
  | array (t n b o) : Converts (.lv (.array t n) b o) t b o
  | func (b o) : Converts (.lv .func b o) .func b o

/-- Offsets are those of a 64-bit address space. -/
def Small (x : Int) : Prop := -2 ^ 63 ≤ x ∧ x < 2 ^ 63

instance (x) : Decidable (Small x) := by unfold Small; infer_instance

/-- 6.6p9: lvalues that designate static objects and the addresses made from them with `&`, `*`,
`.`, `->`, `[]`, casts and the addition of integers, and integers cast to pointers. -/
inductive Den (d : Decls) : E → V → Prop where
  | obj (l t) : Den d (.obj l t) (.lv t (.named l) 0)
  | lit (k t i) : IsObject t → Den d (.lit k t i) (.lv t (.literal k t i) 0)
  | num (s v) : IsInt s → InRange d.abi s v → Den d (.num s v) (.num s v)
  | addr {e t b o} : Den d e (.lv t b o) → Den d (.addr e) (.pv t b o)
  | deref {e v t b o} : Den d e v → Converts v t b o → Den d (.deref e) (.lv t b o)
  | dot {e r b o i m} : Den d e (.lv (.record r) b o) → d.member r i = some m → m.bitSize = -1 →
      Small (o + m.offset) → Den d (.dot e i) (.lv m.ty b (o + m.offset))
  | addL {e f v t b o s i} : Den d e v → Converts v t b o → Den d f (.num s i) → IsObject t →
      Small (i * bytes d t) → Small (o + i * bytes d t) → Den d (.add e f) (.pv t b (o + i * bytes d t))
  | addR {e f v t b o s i} : Den d e v → Converts v t b o → Den d f (.num s i) → IsObject t →
      Small (i * bytes d t) → Small (o + i * bytes d t) → Den d (.add f e) (.pv t b (o + i * bytes d t))
  | sub {e f v t b o s i} : Den d e v → Converts v t b o → Den d f (.num s i) → IsObject t →
      Small (i * bytes d t) → Small (o - i * bytes d t) → Den d (.sub e f) (.pv t b (o - i * bytes d t))
  | cast {e v t b o u} : Den d e v → Converts v t b o → Den d (.cast (.ptr u) e) (.pv u b o)
  | castNum {e s i u} : Den d e (.num s i) → Den d (.cast (.ptr u) e) (.pv u .absolute i)

/-- The label of a base, given the labels of the compound literals. -/
def labelOf (lab : Nat → Int) : Base → Int
  | .named l => l
  | .literal k _ _ => lab k
  | .absolute => -1

/-- What is put into an object of pointer type for an address: a reference to a label, or the bytes
of an absolute address. -/
def addressNode (lab : Nat → Int) : Base → Int → Node
  | .absolute, o => .const 8 (BitVec.ofInt 64 o)
  | b, o => .address (labelOf lab b) (BitVec.ofInt 64 o)

/-- The constants that an initialiser puts into an object, with the compound literals whose
addresses are used at the labels `lab`. -/
inductive Init (d : Decls) (lab : Nat → Int) : I → Node → Prop where
  | empty : Init d lab .empty .empty
  | string (bs room) : Init d lab (.string bs room) (.string bs room)
  | last : Init d lab .last .last
  | entry {o bo bs i rest n m} : Init d lab i n → Init d lab rest m →
      Init d lab (.entry o bo bs i rest) (.entry o bo bs n m)
  /-- an address -/
  | address {u e v t b o} : Den d e v → Converts v t b o →
      Init d lab (.expr (.ptr u) e) (addressNode lab b o)
  /-- an integer of the type of the object (others are converted: C17) -/
  | integer {e s i} : Den d e (.num s i) →
      Init d lab (.expr (.simple s) e) (.const (bytes d (.simple s)).toNat (BitVec.ofInt 64 i))
  /-- a null pointer or another integer for a pointer -/
  | null {u e s i} : Den d e (.num s i) → Init d lab (.expr (.ptr u) e) (.const 8 (BitVec.ofInt 64 i))
  /-- the value of a compound literal -/
  | value {k t i n} : (∀ u m, t ≠ .array u m) → t ≠ .func → Init d lab i n →
      Init d lab (.expr t (.lit k t i)) (.literal n)

/-- The compound literal that an expression of an initialiser takes the address of. -/
def literalIn : E → List (Nat × Ty × I)
  | .obj _ _ | .num _ _ => []
  | .lit k t i => [(k, t, i)]
  | .addr e | .deref e | .dot e _ | .cast _ e => literalIn e
  | .add a b | .sub a b => literalIn a ++ literalIn b

/-- Is the expression a compound literal of this type, so that it stands for its value? -/
def isValue (t : Ty) : E → Bool
  | .lit _ u _ => u = t
  | _ => false

/-- The compound literals of an initialiser whose addresses are used, in their order: these become
unnamed objects. -/
def addressed : I → List (Nat × Ty × I)
  | .expr t e => if isValue t e then [] else literalIn e
  | .entry _ _ _ i rest => addressed i ++ addressed rest
  | _ => []

/-- Integer types whose promotion is `int`. -/
def Promotes (s : ST) : Prop := s ∈ [ST.bool, .char, .schar, .uchar, .short, .ushort, .int]

instance (s) : Decidable (Promotes s) := by unfold Promotes; infer_instance

/-- Does the expression stand for an absolute address? -/
def isAbsolute : E → Bool
  | .cast _ (.num _ _) => true
  | .cast _ e => isAbsolute e
  | _ => false

/-- An integer that may be added to an address: its type is promoted to `int`. -/
def IndexOk : E → Prop
  | .num s _ => Promotes s
  | _ => True

mutual
/-- The part of the address constants that the compiler knows: an integer that is added to or
subtracted from an address has a type that is promoted to `int`, absolute addresses are only cast,
and inside of a compound literal the address of no other is used. -/
def Known : E → Prop
  | .obj _ _ | .num _ _ => True
  | .lit _ _ i => KnownInit i ∧ addressed i = []
  | .addr e => Known e
  | .dot e _ => Known e
  | .deref e => Known e ∧ isAbsolute e = false
  | .add a b => Known a ∧ Known b ∧ isAbsolute a = false ∧ isAbsolute b = false ∧ IndexOk a ∧ IndexOk b
  | .sub a b => Known a ∧ Known b ∧ isAbsolute a = false ∧ IndexOk b
  | .cast _ e => Known e
/-- The initialisers whose expressions are known. -/
def KnownInit : I → Prop
  | .expr _ e => Known e
  | .entry _ _ _ i rest => KnownInit i ∧ KnownInit rest
  | _ => True
end

/-! ### `offsetof` -/

/-- 7.19p3: the offset of what a member designator designates, and its type. -/
inductive Offset (d : Decls) : Ty → List Step → Int → Ty → Prop where
  | nil (t) : Offset d t [] 0 t
  | member {r i m p o t} : d.member r i = some m → m.bitSize = -1 → Offset d m.ty p o t →
      Offset d (.record r) (.member i :: p) (m.offset + o) t
  | index {t n s v p o u} : IsObject t → IsInt s → InRange d.abi s v → 0 ≤ v → Offset d t p o u →
      Offset d (.array t n) (.index s v :: p) (v * bytes d t + o) u

/-- The indices have types that are promoted to `int`. -/
def IntIndices (p : List Step) : Prop := ∀ s v, Step.index s v ∈ p → Promotes s

end Verif.AddrConstSpec
