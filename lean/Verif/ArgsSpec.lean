import Verif.Args
import Verif.SimpleSpec
import Verif.CodegenSpec
/-!
What C17 says about calls: 6.5.2.2p1-p7, with 6.3.1 (conversions of values), 6.3.2.1 (arrays, functions,
`const`), 6.3.2.3 (pointers) and 6.5.16.1p1 (what may be assigned).  Of the model the types, the declarations
and the form of the operands are used.
-/
namespace Verif.Args
open Verif Simple SimpleSpec CodegenSpec

/-- 6.3.2.1p2-p4: the type of the value of an operand of this type. -/
def valueType : Ty → Ty
  | .array t => .ptr t false
  | .func k => .ptr (.func k) false
  | .simple s _ => .simple s false
  | .ptr t _ => .ptr t false
  | .record k _ => .record k false

/-- The same type, `const` or not. -/
def SameButConst (t u : Ty) : Prop := valueType t = valueType u

/-- Values: of integer types, of floating types (by their encoding), of pointers, of structures (by their
bytes). -/
inductive CV where
  | int (n : Int)
  | flt (b : Nat)
  | addr (a : Nat)
  | data (b : Nat)
  deriving DecidableEq, Repr

/-- How many bytes an integer type has. -/
def bytesOf (abi : Abi) : ST → Nat
  | .bool => 1
  | s => width abi s / 8

/-- The node holds this value of the type. -/
def Rep (d : Decls) (t : Ty) (c : CV) (v : V) : Prop :=
  match t, c with
  | .simple s _, .int n => IsInt s ∧ InRange d.abi s n ∧ v.size = bytesOf d.abi s ∧
      (v.bits : Int) = n % 2 ^ (8 * bytesOf d.abi s)
  | .simple s _, .flt b => (s = .float ∧ v = ⟨4, b⟩ ∧ b < 2 ^ 32) ∨ (s = .double ∧ v = ⟨8, b⟩ ∧ b < 2 ^ 64)
  | .ptr _ _, .addr a => v = ⟨8, a⟩ ∧ a < 2 ^ 64
  | .record k _, .data b => v = ⟨d.size k, b⟩
  | _, _ => False

/-- The value of an operand: of an array or function its address. -/
def Holds (d : Decls) (t : Ty) (c : CV) (v : V) : Prop := Rep d (valueType t) c v

/-- 6.3.1.2-6.3.1.5, 6.3.2.3: the value `c` of type `t` converted to the type `u` is `c'`.  Both types are
those of values. -/
inductive Converts (F : X86.FP) (d : Decls) : Ty → CV → Ty → CV → Prop where
  /-- 6.5.16.1p2: no conversion -/
  | same {t c} : Converts F d t c t c
  | int {s s' n n'} : IsInt s → IsInt s' → IsConversion d.abi s' n n' →
      Converts F d (.simple s false) (.int n) (.simple s' false) (.int n')
  | intFlt {s s' f k n} : IsInt s → fmtOf s' = some (f, k) →
      Converts F d (.simple s false) (.int n) (.simple s' false) (.flt (Float.ofInt f n))
  | fltInt {s s' f k b n} : fmtOf s = some (f, k) → IsInt s' → s' ≠ .bool → Float.trunc f b = some n →
      InRange d.abi s' n → Converts F d (.simple s false) (.flt b) (.simple s' false) (.int n)
  | fltBool {s f k b} : fmtOf s = some (f, k) →
      Converts F d (.simple s false) (.flt b) (.simple .bool false) (.int (if Float.cmp f b 0 = .eq then 0 else 1))
  | widen {b} : Converts F d (.simple .float false) (.flt b) (.simple .double false)
      (.flt (F.widen (BitVec.ofNat 32 b)).toNat)
  | narrow {b} : Converts F d (.simple .double false) (.flt b) (.simple .float false)
      (.flt (F.narrow (BitVec.ofNat 64 b)).toNat)
  | ptr {t u a} : Converts F d (.ptr t false) (.addr a) (.ptr u false) (.addr a)
  | ptrBool {t a} : Converts F d (.ptr t false) (.addr a) (.simple .bool false) (.int (if a = 0 then 0 else 1))
  /-- 6.3.2.3p3: a null pointer constant -/
  | null {s u} : IsInt s → Converts F d (.simple s false) (.int 0) (.ptr u false) (.addr 0)

/-- The pointed to types are the same but for `const`, and `const` is kept; or one of them is `void`. -/
def PointeeOk (u t : Ty) : Prop :=
  (valueType u = valueType t ∨ valueType u = .simple .void false ∨ valueType t = .simple .void false) ∧
  (t.isConst = true → u.isConst = true)

/-- Arithmetic types; the program has no `long double` (it is a `double`), and complex types are left out. -/
def Arith (s : ST) : Prop := IsInt s ∨ s = .float ∨ s = .double

/-- 6.5.16.1p1, for values of type `t` that are assigned to objects of type `u`; `null` says that the value is
a null pointer constant. -/
inductive Assignable (null : Prop) : Ty → Ty → Prop where
  | arith {s s'} : Arith s → Arith s' → Assignable null (.simple s false) (.simple s' false)
  | record {k} : Assignable null (.record k false) (.record k false)
  | ptr {t u} : PointeeOk u t → Assignable null (.ptr t false) (.ptr u false)
  | null {s u} : null → IsInt s → Assignable null (.simple s false) (.ptr u false)
  | ptrBool {t} : Assignable null (.ptr t false) (.simple .bool false)

/-- An operand: its type, and the width of the bit-field if it is one. -/
def Ex.Is (e : Ex) (i : Nat) (t : Ty) (w : Option Nat) : Prop :=
  e = .leaf i t (match w with | none => -1 | some w => w)

/-- The type after the default argument promotions (6.5.2.2p6, 6.3.1.1p2) of an operand of this type, a
bit-field of `w` bits. -/
def Promoted (d : Decls) (t : Ty) (w : Option Nat) (u : Ty) : Prop :=
  match valueType t with
  | .simple s _ => ∃ s', u = .simple s' false ∧
      (s = .float → s' = .double) ∧ (s ≠ .float → IsPromotion d.abi s (w.getD (width d.abi s)) s')
  | t => u = t

/-- An operand of a call. -/
structure Arg where
  e : Ex
  i : Nat
  t : Ty
  w : Option Nat
  /-- its value -/
  c : CV
  /-- it is a null pointer constant -/
  null : Prop

/-- The operand has this form and its value. -/
def Arg.Ok (d : Decls) (env : Nat → Option V) (a : Arg) : Prop :=
  a.e.Is a.i a.t a.w ∧ (∃ v, env a.i = some v ∧ Holds d a.t a.c v) ∧
  (a.null → a.c = .int 0) ∧
  -- 6.7.2.1p4, p5
  (∀ w, a.w = some w → ∃ s c, a.t = .simple s c ∧ (s = .bool ∨ s = .int ∨ s = .uint) ∧ 1 ≤ w ∧ w ≤ width d.abi s ∧
    ∃ n, a.c = .int n ∧ inBits (signed s) w n) ∧
  (∀ s c, a.t = .simple s c → Arith s)

/-- 6.5.2.2p1: what is called is a function or points to one. -/
def Calls (t : Ty) (k : Nat) : Prop := valueType t = .ptr (.func k) false

/-- 6.5.2.2p2: the number of arguments. -/
def Count (s : Sig) (n : Nat) : Prop := if s.variadic then s.params.length ≤ n else n = s.params.length

/-- 6.7.6.3p7, p8: the type of a parameter is adjusted, it is no array and no function. -/
def Adjusted : Ty → Prop
  | .array _ | .func _ => False
  | _ => True

/-- 6.5.2.2p2, p7: this argument may be passed to a parameter of this type. -/
def Arg.Fits (a : Arg) (p : Ty) : Prop := Assignable a.null (valueType a.t) (valueType p)

/-- 6.5.2.2p2, p4, p7: what a parameter gets. -/
def Named (F : X86.FP) (d : Decls) (a : Arg) (p : Ty) (r : Ty × V) : Prop :=
  SameButConst r.1 p ∧ ∃ c, Converts F d (valueType a.t) a.c (valueType p) c ∧ Rep d (valueType p) c r.2

/-- 6.5.2.2p6, p7: what is passed without a parameter. -/
def Unnamed (F : X86.FP) (d : Decls) (a : Arg) (r : Ty × V) : Prop :=
  Promoted d a.t a.w r.1 ∧ ∃ c, Converts F d (valueType a.t) a.c r.1 c ∧ Rep d r.1 c r.2

/-- 6.5.2.2: the arguments arrive. -/
inductive Arrive (F : X86.FP) (d : Decls) : List Arg → List Ty → List (Ty × V) → Prop where
  | nil : Arrive F d [] [] []
  | named {a p r as ps rs} : Named F d a p r → Arrive F d as ps rs → Arrive F d (a :: as) (p :: ps) (r :: rs)
  | unnamed {a r as rs} : Unnamed F d a r → Arrive F d as [] rs → Arrive F d (a :: as) [] (r :: rs)

/-- The conversions that the program gets right (C34, C74): not those of negative numbers narrower than
`int` and of numbers from 2^63 on to floating types and back, and of -0.0 to `_Bool`. -/
def ConversionLim (d : Decls) (c : CV) (t u : Ty) : Prop :=
  match t, u, c with
  | .simple s _, .simple s' _, .int n => IsInt s → ¬ IsInt s' → (4 ≤ bytesOf d.abi s ∨ 0 ≤ n) ∧ n < 2 ^ 63
  | .simple s _, .simple s' _, .flt b =>
      (s' = .bool → ∀ f k, fmtOf s = some (f, k) → b ≠ 2 ^ (8 * k - 1)) ∧
      (IsInt s' → s' ≠ .bool → ∀ f k, fmtOf s = some (f, k) → ∃ n, Float.trunc f b = some n ∧ InRange d.abi s' n ∧ n < 2 ^ 63)
  | _, _, _ => True

/-- The promotions that the program gets right: not those of `const` bit-fields, and none of `long` where
it has 32 bits (C18). -/
def PromotionLim (d : Decls) (a : Arg) : Prop :=
  (∀ w, a.w = some w → a.t.isConst = false) ∧
  (d.abi = .ms → valueType a.t ≠ .simple .long false)

end Verif.Args
