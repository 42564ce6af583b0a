import Verif.Lvalue
/-!
What C17 says about lvalues and what may be assigned to: 6.3.2.1p1, 6.5.16p2, 6.5.2.4p1, 6.5.3.1p1.
-/
namespace Verif.Lvalue
open Verif Simple

/-- The type with `const` (6.7.3p9: of an array, the elements). -/
def constant : Ty → Ty
  | .simple s _ => .simple s true
  | .ptr t _ => .ptr t true
  | .record i _ => .record i true
  | .array t => .array (constant t)
  | t => t

/-- The type is that of an object that is no array. -/
def IsObject : Ty → Prop
  | .array _ | .func _ | .simple .void _ => False
  | _ => True

/-- The type is `const`, or a member or element of it is, however deep inside. -/
inductive ConstInside (d : Decls) : Ty → Prop where
  | simple {s} : ConstInside d (.simple s true)
  | ptr {t} : ConstInside d (.ptr t true)
  | record {id} : ConstInside d (.record id true)
  | element {t} : ConstInside d t → ConstInside d (.array t)
  | member {id i t w c} : d.field id i = some (t, w) → ConstInside d t → ConstInside d (.record id c)

/-- 6.3.2.1p1: an lvalue of this type is modifiable. -/
def Modifiable (d : Decls) (t : Ty) : Prop := IsObject t ∧ ¬ ConstInside d t

/-- An address that is written as a number. -/
def constantAddress : SE → Bool
  | .num _ => true
  | .cast _ e => constantAddress e
  | .bin _ a b => constantAddress a && constantAddress b
  | _ => false

mutual
/-- The expression is an lvalue that designates an object of this type (6.5.1p2, 6.5.2.1, 6.5.2.3,
6.5.2.5p4, 6.5.3.2p4), and whether that is a bit-field.  With `q` members of objects that are
`const` are left out; with `p` compound literals and objects at addresses that are written as
numbers. -/
inductive Lv (d : Decls) (q p : Bool) : SE → Ty → Bool → Prop where
  | var {t} : Lv d q p (.var t) t false
  | glob {t} : Lv d q p (.glob t) t false
  | lit {t} : p = false → Lv d q p (.lit t) t false
  | deref {e t} : Val d q p e (.ptr t false) → (p = true → constantAddress e = false) →
      Lv d q p (.deref e) t false
  | member {a id c i t w} : Lv d q p a (.record id c) false → d.field id i = some (t, w) →
      (q = true → c = false) → Lv d q p (.member a i) (if c then constant t else t) (decide (w ≠ -1))
/-- The value of the expression has this type; only addresses and the integers used in them. -/
inductive Val (d : Decls) (q p : Bool) : SE → Ty → Prop where
  /-- 6.3.2.1p2: the value of an object -/
  | object {a t bf} : Lv d q p a t bf → IsObject t → Val d q p a t.unconst
  /-- 6.3.2.1p3 -/
  | array {a t} : Lv d q p a (.array t) false → Val d q p a (.ptr t false)
  | addr {a t} : Lv d q p a t false → Val d q p (.addr a) (.ptr t false)
  | num {s} : isInteger s = true → Val d q p (.num s) (.simple s false)
  | call {t} : IsObject t → t.isConst = false → Val d q p (.call t) t
  | cast {e t u} : Val d q p e t → t.isPtr = true ∨ t.isInt = true →
      Val d q p (.cast (.ptr u false) e) (.ptr u false)
  /-- 6.5.6p8, 6.5.2.1p2 -/
  | add {e i t s} : Val d q p e (.ptr t false) → Val d q p i (.simple s false) → isInteger s = true →
      Val d q p (.bin .add e i) (.ptr t false)
  | sub {e i t s} : Val d q p e (.ptr t false) → Val d q p i (.simple s false) → isInteger s = true →
      Val d q p (.bin .sub e i) (.ptr t false)
end

/-- Expressions that are no lvalues (6.5.2.2, 6.5.2.3p3, 6.5.2.4, 6.5.3.2 to 6.5.4, 6.5.5 to
6.5.17).  With `r` four are left out: the operators `,` and `=`, unary `+`, and casts. -/
inductive NoLvalue (r : Bool) : SE → Prop where
  | num {s} : NoLvalue r (.num s)
  | call {t} : NoLvalue r (.call t)
  | addr {e} : NoLvalue r (.addr e)
  | neg {e} : NoLvalue r (.un .neg e)
  | bnot {e} : NoLvalue r (.un .bnot e)
  | bin {op a b} : NoLvalue r (.bin op a b)
  | cond {c a b} : NoLvalue r (.cond c a b)
  | assignOp {op post a b} : NoLvalue r (.assignOp op post a b)
  | member {e i} : NoLvalue r e → NoLvalue r (.member e i)
  | comma {a b} : r = false → NoLvalue r (.comma a b)
  | assign {a b} : r = false → NoLvalue r (.assign a b)
  | plus {e} : r = false → NoLvalue r (.un .plus e)
  | cast {t e} : r = false → NoLvalue r (.cast t e)

/-- Bit-fields are integers of at most eight bytes (6.7.2.1p5). -/
def WellFormed (d : Decls) : Prop :=
  ∀ id i t w, d.field id i = some (t, w) → w ≠ -1 → t.isInt = true ∧ d.size t ≤ 8

end Verif.Lvalue
