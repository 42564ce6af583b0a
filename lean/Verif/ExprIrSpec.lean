import Verif.ExprIr
import Verif.CodegenSpec
import Verif.CodegenLemmas
/-!
Specification of expressions: the types and the values of C expressions (C17 6.3, 6.5), and what
the nodes of the intermediate language compute.

Of the model only the syntax is used: types, declarations, expressions, instructions.
-/
namespace Verif.ExprIrSpec
open Verif Simple SimpleSpec
open Verif.CodegenSpec (bytes Promoted IsRel)
open Verif.ExprIr (Ty Field Decls SE Ins Use St)
open Verif.X86 (rd wr)

/-- Memory. -/
abbrev Mem := BitVec 64 → BitVec 8

/-- Where the variables are, and what the functions do: the address of the function, the values of
the arguments, memory; the result and memory afterwards. -/
structure World where
  addr : Nat → BitVec 64
  call : Nat → List Nat → Mem → Option (Nat × Mem)

/-! ### Types -/

/-- Size of an object of the type (6.5.3.4; of `void` and function types: 0). -/
def osize (d : Decls) : Ty → Nat
  | .simple .float => 4
  | .simple .double => 8
  | .simple .ldouble => 16
  | .simple s => bytes .sysv s
  | .ptr _ => 8
  | .arr t n => n * osize d t
  | .struct i => (d.structs i).size
  | .func _ => 0

/-- 6.3.2.1p3-4: the type of the value of an expression. -/
def decayed : Ty → Ty
  | .arr t _ => .ptr t
  | .func s => .ptr (.func s)
  | t => t

/-- 6.2.5p21, without floating types. -/
def IsScalar : Ty → Prop
  | .simple s => IsInt s
  | .ptr _ => True
  | _ => False

/-- Types of values that can be assigned: scalars and structures. -/
def IsValue : Ty → Prop
  | .struct _ => True
  | t => IsScalar t

/-- A pointer is represented as an `unsigned long`. -/
def asInt : Ty → ST
  | .simple s => s
  | _ => .ulong

/-- The value represented by the bytes `x` (a number, the first byte is the lowest). -/
def valueOf (t : Ty) (x : Nat) : Int := bitsVal (asInt t) (BitVec.ofNat (8 * bytes .sysv (asInt t)) x)

/-- `x` represents the value `v` in the type. -/
def Rep (t : Ty) (v : Int) (x : Nat) : Prop := x < 256 ^ bytes .sysv (asInt t) ∧ valueOf t x = v

/-- Conversion of a value (6.3.1.2, 6.3.1.3, 6.3.2.3, 6.5.16.1p2): none between equal types. -/
def Conv (T t : Ty) (x y : Nat) : Prop :=
  if T = t then y = x
  else ∃ v, IsScalar T ∧ IsScalar t ∧ IsConversion .sysv (asInt t) (valueOf T x) v ∧ Rep t v y

/-- A null pointer constant (6.3.2.3p3). -/
def IsNull : SE → Prop
  | .const _ x => x = 0
  | _ => False

/-- Lvalues (6.3.2.1p1; 6.5.1p2, 6.5.2.1, 6.5.2.3p3-4, 6.5.3.2p4). -/
def IsLvalue : SE → Prop
  | .var _ => True
  | .deref _ => True
  | .index _ _ => True
  | .arrow _ _ => True
  | .member e _ => IsLvalue e
  | _ => False

/-- The type of an expression, with the width if it is a bit-field; or the types of the parameters
that an argument list is for. -/
inductive Kind where
  | expr (t : Ty) (w : Option Nat)
  | args (ps : List Ty)

/-- Value bits of an integer operand. -/
def bitsOf (s : ST) (w : Option Nat) : Nat := w.getD (width .sysv s)

/-- 6.5.16.1p1 and 6.5.4p2: what can be assigned (more is allowed here). -/
def Assignable (t T : Ty) : Prop := IsValue t ∧ (T = t ∨ IsScalar T ∧ IsScalar t)

/-- Increments and decrements are compound assignments of 1 (6.5.2.4, 6.5.3.1); `post` if the
result is the old value. -/
inductive Compound : SE → Op → SE → SE → Bool → Prop
  | op {op a b} : Compound (.assignOp op a b) op a b false
  | incr {sub post e} : Compound (.incr sub post e) (if sub then .sub else .add) e (.const .int 1) post

/-- An object type whose size is known, so that pointers to it can be moved (6.5.6p2). -/
def IsObject (d : Decls) (t : Ty) : Prop := 0 < osize d t ∧ osize d t < 2 ^ 63

/-- The types of expressions (6.5). -/
inductive HasType (d : Decls) (lim : Prop) : SE → Kind → Prop
  | const {s x} : Promoted s → x < 256 ^ bytes .sysv s → HasType d lim (.const s x) (.expr (.simple s) none)
  | var {x} : x < d.nvars → HasType d lim (.var x) (.expr (d.vars x) none)
  | un {op e s w s'} : HasType d lim e (.expr (.simple s) w) → IsInt s → IsPromotion .sysv s (bitsOf s w) s' →
      HasType d lim (.un op e) (.expr (.simple s') none)
  | not {e T w} : HasType d lim e (.expr T w) → IsScalar (decayed T) → HasType d lim (.not e) (.expr .int none)
  | bin {op a b sa wa sb wb sa' sb' t} : ¬ (op = .lshift ∨ op = .rshift) →
      HasType d lim a (.expr (.simple sa) wa) → IsInt sa → HasType d lim b (.expr (.simple sb) wb) → IsInt sb →
      IsPromotion .sysv sa (bitsOf sa wa) sa' → IsPromotion .sysv sb (bitsOf sb wb) sb' →
      IsCommon .sysv sa' sb' t → HasType d lim (.bin op a b) (.expr (.simple (opType t op)) none)
  | shift {op a b sa wa sb wb sa'} : op = .lshift ∨ op = .rshift →
      HasType d lim a (.expr (.simple sa) wa) → IsInt sa → HasType d lim b (.expr (.simple sb) wb) → IsInt sb →
      IsPromotion .sysv sa (bitsOf sa wa) sa' → HasType d lim (.bin op a b) (.expr (.simple sa') none)
  | ptrInt {op a b Ta wa t sb wb} : op = .add ∨ op = .sub → HasType d lim a (.expr Ta wa) → decayed Ta = .ptr t →
      IsObject d t → HasType d lim b (.expr (.simple sb) wb) → IsInt sb → HasType d lim (.bin op a b) (.expr (.ptr t) none)
  | intPtr {a b Tb wb t sa wa} : HasType d lim a (.expr (.simple sa) wa) → IsInt sa →
      HasType d lim b (.expr Tb wb) → decayed Tb = .ptr t → IsObject d t →
      HasType d lim (.bin .add a b) (.expr (.ptr t) none)
  | ptrDiff {a b Ta wa Tb wb t} : HasType d lim a (.expr Ta wa) → decayed Ta = .ptr t →
      HasType d lim b (.expr Tb wb) → decayed Tb = .ptr t → IsObject d t →
      HasType d lim (.bin .sub a b) (.expr (.simple .long) none)
  | ptrCmp {op a b Ta wa Tb wb ta tb} : IsRel op → HasType d lim a (.expr Ta wa) → decayed Ta = .ptr ta →
      HasType d lim b (.expr Tb wb) → decayed Tb = .ptr tb → HasType d lim (.bin op a b) (.expr .int none)
  | ptrNull {op a b Ta wa Tb wb ta} : op = .equal ∨ op = .notEqual → HasType d lim a (.expr Ta wa) →
      decayed Ta = .ptr ta → HasType d lim b (.expr Tb wb) → IsNull b → HasType d lim (.bin op a b) (.expr .int none)
  | nullPtr {op a b Ta wa Tb wb tb} : op = .equal ∨ op = .notEqual → HasType d lim a (.expr Ta wa) →
      IsNull a → HasType d lim b (.expr Tb wb) → decayed Tb = .ptr tb → HasType d lim (.bin op a b) (.expr .int none)
  | land {a b Ta wa Tb wb} : HasType d lim a (.expr Ta wa) → IsScalar (decayed Ta) → HasType d lim b (.expr Tb wb) →
      IsScalar (decayed Tb) → HasType d lim (.land a b) (.expr .int none)
  | lor {a b Ta wa Tb wb} : HasType d lim a (.expr Ta wa) → IsScalar (decayed Ta) → HasType d lim b (.expr Tb wb) →
      IsScalar (decayed Tb) → HasType d lim (.lor a b) (.expr .int none)
  | condArith {c a b Tc wc sa wa sb wb sa' sb' t} : HasType d lim c (.expr Tc wc) → IsScalar (decayed Tc) →
      HasType d lim a (.expr (.simple sa) wa) → IsInt sa → HasType d lim b (.expr (.simple sb) wb) → IsInt sb →
      IsPromotion .sysv sa (bitsOf sa wa) sa' → IsPromotion .sysv sb (bitsOf sb wb) sb' →
      IsCommon .sysv sa' sb' t → HasType d lim (.cond c a b) (.expr (.simple t) none)
  | condSame {c a b Tc wc Ta wa Tb wb} : HasType d lim c (.expr Tc wc) → IsScalar (decayed Tc) →
      HasType d lim a (.expr Ta wa) → HasType d lim b (.expr Tb wb) → decayed Ta = decayed Tb →
      (decayed Ta = .void ∨ (∃ s, decayed Ta = .struct s) ∨ ∃ t, decayed Ta = .ptr t) →
      HasType d lim (.cond c a b) (.expr (decayed Ta) none)
  | condNullR {c a b Tc wc Ta wa Tb wb t} : HasType d lim c (.expr Tc wc) → IsScalar (decayed Tc) →
      HasType d lim a (.expr Ta wa) → decayed Ta = .ptr t → HasType d lim b (.expr Tb wb) → IsNull b →
      HasType d lim (.cond c a b) (.expr (.ptr t) none)
  | condNullL {c a b Tc wc Ta wa Tb wb t} : HasType d lim c (.expr Tc wc) → IsScalar (decayed Tc) →
      HasType d lim a (.expr Ta wa) → IsNull a → HasType d lim b (.expr Tb wb) → decayed Tb = .ptr t →
      HasType d lim (.cond c a b) (.expr (.ptr t) none)
  | comma {a b Ta wa Tb wb} : HasType d lim a (.expr Ta wa) → HasType d lim b (.expr Tb wb) →
      HasType d lim (.comma a b) (.expr (decayed Tb) none)
  | cast {t e T w} : HasType d lim e (.expr T w) → t = .void ∨ IsScalar (decayed T) ∧ IsScalar t →
      (lim → T = t → w = none) → HasType d lim (.cast t e) (.expr t none)
  | addr {e T} : HasType d lim e (.expr T none) → IsLvalue e → HasType d lim (.addr e) (.expr (.ptr T) none)
  | deref {e T w t} : HasType d lim e (.expr T w) → decayed T = .ptr t → t ≠ .void → HasType d lim (.deref e) (.expr t none)
  | index {a b o} : HasType d lim (.deref (.bin .add a b)) o → HasType d lim (.index a b) o
  | member {e s i f} : HasType d lim e (.expr (.struct s) none) → (d.structs s).fields[i]? = some f →
      HasType d lim (.member e i) (.expr f.ty (f.bits.map (·.2)))
  | arrow {e i o} : HasType d lim (.member (.deref e) i) o → HasType d lim (.arrow e i) o
  | assign {a b T wa Tb wb} : HasType d lim a (.expr T wa) → IsLvalue a → HasType d lim b (.expr Tb wb) →
      Assignable T (decayed Tb) → HasType d lim (.assign a b) (.expr T none)
  | compArith {E op a b post sa wa sb wb} : Compound E op a b post → ¬ IsRel op →
      HasType d lim a (.expr (.simple sa) wa) → IsInt sa → IsLvalue a → HasType d lim b (.expr (.simple sb) wb) → IsInt sb →
      HasType d lim E (.expr (.simple sa) none)
  | compPtr {E op a b post t wa sb wb} : Compound E op a b post → op = .add ∨ op = .sub →
      HasType d lim a (.expr (.ptr t) wa) → IsLvalue a → IsObject d t → HasType d lim b (.expr (.simple sb) wb) → IsInt sb →
      HasType d lim E (.expr (.ptr t) none)
  | call {f args T w s} : HasType d lim f (.expr T w) → decayed T = .ptr (.func s) →
      HasType d lim args (.args (d.sigs s).params) → (d.sigs s).ret = .void ∨ IsScalar (d.sigs s).ret →
      HasType d lim (.call f args) (.expr (d.sigs s).ret none)
  | anil : HasType d lim .anil (.args [])
  | acons {a rest T w p ps} : HasType d lim a (.expr T w) → Assignable p (decayed T) → HasType d lim rest (.args ps) →
      HasType d lim (.acons a rest) (.args (p :: ps))

/-- What is declared is laid out as C and the psABI require: bit-fields are of one of the types of
6.7.2.1p5 and lie in an object of their type; members lie in their structure. -/
def WellFormed (d : Decls) : Prop :=
  ∀ s, (d.structs s).size < 2 ^ 63 ∧ ∀ f ∈ (d.structs s).fields, f.offset + osize d f.ty ≤ (d.structs s).size ∧
    ∀ o n, f.bits = some (o, n) → ∃ t, f.ty = .simple t ∧ (t = .bool ∨ t = .int ∨ t = .uint) ∧
      1 ≤ n ∧ n ≤ width .sysv t ∧ o + n ≤ 8 * bytes .sysv t

/-! ### Values -/

/-- The object a value was read from: its address and size, and whether it is the unit of a
bit-field. -/
structure Src where
  a : BitVec 64
  n : Nat
  bits : Bool

/-- What an expression evaluates to: a value and where it was read; an object (for a bit-field its
unit, with the place in it); the arguments of a call with their types. -/
inductive Out where
  | val (x : Nat) (src : Option Src)
  | place (a : BitVec 64) (bits : Option (Nat × Nat))
  | args (l : List (Ty × Nat × Option Src))

/-- The object still has its value.  If it has not, then the operands of an operator conflict:
6.5p2 makes this undefined, or (when a function is called) the result unspecified. -/
def Kept (src : Option Src) (m m' : Mem) : Prop := ∀ s, src = some s → rd m' s.a s.n = rd m s.a s.n

/-- Two objects have no byte in common. -/
def Apart (a : BitVec 64) (n : Nat) (b : BitVec 64) (k : Nat) : Prop :=
  ∀ i j, i < n → j < k → a + BitVec.ofNat 64 i ≠ b + BitVec.ofNat 64 j

/-- 6.5.16.1p3: the object that is read is the object that is written, or they do not overlap.  For
bit-fields it is left open here which fields of a unit overlap. -/
def NoOverlap (src : Option Src) (a : BitVec 64) (n : Nat) (bits : Bool) : Prop :=
  ∀ s, src = some s → Apart s.a s.n a n ∨ s.a = a ∧ s.n = n ∧ s.bits = false ∧ bits = false

/-- The value of the field of `n` bits from bit `o` on, in a unit of type `s`. -/
def fieldVal (s : ST) (u o n : Nat) : Int := bitsVal s ((BitVec.ofNat (8 * bytes .sysv s) u).extractLsb' o n)

/-- `u'` is the unit `u` of `k` bytes with the `n` bits from bit `o` on those of `y`. -/
def Replaced (k u u' y o n : Nat) : Prop :=
  u' < 256 ^ k ∧ ∀ i, u'.testBit i = if o ≤ i ∧ i < o + n then y.testBit (i - o) else u.testBit i

/-- Reading an object. -/
inductive Read (d : Decls) : Ty → BitVec 64 → Option (Nat × Nat) → Mem → Nat → Prop
  | plain {T a m} : IsValue T → Read d T a none m (rd m a (osize d T))
  | bits {s a o n m x} : Rep (.simple s) (fieldVal s (rd m a (bytes .sysv s)) o n) x →
      Read d (.simple s) a (some (o, n)) m x

/-- Writing `y` to an object; `y'` is the value the object has then. -/
inductive Write (d : Decls) : Ty → BitVec 64 → Option (Nat × Nat) → Mem → Nat → Nat → Mem → Prop
  | plain {T a m y} : Write d T a none m y y (wr m a (osize d T) y)
  | bits {s a o n m y u y'} : Replaced (bytes .sysv s) (rd m a (bytes .sysv s)) u y o n →
      Rep (.simple s) (fieldVal s u o n) y' →
      Write d (.simple s) a (some (o, n)) m y y' (wr m a (bytes .sysv s) u)

/-- A comparison of operands of eight bytes, as a value of type `int` or `unsigned`. -/
inductive Wide (d : Decls) (lim : Prop) : SE → Prop
  | arith {op a b sa wa sb wb sa' sb' t} : IsRel op → HasType d lim a (.expr (.simple sa) wa) →
      HasType d lim b (.expr (.simple sb) wb) → IsPromotion .sysv sa (bitsOf sa wa) sa' →
      IsPromotion .sysv sb (bitsOf sb wb) sb' → IsCommon .sysv sa' sb' t → bytes .sysv t = 8 → Wide d lim (.bin op a b)
  | ptrL {op a b Ta wa t} : IsRel op → HasType d lim a (.expr Ta wa) → decayed Ta = .ptr t → Wide d lim (.bin op a b)
  | ptrR {op a b Tb wb t} : IsRel op → HasType d lim b (.expr Tb wb) → decayed Tb = .ptr t → Wide d lim (.bin op a b)
  | comma {a b} : Wide d lim b → Wide d lim (.comma a b)
  | plus {e} : Wide d lim e → Wide d lim (.un .plus e)
  | cast {t e} : Wide d lim e → osize d t = 4 → Wide d lim (.cast t e)

/-- Unsigned operands that a signed division divides alike. -/
def DivOk (op : Op) (t : ST) (a b : Int) : Prop :=
  op = .div → signed t = false → a < 2 ^ (width .sysv t - 1) ∧ b < 2 ^ (width .sysv t - 1)

/-- Evaluation of expressions (6.5), from memory to memory.  C leaves the order of most operands
open; here they are evaluated from left to right, except that in `i + p` the pointer comes first.
An expression whose operands conflict (see `Kept`) or whose value is undefined has no evaluation.

`lim` adds the restrictions under which the compiler is right:

* the operands of an unsigned division are below half the range (`DivOk`, C33);
* a comparison of operands of eight bytes is not used where its size matters (`Wide`, C73);
* the value assigned to a bit-field fits in it, and a bit-field is not converted to its own type
  by a cast;
* a compound shift has the type that a compound addition has;
* the object an assigned value was read from is not changed before the value of the assignment
  is used. -/
inductive Eval (d : Decls) (W : World) (lim : Prop) : SE → Mem → Out → Mem → Prop
  | const {s x m} : Eval d W lim (.const s x) m (.val x none) m
  | var {x m} : Eval d W lim (.var x) m (.place (W.addr x) none) m
  | deref {e m p src m'} : Eval d W lim e m (.val p src) m' →
      Eval d W lim (.deref e) m (.place (BitVec.ofNat 64 p) none) m'
  | index {a b m o m'} : Eval d W lim (.deref (.bin .add a b)) m o m' → Eval d W lim (.index a b) m o m'
  | member {e s i f m a m'} : HasType d lim e (.expr (.struct s) none) → (d.structs s).fields[i]? = some f →
      Eval d W lim e m (.place a none) m' →
      Eval d W lim (.member e i) m (.place (a + BitVec.ofNat 64 f.offset) f.bits) m'
  | memberVal {e s i f m x src m'} : HasType d lim e (.expr (.struct s) none) → (d.structs s).fields[i]? = some f →
      f.bits = none → IsValue f.ty → Eval d W lim e m (.val x src) m' →
      Eval d W lim (.member e i) m (.val (x / 256 ^ f.offset % 256 ^ osize d f.ty)
        (src.map fun s => ⟨s.a + BitVec.ofNat 64 f.offset, osize d f.ty, false⟩)) m'
  | arrow {e i m o m'} : Eval d W lim (.member (.deref e) i) m o m' → Eval d W lim (.arrow e i) m o m'
  /- 6.3.2.1p2 -/
  | read {e T w m a bits m' x} : HasType d lim e (.expr T w) → Eval d W lim e m (.place a bits) m' →
      Read d T a bits m' x → Eval d W lim e m (.val x (some ⟨a, osize d T, bits.isSome⟩)) m'
  /- 6.3.2.1p3-4 -/
  | decay {e T w t m a m'} : HasType d lim e (.expr T w) → decayed T ≠ T → decayed T = .ptr t →
      Eval d W lim e m (.place a none) m' → Eval d W lim e m (.val a.toNat none) m'
  | addr {e m a m'} : Eval d W lim e m (.place a none) m' → Eval d W lim (.addr e) m (.val a.toNat none) m'
  | cast {t e T w m x src m' y} : HasType d lim e (.expr T w) → Eval d W lim e m (.val x src) m' → t ≠ .void →
      Conv (decayed T) t x y → Eval d W lim (.cast t e) m (.val y (if decayed T = t then src else none)) m'
  | castVoid {e m x src m'} : Eval d W lim e m (.val x src) m' → Eval d W lim (.cast .void e) m (.val 0 none) m'
  | un {op e s w s' m x src m' v y} : HasType d lim e (.expr (.simple s) w) → IsInt s → IsPromotion .sysv s (bitsOf s w) s' →
      Eval d W lim e m (.val x src) m' → uopVal .sysv s' op (valueOf (.simple s) x) = some v →
      Rep (.simple s') v y → (lim → op ≠ .plus → ¬ Wide d lim e) →
      Eval d W lim (.un op e) m (.val y (if op = .plus then src else none)) m'
  | not {e m x src m'} : Eval d W lim e m (.val x src) m' →
      Eval d W lim (.not e) m (.val (if x = 0 then 1 else 0) none) m'
  | bin {op a b sa wa sb wb sa' sb' t m x srcA m1 y srcB m2 va vb v z} : ¬ (op = .lshift ∨ op = .rshift) →
      HasType d lim a (.expr (.simple sa) wa) → IsInt sa → HasType d lim b (.expr (.simple sb) wb) → IsInt sb →
      IsPromotion .sysv sa (bitsOf sa wa) sa' → IsPromotion .sysv sb (bitsOf sb wb) sb' → IsCommon .sysv sa' sb' t →
      Eval d W lim a m (.val x srcA) m1 → Eval d W lim b m1 (.val y srcB) m2 → Kept srcA m1 m2 →
      IsConversion .sysv t (valueOf (.simple sa) x) va → IsConversion .sysv t (valueOf (.simple sb) y) vb →
      opVal .sysv t op va vb = some v → Rep (.simple (opType t op)) v z →
      (lim → DivOk op t va vb ∧ ¬ Wide d lim a) → Eval d W lim (.bin op a b) m (.val z none) m2
  | shift {op a b sa wa sb wb sa' m x srcA m1 y srcB m2 v z} : op = .lshift ∨ op = .rshift →
      HasType d lim a (.expr (.simple sa) wa) → IsInt sa → HasType d lim b (.expr (.simple sb) wb) → IsInt sb →
      IsPromotion .sysv sa (bitsOf sa wa) sa' →
      Eval d W lim a m (.val x srcA) m1 → Eval d W lim b m1 (.val y srcB) m2 → Kept srcA m1 m2 →
      opVal .sysv sa' op (valueOf (.simple sa) x) (valueOf (.simple sb) y) = some v → Rep (.simple sa') v z →
      (lim → ¬ Wide d lim a) → Eval d W lim (.bin op a b) m (.val z none) m2
  | ptrInt {op a b Ta wa t sb wb m p srcA m1 y srcB m2} {z : Nat} : op = .add ∨ op = .sub →
      HasType d lim a (.expr Ta wa) → decayed Ta = .ptr t → IsObject d t →
      HasType d lim b (.expr (.simple sb) wb) → IsInt sb →
      Eval d W lim a m (.val p srcA) m1 → Eval d W lim b m1 (.val y srcB) m2 → Kept srcA m1 m2 →
      z < 2 ^ 64 → (2 ^ 64 : Int) ∣ (z : Int) - (if op = .add then (p : Int) + valueOf (.simple sb) y * osize d t
        else (p : Int) - valueOf (.simple sb) y * osize d t) →
      Eval d W lim (.bin op a b) m (.val z none) m2
  | intPtr {a b Tb wb t sa wa m p srcB m1 x srcA m2} {z : Nat} :
      HasType d lim a (.expr (.simple sa) wa) → IsInt sa → HasType d lim b (.expr Tb wb) → decayed Tb = .ptr t →
      IsObject d t →
      Eval d W lim b m (.val p srcB) m1 → Eval d W lim a m1 (.val x srcA) m2 → Kept srcB m1 m2 →
      z < 2 ^ 64 → (2 ^ 64 : Int) ∣ (z : Int) - (p + valueOf (.simple sa) x * osize d t) →
      Eval d W lim (.bin .add a b) m (.val z none) m2
  | ptrDiff {a b Ta wa Tb wb t m p srcA m1 q srcB m2 k z} :
      HasType d lim a (.expr Ta wa) → decayed Ta = .ptr t → HasType d lim b (.expr Tb wb) → decayed Tb = .ptr t →
      IsObject d t →
      Eval d W lim a m (.val p srcA) m1 → Eval d W lim b m1 (.val q srcB) m2 → Kept srcA m1 m2 →
      (p : Int) - q = k * osize d t → -2 ^ 63 ≤ (p : Int) - q → (p : Int) - q < 2 ^ 63 → Rep (.simple .long) k z →
      Eval d W lim (.bin .sub a b) m (.val z none) m2
  | ptrCmp {op a b Ta wa Tb wb ta tb m p srcA m1 q srcB m2 v} : IsRel op →
      HasType d lim a (.expr Ta wa) → decayed Ta = .ptr ta → HasType d lim b (.expr Tb wb) → decayed Tb = .ptr tb →
      Eval d W lim a m (.val p srcA) m1 → Eval d W lim b m1 (.val q srcB) m2 → Kept srcA m1 m2 →
      opVal .sysv .ulong op p q = some (v : Nat) → Eval d W lim (.bin op a b) m (.val v none) m2
  | ptrNull {op a b Ta wa ta Tb wb m p srcA m1 v} : op = .equal ∨ op = .notEqual →
      HasType d lim a (.expr Ta wa) → decayed Ta = .ptr ta → HasType d lim b (.expr Tb wb) → IsNull b →
      Eval d W lim a m (.val p srcA) m1 → opVal .sysv .ulong op p 0 = some (v : Nat) →
      Eval d W lim (.bin op a b) m (.val v none) m1
  | nullPtr {op a b Ta wa Tb wb tb m p srcB m1 v} : op = .equal ∨ op = .notEqual →
      HasType d lim b (.expr Tb wb) → decayed Tb = .ptr tb → HasType d lim a (.expr Ta wa) → IsNull a →
      Eval d W lim b m (.val p srcB) m1 → opVal .sysv .ulong op 0 p = some (v : Nat) →
      Eval d W lim (.bin op a b) m (.val v none) m1
  | landFalse {a b m src m'} : Eval d W lim a m (.val 0 src) m' → Eval d W lim (.land a b) m (.val 0 none) m'
  | landTrue {a b m x srcA m1 y srcB m2} : Eval d W lim a m (.val x srcA) m1 → x ≠ 0 →
      Eval d W lim b m1 (.val y srcB) m2 → Eval d W lim (.land a b) m (.val (if y = 0 then 0 else 1) none) m2
  | lorTrue {a b m x src m'} : Eval d W lim a m (.val x src) m' → x ≠ 0 →
      Eval d W lim (.lor a b) m (.val 1 none) m'
  | lorFalse {a b m srcA m1 y srcB m2} : Eval d W lim a m (.val 0 srcA) m1 →
      Eval d W lim b m1 (.val y srcB) m2 → Eval d W lim (.lor a b) m (.val (if y = 0 then 0 else 1) none) m2
  | condTrue {c a b T m x srcC m1 Ta wa y src m2 z} : HasType d lim (.cond c a b) (.expr T none) →
      Eval d W lim c m (.val x srcC) m1 → x ≠ 0 → HasType d lim a (.expr Ta wa) → Eval d W lim a m1 (.val y src) m2 →
      Conv (decayed Ta) T y z → (lim → ¬ Wide d lim a) →
      Eval d W lim (.cond c a b) m (.val z (if decayed Ta = T then src else none)) m2
  | condFalse {c a b T m srcC m1 Tb wb y src m2 z} : HasType d lim (.cond c a b) (.expr T none) →
      Eval d W lim c m (.val 0 srcC) m1 → HasType d lim b (.expr Tb wb) → Eval d W lim b m1 (.val y src) m2 →
      Conv (decayed Tb) T y z → (lim → ¬ Wide d lim b) →
      Eval d W lim (.cond c a b) m (.val z (if decayed Tb = T then src else none)) m2
  | comma {a b m x src m1 y src' m2} : Eval d W lim a m (.val x src) m1 → Eval d W lim b m1 (.val y src') m2 →
      Eval d W lim (.comma a b) m (.val y src') m2
  /- the last premise: the object that `src` is has the value `y` afterwards, see `lim` -/
  | assign {a b T wa Tb wb m p bits m1 x srcB m2 y y' m3 src} : HasType d lim a (.expr T wa) → HasType d lim b (.expr Tb wb) →
      Eval d W lim a m (.place p bits) m1 → Eval d W lim b m1 (.val x srcB) m2 →
      Conv (decayed Tb) T x y → NoOverlap srcB p (osize d T) bits.isSome → Write d T p bits m2 y y' m3 →
      (¬ lim → src = none) → (lim → src = srcB ∧ y' = y ∧ (osize d T = 4 → ¬ Wide d lim b)) →
      Eval d W lim (.assign a b) m (.val y' src) m3
  | compArith {E op a b post sa wa sb wb sa' sb' t m p bits m1 y srcB m2 x va vb v r z z' m3} :
      Compound E op a b post → HasType d lim a (.expr (.simple sa) wa) → IsInt sa →
      HasType d lim b (.expr (.simple sb) wb) → IsInt sb →
      IsPromotion .sysv sa (bitsOf sa wa) sa' → IsPromotion .sysv sb (bitsOf sb wb) sb' →
      (if op = .lshift ∨ op = .rshift then t = sa' else IsCommon .sysv sa' sb' t) →
      Eval d W lim a m (.place p bits) m1 → Eval d W lim b m1 (.val y srcB) m2 → Read d (.simple sa) p bits m2 x →
      IsConversion .sysv t (valueOf (.simple sa) x) va →
      (if op = .lshift ∨ op = .rshift then vb = valueOf (.simple sb) y
        else IsConversion .sysv t (valueOf (.simple sb) y) vb) →
      opVal .sysv t op va vb = some v → IsConversion .sysv sa v r → Rep (.simple sa) r z →
      Write d (.simple sa) p bits m2 z z' m3 →
      (lim → DivOk op t va vb ∧ z' = z ∧ IsCommon .sysv sa' sb' t) →
      Eval d W lim E m (.val (if post then x else z') none) m3
  | compPtr {E op a b post t wa sb wb m p m1 y srcB m2} {z : Nat} :
      Compound E op a b post → op = .add ∨ op = .sub → HasType d lim a (.expr (.ptr t) wa) →
      HasType d lim b (.expr (.simple sb) wb) → IsInt sb →
      Eval d W lim a m (.place p none) m1 → Eval d W lim b m1 (.val y srcB) m2 →
      z < 2 ^ 64 → (2 ^ 64 : Int) ∣ (z : Int) - (if op = .add then (rd m2 p 8 : Int) + valueOf (.simple sb) y * osize d t
        else (rd m2 p 8 : Int) - valueOf (.simple sb) y * osize d t) →
      Eval d W lim E m (.val (if post then rd m2 p 8 else z) none) (wr m2 p 8 z)
  | call {f args T w s m p srcF m1 l m2 r m3} : HasType d lim f (.expr T w) → decayed T = .ptr (.func s) →
      Eval d W lim f m (.val p srcF) m1 → Eval d W lim args m1 (.args l) m2 → Kept srcF m1 m2 →
      l.map (·.1) = (d.sigs s).params → W.call p (l.map (·.2.1)) m2 = some (r, m3) →
      r < 256 ^ osize d (d.sigs s).ret → Eval d W lim (.call f args) m (.val r none) m3
  | anil {m} : Eval d W lim .anil m (.args []) m
  | acons {a rest T w p m x src m1 y l m2} : HasType d lim a (.expr T w) → Eval d W lim a m (.val x src) m1 →
      Conv (decayed T) p x y → Eval d W lim rest m1 (.args l) m2 → Kept src m1 m2 →
      (lim → osize d p = 4 → ¬ Wide d lim a) →
      Eval d W lim (.acons a rest) m (.args ((p, y, if decayed T = p then src else none) :: l)) m2

/-! ### What the nodes compute -/

/-- The value of a node: a number, or the address of a slot in the frame that the translation of
the expression has allocated, moved by some bytes. -/
inductive Val where
  | word (x : Nat)
  | slot (k off : Nat)
  deriving DecidableEq

/-- The values of the nodes, the slots (size and content), and memory. -/
structure M where
  vals : Nat → Option Val
  slots : Nat → Option (Nat × Option Nat)
  mem : Mem

/-- The node has the value. -/
def M.put (m : M) (n : Nat) (v : Val) : M := { m with vals := ExprIr.set m.vals n (some v) }

/-- The `n` bytes at an address. -/
def M.read (m : M) (n : Nat) : Val → Option Nat
  | .word a => some (rd m.mem (BitVec.ofNat 64 a) n)
  | .slot k off =>
    match m.slots k with
    | some (size, some x) => if off + n ≤ size then some (x / 256 ^ off % 256 ^ n) else none
    | _ => none

/-- A store of `n` bytes; a slot is written as a whole, a store of another size is an error. -/
def M.write (m : M) (n x : Nat) : Val → Option M
  | .word a => some { m with mem := wr m.mem (BitVec.ofNat 64 a) n x }
  | .slot k off =>
    match m.slots k with
    | some (size, _) =>
      if off = 0 ∧ size = n then some { m with slots := ExprIr.set m.slots k (some (size, some x)) } else none
    | none => none

/-- The number a node has. -/
def M.word (m : M) (n : Nat) : Option Nat :=
  match m.vals n with
  | some (.word x) => some x
  | _ => none

/-- Operators work on four or eight bytes (C32). -/
def IsOpSize (n : Nat) : Prop := n = 4 ∨ n = 8

instance (n : Nat) : Decidable (IsOpSize n) := by unfold IsOpSize; infer_instance

/-- The values of the arguments of a call. -/
def M.args (m : M) : List (Nat × Nat) → Option (List Nat)
  | [] => some []
  | (p, n) :: r => do
    let v ← m.vals p
    let x ← m.read n v
    let l ← m.args r
    pure (x :: l)

/-- What an instruction does; `entry` is the number of the edge by which the block was entered.
`none` if it has no meaning. -/
def exec (W : World) (entry : Nat) (i : Ins) (m : M) : Option M :=
  match i with
  | .const n x => some (m.put n (.word x))
  | .alloc n size => some { m.put n (.slot n 0) with slots := ExprIr.set m.slots n (some (size, none)) }
  | .load n p size => do
    let a ← m.vals p
    let x ← m.read size a
    pure (m.put n (.word x))
  | .store p v size => do
    let a ← m.vals p
    let x ← m.word v
    m.write size x a
  | .copy p q size => do
    let a ← m.word p
    let b ← m.vals q
    let x ← m.read size b
    m.write size x (.word a)
  | .op n o a b size => do
    let x ← m.vals a
    let y ← m.word b
    match x with
    | .word x =>
      if IsOpSize size then do
        let z ← Codegen.bvOp o (BitVec.ofNat (8 * size) x) (BitVec.ofNat (8 * size) y)
        pure (m.put n (.word z.toNat))
      else none
    | .slot k off => if o = .add ∧ size = 8 then some (m.put n (.slot k (off + y))) else none
  | .bnot n a size => do
    let x ← m.word a
    if IsOpSize size then pure (m.put n (.word (~~~ BitVec.ofNat (8 * size) x).toNat)) else none
  | .neg n a size => do
    let x ← m.word a
    if IsOpSize size then pure (m.put n (.word (- BitVec.ofNat (8 * size) x).toNat)) else none
  | .sext n a k size => do
    let x ← m.word a
    pure (m.put n (.word ((BitVec.ofNat (8 * k) x).signExtend (8 * size)).toNat))
  | .zext n a size => do
    let x ← m.word a
    pure (m.put n (.word (BitVec.ofNat (8 * size) x).toNat))
  | .bool n a => do
    let x ← m.word a
    pure (m.put n (.word (if x = 0 then 0 else 1)))
  | .getBits n a o k sgn size => do
    let x ← m.word a
    pure (m.put n (.word (Bitfield.getBits (BitVec.ofNat (8 * size) x) o k sgn).toNat))
  | .setBits n f v o k size => do
    let x ← m.word f
    let y ← m.word v
    match Bitfield.setBits (BitVec.ofNat (8 * size) x) (BitVec.ofNat (8 * size) y) o k with
    | .ok z => some (m.put n (.word z.toNat))
    | _ => none
  | .phi n a b => do
    let v ← m.vals (if entry = 0 then a else b)
    pure (m.put n v)
  | .call n f as _ => do
    let p ← m.word f
    let l ← m.args as
    let (r, mem) ← W.call p l m.mem
    pure { m.put n (.word r) with mem := mem }

/-- Where the machine is: in a block, before the instruction with the number `pos`. -/
structure Conf where
  blk : Nat
  pos : Nat
  entry : Nat
  m : M

/-- One step of the nodes of a function. -/
inductive Step (W : World) (G : St) : Conf → Conf → Prop
  | ins {b pos entry m i m'} : (G.code b)[pos]? = some i → exec W entry i m = some m' →
      Step W G ⟨b, pos, entry, m⟩ ⟨b, pos + 1, entry, m'⟩
  | goto {b entry m r i} : G.uses b = [.region r i] → Step W G ⟨b, (G.code b).length, entry, m⟩ ⟨r, 0, i, m⟩
  | branch {b entry m c t f x} : G.uses b = [.branch c t f] → m.word c = some x →
      Step W G ⟨b, (G.code b).length, entry, m⟩ ⟨if x ≠ 0 then t else f, 0, 0, m⟩

/-- Steps. -/
inductive Steps (W : World) (G : St) : Conf → Conf → Prop
  | refl {c} : Steps W G c c
  | step {c c' c''} : Step W G c c' → Steps W G c' c'' → Steps W G c c''

/-- The graph `G` contains what has been built: blocks only grow, and those that are left already
stay as they are. -/
def Contains (G st : St) : Prop :=
  ∀ b, st.code b <+: G.code b ∧ (st.uses b ≠ [] → G.code b = st.code b ∧ G.uses b = st.uses b)

/-- Nothing has been put after the current block yet; blocks that do not exist are empty. -/
def Open (st : St) : Prop :=
  st.cur < st.next ∧ st.uses st.cur = [] ∧
  ∀ b, st.next ≤ b → st.code b = [] ∧ st.uses b = [] ∧ st.preds b = 0

/-- The variables are the nodes below `nvars`. -/
def HasVars (d : Decls) (W : World) (st : St) (m : M) : Prop :=
  d.nvars ≤ st.next ∧ ∀ x, x < d.nvars → m.vals x = some (.word (W.addr x).toNat) ∧ st.size x = 8

end Verif.ExprIrSpec
