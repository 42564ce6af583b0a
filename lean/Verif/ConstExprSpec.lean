import Verif.ConstExpr
import Verif.SimpleSpec
/-!
Specification of integer constant expressions (C17 6.6, with 6.3.1, 6.4.4.1 and 6.5) as two
relations: the type of an expression and its value.  The model's syntax (`E`) is used, none of its
functions.
-/
namespace Verif.ConstExprSpec
open Verif Simple ConstExpr SimpleSpec

/-- The enumeration constants in scope: type and value. -/
abbrev Names := Str → Option (ST × Int)

/-- Operators that take integers of two independent types (6.5.7). -/
def IsShift (op : Op) : Prop := op = .lshift ∨ op = .rshift

instance (op : Op) : Decidable (IsShift op) := by unfold IsShift; infer_instance

/-- The type of an expression.  Operands of `+` etc. are integers; conditions may be floating. -/
inductive HasType (abi : Abi) (N : Names) : E → ST → Prop where
  | num (b : Base) (pre ds sp : Str) (s : Suffix) (t : ST) (h : IsConstant b pre ds)
      (hs : sp ∈ spellings s) (ht : constantType abi (b = .dec) s (number b ds) = some t) :
      HasType abi N (.num (pre ++ ds ++ sp)) t
  | lit (t v) (h : IsInt t) (hr : InRange abi t v) : HasType abi N (.lit t v) t
  | dbl (b) : HasType abi N (.dbl b) .double
  | name (x t v) (h : N x = some (t, v)) : HasType abi N (.name x) t
  | obj (t) (h : IsInt t) : HasType abi N (.obj t) t
  | un (op e t t') (h : HasType abi N e t) (hi : IsInt t) (hp : IsPromotion abi t (width abi t) t') :
      HasType abi N (.un op e) t'
  | shift (op a b ta tb ta') (hop : IsShift op) (ha : HasType abi N a ta) (hb : HasType abi N b tb)
      (hia : IsInt ta) (hib : IsInt tb) (hp : IsPromotion abi ta (width abi ta) ta') :
      HasType abi N (.bin op a b) ta'
  | bin (op a b ta tb ta' tb' t) (hop : ¬ IsShift op) (ha : HasType abi N a ta)
      (hb : HasType abi N b tb) (hia : IsInt ta) (hib : IsInt tb)
      (hpa : IsPromotion abi ta (width abi ta) ta') (hpb : IsPromotion abi tb (width abi tb) tb')
      (hc : IsCommon abi ta' tb' t) : HasType abi N (.bin op a b) (opType t op)
  | cast (t e te) (h : HasType abi N e te) (hi : IsInt te) (ht : IsInt t) :
      HasType abi N (.cast t e) t
  | not (e t) (h : HasType abi N e t) : HasType abi N (.not e) .int
  | and (a b ta tb) (ha : HasType abi N a ta) (hb : HasType abi N b tb) :
      HasType abi N (.and a b) .int
  | or (a b ta tb) (ha : HasType abi N a ta) (hb : HasType abi N b tb) :
      HasType abi N (.or a b) .int
  | cond (c a b tc ta tb ta' tb' t) (hc : HasType abi N c tc) (ha : HasType abi N a ta)
      (hb : HasType abi N b tb) (hia : IsInt ta) (hib : IsInt tb)
      (hpa : IsPromotion abi ta (width abi ta) ta') (hpb : IsPromotion abi tb (width abi tb) tb')
      (hc : IsCommon abi ta' tb' t) : HasType abi N (.cond c a b) t

/-- Values. -/
inductive V where
  | int (v : Int)
  | dbl (bits : BitVec 64)

/-- A value compares unequal to 0: a double is zero if all bits but the sign are. -/
def truth : V → Bool
  | .int v => decide (v ≠ 0)
  | .dbl b => decide (b.toNat % 2 ^ 63 ≠ 0)

/-- The value of an expression.  Operands that are not evaluated need no value. -/
inductive HasValue (abi : Abi) (N : Names) : E → V → Prop where
  | num (b : Base) (pre ds sp : Str) (s : Suffix) (t : ST) (h : IsConstant b pre ds)
      (hs : sp ∈ spellings s) (ht : constantType abi (b = .dec) s (number b ds) = some t) :
      HasValue abi N (.num (pre ++ ds ++ sp)) (.int (number b ds))
  | lit (t v) : HasValue abi N (.lit t v) (.int v)
  | dbl (b) : HasValue abi N (.dbl b) (.dbl b)
  | name (x t v) (h : N x = some (t, v)) : HasValue abi N (.name x) (.int v)
  | un (op e t v w) (ht : HasType abi N (.un op e) t) (h : HasValue abi N e (.int v))
      (hv : uopVal abi t op v = some w) : HasValue abi N (.un op e) (.int w)
  | shift (op a b t v w x) (hop : IsShift op) (ht : HasType abi N (.bin op a b) t)
      (ha : HasValue abi N a (.int v)) (hb : HasValue abi N b (.int w))
      (hv : opVal abi t op v w = some x) : HasValue abi N (.bin op a b) (.int x)
  | bin (op a b ta tb ta' tb' t v w v' w' x) (hop : ¬ IsShift op) (ha : HasType abi N a ta)
      (hb : HasType abi N b tb) (hpa : IsPromotion abi ta (width abi ta) ta')
      (hpb : IsPromotion abi tb (width abi tb) tb') (hc : IsCommon abi ta' tb' t)
      (hva : HasValue abi N a (.int v)) (hvb : HasValue abi N b (.int w))
      (hca : IsConversion abi t v v') (hcb : IsConversion abi t w w')
      (hv : opVal abi t op v' w' = some x) : HasValue abi N (.bin op a b) (.int x)
  | cast (t e v w) (h : HasValue abi N e (.int v)) (hc : IsConversion abi t v w) :
      HasValue abi N (.cast t e) (.int w)
  | not (e x) (h : HasValue abi N e x) : HasValue abi N (.not e) (.int (if truth x then 0 else 1))
  | andFalse (a b x) (ha : HasValue abi N a x) (h : truth x = false) :
      HasValue abi N (.and a b) (.int 0)
  | andTrue (a b x y) (ha : HasValue abi N a x) (h : truth x = true) (hb : HasValue abi N b y) :
      HasValue abi N (.and a b) (.int (if truth y then 1 else 0))
  | orTrue (a b x) (ha : HasValue abi N a x) (h : truth x = true) :
      HasValue abi N (.or a b) (.int 1)
  | orFalse (a b x y) (ha : HasValue abi N a x) (h : truth x = false) (hb : HasValue abi N b y) :
      HasValue abi N (.or a b) (.int (if truth y then 1 else 0))
  | condTrue (c a b t x v w) (ht : HasType abi N (.cond c a b) t) (hc : HasValue abi N c x)
      (h : truth x = true) (ha : HasValue abi N a (.int v)) (hv : IsConversion abi t v w) :
      HasValue abi N (.cond c a b) (.int w)
  | condFalse (c a b t x v w) (ht : HasType abi N (.cond c a b) t) (hc : HasValue abi N c x)
      (h : truth x = false) (hb : HasValue abi N b (.int v)) (hv : IsConversion abi t v w) :
      HasValue abi N (.cond c a b) (.int w)

/-- The names the compiler knows are those declared, with their types and values. -/
def Agree (names : Str → Option Const) (N : Names) : Prop :=
  ∀ x, (names x).map (fun c => (c.ty, val c)) = N x

/-- The declared constants have values of their (integer) types. -/
def Declared (abi : Abi) (N : Names) : Prop :=
  ∀ x t v, N x = some (t, v) → IsInt t ∧ InRange abi t v

/-- Objects occur in the expression. -/
def mentionsObject : E → Bool
  | .obj _ => true
  | .num _ | .lit _ _ | .dbl _ | .name _ => false
  | .un _ e | .cast _ e | .not e => mentionsObject e
  | .bin _ a b | .and a b | .or a b | .comma a b => mentionsObject a || mentionsObject b
  | .cond c a b => mentionsObject c || mentionsObject a || mentionsObject b

end Verif.ConstExprSpec
