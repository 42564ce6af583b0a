import Verif.Simple
/-!
Specification of C integer types (C17 5.2.4.2.1, 6.2.5, 6.3.1, 6.4.4.1, 6.5) for the two
data models.  Of the model only the enumerations `ST`, `Abi`, `Op`, `UOp` and the record
`Const` are used.
-/
namespace Verif.SimpleSpec
open Verif Simple

/-- Integer types. -/
def IsInt (t : ST) : Prop :=
  t ∈ [ST.bool, .char, .schar, .uchar, .short, .ushort, .int, .uint, .long, .ulong, .llong, .ullong]

instance (t : ST) : Decidable (IsInt t) := by unfold IsInt; infer_instance

/-- Signed integer types (plain `char` is signed on x86-64). -/
def signed (t : ST) : Bool :=
  t ∈ [ST.char, .schar, .short, .int, .long, .llong]

/-- Width in bits: LP64 and LLP64.  `_Bool` has one value bit. -/
def width (abi : Abi) : ST → Nat
  | .bool => 1
  | .char | .schar | .uchar => 8
  | .short | .ushort => 16
  | .int | .uint => 32
  | .long | .ulong => match abi with | .sysv => 64 | .ms => 32
  | .llong | .ullong => 64
  | _ => 0

/-- Values of a two's complement (or unsigned) integer of `w` bits. -/
def inBits (sgn : Bool) (w : Nat) (v : Int) : Prop :=
  if sgn then -2 ^ (w - 1) ≤ v ∧ v < 2 ^ (w - 1) else 0 ≤ v ∧ v < 2 ^ w

/-- Values of an integer type. -/
def InRange (abi : Abi) (t : ST) (v : Int) : Prop := inBits (signed t) (width abi t) v

instance (s w v) : Decidable (inBits s w v) := by unfold inBits; infer_instance
instance (abi t v) : Decidable (InRange abi t v) := by unfold InRange; infer_instance

/-- The value a constant denotes. -/
def val (c : Const) : Int := if signed c.ty then c.bits.toInt else c.bits.toNat

/-- A constant of integer type whose value is one of its type. -/
def Valid (abi : Abi) (c : Const) : Prop := IsInt c.ty ∧ InRange abi c.ty (val c)

instance (abi c) : Decidable (Valid abi c) := by unfold Valid; infer_instance

/-- C17 6.3.1.2, 6.3.1.3 (and the usual implementation-defined rule for signed targets):
conversion to an integer type. -/
def IsConversion (abi : Abi) (t : ST) (v w : Int) : Prop :=
  if t = .bool then w = (if v = 0 then 0 else 1)
  else InRange abi t w ∧ (2 ^ width abi t : Int) ∣ (w - v)

/-! ### 6.4.4.1 Integer constants -/

/-- Radix of the four notations. -/
def radix : Base → Nat
  | .dec => 10 | .hex => 16 | .oct => 8 | .bin => 2

/-- The value of a digit, from its place in the alphabet. -/
def dval (c : Byte) : Option Nat :=
  match (str "0123456789abcdef").findIdx? (· = c) with
  | some i => some i
  | none => (str "0123456789ABCDEF").findIdx? (· = c)

/-- A digit of the notation. -/
def IsDigit (b : Base) (c : Byte) : Prop := ∃ v, dval c = some v ∧ v < radix b

/-- The number a digit string spells. -/
def number (b : Base) (s : Str) : Nat := s.foldl (fun a c => a * radix b + (dval c).getD 0) 0

/-- Well-formed digits with their prefix: `(prefix, digits)`. -/
def IsConstant (b : Base) (pre ds : Str) : Prop :=
  (∀ c ∈ ds, IsDigit b c) ∧
  match b with
  | .dec => pre = [] ∧ ∃ c cs, ds = c :: cs ∧ c ≠ ch '0'
  | .oct => pre = str "0"
  | .hex => (pre = str "0x" ∨ pre = str "0X") ∧ ds ≠ []
  | .bin => (pre = str "0b" ∨ pre = str "0B") ∧ ds ≠ []

/-- Suffixes of 6.4.4.1. -/
inductive Suffix where
  | none | u | l | ul | ll | ull
  deriving DecidableEq, Repr

/-- Their spellings. -/
def spellings : Suffix → List Str
  | .none => [[]]
  | .u => [str "u", str "U"]
  | .l => [str "l", str "L"]
  | .ul => [str "ul", str "uL", str "Ul", str "UL", str "lu", str "lU", str "Lu", str "LU"]
  | .ll => [str "ll", str "LL"]
  | .ull => [str "ull", str "uLL", str "Ull", str "ULL", str "llu", str "llU", str "LLu", str "LLU"]

/-- The table of 6.4.4.1p5: types to try, in order. -/
def candidates (decimal : Bool) : Suffix → List ST
  | .none => if decimal then [.int, .long, .llong] else [.int, .uint, .long, .ulong, .llong, .ullong]
  | .u => [.uint, .ulong, .ullong]
  | .l => if decimal then [.long, .llong] else [.long, .ulong, .llong, .ullong]
  | .ul => [.ulong, .ullong]
  | .ll => if decimal then [.llong] else [.llong, .ullong]
  | .ull => [.ullong]

/-- The type of a constant of value `n`: the first in which it fits. -/
def constantType (abi : Abi) (decimal : Bool) (s : Suffix) (n : Nat) : Option ST :=
  (candidates decimal s).find? fun t => decide (InRange abi t n)

/-! ### 6.3.1.1, 6.3.1.8 Promotions and usual arithmetic conversions -/

/-- Conversion rank (6.3.1.1p1). -/
def rank : ST → Nat
  | .bool => 0
  | .char | .schar | .uchar => 1
  | .short | .ushort => 2
  | .int | .uint => 3
  | .long | .ulong => 4
  | _ => 5

/-- The unsigned type corresponding to a signed one. -/
def unsignedOf : ST → ST
  | .char | .schar => .uchar
  | .short => .ushort
  | .int => .uint
  | .long => .ulong
  | .llong => .ullong
  | t => t

/-- Can `t` represent every value of an integer of signedness `s` and width `w`? -/
def Represents (abi : Abi) (t : ST) (s : Bool) (w : Nat) : Prop :=
  ∀ v, inBits s w v → InRange abi t v

/-- Arithmetic types (6.2.5p18), complex types excluded. -/
def Arithmetic (t : ST) : Prop := IsInt t ∨ t = .float ∨ t = .double ∨ t = .ldouble

instance (t : ST) : Decidable (Arithmetic t) := by unfold Arithmetic; infer_instance

/-- An operand of type `t` whose values have width `w`: no bit-field (`bf = -1`), or a
bit-field of `w` bits of one of the types 6.7.2.1p5 guarantees. -/
def Operand (abi : Abi) (t : ST) (bf : Int) (w : Nat) : Prop :=
  (bf = -1 ∧ w = width abi t ∧ Arithmetic t) ∨
  (bf = w ∧ 1 ≤ w ∧ w ≤ width abi t ∧ (t = .bool ∨ t = .int ∨ t = .uint))

/-- 6.3.1.1p2 for an operand of type `t` with `w` value bits in use (the width of the
type, or of the bit-field). -/
def IsPromotion (abi : Abi) (t : ST) (w : Nat) (t' : ST) : Prop :=
  (IsInt t → if rank t ≤ rank .int then
      (Represents abi .int (signed t) w → t' = .int) ∧
      (¬ Represents abi .int (signed t) w → t' = .uint)
    else t' = t) ∧
  (¬ IsInt t → t' = t)

/-- 6.3.1.8 on promoted operands. -/
def IsCommon (abi : Abi) (a b t : ST) : Prop :=
  if a = .ldouble ∨ b = .ldouble then t = .ldouble
  else if a = .double ∨ b = .double then t = .double
  else if a = .float ∨ b = .float then t = .float
  else if a = b then t = a
  else if signed a = signed b then t = if rank a < rank b then b else a
  else
    let u := if signed a then b else a
    let s := if signed a then a else b
    if rank u ≥ rank s then t = u
    else (Represents abi s false (width abi u) → t = s) ∧
         (¬ Represents abi s false (width abi u) → t = unsignedOf s)

/-! ### 6.5 Operators on values of one integer type -/

/-- Reduction to an unsigned type. -/
def wrap (abi : Abi) (t : ST) (v : Int) : Int := v % 2 ^ width abi t

/-- Arithmetic result: must fit a signed type (else undefined), wraps for an unsigned. -/
def arith (abi : Abi) (t : ST) (v : Int) : Option Int :=
  if signed t then (if InRange abi t v then some v else none) else some (wrap abi t v)

/-- The value of a bit pattern of type `t`. -/
def bitsVal (t : ST) {n : Nat} (x : BitVec n) : Int := if signed t then x.toInt else x.toNat

/-- The value of `a op b` for promoted operands of type `t`; `none` if undefined (6.5p5,
6.5.5p5-6, 6.5.7p3-4).  Right shift of a negative value is the arithmetic shift.
Bitwise operators act on two's complement representations. -/
def opVal (abi : Abi) (t : ST) (op : Op) (a b : Int) : Option Int :=
  match op with
  | .add => arith abi t (a + b)
  | .sub => arith abi t (a - b)
  | .mul => arith abi t (a * b)
  | .div => if b = 0 then none else arith abi t (a.tdiv b)
  | .mod => if b = 0 then none else (arith abi t (a.tdiv b)).bind fun _ => some (a.tmod b)
  | .bxor => some (bitsVal t (BitVec.ofInt (width abi t) a ^^^ BitVec.ofInt (width abi t) b))
  | .bor => some (bitsVal t (BitVec.ofInt (width abi t) a ||| BitVec.ofInt (width abi t) b))
  | .band => some (bitsVal t (BitVec.ofInt (width abi t) a &&& BitVec.ofInt (width abi t) b))
  | .lshift => if 0 ≤ b ∧ b < width abi t ∧ 0 ≤ a then arith abi t (a * 2 ^ b.toNat) else none
  | .rshift => if 0 ≤ b ∧ b < width abi t then some (a / 2 ^ b.toNat) else none
  | .less => some (if a < b then 1 else 0)
  | .greater => some (if a > b then 1 else 0)
  | .lessEq => some (if a ≤ b then 1 else 0)
  | .greaterEq => some (if a ≥ b then 1 else 0)
  | .equal => some (if a = b then 1 else 0)
  | .notEqual => some (if a ≠ b then 1 else 0)

/-- The type of `a op b`. -/
def opType (t : ST) (op : Op) : ST :=
  if op ∈ [Op.less, .greater, .lessEq, .greaterEq, .equal, .notEqual] then .int else t

/-- Unary operators on a promoted operand. -/
def uopVal (abi : Abi) (t : ST) (op : UOp) (a : Int) : Option Int :=
  match op with
  | .plus => some a
  | .neg => arith abi t (-a)
  | .bnot => some (if signed t then -a - 1 else 2 ^ width abi t - 1 - a)

end Verif.SimpleSpec
