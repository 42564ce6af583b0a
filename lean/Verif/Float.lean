import Verif.Basic
/-!
IEEE 754 binary interchange formats: classification, comparison, conversion from and to
integers.  This is part of the specification of the machine (and of C's `float` and
`double`); no code of the compiler is modelled here.
-/
namespace Verif.Float

/-- A binary format: fraction bits and exponent bits. -/
structure Fmt where
  mb : Nat
  eb : Nat
  deriving DecidableEq, Repr

/-- binary32 -/
def f32 : Fmt := ⟨23, 8⟩
/-- binary64 -/
def f64 : Fmt := ⟨52, 11⟩

variable (f : Fmt)

/-- Fraction field. -/
def man (x : Nat) : Nat := x % 2 ^ f.mb
/-- Biased exponent field. -/
def expo (x : Nat) : Nat := x / 2 ^ f.mb % 2 ^ f.eb
/-- Sign bit. -/
def neg (x : Nat) : Bool := x / 2 ^ (f.mb + f.eb) % 2 = 1
/-- Exponent bias. -/
def bias : Nat := 2 ^ (f.eb - 1) - 1

/-- Not a number. -/
def isNaN (x : Nat) : Bool := expo f x = 2 ^ f.eb - 1 ∧ man f x ≠ 0

/-- The number's place on the line: magnitudes are ordered as their encodings. -/
def key (x : Nat) : Int :=
  if neg f x then -((x % 2 ^ (f.mb + f.eb) : Nat) : Int) else ((x % 2 ^ (f.mb + f.eb) : Nat) : Int)

/-- Outcome of a comparison (IEEE 754 5.11). -/
inductive Cmp where
  | lt | eq | gt | un
  deriving DecidableEq, Repr

/-- IEEE comparison of two encodings. -/
def cmp (x y : Nat) : Cmp :=
  if isNaN f x ∨ isNaN f y then .un
  else if key f x < key f y then .lt
  else if key f x = key f y then .eq else .gt

/-- Conversion from an integer, rounding to nearest, ties to even (encoding of the
result; overflow cannot occur for 64-bit integers). -/
def ofInt (v : Int) : Nat :=
  let n := v.natAbs
  if n = 0 then 0 else
  let l := Nat.log2 n
  let body :=
    if l ≤ f.mb then (l + bias f) * 2 ^ f.mb + (n - 2 ^ l) * 2 ^ (f.mb - l)
    else
      let sh := l - f.mb
      let q := n / 2 ^ sh
      let r := n % 2 ^ sh
      let up := if r > 2 ^ (sh - 1) ∨ (r = 2 ^ (sh - 1) ∧ q % 2 = 1) then 1 else 0
      (l + bias f) * 2 ^ f.mb + (q + up - 2 ^ f.mb)
  body + (if v < 0 then 2 ^ (f.mb + f.eb) else 0)

/-- The integer part of a finite number (`none` for infinities and NaN). -/
def trunc (x : Nat) : Option Int :=
  if expo f x = 2 ^ f.eb - 1 then none
  else if expo f x = 0 then some 0
  else
    let sig := 2 ^ f.mb + man f x
    let m := if expo f x ≥ bias f + f.mb then sig * 2 ^ (expo f x - (bias f + f.mb))
             else sig / 2 ^ (bias f + f.mb - expo f x)
    some (if neg f x then -(m : Int) else m)

-- tests of the definitions (encodings of 1, -2, 0.5, 2^53+1 rounded, 255)
example : ofInt f64 1 = 0x3ff0000000000000 := by decide
example : ofInt f64 (-2) = 0xc000000000000000 := by decide
example : ofInt f64 (2 ^ 53 + 1) = 0x4340000000000000 := by decide
example : ofInt f64 (2 ^ 53 + 3) = 0x4340000000000002 := by decide
example : ofInt f32 255 = 0x437f0000 := by decide
example : ofInt f32 (2 ^ 64 - 1) = 0x5f800000 := by decide
example : trunc f64 0x3fe0000000000000 = some 0 := by decide
example : trunc f64 0xc008000000000000 = some (-3) := by decide
example : cmp f64 0x8000000000000000 0 = .eq := by decide
example : cmp f64 0x7ff8000000000000 0 = .un := by decide
example : cmp f32 0xbf800000 0x3f000000 = .lt := by decide

end Verif.Float
