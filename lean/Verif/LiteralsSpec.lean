import Verif.EscapeSpec
/-!
Specification of literals, after C17 6.4.4.2 (floating constants), 6.4.4.4 (character constants) and 6.4.5 (string
literals). Nothing here mentions the model.
-/
namespace Verif.LiteralsSpec
open Verif EscapeSpec

/-! ### Floating constants -/

/-- decimal and hexadecimal digits -/
def Dec (c : Byte) : Prop := 0x30 ≤ c.toNat ∧ c.toNat ≤ 0x39
def Hex (c : Byte) : Prop := Dec c ∨ (0x41 ≤ c.toNat ∧ c.toNat ≤ 0x46) ∨ (0x61 ≤ c.toNat ∧ c.toNat ≤ 0x66)

/-- digit-sequence -/
def Digits (p : Byte → Prop) (s : List Byte) : Prop := s ≠ [] ∧ ∀ c ∈ s, p c

/-- fractional-constant: digits before or after the point may be missing, not both -/
def Fractional (p : Byte → Prop) (s : List Byte) : Prop :=
  ∃ a b, s = a ++ ch '.' :: b ∧ (a ≠ [] ∨ b ≠ []) ∧ (∀ c ∈ a, p c) ∧ ∀ c ∈ b, p c

/-- exponent-part, with its letter -/
def Exponent (small large : Byte) (s : List Byte) : Prop :=
  ∃ l sign ds, s = l :: (sign ++ ds) ∧ (l = small ∨ l = large) ∧
    (sign = [] ∨ sign = [ch '+'] ∨ sign = [ch '-']) ∧ Digits Dec ds

/-- 6.4.4.2p1: a floating constant without its suffix -/
inductive Floating : List Byte → Prop where
  | fraction {f} : Fractional Dec f → Floating f
  | fractionExp {f e} : Fractional Dec f → Exponent (ch 'e') (ch 'E') e → Floating (f ++ e)
  | digitsExp {d e} : Digits Dec d → Exponent (ch 'e') (ch 'E') e → Floating (d ++ e)
  | hexFraction {x f e} : x = ch 'x' ∨ x = ch 'X' → Fractional Hex f → Exponent (ch 'p') (ch 'P') e →
      Floating (ch '0' :: x :: (f ++ e))
  | hexDigits {x d e} : x = ch 'x' ∨ x = ch 'X' → Digits Hex d → Exponent (ch 'p') (ch 'P') e →
      Floating (ch '0' :: x :: (d ++ e))

/-- 6.4.4.2p4: the types -/
inductive FloatType where
  | float | double | longDouble

/-- The suffixes of a type. -/
def suffixes : FloatType → List (List Byte)
  | .float => [[ch 'f'], [ch 'F']]
  | .double => [[]]
  | .longDouble => [[ch 'l'], [ch 'L']]

/-! ### Elements of strings -/

/-- bytes per element -/
def width : Enc → Nat
  | .narrow => 1 | .utf16 => 2 | .utf32 => 4

/-- 6.4.5p6: the elements that an item of a string contributes. -/
def units : Enc → Item → List Nat
  | .narrow, .plain cp => (Utf8.specUtf8 cp).map BitVec.toNat
  | .utf16, .plain cp =>
    if cp < 0x10000 then [cp] else [0xD800 + (cp - 0x10000) / 0x400, 0xDC00 + (cp - 0x10000) % 0x400]
  | _, i => [value i]

/-- 6.4.4.4p9: the value of an escape sequence fits an element. -/
def Fits (e : Enc) : Item → Prop
  | .plain _ => True
  | i => value i < 256 ^ width e

/-- The elements of a string: those of its items, and a zero. -/
def elements (e : Enc) (is : List Item) : List Nat := (is.map (units e)).flatten ++ [0]

/-- The number in little-endian bytes. -/
def number : List Byte → Nat
  | [] => 0
  | b :: bs => b.toNat + 256 * number bs

/-- In these bytes are these elements of `w` bytes each, and nothing else. -/
def Holds (w : Nat) (us : List Nat) (bytes : List Byte) : Prop :=
  bytes.length = us.length * w ∧
  ∀ j u, us[j]? = some u → number ((bytes.drop (j * w)).take w) = u

end Verif.LiteralsSpec
