import Verif.Utf8
/-!
Independent specification of string and character literals (C17 6.4.4.4, 6.4.5):
a literal body is a sequence of items, each a source character or an escape
sequence; each item denotes a number; an encoding turns numbers into bytes.
Nothing here mentions the model.
-/
namespace Verif.EscapeSpec
open Verif

/-- One element of a literal. -/
inductive Item where
  /-- a source character, written in UTF-8 -/
  | plain (cp : Nat)
  /-- `\c` for a simple escape letter -/
  | simple (c : Char)
  /-- `\o`, `\oo` or `\ooo` -/
  | oct (ds : List Nat)
  /-- `\xh…h` -/
  | hex (ds : List Nat)

/-- The value of a simple escape (C17 6.4.4.4p3, 5.2.2, ASCII). -/
def simpleVal : Char → Option Nat
  | '\'' => some 39 | '"' => some 34 | '?' => some 63 | '\\' => some 92
  | 'a' => some 7 | 'b' => some 8 | 'f' => some 12 | 'n' => some 10
  | 'r' => some 13 | 't' => some 9 | 'v' => some 11
  | _ => none

/-- Value of a digit string in a base. -/
def digitsVal (base : Nat) (ds : List Nat) : Nat := ds.foldl (fun r d => r * base + d) 0

/-- ASCII spelling of a digit (lower case). -/
def digit (d : Nat) : Byte := BitVec.ofNat 8 (if d < 10 then 0x30 + d else 0x61 + (d - 10))

/-- The source text of an item. -/
def render : Item → List Byte
  | .plain cp => Utf8.specUtf8 cp
  | .simple c => [ch '\\', ch c]
  | .oct ds => ch '\\' :: ds.map digit
  | .hex ds => ch '\\' :: ch 'x' :: ds.map digit

/-- The source text of a body. -/
def renderAll (is : List Item) : List Byte := (is.map render).flatten

/-- The number an item denotes. -/
def value : Item → Nat
  | .plain cp => cp
  | .simple c => (simpleVal c).getD 0
  | .oct ds => digitsVal 8 ds
  | .hex ds => digitsVal 16 ds

/-- Is the byte an ASCII octal / hexadecimal digit? -/
def isOct (b : Byte) : Bool := 0x30 ≤ b.toNat ∧ b.toNat ≤ 0x37
def isHex (b : Byte) : Bool :=
  (0x30 ≤ b.toNat ∧ b.toNat ≤ 0x39) ∨ (0x41 ≤ b.toNat ∧ b.toNat ≤ 0x46) ∨
  (0x61 ≤ b.toNat ∧ b.toNat ≤ 0x66)

/-- An item is well formed when followed by the text `next`: escapes take the
longest digit sequence, so the text after a shorter one must not continue it. -/
def ItemWF (q : Byte) (next : List Byte) : Item → Prop
  | .plain cp => cp ≤ 0x10ffff ∧ cp ≠ 92 ∧ cp ≠ q.toNat
  | .simple c => (simpleVal c).isSome
  | .oct ds => 1 ≤ ds.length ∧ ds.length ≤ 3 ∧ (∀ d ∈ ds, d < 8) ∧
      (ds.length < 3 → ∀ b ∈ next.head?, isOct b = false)
  | .hex ds => 1 ≤ ds.length ∧ (∀ d ∈ ds, d < 16) ∧ (∀ b ∈ next.head?, isHex b = false)

/-- A literal body between quotes `q`. -/
def BodyWF (q : Byte) : List Item → Prop
  | [] => True
  | i :: is => ItemWF q (renderAll is ++ [q]) i ∧ BodyWF q is

/-- Encodings of literals. -/
inductive Enc where
  /-- execution characters are bytes; source characters are passed through as UTF-8 -/
  | narrow
  /-- UTF-16 code units -/
  | utf16
  /-- one 32-bit unit per character -/
  | utf32
  deriving DecidableEq

/-- `w` little-endian bytes. -/
def le : Nat → Nat → List Byte
  | 0, _ => []
  | w + 1, v => BitVec.ofNat 8 v :: le w (v / 256)

/-- The bytes an item contributes (C17 6.4.5p6, 6.10.8.2 with __STDC_UTF_16__). -/
def denote : Enc → Item → List Byte
  | .narrow, .plain cp => Utf8.specUtf8 cp
  | .narrow, i => [BitVec.ofNat 8 (value i)]
  | .utf16, .plain cp =>
    if cp < 0x10000 then le 2 cp
    else le 2 (0xD800 + (cp - 0x10000) / 0x400) ++ le 2 (0xDC00 + (cp - 0x10000) % 0x400)
  | .utf16, i => le 2 (value i)
  | .utf32, i => le 4 (value i)

def denoteAll (e : Enc) (is : List Item) : List Byte := (is.map (denote e)).flatten

/-- The terminating null character of a string literal. -/
def nul : Enc → List Byte
  | .narrow => [0] | .utf16 => [0, 0] | .utf32 => [0, 0, 0, 0]

end Verif.EscapeSpec
