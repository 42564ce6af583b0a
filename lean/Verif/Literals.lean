import Verif.Simple
import Verif.Preprocessed
/-!
Model of the literals in `parse_primary_expression` (src/parser/expression.c:623-660): string literals, numbers and
character constants with their prefixes.

A floating constant keeps the text that is handed to `strtod`: the conversion itself belongs to the C library.
A string literal keeps the bytes that are registered in the read-only data instead of their label.
-/
namespace Verif.Literals
open Verif Simple Preprocessed

/-- src/abi/sysv.c:530, src/abi/microsoft.c:267: `wchar_type`. -/
def wcharType : Abi → ST
  | .sysv => .int
  | .ms => .ushort

/-- src/arch/x64.h: `CHAR16_TYPE`, `CHAR32_TYPE`. -/
def char16Type : ST := .ushort
def char32Type : ST := .uint

/-- The literals of `parse_primary_expression`. -/
inductive Literal where
  /-- an integer constant -/
  | const (c : Const)
  /-- a floating constant and the argument of `strtod` -/
  | floating (t : ST) (text : Str)
  /-- an array of `n` elements, and its bytes in the read-only data -/
  | array (t : ST) (n : Nat) (bytes : Str)
  deriving DecidableEq, Repr

/-- `constant <<= n` on an `intmax_t`: undefined for a negative value and on overflow. -/
def shiftLeft (r : BitVec 64) (n : Nat) : Res (BitVec 64) :=
  if r.toInt < 0 ∨ r.toInt * 2 ^ n ≥ 2 ^ 63 then .ub else .ok (r <<< n)

/-- src/common.c:68-71: four bytes in an `int`. The last shift is undefined from 128 on. -/
def fourBytes (a b c d : Byte) : Res (BitVec 32) :=
  if d.toNat ≥ 128 then .ub
  else .ok (a.setWidth 32 ||| (b.setWidth 32 <<< 8) ||| (c.setWidth 32 <<< 16) ||| (d.setWidth 32 <<< 24))

/-- src/common.c:62-75 `character_constant_wchar_to_int` and 90-92 `character_constant_char32_to_int`: the loop. -/
def wcharLoop : BitVec 64 → Str → Res (BitVec 64)
  | r, [] => .ok r
  | r, a :: b :: c :: d :: rest => do
    let r ← shiftLeft r 32
    let v ← fourBytes a b c d
    wcharLoop (r ||| v.signExtend 64) rest
  | _, _ => .fail

/-- src/common.c:77-88 `character_constant_char16_to_int`: the loop. -/
def char16Loop : BitVec 64 → Str → Res (BitVec 64)
  | r, [] => .ok r
  | r, a :: b :: rest => do
    let r ← shiftLeft r 16
    char16Loop (r ||| (a.setWidth 32 ||| (b.setWidth 32 <<< 8)).signExtend 64) rest
  | _, _ => .fail

/-- src/arch/x64.c:337-355 `floating_point_constant_from_string`. -/
def floatingConstant (s : Str) : Res Literal :=
  match s.getLast? with
  | none => .ub
  | some c =>
    if c = ch 'f' ∨ c = ch 'F' then .ok (.floating .float s)
    else if c = ch 'l' ∨ c = ch 'L' then .fail
    else .ok (.floating .double s)

/-- src/arch/x64.c:457-463 `constant_from_string`. -/
def number (abi : Abi) (s : Str) : Res Literal :=
  if isFloat s then floatingConstant s
  else do
    let c ← integerConstant abi s
    pure (.const c)

/-- src/parser/expression.h:38-44 `EXPR_STR`. -/
def exprStr (abi : Abi) (s : Str) (t : ST) : Literal := .array t (s.length / sizeOf abi t) s

/-- src/parser/expression.c:623-660; any other token is none of the literals. -/
def literal (abi : Abi) (t : Tok) : Res (Option Literal) :=
  if t.type = .T_STRING then .ok (some (exprStr abi t.str .char))
  else if t.type = .T_STRING_CHAR16 then .ok (some (exprStr abi t.str char16Type))
  else if t.type = .T_STRING_CHAR32 then .ok (some (exprStr abi t.str char32Type))
  else if t.type = .T_STRING_WCHAR then .ok (some (exprStr abi t.str (wcharType abi)))
  else if t.type = .T_NUM then do
    let c ← number abi t.str
    pure (some c)
  else if t.type = .T_CHARACTER_CONSTANT then do
    let v ← Escape.charConst 0 t.str
    pure (some (.const ⟨.int, v⟩))
  else if t.type = .T_CHARACTER_CONSTANT_WCHAR then do
    let v ← wcharLoop 0 t.str
    pure (some (.const ⟨wcharType abi, v⟩))
  else if t.type = .T_CHARACTER_CONSTANT_CHAR16 then do
    let v ← char16Loop 0 t.str
    pure (some (.const ⟨char16Type, v⟩))
  else if t.type = .T_CHARACTER_CONSTANT_CHAR32 then do
    let v ← wcharLoop 0 t.str
    pure (some (.const ⟨char32Type, v⟩))
  else .ok none

end Verif.Literals
