import Verif.Token
/-!
Model of the simple types and integer constants: src/types.h:39-61, src/types.c:230-290,
src/arch/x64.c:12-128, 310-335, 356-572, src/abi/sysv.c:508-523, src/abi/microsoft.c:246-261.

A `struct constant` (src/arch/x64.h) of simple type is a type and the 64 bits of its
union (`int_d`, `uint_d`: `int64_t`, `uint64_t`).
-/
namespace Verif.Simple
open Verif

/-- src/types.h:39-61 `enum simple_type`. -/
inductive ST where
  | void | char | schar | uchar | short | ushort | int | uint | long | ulong | llong | ullong
  | float | double | ldouble | bool | floatC | doubleC | ldoubleC
  deriving DecidableEq, Repr, Inhabited

/-- The two ABIs (data models): src/abi/sysv.c, src/abi/microsoft.c. -/
inductive Abi where
  | sysv | ms
  deriving DecidableEq, Repr, Inhabited

/-- src/abi/sysv.c:508-523, src/abi/microsoft.c:246-261 (`abi_sizeof_simple`); entries not
listed in the tables are 0. -/
def sizeOf : Abi → ST → Nat
  | _, .bool | _, .char | _, .schar | _, .uchar => 1
  | _, .short | _, .ushort => 2
  | _, .int | _, .uint => 4
  | .sysv, .long | .sysv, .ulong => 8
  | .ms, .long | .ms, .ulong => 4
  | _, .llong | _, .ullong => 8
  | _, .float => 4
  | _, .double => 8
  | _, .ldouble => 16
  | _, .void => 0
  | _, .floatC | _, .doubleC | _, .ldoubleC => 0

/-- src/arch/x64.c:16-39 `is_signed`, with `IS_CHAR_SIGNED` 1 (src/arch/x64.h:41). -/
def isSigned : ST → Res Bool
  | .char => .ok true
  | .int | .schar | .short | .long | .llong => .ok true
  | .uint | .uchar | .ushort | .ulong | .ullong | .bool => .ok false
  | _ => .fail

/-- src/types.c:230-259 `type_is_integer` on a simple type. -/
def isInteger : ST → Bool
  | .char | .schar | .uchar | .short | .ushort | .int | .uint | .long | .ulong | .llong
  | .ullong | .bool => true
  | _ => false

/-- src/types.c:261-290 `type_is_floating` on a simple type. -/
def isFloating : ST → Bool
  | .float | .double | .ldouble | .floatC | .doubleC | .ldoubleC => true
  | _ => false

/-- src/arch/x64.c:41-50 `struct range`. -/
structure Range where
  min : Int
  max : Int
  deriving DecidableEq, Repr

/-- src/arch/x64.c:52-59 `get_range`; `bf` is `bitfield`, -1 for none. -/
def getRange (abi : Abi) (t : ST) (bf : Int) : Res Range := do
  let n : Int := if bf = -1 then (sizeOf abi t : Int) * 8 else bf
  if ← isSigned t then pure ⟨n - 1, n - 1⟩ else pure ⟨-1, n⟩

/-- `(constant_uint)1 << n` for the exponents that occur: over-wide is undefined. -/
def one64Shl (n : Int) : Res (BitVec 64) :=
  if 0 ≤ n ∧ n < 64 then .ok (1#64 <<< n.toNat) else .ub

/-- `r.max == -1 ? 0 : (((constant_uint)1 << (r.max - 1)) - 1 + ((constant_uint)1 << (r.max - 1)))`
(src/arch/x64.c:63-64, 486-487, 513-514). -/
def maxMask (r : Range) : Res (BitVec 64) :=
  if r.max = -1 then .ok 0 else do
    let a ← one64Shl (r.max - 1)
    pure (a - 1 + a)

/-- `r.min == -1 ? 0 : (constant_uint)1 << r.min` (485, 512). -/
def minMask (r : Range) : Res (BitVec 64) :=
  if r.min = -1 then .ok 0 else one64Shl r.min

/-- src/arch/x64.c:61-65 `get_type_max`. -/
def getTypeMax (abi : Abi) (t : ST) : Res (BitVec 64) := do
  maxMask (← getRange abi t (-1))

/-- src/arch/x64.c:67-74 `is_contained_in`. -/
def isContainedIn (abi : Abi) (large : ST) (lbf : Int) (small : ST) (sbf : Int) : Res Bool := do
  let l ← getRange abi large lbf
  let s ← getRange abi small sbf
  pure (l.min ≥ s.min && l.max ≥ s.max)

/-- src/arch/x64.c:77-91 `to_unsigned`. -/
def toUnsigned : ST → ST
  | .char | .schar => .uchar
  | .int => .uint
  | .long => .ulong
  | .llong => .ullong
  | t => t

/-- src/arch/x64.c:107-128 `type_rank`. -/
def typeRank : ST → Res Nat
  | .uchar | .char | .schar => .ok 1
  | .short | .ushort => .ok 2
  | .int | .uint => .ok 3
  | .long | .ulong => .ok 4
  | .llong | .ullong => .ok 5
  | _ => .fail

/-- A constant of simple type: src/arch/x64.h `struct constant`. -/
structure Const where
  ty : ST
  bits : BitVec 64
  deriving DecidableEq, Repr

/-! ### Reading integer constants -/

/-- The four bases (359-364). -/
inductive Base where
  | dec | hex | oct | bin
  deriving DecidableEq, Repr

/-- src/arch/x64.c:366-377: the base; anything not starting with a digit is an ICE. -/
def baseOf (s : Str) : Res Base :=
  match s with
  | c :: d :: _ =>
    if c = ch '0' then
      if d = ch 'x' ∨ d = ch 'X' then .ok .hex
      else if d = ch 'b' ∨ d = ch 'B' then .ok .bin
      else .ok .oct
    else if (ch '1').toNat ≤ c.toNat ∧ c.toNat ≤ (ch '9').toNat then .ok .dec
    else .fail
  | [c] =>
    if c = ch '0' then .ok .oct
    else if (ch '1').toNat ≤ c.toNat ∧ c.toNat ≤ (ch '9').toNat then .ok .dec
    else .fail
  | [] => .fail

/-- Is the byte in the ASCII interval?  (The casts of `char` do not matter here: bytes
above 127 are outside every interval used.) -/
def between (a b : Char) (c : Byte) : Bool := (ch a).toNat ≤ c.toNat && c.toNat ≤ (ch b).toNat

/-- src/arch/x64.c:390-406: does the loop continue with this byte? -/
def accepts (b : Base) (c : Byte) : Bool :=
  match b with
  | .dec => between '0' '9' c
  | .hex => between '0' '9' c || between 'a' 'f' c || between 'A' 'F' c
  | .oct => between '0' '7' c
  | .bin => between '0' '1' c

/-- The multiplier (393-405). -/
def baseMul : Base → BitVec 64
  | .dec => 10 | .hex => 16 | .oct => 8 | .bin => 2

/-- src/arch/x64.c:408-413: what is added. -/
def digitVal (c : Byte) : BitVec 64 :=
  if between '0' '9' c then BitVec.ofNat 64 (c.toNat - (ch '0').toNat)
  else if between 'a' 'f' c then BitVec.ofNat 64 (c.toNat - (ch 'a').toNat + 10)
  else if between 'A' 'F' c then BitVec.ofNat 64 (c.toNat - (ch 'A').toNat + 10)
  else 0

/-- src/arch/x64.c:383-414: the digit loop. -/
def digits (b : Base) : BitVec 64 → Str → BitVec 64 × Str
  | acc, [] => (acc, [])
  | acc, c :: cs => if accepts b c then digits b (acc * baseMul b + digitVal c) cs else (acc, c :: cs)

/-- The flags of 416-420 after the suffix (`allow_llong` never changes). -/
structure Allow where
  uns : Bool
  sig : Bool := true
  int : Bool := true
  long : Bool := true
  deriving DecidableEq, Repr

/-- src/arch/x64.c:422-438: the suffix loop. -/
def suffix : Allow → Str → Res Allow
  | a, [] => .ok a
  | a, [c] =>
    if c = ch 'l' ∨ c = ch 'L' then .ok { a with int := false }
    else if c = ch 'u' ∨ c = ch 'U' then .ok { a with uns := true, sig := false }
    else .fail
  | a, c :: d :: cs =>
    if (c = ch 'l' ∧ d = ch 'l') ∨ (c = ch 'L' ∧ d = ch 'L') then
      suffix { a with int := false, long := false } cs
    else if c = ch 'l' ∨ c = ch 'L' then suffix { a with int := false } (d :: cs)
    else if c = ch 'u' ∨ c = ch 'U' then suffix { a with uns := true, sig := false } (d :: cs)
    else .fail

/-- src/arch/x64.c:440-454: the first type that is allowed and large enough. -/
def pickType (abi : Abi) (v : BitVec 64) (a : Allow) : Res Const := do
  let mi ← getTypeMax abi .int
  let mui ← getTypeMax abi .uint
  let ml ← getTypeMax abi .long
  let mul ← getTypeMax abi .ulong
  let mll ← getTypeMax abi .llong
  let mull ← getTypeMax abi .ullong
  if v.toNat ≤ mi.toNat ∧ a.int ∧ a.sig then pure ⟨.int, v⟩
  else if v.toNat ≤ mui.toNat ∧ a.int ∧ a.uns then pure ⟨.uint, v⟩
  else if v.toNat ≤ ml.toNat ∧ a.long ∧ a.sig then pure ⟨.long, v⟩
  else if v.toNat ≤ mul.toNat ∧ a.long ∧ a.uns then pure ⟨.ulong, v⟩
  else if v.toNat ≤ mll.toNat ∧ a.sig then pure ⟨.llong, v⟩
  else if v.toNat ≤ mull.toNat ∧ a.uns then pure ⟨.ullong, v⟩
  else .fail

/-- src/arch/x64.c:356-455 `integer_constant_from_string`. -/
def integerConstant (abi : Abi) (s : Str) : Res Const := do
  let b ← baseOf s
  let body := if b = .hex ∨ b = .bin then s.drop 2 else s
  let (v, rest) := digits b 0 body
  let a ← suffix { uns := b = .hex ∨ b = .oct ∨ b = .bin } rest
  pickType abi v a

/-- src/arch/x64.c:313-318: skipping of the prefix in `is_float`, and `is_hex`. -/
def floatPrefix (s : Str) : Bool × Str :=
  match s with
  | c :: d :: r =>
    if c = ch '0' ∧ (d = ch 'x' ∨ d = ch 'X') then (true, r)
    else if c = ch '0' ∧ (d = ch 'b' ∨ d = ch 'B') then (false, r)
    else (false, s)
  | _ => (false, s)

/-- src/arch/x64.c:310-335 `is_float`. -/
def isFloat (s : Str) : Bool :=
  let (isHex, r) := floatPrefix s
  let r := r.dropWhile fun c =>
    between '0' '9' c || (isHex && between 'a' 'f' c) || (isHex && between 'A' 'F' c)
  r.any fun c => !(c = ch 'u' || c = ch 'U' || c = ch 'l' || c = ch 'L')

/-! ### Casts -/

/-- src/arch/x64.c:465-468 `conv_ui`. -/
def convUI (x rmin rmax : BitVec 64) : BitVec 64 :=
  let x := x &&& (rmin + rmax)
  if x.toNat > rmax.toNat then -((rmin + 1) - (x - rmax)) else x

/-- src/arch/x64.c:470-472 `conv_iu`. -/
def convIU (x rmax : BitVec 64) : BitVec 64 := x &&& rmax

/-- src/arch/x64.c:474-476 `conv_uu`. -/
def convUU (x rmax : BitVec 64) : BitVec 64 := x &&& rmax

/-- src/arch/x64.c:478-480 `conv_ii`. -/
def convII (x rmin rmax : BitVec 64) : BitVec 64 := convUI (convIU x (rmax + rmin)) rmin rmax

/-- src/arch/x64.c:482-492 `constant_normalize`. -/
def normalize (abi : Abi) (c : Const) : Res Const :=
  if !isInteger c.ty then .fail
  else do
    let r ← getRange abi c.ty (-1)
    let rmin ← minMask r
    let rmax ← maxMask r
    if ← isSigned c.ty then pure { c with bits := convII c.bits rmin rmax }
    else pure { c with bits := convUU c.bits rmax }

/-- src/arch/x64.c:494-524 `simple_cast` between integer types (and to the same type or
to void).  Conversions from or to floating types are outside this model: `fail`. -/
def simpleCast (abi : Abi) (c : Const) (target : ST) : Res Const :=
  if target = .void ∨ target = c.ty then .ok { c with ty := target }
  else if isInteger c.ty ∧ isInteger target then do
    let r ← getRange abi target (-1)
    let rmin ← minMask r
    let rmax ← maxMask r
    let sf ← isSigned c.ty
    let st ← isSigned target
    if sf && st then pure ⟨target, convII c.bits rmin rmax⟩
    else if sf && !st then pure ⟨target, convIU c.bits rmax⟩
    else if !sf && st then pure ⟨target, convUI c.bits rmin rmax⟩
    else pure ⟨target, convUU c.bits rmax⟩
  else .fail

/-! ### Common type of two operands -/

/-- src/parser/expression.c:16-52 `get_arithmetic_type`. -/
def arithType (abi : Abi) (a : ST) (bfa : Int) (b : ST) (bfb : Int) : Res ST :=
  if a = .ldouble ∨ b = .ldouble then .ok .ldouble
  else if a = .double ∨ b = .double then .ok .double
  else if a = .float ∨ b = .float then .ok .float
  else if a = b then .ok a
  else do
    let sa ← isSigned a
    let sb ← isSigned b
    if sa = sb then pure (if (← typeRank a) > (← typeRank b) then a else b)
    else if ← (if !sa then do pure (decide ((← typeRank a) ≥ (← typeRank b))) else pure false) then pure a
    else if ← (if !sb then do pure (decide ((← typeRank b) ≥ (← typeRank a))) else pure false) then pure b
    else if ← (if sa then isContainedIn abi a bfa b bfb else pure false) then pure a
    else if ← (if sb then isContainedIn abi b bfb a bfa else pure false) then pure b
    else if sb then pure (toUnsigned b)
    else if sa then pure (toUnsigned a)
    else .fail

/-- src/parser/expression.c:97-106 `do_integer_promotion`: the type and the bit-field
width afterwards (a cast expression is no bit-field, 54-62). -/
def promote (abi : Abi) (t : ST) (bf : Int) : Res (ST × Int) :=
  if isInteger t then do
    if ← isContainedIn abi .int (-1) t bf then pure (.int, -1) else pure (t, bf)
  else .ok (t, bf)

/-- src/parser/expression.c:426-431, 64-81: promotion of both operands, then
`convert_arithmetic`: the common type. -/
def commonType (abi : Abi) (a : ST) (bfa : Int) (b : ST) (bfb : Int) : Res ST := do
  let (a, bfa) ← promote abi a bfa
  let (b, bfb) ← promote abi b bfb
  arithType abi a bfa b bfb

/-! ### Folding of operators -/

/-- src/ir/operators.h `enum operator_type`. -/
inductive Op where
  | add | sub | mul | div | mod | bxor | bor | band | lshift | rshift
  | less | greater | lessEq | greaterEq | equal | notEqual
  deriving DecidableEq, Repr

/-- src/ir/operators.h `enum unary_operator_type`. -/
inductive UOp where
  | plus | neg | bnot
  deriving DecidableEq, Repr

/-- src/ir/operators.c:11-18, 38: the result type, for operands of the same type. -/
def resultType (op : Op) (t : ST) : ST :=
  match op with
  | .less | .greater | .lessEq | .greaterEq | .equal | .notEqual => .int
  | _ => t

/-- A C `int` result of a comparison. -/
def ofBool (b : Bool) : BitVec 64 := if b then 1 else 0

/-- Result of an `int64_t` operation: overflow is undefined. -/
def int64 (v : Int) : Res (BitVec 64) :=
  if -2 ^ 63 ≤ v ∧ v < 2 ^ 63 then .ok (BitVec.ofInt 64 v) else .ub

/-- src/ir/operators.c:96-114: the operator on two `int64_t`.  Signed overflow, division
by zero, over-wide shifts and left shifts of negative values or out of range are
undefined in the compiler. -/
def foldSigned (op : Op) (l r : BitVec 64) : Res (BitVec 64) :=
  match op with
  | .add => int64 (l.toInt + r.toInt)
  | .sub => int64 (l.toInt - r.toInt)
  | .mul => int64 (l.toInt * r.toInt)
  | .div => if r.toInt = 0 then .ub else int64 (l.toInt.tdiv r.toInt)
  | .mod => if r.toInt = 0 then .ub else do
      let _ ← int64 (l.toInt.tdiv r.toInt)
      int64 (l.toInt.tmod r.toInt)
  | .bxor => .ok (l ^^^ r)
  | .bor => .ok (l ||| r)
  | .band => .ok (l &&& r)
  | .lshift =>
    if 0 ≤ r.toInt ∧ r.toInt < 64 ∧ 0 ≤ l.toInt then int64 (l.toInt * 2 ^ r.toInt.toNat) else .ub
  | .rshift =>
    if 0 ≤ r.toInt ∧ r.toInt < 64 then .ok (l.sshiftRight r.toInt.toNat) else .ub
  | .less => .ok (ofBool (l.toInt < r.toInt))
  | .greater => .ok (ofBool (l.toInt > r.toInt))
  | .lessEq => .ok (ofBool (l.toInt ≤ r.toInt))
  | .greaterEq => .ok (ofBool (l.toInt ≥ r.toInt))
  | .equal => .ok (ofBool (l = r))
  | .notEqual => .ok (ofBool (l ≠ r))

/-- src/ir/operators.c:117-135: the operator on two `uint64_t`. -/
def foldUnsigned (op : Op) (l r : BitVec 64) : Res (BitVec 64) :=
  match op with
  | .add => .ok (l + r)
  | .sub => .ok (l - r)
  | .mul => .ok (l * r)
  | .div => if r = 0 then .ub else .ok (l / r)
  | .mod => if r = 0 then .ub else .ok (l % r)
  | .bxor => .ok (l ^^^ r)
  | .bor => .ok (l ||| r)
  | .band => .ok (l &&& r)
  | .lshift => if r.toNat < 64 then .ok (l <<< r.toNat) else .ub
  | .rshift => if r.toNat < 64 then .ok (l >>> r.toNat) else .ub
  | .less => .ok (ofBool (l.toNat < r.toNat))
  | .greater => .ok (ofBool (l.toNat > r.toNat))
  | .lessEq => .ok (ofBool (l.toNat ≤ r.toNat))
  | .greaterEq => .ok (ofBool (l.toNat ≥ r.toNat))
  | .equal => .ok (ofBool (l = r))
  | .notEqual => .ok (ofBool (l ≠ r))

/-- Comparisons set `sign` (128-133). -/
def isCompare : Op → Bool
  | .less | .greater | .lessEq | .greaterEq | .equal | .notEqual => true
  | _ => false

/-- src/ir/operators.c:41-146 `operators_constant` on integer constants: `none` is the
return value 0 (not folded).  Floating operands are outside this model: `fail`. -/
def foldBinary (abi : Abi) (op : Op) (l r : Const) : Res (Option Const) :=
  if l.ty ≠ r.ty then .ok none
  else if !isInteger l.ty then .fail
  else do
    if ← isSigned l.ty then
      if (op = .div ∨ op = .div) ∧ r.bits = 0 then pure none
      else do
        let v ← foldSigned op l.bits r.bits
        pure (some ⟨resultType op l.ty, v⟩)
    else do
      let v ← foldUnsigned op l.bits r.bits
      let res : Const := ⟨resultType op l.ty, v⟩
      if isCompare op then pure (some res) else do
        let res ← normalize abi res
        pure (some res)

/-- src/ir/operators.c:148-197 `operators_constant_unary` on integer constants. -/
def foldUnary (abi : Abi) (op : UOp) (r : Const) : Res Const :=
  if !isInteger r.ty then .fail
  else do
    if ← isSigned r.ty then
      match op with
      | .plus => pure r
      | .neg => do
        let v ← int64 (-r.bits.toInt)
        pure { r with bits := v }
      | .bnot => pure { r with bits := ~~~ r.bits }
    else
      match op with
      | .plus => normalize abi r
      | .neg => normalize abi { r with bits := -r.bits }
      | .bnot => normalize abi { r with bits := ~~~ r.bits }

end Verif.Simple
