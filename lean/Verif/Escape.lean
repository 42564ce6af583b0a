import Verif.Utf8
/-!
Model of src/character_types.c, src/escape_sequence.c and the literal-reading half
of src/preprocessor/string_concat.c.

A `const char *` into the source text is the list of the bytes from there to the
end of the NUL-terminated buffer.  `n`/`len` is the length of the string view.
-/
namespace Verif.Escape
open Verif

/-- src/character_types.c:13-22 `char_props`: array of `UCHAR_MAX` = 255 entries,
indices 0..254.  Values as in the initialiser. -/
def charProp (i : Nat) : Nat :=
  if 0x09 ≤ i ∧ i ≤ 0x0C then 0x10            -- '\t' .. '\f'
  else if i = 0x20 then 0x10                   -- ' '
  else if i = 0x24 then 0x20                   -- '$'
  else if i = 0x5F then 0x20                   -- '_'
  else if 0x30 ≤ i ∧ i ≤ 0x37 then 0x7         -- '0'..'7'
  else if 0x38 ≤ i ∧ i ≤ 0x39 then 0x5         -- '8','9'
  else if 0x41 ≤ i ∧ i ≤ 0x46 then 0x24        -- 'A'..'F'
  else if 0x47 ≤ i ∧ i ≤ 0x5A then 0x20        -- 'G'..'Z'
  else if 0x61 ≤ i ∧ i ≤ 0x66 then 0x24        -- 'a'..'f'
  else if 0x67 ≤ i ∧ i ≤ 0x7A then 0x20        -- 'g'..'z'
  else 0

/-- src/character_types.c:24 `HAS_PROP`: index 255 is outside the array. -/
def hasProp (c : Byte) (prop : Nat) : Res Bool :=
  if c.toNat < 255 then .ok (charProp c.toNat &&& prop != 0) else .ub

/-- src/character_types.c:26-28. -/
def isOctal (c : Byte) : Res Bool := hasProp c 0x2
/-- src/character_types.c:30-32. -/
def isDecimal (c : Byte) : Res Bool := hasProp c 0x1
/-- src/character_types.c:34-36. -/
def isHexadecimal (c : Byte) : Res Bool := hasProp c 0x4
/-- src/character_types.c:38-40. -/
def isSpace (c : Byte) : Res Bool := hasProp c 0x10
/-- src/character_types.c:42-44. -/
def isNondigitIdentifier (c : Byte) : Res Bool := hasProp c 0x20

/-- src/common.c:247-255 `char_to_int`. -/
def charToInt (c : Byte) : Res Nat :=
  if 0x30 ≤ c.toNat ∧ c.toNat ≤ 0x39 then .ok (c.toNat - 0x30)
  else if 0x41 ≤ c.toNat ∧ c.toNat ≤ 0x46 then .ok (c.toNat - 0x41 + 10)
  else if 0x61 ≤ c.toNat ∧ c.toNat ≤ 0x66 then .ok (c.toNat - 0x61 + 10)
  else .fail

/-- src/escape_sequence.c:19-22, the octal loop; the first argument is the number
of iterations still allowed by `i < 3 && i < n`. -/
def octLoop : Nat → BitVec 32 → List Byte → Res (BitVec 32 × List Byte)
  | 0, r, s => .ok (r, s)
  | _ + 1, _, [] => .ub
  | k + 1, r, c :: s => do
    if ← isOctal c then
      let d ← charToInt c
      octLoop k (r * 8 + BitVec.ofNat 32 d) s
    else pure (r, c :: s)

/-- src/escape_sequence.c:27-30, the hexadecimal loop (`result *= 8` as in the
source). -/
def hexLoop : Nat → BitVec 32 → List Byte → Res (BitVec 32 × List Byte)
  | 0, r, s => .ok (r, s)
  | _ + 1, _, [] => .ub
  | k + 1, r, c :: s => do
    if ← isHexadecimal c then
      let d ← charToInt c
      hexLoop k (r * 8 + BitVec.ofNat 32 d) s
    else pure (r, c :: s)

/-- src/escape_sequence.c:33-47, the switch over simple escapes. -/
def simpleEscape (c : Byte) : Res (BitVec 32) :=
  if c = ch '\'' then .ok 39
  else if c = ch '"' then .ok 34
  else if c = ch '?' then .ok 63
  else if c = ch '\\' then .ok 92
  else if c = ch 'a' then .ok 7
  else if c = ch 'b' then .ok 8
  else if c = ch 'f' then .ok 12
  else if c = ch 'n' then .ok 10
  else if c = ch 'r' then .ok 13
  else if c = ch 't' then .ok 9
  else if c = ch 'v' then .ok 11
  else .fail

/-- src/escape_sequence.c:9-54 `escape_sequence_read`: `none` is "return 0". -/
def escRead (s : List Byte) (n : Nat) : Res (Option (BitVec 32 × List Byte)) :=
  if n = 0 then .ok none
  else match s with
    | [] => .ub
    | c0 :: s =>
      if c0 ≠ ch '\\' then .ok none
      else match s with
        | [] => .ub
        | c :: s' => do
          if ← isOctal c then
            let (r, t) ← octLoop (min 3 n) 0 (c :: s')
            pure (some (r, t))
          else if c = ch 'x' then
            let (r, t) ← hexLoop n 0 s'
            pure (some (r, t))
          else
            let r ← simpleEscape c
            pure (some (r, s'))

/-! ### The printer -/

/-- src/escape_sequence.c:56-75 `needs_no_escape`, 127 entries. -/
def needsNoEscape (i : Nat) : Bool :=
  (0x41 ≤ i ∧ i ≤ 0x5A) ∨ (0x61 ≤ i ∧ i ≤ 0x7A) ∨ (0x30 ≤ i ∧ i ≤ 0x39) ∨
  i = 0x21 ∨ i = 0x23 ∨ i = 0x25 ∨ i = 0x26 ∨ i = 0x28 ∨ i = 0x29 ∨ i = 0x2A ∨ i = 0x2B ∨
  i = 0x2C ∨ i = 0x2D ∨ i = 0x2E ∨ i = 0x2F ∨ i = 0x3A ∨ i = 0x3B ∨ i = 0x3C ∨ i = 0x3D ∨
  i = 0x3E ∨ i = 0x5B ∨ i = 0x5D ∨ i = 0x5E ∨ i = 0x5F ∨ i = 0x7B ∨ i = 0x7C ∨ i = 0x7D ∨
  i = 0x7E ∨ i = 0x20

/-- src/escape_sequence.c:77-83 `has_simple_escape`, 127 entries. -/
def hasSimpleEscape (i : Nat) : Option Byte :=
  if i = 10 then some (ch 'n') else if i = 9 then some (ch 't')
  else if i = 34 then some (ch '"') else if i = 39 then some (ch '\'')
  else if i = 92 then some (ch '\\') else none

/-- src/escape_sequence.c:87-94 `has_complicated_escape`, 127 entries. -/
def hasComplicatedEscape (i : Nat) : Option Byte :=
  if i = 63 then some (ch '?') else if i = 7 then some (ch 'a')
  else if i = 8 then some (ch 'b') else if i = 12 then some (ch 'f')
  else if i = 13 then some (ch 'r') else if i = 11 then some (ch 'v') else none

/-- src/escape_sequence.c:96-128 `character_to_escape_sequence`: the characters up
to the NUL.  `char` is signed, so bytes ≥ 0x80 are negative; byte 127 indexes the
127-entry arrays out of bounds. -/
def printChar (c : Byte) (complicated : Bool) : Res (List Byte) :=
  if c = ch '"' then .ok [ch '\\', ch '"']
  else if c = ch '\'' then .ok [ch '\'']
  else if c.toNat < 128 ∧ 127 ≤ c.toNat then .ub
  else if c.toNat < 128 ∧ needsNoEscape c.toNat then .ok [c]
  else if c.toNat < 128 ∧ (hasSimpleEscape c.toNat).isSome then
    .ok [ch '\\', (hasSimpleEscape c.toNat).getD 0]
  else if complicated ∧ c.toNat < 128 ∧ (hasComplicatedEscape c.toNat).isSome then
    .ok [ch '\\', (hasComplicatedEscape c.toNat).getD 0]
  else
    let u := c.toNat
    .ok [ch '\\', BitVec.ofNat 8 (u / 8 / 8 % 8 + 0x30), BitVec.ofNat 8 (u / 8 % 8 + 0x30),
      BitVec.ofNat 8 (u % 8 + 0x30)]

/-! ### Reading literals (src/preprocessor/string_concat.c) -/

/-- src/preprocessor/string_concat.c:22-24. -/
inductive StrType where
  | default | uSmall | uLarge | l | u8
  deriving DecidableEq, Repr

/-- src/preprocessor/string_concat.c:76-93: the bytes one character adds. -/
def writeChar (ty : StrType) (c : BitVec 32) : List Byte :=
  match ty with
  | .default | .u8 => [c.setWidth 8]
  | .l | .uLarge =>
    [(c &&& 0xff#32).setWidth 8, ((c >>> 8) &&& 0xff#32).setWidth 8,
     ((c >>> 16) &&& 0xff#32).setWidth 8, ((c >>> 24) &&& 0xff#32).setWidth 8]
  | .uSmall => [(c &&& 0xff#32).setWidth 8, ((c >>> 8) &&& 0xff#32).setWidth 8]

/-- src/preprocessor/string_concat.c:56-96 `escape_char_to_buffer`.  `input` is the
view's text followed by the rest of the buffer, `len` the view's length; returns
the new text and length and the bytes written, or `none` for "return 0". -/
def escapeChar (input : List Byte) (len : Nat) (endChar : Byte) (ty : StrType) :
    Res (Option (List Byte × Nat × List Byte)) :=
  if len = 0 then .ok none
  else match input with
    | [] => .ub
    | c0 :: tl =>
      if c0 = endChar then .ok none
      else do
        match ← escRead input len with
        | some (r, t) =>
          pure (some (t, len - (input.length - t.length), writeChar ty r))
        | none =>
          if ty = .l ∨ ty = .uLarge ∨ ty = .uSmall then
            let (r, t) ← Utf8.decode input
            pure (some (t, len - (input.length - t.length), writeChar ty r))
          else
            -- `character = input->str[0]` is a signed char; only its low byte is stored
            pure (some (tl, len - 1, writeChar ty (c0.signExtend 32)))

/-- src/preprocessor/string_concat.c:125-130, the loop of `escape_string_to_buffer`
(each iteration shortens the text, so the text's length bounds the iterations). -/
def escapeLoop : Nat → List Byte → Nat → Byte → StrType → List Byte → Res (List Byte)
  | 0, _, _, _, _, _ => .ub
  | fuel + 1, input, len, e, ty, buf => do
    match ← escapeChar input len e ty with
    | some (input, len, bs) => escapeLoop fuel input len e ty (buf ++ bs)
    | none =>
      if len = 0 then .fail
      else match input with
        | [] => .ub
        | c :: _ => if c = e then pure buf else .fail

/-- src/preprocessor/string_concat.c:116-131 `escape_string_to_buffer`; `text` is the
view followed by the rest of the source buffer. -/
def escapeString (text : List Byte) (len : Nat) (ty : StrType) (buf : List Byte) : Res (List Byte) :=
  if len = 0 then .fail
  else match text with
    | [] => .ub
    | q :: rest =>
      let e := if q = ch '<' then ch '>' else q
      escapeLoop (rest.length + 1) rest (len - 1) e ty buf

/-- src/preprocessor/string_concat.c:98-114 `take_string_prefix` on a view. -/
def takePrefix (v : List Byte) : StrType × List Byte :=
  if v.length > 1 ∧ v[0]? = some (ch 'u') ∧ v[1]? = some (ch '8') then (.u8, v.drop 2)
  else if v.length > 0 ∧ v[0]? = some (ch 'u') then (.uSmall, v.drop 1)
  else if v.length > 0 ∧ v[0]? = some (ch 'U') then (.uLarge, v.drop 1)
  else if v.length > 0 ∧ v[0]? = some (ch 'L') then (.l, v.drop 1)
  else (.default, v)

/-- src/preprocessor/string_concat.c:156-168: combine the prefixes from left to
right. -/
def combine : StrType → List StrType → Res StrType
  | c, [] => .ok c
  | c, t :: ts =>
    if t = .default ∨ t = c then combine c ts
    else if c = .default then combine t ts
    else .fail

/-- src/preprocessor/string_concat.c:175-200: the terminator. -/
def terminator : StrType → List Byte
  | .default | .u8 => [0]
  | .uLarge | .l => [0, 0, 0, 0]
  | .uSmall => [0, 0]

/-- src/preprocessor/string_concat.c:170-172. -/
def escapeAll (ty : StrType) : List (List Byte) → List Byte → Res (List Byte)
  | [], buf => .ok buf
  | v :: vs, buf => do
    -- a string token's view is followed in memory by at least a NUL
    let buf ← escapeString (v ++ [0]) v.length ty buf
    escapeAll ty vs buf

/-- src/preprocessor/string_concat.c:153-204: a non-empty run of string tokens becomes
one token with this encoding and these bytes. -/
def concatStrings (toks : List (List Byte)) : Res (StrType × List Byte) := do
  let views := toks.map takePrefix
  let ty ← combine .default (views.map (·.1))
  let buf ← escapeAll ty (views.map (·.2)) []
  pure (ty, buf ++ terminator ty)

/-- src/common.c:51-60 `character_constant_to_int`: `constant` is a 64-bit
`intmax_t`; each `char` is sign-extended before the `|=`.  A left shift of a
negative value, or one that overflows, is undefined. -/
def charConst : BitVec 64 → List Byte → Res (BitVec 64)
  | r, [] => .ok r
  | r, c :: cs =>
    if r.toInt < 0 ∨ r.toInt * 256 ≥ 2 ^ 63 then .ub
    else charConst ((r <<< 8) ||| c.signExtend 64) cs

end Verif.Escape
