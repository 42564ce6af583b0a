import Verif.Bytes
/-!
Model of bit-field access: src/ir/ir.c:313-342, src/arch/x64.c:617-645,
src/parser/expression_to_ir.c:103-112, 179-185.

The functions of ir.c build nodes; here they are given the value the nodes denote: a node
of size `n` is an `8 * n`-bit vector (`w` bits below), `IR_INT_CAST_ZERO` zero-extends or
truncates, the shifts and logical operations act on 64 bits (their code is the subject of
C32 and C34).
-/
namespace Verif.Bitfield
open Verif

/-- The `unsigned char` parameter of `gen_mask`. -/
def uc (x : Int) : Nat := (x % 256).toNat

/-- src/ir/ir.c:313-331 `ir_set_bits`. A shift count of 64 or more does not occur below. -/
def setBits {w v : Nat} (field : BitVec w) (value : BitVec v) (offset length : Int) : Res (BitVec w) := do
  let mask ← Bytes.genMask (uc (64 - offset - length)) (uc offset)
  let valueLarge : BitVec 64 := value.setWidth 64
  let fieldLarge : BitVec 64 := field.setWidth 64
  let resultLarge := mask &&& fieldLarge
  let inv := ~~~ mask
  let valueLarge := valueLarge <<< offset.toNat
  let inv := inv &&& valueLarge
  pure ((inv ||| resultLarge).setWidth w)

/-- The right shifts of the machine, `shrq` and `sarq`. -/
def shr (signed : Bool) (x : BitVec 64) (n : Nat) : BitVec 64 := if signed then x.sshiftRight n else x >>> n

/-- src/ir/ir.c:333-342 `ir_get_bits`. -/
def getBits {w : Nat} (field : BitVec w) (offset length : Int) (signed : Bool) : BitVec w :=
  let x : BitVec 64 := field.setWidth 64
  let x := x <<< (64 - offset - length).toNat
  (shr signed x (64 - length).toNat).setWidth w

/-- The `switch` 628-634: the previous value (a little-endian host, as the casts to
`uint16_t *` … require). -/
def load (buffer : List Byte) (size : Nat) : Res (BitVec 64) :=
  match size with
  | 1 => do let x ← Bytes.read8 buffer 0; pure (x.setWidth 64)
  | 2 => do let x ← Bytes.read16 buffer 0; pure (x.setWidth 64)
  | 4 => do let x ← Bytes.read32 buffer 0; pure (x.setWidth 64)
  | 8 => Bytes.read64 buffer 0
  | _ => .fail

/-- The `switch` 638-644. -/
def save (buffer : List Byte) (size : Nat) (value : BitVec 64) : Res (List Byte) :=
  match size with
  | 1 => Bytes.write8 buffer 0 value
  | 2 => Bytes.write16 buffer 0 value
  | 4 => Bytes.write32 buffer 0 value
  | 8 => Bytes.write64 buffer 0 value
  | _ => .fail

/-- 623-636. -/
def merge (buffer : List Byte) (size : Nat) (value : BitVec 64) (bitOffset bitSize : Int) : Res (BitVec 64) :=
  if bitSize ≠ -1 then do
    let mask ← Bytes.genMask (uc (64 - bitSize - bitOffset)) (uc bitOffset)
    let prev ← load buffer size
    pure ((prev &&& mask) ||| ((value <<< bitOffset.toNat) &&& ~~~ mask))
  else .ok value

/-- src/arch/x64.c:617-645 `constant_to_buffer` for an object of `size` bytes at the start
of `buffer`; `value` is `constant_to_u64`. -/
def toBuffer (buffer : List Byte) (size : Nat) (value : BitVec 64) (bitOffset bitSize : Int) : Res (List Byte) := do
  save buffer size (← merge buffer size value bitOffset bitSize)

end Verif.Bitfield
