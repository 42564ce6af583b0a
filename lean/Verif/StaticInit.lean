import Verif.Bitfield
import Verif.Object
/-!
Static initialisers (src/codegen/rodata.c:108-159, 252-326).

An initialiser tree carries what the code looks up in the type: an entry of a brace has the offset
and the bit-field position that `type_get_offsets` (src/types.c:315-334) gives it.  A string carries
the size of the array it initialises, which the code does not look at.  `buffer`, `labels`,
`label_offsets` and `is_label` are one byte list and one list of optional addresses; an access
outside of them is undefined.
-/
namespace Verif.StaticInit
open Verif Verif.Object

/-- src/parser/declaration.h:9-28 `struct initializer`, with an expression classified as
src/codegen/rodata.c:120-147 does.  A brace initialiser is the chain of its entries. -/
inductive Node where
  /-- `INIT_EMPTY` -/
  | empty
  /-- `INIT_STRING` for an array of `room` bytes -/
  | string (bs : List Byte) (room : Nat)
  /-- `CONSTANT_TYPE` of `size` bytes; `value` is `constant_to_u64` -/
  | const (size : Nat) (value : BitVec 64)
  /-- `CONSTANT_LABEL_POINTER` -/
  | address (label : Int) (offset : BitVec 64)
  /-- `CONSTANT_LABEL` and other kinds of constants -/
  | labelConst
  /-- a compound literal that is no constant -/
  | literal (n : Node)
  /-- another expression that is no constant -/
  | other
  /-- `INIT_BRACE`: no more entries -/
  | last
  /-- `INIT_BRACE`: an entry and the following ones -/
  | entry (offset : Nat) (bitOffset bitSize : Int) (n rest : Node)
  deriving Repr, Inhabited

/-- The arrays. -/
structure State where
  buffer : List Byte
  labels : List (Option (Int × BitVec 64))
  deriving DecidableEq, Repr, Inhabited

/-- src/codegen/rodata.c:114-117 the copy of a string. -/
def copyString (buffer : List Byte) (base : Nat) : List Byte → Res (List Byte)
  | [] => .ok buffer
  | b :: bs => do copyString (← Bytes.store buffer base b) (base + 1) bs

/-- src/codegen/rodata.c:108-159 `codegen_initializer_recursive` with the pointers at `base`. -/
def fill (base : Nat) (bitSize bitOffset : Int) (s : State) : Node → Res State
  | .empty => .ok s
  | .string bs _ => do .ok { s with buffer := ← copyString s.buffer base bs }
  | .const size value => do
    let new ← Bitfield.toBuffer (s.buffer.drop base) size value bitOffset bitSize
    .ok { s with buffer := s.buffer.take base ++ new }
  | .address label offset =>
    if base < s.labels.length then .ok { s with labels := s.labels.set base (some (label, offset)) } else .ub
  | .labelConst => .fail
  | .literal n => fill base (-1) (-1) s n
  | .other => .ok s
  | .last => .ok s
  | .entry offset cbitOffset cbitSize n rest => do
    let s ← fill (base + offset) cbitSize cbitOffset s n
    fill base bitSize bitOffset s rest

/-- src/assembler/assembler.c:252-266 `asm_quad(IMML_ABS(label, offset))` when writing an object. -/
def asmQuad (label : Int) (offset : BitVec 64) : List Op :=
  if label = -1 then [.quad offset] else [.reloc label 0 offset .r64, .quad 0]

/-- src/codegen/rodata.c:286-290 `how_long`: the places without a label, eight at most. -/
def howLong (labels : List (Option (Int × BitVec 64))) : Nat :=
  ((labels.take 8).takeWhile (·.isNone)).length

/-- src/codegen/rodata.c:276-297 the loop over the arrays, from the place whose bytes and labels
are given. -/
def emit : List Byte → List (Option (Int × BitVec 64)) → List Op
  | b :: bs, some (label, offset) :: ls => asmQuad label offset ++ emit (bs.drop 7) (ls.drop 7)
  | b :: bs, none :: ls =>
    if howLong (none :: ls) = 8 then
      .quad (BitVec.ofNat 64 (Bytes.leVal ((b :: bs).take 8))) :: emit (bs.drop 7) (ls.drop 7)
    else .write [b] :: emit bs ls
  | _, _ => []
termination_by bs => bs.length
decreasing_by all_goals simp <;> omega

/-- src/codegen/rodata.c:252-302 `codegen_initializer` for a type of `size` bytes. -/
def codegenInitializer (size : Nat) (n : Node) : Res (List Op) := do
  let s ← fill 0 (-1) (-1) ⟨List.replicate size 0, List.replicate size none⟩ n
  .ok (emit s.buffer s.labels)

/-- The unnamed objects of compound literals whose address is taken: the label, the size and the
initialiser of each. -/
abbrev Pending := List (Int × Nat × Node)

/-- src/codegen/rodata.c:174-177 the code for compound literals in the order in which
`codegen_pre_initializer` (236-250) meets them. -/
def codegenPending : Pending → Res (List Op)
  | [] => .ok []
  | (label, size, n) :: ps => do
    let a ← codegenInitializer size n
    .ok (.label false label :: a ++ (← codegenPending ps))

/-- src/codegen/rodata.c:304-326 `codegen_static_var`; `align` is the requested alignment or that of
the type, `init` is `none` for `INIT_EMPTY`, `pending` are the compound literals in it. -/
def codegenStaticVar (align : Nat) (global : Bool) (label : Int) (size : Nat) (init : Option Node)
    (pending : Pending) : Res (List Op) := do
  let body ← match init with
    | none => Res.ok [.label global label, .zero size]
    | some n => do
      let pre ← codegenPending pending
      let body ← codegenInitializer size n
      .ok (pre ++ .label global label :: body)
  .ok (.sect (str ".data") :: .align align :: body ++ [.sect (str ".text")])

end Verif.StaticInit
