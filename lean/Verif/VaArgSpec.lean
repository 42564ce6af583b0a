import Verif.VaArg
import Verif.ConventionSpec
import Verif.MemorySpec
/-!
Specification of variadic arguments: psABI (AMD64) 3.5.7.
-/
namespace Verif.VaArgSpec
open Verif Asm X86 CodegenSpec MemorySpec
open Verif.Codegen (Slot)
open Verif.Convention (Ty Place)
open Verif.ConventionSpec (intRegs up sizeOf)

/-- The two moving fields of a `va_list`: `gp_offset`, and the offset of `overflow_arg_area`
from the first stack argument. -/
structure Va where
  gp : Nat
  over : Nat
  deriving DecidableEq, Repr

/-- Where `va_arg` finds an argument: at an offset in the register save area or in the
overflow area. -/
inductive Src where
  | save (off : Nat)
  | over (off : Nat)
  deriving DecidableEq, Repr

/-- A type `va_arg` supports: MEMORY, or all eightbytes INTEGER. -/
def Supported (t : Ty) : Prop :=
  t.classes = [.memory] ∨
  (t.classes ≠ [] ∧ (∀ c ∈ t.classes, c = .integer) ∧ t.classes.length = (t.size + 7) / 8 ∧ t.size ≤ 16)

/-- psABI 3.5.7, steps 1-11 for `Supported` types of at most 8-byte alignment. -/
def next (v : Va) (t : Ty) : Src × Va :=
  if t.classes ≠ [.memory] ∧ v.gp + 8 * t.classes.length ≤ 48 then
    (.save v.gp, { v with gp := v.gp + 8 * t.classes.length })
  else (.over v.over, { v with over := v.over + up t.size 8 })

/-- Sources of a sequence of `va_arg`s. -/
def walk (v : Va) : List Ty → List Src
  | [] => []
  | t :: ts => (next v t).1 :: walk (next v t).2 ts

/-- Byte `k` of an argument, given registers and stack at the call: the save area has `%rdi`,
`%rsi`, …, `%r9`. -/
def byteAt (p : Place) : Src → Nat → Byte
  | .save off, k => p.reg ((intRegs[(off + k) / 8]?).getD (.gpr .rdi)) ((off + k) % 8)
  | .over off, k => p.stack (off + k)

/-- Registers and stack arguments are in memory: the save area at `sv`, the stack arguments
at `ov`. -/
structure InMemory (m : BitVec 64 → BitVec 8) (sv ov : BitVec 64) (p : Place) : Prop where
  save : ∀ k, k < 48 → m (sv + BitVec.ofNat 64 k) = byteAt p (.save 0) k
  over : ∀ k, k < 2 ^ 31 → m (ov + BitVec.ofNat 64 k) = byteAt p (.over 0) k

/-- Byte `j` of a register. -/
def regByte (s : State) : Verif.Call.Dest → Nat → Byte
  | .gpr r, j => BitVec.ofNat 8 ((s.reg r).toNat / 256 ^ j)
  | .sse i, j => BitVec.ofNat 8 ((s.xmm i).toNat / 256 ^ j)

/-- Registers and stack arguments of a state. -/
def placeOf (s : State) (ov : BitVec 64) : Place := ⟨regByte s, fun o => s.mem (ov + BitVec.ofNat 64 o)⟩

/-- The fields of the `va_list` at `l`, where `sv` is the save area and `ov` the first stack
argument. -/
structure At (m : BitVec 64 → BitVec 8) (l sv ov : BitVec 64) (v : Va) : Prop where
  gp : rd m l 4 = v.gp
  over : rd m (l + 8) 8 = (ov + BitVec.ofNat 64 v.over).toNat
  save : rd m (l + 16) 8 = sv.toNat

/-- Address of a source. -/
def addr (sv ov : BitVec 64) : Src → BitVec 64
  | .save off => sv + BitVec.ofNat 64 off
  | .over off => ov + BitVec.ofNat 64 off

/-- What a `va_arg` must find: the pointers in their slots, and objects apart from each
other. -/
structure Ready (s : State) (dst va : Slot) (sv ov : BitVec 64) (v : Va) (t : Ty) : Prop where
  dstSize : dst.size = 8
  vaSize : va.size = 8
  fields : At s.mem (target s va) sv ov v
  gpSmall : v.gp ≤ 48
  size : t.size ≤ 2 ^ 30
  slot : Disj (target s va) 24 (slotAddr s dst) 8
  src : Disj (target s va) 24 (addr sv ov (next v t).1) t.size
  obj : Disj (target s va) 24 (target s dst) t.size
  copy : NoPartialOverlap (addr sv ov (next v t).1) (target s dst) t.size

/-- A `va_arg` done: the object has the argument's bytes, the `va_list` is at the next
argument and nothing else has changed. -/
structure Done (s s' : State) (dst va : Slot) (sv ov : BitVec 64) (v : Va) (t : Ty) : Prop where
  bytes : ∀ i, i < t.size →
    s'.mem (target s dst + BitVec.ofNat 64 i) = s.mem (addr sv ov (next v t).1 + BitVec.ofNat 64 i)
  fields : At s'.mem (target s va) sv ov (next v t).2
  rest : ∀ x, (∀ i, i < 24 → x ≠ target s va + BitVec.ofNat 64 i) →
    (∀ i, i < t.size → x ≠ target s dst + BitVec.ofNat 64 i) → s'.mem x = s.mem x
  rbp : s'.reg .rbp = s.reg .rbp
  rsp : s'.reg .rsp = s.reg .rsp

/-- Code that jumps between its own labels ends normally in `s'`. -/
def Reaches (F : FP) (entry : List Ins) (code : Nat → Option (List Ins)) (s s' : State) : Prop :=
  runC F entry s = .ok (s', .fall) ∨
  ∃ s1 l n, runC F entry s = .ok (s1, .jump l) ∧ runBlocks F code n l s1 = some (.ok (s', .fall))

/-- C42: `vals i` are the bytes of argument `i`; the named ones come first.  For every `va_arg`
in order, the place where `va_arg` looks has the next variadic argument. -/
def WalksArguments (send : Option Ty → List Ty → (Nat → Nat → Byte) → (Nat → Byte) → Place → Res Place)
    (start : Option Ty → List Ty → Res Va) (ret : Option Ty) (named variadic : List Ty) : Prop :=
  ∀ (vals : Nat → Nat → Byte) (ptr : Nat → Byte) (p : Place), ∃ p' v,
    send ret (named ++ variadic) vals ptr p = .ok p' ∧ start ret named = .ok v ∧
    ∀ j t, variadic[j]? = some t → ∃ src, (walk v variadic)[j]? = some src ∧
      ∀ k, k < t.size → byteAt p' src k = vals (named.length + j) k

/-- C81: after `va_start` the `va_list` has the fields of psABI 3.5.7, `gp` and `fp` being the
numbers of registers used for named arguments; so other code can use it. -/
def AbiVaList (start : Slot → Nat → Nat → Nat → Res (List Ins)) : Prop :=
  ∀ (F : FP) (va : Slot) (gp fp over pos : Nat) (s : State), va.size = 8 → gp ≤ 6 → fp ≤ 8 →
    ∃ c s', start va (8 * gp) (over + 16) pos = .ok c ∧ run F c s = .ok s' ∧
      At s'.mem (target s va) (s.reg .rbp - BitVec.ofNat 64 pos) (s.reg .rbp + 16) ⟨8 * gp, over⟩ ∧
      rd s'.mem (target s va + 4) 4 = 48 + 16 * fp

end Verif.VaArgSpec
