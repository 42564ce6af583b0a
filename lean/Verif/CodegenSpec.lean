import Verif.X86
import Verif.Codegen
import Verif.SimpleSpec
/-!
Specification of the code generated for scalar operations: what it means for the code to
compute a C value.  Of the code generator only `Slot` (size and place of a value in the
frame) is used.
-/
namespace Verif.CodegenSpec
open Verif Asm X86 Simple SimpleSpec
open Verif.Codegen (Slot IrOp)

/-- Address of a slot: below `%rbp`. -/
def slotAddr (s : State) (v : Slot) : BitVec 64 := s.reg .rbp - BitVec.ofNat 64 v.loc

/-- Size in bytes of the objects of an integer type. -/
def bytes (abi : Abi) (t : ST) : Nat := if t = .bool then 1 else width abi t / 8

/-- The value of type `t` stored in the first bytes of a slot. -/
def slotVal (abi : Abi) (t : ST) (s : State) (v : Slot) : Int :=
  bitsVal t (BitVec.ofNat (8 * bytes abi t) (rd s.mem (slotAddr s v) (bytes abi t)))

/-- Everything a value computation must leave alone: the frame and stack pointers and all
memory outside the slot of the result. -/
def Frame (s s' : State) (out : Slot) : Prop :=
  s'.reg .rbp = s.reg .rbp ∧ s'.reg .rsp = s.reg .rsp ∧
  ∀ x, (∀ i, i < out.size → x ≠ slotAddr s out + BitVec.ofNat 64 i) → s'.mem x = s.mem x

/-- The types operands have after the integer promotions. -/
def Promoted (t : ST) : Prop := t ∈ [ST.int, .uint, .long, .ulong, .llong, .ullong]

instance (t : ST) : Decidable (Promoted t) := by unfold Promoted; infer_instance

/-- The C comparison operators on the outcome of a floating comparison (C17 6.5.8, 6.5.9,
F.9.3: with a NaN every relation but `!=` is false). -/
def fltRel : Op → Float.Cmp → Bool
  | .less, .lt => true
  | .greater, .gt => true
  | .lessEq, .lt | .lessEq, .eq => true
  | .greaterEq, .gt | .greaterEq, .eq => true
  | .equal, .eq => true
  | .notEqual, .lt | .notEqual, .gt | .notEqual, .un => true
  | _, _ => false

/-- The six comparison operators. -/
def IsRel (op : Op) : Prop := op ∈ [Op.less, .greater, .lessEq, .greaterEq, .equal, .notEqual]

instance (op : Op) : Decidable (IsRel op) := by unfold IsRel; infer_instance

/-- What each integer node computes: the C operator and the signedness of its operands
(`none`: either). -/
def meaning : IrOp → Option (Op × Option Bool)
  | .add => some (.add, none)
  | .sub => some (.sub, none)
  | .mul => some (.mul, some false)
  | .imul => some (.mul, some true)
  | .div => some (.div, some false)
  | .idiv => some (.div, some true)
  | .mod => some (.mod, some false)
  | .imod => some (.mod, some true)
  | .lshift => some (.lshift, none)
  | .rshift => some (.rshift, some false)
  | .irshift => some (.rshift, some true)
  | .bxor => some (.bxor, none)
  | .bor => some (.bor, none)
  | .band => some (.band, none)
  | .less => some (.less, some false)
  | .iless => some (.less, some true)
  | .greater => some (.greater, some false)
  | .igreater => some (.greater, some true)
  | .lessEq => some (.lessEq, some false)
  | .ilessEq => some (.lessEq, some true)
  | .greaterEq => some (.greaterEq, some false)
  | .igreaterEq => some (.greaterEq, some true)
  | .equal => some (.equal, none)
  | .notEqual => some (.notEqual, none)
  | _ => none

/-- Node `o` is the operator `op` on operands of signedness `sgn`. -/
def Means (o : IrOp) (op : Op) (sgn : Bool) : Prop :=
  ∃ g, meaning o = some (op, g) ∧ (g = none ∨ g = some sgn)

instance (o op sgn) : Decidable (Means o op sgn) :=
  match h : meaning o with
  | none => isFalse (by rintro ⟨g, hg, _⟩; rw [h] at hg; cases hg)
  | some (op', g) =>
    decidable_of_iff (op' = op ∧ (g = none ∨ g = some sgn))
      ⟨by rintro ⟨rfl, hg⟩; exact ⟨g, h, hg⟩,
       by rintro ⟨g', hg, h2⟩; rw [h] at hg; cases hg; exact ⟨rfl, h2⟩⟩

/-- Running `c` from `s` ends normally, changes nothing but the slot `out`, and leaves
there the value `v` of type `t`. -/
def Computes (abi : Abi) (F : FP) (c : List Ins) (s : State) (out : Slot) (t : ST) (v : Int) : Prop :=
  ∃ s', run F c s = .ok s' ∧ Frame s s' out ∧ slotVal abi t s' out = v

/-- The format of a floating type and its size. -/
def fmtOf : ST → Option (Float.Fmt × Nat)
  | .float => some (Float.f32, 4)
  | .double => some (Float.f64, 8)
  | _ => none

end Verif.CodegenSpec
