import Verif.Assemble
import Verif.AsmNames
import Verif.EncodeSpec
import Verif.ObjectSpec
import Verif.LinkerSpec
/-!
What machine code should be in memory for lines of assembly: one instruction after the other, each
of which decodes (EncodeSpec.lean) to what the line denotes, with the addresses of the labels.
-/
namespace Verif.AssembleSpec
open Verif Asm EncodeSpec
open Verif.Encode (Operand)
open Verif.FuncCode (Item)
open Verif.Object (Obj Name Section)
open Verif.AsmNames (spelling)

/-- The operand where label `l` has the address `A l` and the next instruction the address `next`:
an immediate label is its address, a jump goes to it from the next instruction. -/
def located (A : Nat → BitVec 64) (next : BitVec 64) : Opd → Operand
  | .reg r size => .reg r false size
  | .xmm i => .sse i
  | .star r => .star r 8
  | .imm none v => .imm none (BitVec.ofInt 64 v)
  | .imm (some l) v => .imm none (A l + BitVec.ofInt 64 v)
  | .abs none v => .abs none (BitVec.ofInt 64 v)
  | .abs (some l) v => .abs none (A l + BitVec.ofInt 64 v - next)
  | .mem off base => .mem none (some base) 1 (BitVec.ofInt 64 off)

/-- The machine instruction of a line (assembly lists the destination last, the decoder first). -/
def Means (A : Nat → BitVec 64) (next : BitVec 64) (i : Ins) (m : Insn) : Prop :=
  Denotes (spelling i.mn) (i.ops.reverse.map (located A next)) m

/-- The lines are in memory `img`, loaded at address 0x10000, from offset `p` to offset `q`: a label
has the address where it stands, and an instruction is decoded from where it stands, up to where the
next line stands. -/
inductive Laid (img : List Byte) (A : Nat → BitVec 64) : Nat → List Item → Nat → Prop where
  | nil {p} : Laid img A p [] p
  | label {p l is q} : A l = 0x10000 + BitVec.ofNat 64 p → Laid img A p is q → Laid img A p (.label l :: is) q
  | ins {p i m r is q} : Means A (0x10000 + BitVec.ofNat 64 r) i m → p < r → r ≤ img.length →
      decode (img.drop p) = some (m, img.drop r) → Laid img A r is q → Laid img A p (.ins i :: is) q

/-- The label of an operand. -/
def labelOf : Opd → Option Nat
  | .imm l _ => l
  | .abs l _ => l
  | _ => none

/-- The labels that a line mentions. -/
def mentioned : Item → List Nat
  | .label l => [l]
  | .ins i => i.ops.filterMap labelOf

/-- The labels that lines define. -/
def defined (is : List Item) : List Nat :=
  is.filterMap fun | .label l => some l | .ins _ => none

/-- The name `n` in object `a` has the address `x`: that of the definition, in the object itself
or - if it is at the same offset in its section as the undefined symbol, that is at its start (C50) -
in another one; the section is not empty. -/
def At (os : List Obj) (a : Nat) (n : Name) (x : BitVec 64) : Prop :=
  ∃ o y b t s, os[a]? = some o ∧ y ∈ o.symbols ∧ y.name = some n ∧ LinkerSpec.Target os a y b t y.value ∧
    LinkerSpec.sect os b t = some s ∧ s.data ≠ [] ∧ x = LinkerSpec.addr os b t + y.value

/-- The fields to relocate are in the bytes written. -/
def Inside (v : ObjectSpec.View) : Prop :=
  ∀ n, ∀ f ∈ v.refs n, f.offset + LinkerSpec.width f.type ≤ (v.content n).length

/-- An instruction that is in the domain of the encoder's correctness (C43): handled by it,
of a known meaning wherever labels are below 2 GiB, at most one label, and no offset from the target
of a jump. -/
structure Sound (i : Ins) : Prop where
  handled : Handled (spelling i.mn) (i.ops.reverse.map (located (fun _ => 0) 0))
  meaning : ∀ A next, (∀ l v, .imm (some l) v ∈ i.ops → (A l + BitVec.ofInt 64 v).toNat < 2 ^ 31) →
    ∃ m, Means A next i m
  one : (i.ops.filterMap labelOf).length ≤ 1
  jump : ∀ l v, .abs (some l) v ∈ i.ops → v = 0

/-- The number fits in a displacement. -/
def Disp (x : Int) : Prop := -2147483648 ≤ x ∧ x < 2147483648

/-- Registers of a call or return: SSE registers exist, and what is moved to or from them has a place. -/
def RegsWithin (f : FuncCode.Func) (l : List (Call.Dest × Nat)) : Prop :=
  ∀ r ∈ l, match r.1 with
    | .sse i => i < 16 ∧ (f.slot r.2).size ≠ 0
    | .gpr _ => True

/-- The instruction of a function is within the limits of the machine: values whose address is taken
are not empty (an empty one has no place), constants fit in their size, offsets fit in displacements,
and nothing is at the base of the frame itself. -/
def Within (f : FuncCode.Func) (n : FuncCode.Node) : Prop :=
  match n.kind with
  | .const v => match (f.slot n.num).size with
    | 0 => False
    | 1 => -128 ≤ v.toInt ∧ v.toInt < 256
    | 2 => -32768 ≤ v.toInt ∧ v.toInt < 65536
    | 4 => -2147483648 ≤ v.toInt ∧ v.toInt < 4294967296
    | _ => True
  | .label _ off => (f.slot n.num).size ≠ 0 ∧ Disp off
  | .call _ change stack regs outs => Disp change ∧ RegsWithin f regs ∧ RegsWithin f outs ∧
      ∀ a ∈ stack, match a with
        | .value v off => (f.slot v).size ≠ 0 ∧ Disp off
        | .object _ off size => Disp off ∧ size ≤ 2147483648
  | .load _ => (f.slot n.num).size ≠ 0
  | .loadVolatile _ out => (f.slot out).size ≠ 0
  | .loadPart _ off out => (f.slot out).size ≠ 0 ∧ Disp off
  | .store _ v => (f.slot v).size ≠ 0
  | .storePart _ v off => (f.slot v).size ≠ 0 ∧ Disp off
  | .setZero _ size => size ≤ 2147483648
  | .alloc _ _ => 0 < f.object n.num ∧ f.object n.num ≤ f.layout.frame
  | .copy _ _ size => size ≤ 2147483648
  | .loadBase off => (f.slot n.num).size ≠ 0 ∧ Disp off ∧ off ≠ 0
  | .loadBaseAddress _ off size => Disp off ∧ off ≠ 0 ∧ size ≤ 2147483648
  | _ => True

/-- A function within the limits of the machine. -/
structure FuncWithin (f : FuncCode.Func) : Prop where
  frame : f.layout.frame < 2147483648
  align : f.layout.align ≤ 2147483648
  nodes : ∀ b ∈ f.blocks, ∀ n ∈ b.ins, Within f n
  gets : RegsWithin f f.gets
  rets : ∀ b ∈ f.blocks, ∀ regs, b.last = .ret regs → RegsWithin f regs

end Verif.AssembleSpec
