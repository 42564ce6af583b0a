import Verif.Ms
import Verif.CallSpec
import Verif.MemorySpec
/-!
Specification of the Microsoft x64 calling convention ("x64 calling convention" in the Microsoft C++
documentation): every argument takes one position of 8 bytes.
-/
namespace Verif.MsSpec
open Verif Asm X86 CodegenSpec MemorySpec CallSpec Ms
open Verif.Codegen (Slot)
open Verif.Call (Dest Call)

/-- Sizes that are passed by value. -/
def Small (t : Ty) : Prop := t.size ∈ [1, 2, 4, 8]

instance (t : Ty) : Decidable (Small t) := inferInstanceAs (Decidable (_ ∈ _))

/-- Floating types are `float` and `double`. -/
def Valid (t : Ty) : Prop := t.floating = true → t.size = 4 ∨ t.size = 8

/-- A result that is not small is returned through an address, which takes the first position. -/
def hidden : Option Ty → Bool
  | none => false
  | some t => decide (¬ Small t)

/-- Number of positions in front of the arguments. -/
def lead (ret : Option Ty) : Nat := if hidden ret then 1 else 0

/-- The integer registers of the first four positions. -/
def intRegs : List Reg := [.rcx, .rdx, .r8, .r9]

/-- Where position `k` is passed: in a register (`none`: not in a register), the SSE one for floating
values. -/
def posReg (k : Nat) (floating : Bool) : Option Dest :=
  if floating then if k < 4 then some (.sse k) else none else intRegs[k]?.map .gpr

/-- Offset from `%rsp` at the call of the place of position `k`; the first four places are the home
("shadow") space of the registers. -/
def posOff (k : Nat) : Nat := 8 * k

/-- What the argument `i` of type `t` passes. -/
def passes (i : Nat) (t : Ty) : Item := if Small t then .value i else .address i

/-- Everything that is passed: the address of the result, then the arguments; with what decides on the
kind of register.  A variadic function looks for its unnamed arguments (those from `named` on) in the
integer registers. -/
def positions (ret : Option Ty) (named : Nat) (args : List Ty) : List (Item × Bool) :=
  (if hidden ret then [(.result, false)] else []) ++ args.mapIdx fun i t => (passes i t, decide (i < named) && t.floating)

/-- The caller's plan passes everything in its place: the register of its position, or its stack offset. -/
def Passes (p : Plan) (pos : List (Item × Bool)) : Prop :=
  ∀ k x, pos[k]? = some x → match posReg k x.2 with
    | some d => (d, x.1) ∈ p.regs
    | none => (x.1, posOff k) ∈ p.stack

/-- Nothing else is passed. -/
def Only (p : Plan) (pos : List (Item × Bool)) : Prop :=
  (∀ d it, (d, it) ∈ p.regs → ∃ k f, pos[k]? = some (it, f) ∧ posReg k f = some d) ∧
  ∀ it o, (it, o) ∈ p.stack → ∃ k f, pos[k]? = some (it, f) ∧ posReg k f = none ∧ o = posOff k

/-- The stack area: room for all positions and at least for four, and `%rsp` stays a multiple of 16. -/
def Room (p : Plan) (n : Nat) : Prop :=
  ∃ area : Nat, p.change = -(area : Int) ∧ 32 ≤ area ∧ 8 * n ≤ area ∧ area % 16 = 0

/-- Where the callee must look for position `k`: in its register, or on the stack, 16 bytes (the
return address and the caller's `%rbp`) above `%rbp` begins what was at `%rsp`. -/
def posSrc (k : Nat) (floating : Bool) : Dest ⊕ Nat :=
  match posReg k floating with
  | some d => .inl d
  | none => .inr (16 + posOff k)

/-- What is in a source in state `s`, as a number of `n` bytes. -/
def fetch (s : State) (n : Nat) : Dest ⊕ Nat → Nat
  | .inl d => regVal s d % 256 ^ n
  | .inr o => rd s.mem (s.reg .rbp + BitVec.ofNat 64 o) n

/-- What is passed is in frame slots of the right size, out of the way of the outgoing area. -/
structure Slots (s : State) (area : Nat) (args : List Ty) (slot : Item → Slot) (callee : Slot) : Prop where
  value : ∀ (i : Nat) (t : Ty), args[i]? = some t → Small t → (slot (.value i)).size = t.size
  address : ∀ i, (slot (.address i)).size = 8
  result : (slot .result).size = 8
  pointer : callee.size = 8
  items : ∀ it, Outside (s.reg .rsp - BitVec.ofNat 64 area) area (slotAddr s (slot it)) 8
  clear : Outside (s.reg .rsp - BitVec.ofNat 64 area) area (slotAddr s callee) 8

/-- `s2` is the state behind the entry code of the callee (`pushq %rbp; movq %rsp, %rbp; …`), `s1` the
one at the call: argument registers are the same, `%rbp` is below the return address and the pushed
`%rbp`, and the outgoing area of `area` bytes is as the caller left it. -/
structure Entered (s1 s2 : State) (area : Nat) : Prop where
  rbp : s2.reg .rbp = s1.reg .rsp - 16
  gpr : ∀ r ∈ intRegs, s2.reg r = s1.reg r
  xmm : ∀ i, i < 4 → s2.xmm i = s1.xmm i
  mem : ∀ k, k < area → s2.mem (s1.reg .rsp + BitVec.ofNat 64 k) = s1.mem (s1.reg .rsp + BitVec.ofNat 64 k)

/-- The callee looks for its parameters where the convention puts them. -/
def Takes (r : Option Dest × List Input) (ret : Option Ty) (args : List Ty) : Prop :=
  r.1 = (if hidden ret then some (.gpr .rcx) else none) ∧ r.2.length = args.length ∧
  ∀ i t, args[i]? = some t →
    r.2[i]? = some (Input.mk (posSrc (lead ret + i) t.floating) (if Small t then t.size else 8) (decide (¬ Small t)))

/-- The home of position `k` in a function with frame pointer `rbp`. -/
def home (rbp : BitVec 64) (k : Nat) : BitVec 64 := rbp + BitVec.ofNat 64 (16 + 8 * k)

/-- The registers are in their homes. -/
def Homed (s s' : State) : Prop :=
  ∀ k r, intRegs[k]? = some r → rd s'.mem (home (s.reg .rbp) k) 8 = (s.reg r).toNat

/-- The `va_list` at `l` is at position `k`. -/
def At (m : BitVec 64 → BitVec 8) (l rbp : BitVec 64) (k : Nat) : Prop := rd m l 8 = (home rbp k).toNat

/-- Where the value of a variadic argument is: in its home or where the home points to. -/
def source (m : BitVec 64 → BitVec 8) (a : BitVec 64) (t : Ty) : BitVec 64 :=
  if Small t then a else BitVec.ofNat 64 (rd m a 8)

/-- What a `va_arg` must find: the pointers in their slots, and objects apart from each other. -/
structure Ready (s : State) (dst va : Slot) (k : Nat) (t : Ty) : Prop where
  dstSize : dst.size = 8
  vaSize : va.size = 8
  list : At s.mem (target s va) (s.reg .rbp) k
  size : t.size ≤ 2 ^ 30
  slot : Disj (target s va) 8 (slotAddr s dst) 8
  home : Disj (target s va) 8 (home (s.reg .rbp) k) 8
  src : Disj (target s va) 8 (source s.mem (MsSpec.home (s.reg .rbp) k) t) t.size
  obj : Disj (target s va) 8 (target s dst) t.size
  copy : NoPartialOverlap (source s.mem (MsSpec.home (s.reg .rbp) k) t) (target s dst) t.size

/-- A `va_arg` done: the object has the argument's bytes, the `va_list` is at the next position and
nothing else has changed. -/
structure Done (s s' : State) (dst va : Slot) (k : Nat) (t : Ty) : Prop where
  bytes : ∀ i, i < t.size → s'.mem (target s dst + BitVec.ofNat 64 i) =
    s.mem (source s.mem (home (s.reg .rbp) k) t + BitVec.ofNat 64 i)
  list : At s'.mem (target s va) (s.reg .rbp) (k + 1)
  rest : ∀ x, (∀ i, i < 8 → x ≠ target s va + BitVec.ofNat 64 i) →
    (∀ i, i < t.size → x ≠ target s dst + BitVec.ofNat 64 i) → s'.mem x = s.mem x
  rbp : s'.reg .rbp = s.reg .rbp
  rsp : s'.reg .rsp = s.reg .rsp

/-- The register of a result that is not returned through an address. -/
def resReg (t : Ty) : Dest := if t.floating then .sse 0 else .gpr .rax

/-- Registers that a function has to keep, besides `%rsp` and `%rbp`. -/
def kept : List Reg := [.rbx, .rdi, .rsi, .r12, .r13, .r14, .r15]

/-- A function that returns through an address returns the address in `%rax`: `regs` are the registers set
before the return; the address is in the slot `addr`. -/
def ReturnsAddress (F : FP) (regs : Option Ty → Slot → Slot → Slot → Slot → List (Dest × Slot)) : Prop :=
  ∀ ret value rbx rdi rsi addr s, hidden ret = true → rbx.size = 8 → rdi.size = 8 → rsi.size = 8 → addr.size = 8 →
    ∃ c s', Call.setRegs (regs ret value rbx rdi rsi) = .ok c ∧ run F c s = .ok s' ∧ s'.reg .rax = target s addr

end Verif.MsSpec
