import Verif.Asm
import Verif.Float
/-!
Semantics of the x86-64 instructions the compiler emits (Intel SDM vol. 2).  This is the
specification of the target machine, part of the trusted base.

* Memory is a total function on 64-bit addresses; page faults, alignment faults and
  self-modifying code are not modelled.
* Only the low halves of the XMM registers are kept.
* The status flags are known after `cmp`, `test` and `ucomis`; every other arithmetic
  instruction leaves them unknown (`none`), and using unknown flags is `bad`.
* Floating point addition, subtraction, multiplication, division and the conversions
  between the two formats are parameters (`FP`); comparison and the conversions from and
  to integers are those of `Verif.Float`.
* A division error (`#DE`) is the outcome `trap`; an instruction outside the modelled set is
  `bad`.
-/
namespace Verif.X86
open Verif Asm

/-- Outcome of execution. -/
inductive Out (α : Type) where
  | ok (a : α)
  | trap
  | bad
  deriving Repr, DecidableEq

/-- Sequencing. -/
def Out.bind {α β : Type} (x : Out α) (f : α → Out β) : Out β :=
  match x with
  | .ok a => f a
  | .trap => .trap
  | .bad => .bad

/-- An option whose absence is `bad`. -/
def Out.of {α : Type} : Option α → Out α
  | some a => .ok a
  | none => .bad

/-- Floating point operations left abstract. -/
structure FP where
  add32 : BitVec 32 → BitVec 32 → BitVec 32
  sub32 : BitVec 32 → BitVec 32 → BitVec 32
  mul32 : BitVec 32 → BitVec 32 → BitVec 32
  div32 : BitVec 32 → BitVec 32 → BitVec 32
  add64 : BitVec 64 → BitVec 64 → BitVec 64
  sub64 : BitVec 64 → BitVec 64 → BitVec 64
  mul64 : BitVec 64 → BitVec 64 → BitVec 64
  div64 : BitVec 64 → BitVec 64 → BitVec 64
  widen : BitVec 32 → BitVec 64
  narrow : BitVec 64 → BitVec 32

/-- Status flags. -/
structure Flags where
  zf : Bool
  cf : Bool
  sf : Bool
  of : Bool
  deriving DecidableEq, Repr

/-- Machine state. -/
structure State where
  reg : Reg → BitVec 64
  xmm : Nat → BitVec 64
  fl : Option Flags
  mem : BitVec 64 → BitVec 8

/-- The `n` bytes at `a` as a little-endian number. -/
def rd (m : BitVec 64 → BitVec 8) (a : BitVec 64) : Nat → Nat
  | 0 => 0
  | n + 1 => (m a).toNat + 256 * rd m (a + 1) n

/-- Write the low `n` bytes of `v` at `a`, little-endian. -/
def wr (m : BitVec 64 → BitVec 8) (a : BitVec 64) : Nat → Nat → BitVec 64 → BitVec 8
  | 0, _ => m
  | n + 1, v => fun x => if x = a then BitVec.ofNat 8 v else wr m (a + 1) n (v / 256) x

/-- Assign a 64-bit register. -/
def State.set (s : State) (r : Reg) (v : BitVec 64) : State :=
  { s with reg := fun r' => if r' = r then v else s.reg r' }

/-- Assign (the low half of) an XMM register. -/
def State.setX (s : State) (i : Nat) (v : BitVec 64) : State :=
  { s with xmm := fun j => if j = i then v else s.xmm j }

/-- Write memory. -/
def State.store (s : State) (a : BitVec 64) (n v : Nat) : State :=
  { s with mem := wr s.mem a n v }

/-- Effective address. -/
def State.addr (s : State) (off : Int) (b : Reg) : BitVec 64 := s.reg b + BitVec.ofInt 64 off

/-- Writing a part of a register: a 32-bit result clears the upper half, an 8- or 16-bit
one keeps the rest. -/
def merge (old : BitVec 64) (w : Nat) (v : BitVec w) : BitVec 64 :=
  if w = 64 ∨ w = 32 then v.setWidth 64
  else (old >>> w) <<< w ||| v.setWidth 64

/-- Value of an operand of `w` bits. -/
def getOp (s : State) (w : Nat) : Opd → Option (BitVec w)
  | .reg r n => if 8 * n = w then some ((s.reg r).setWidth w) else none
  | .imm none v => some (BitVec.ofInt w v)
  | .mem off b => some (BitVec.ofNat w (rd s.mem (s.addr off b) (w / 8)))
  | _ => none

/-- Assign an operand of `w` bits. -/
def putOp (s : State) (w : Nat) (v : BitVec w) : Opd → Option State
  | .reg r n => if 8 * n = w then some (s.set r (merge (s.reg r) w v)) else none
  | .mem off b => some (s.store (s.addr off b) (w / 8) v.toNat)
  | _ => none

/-- Not both operands in memory. -/
def legal : Opd → Opd → Bool
  | .mem .., .mem .. => false
  | _, _ => true

/-- `mov` of `w` bits. -/
def mov (w : Nat) (src dst : Opd) (s : State) : Option State :=
  if legal src dst then do
    let v ← getOp s w src
    putOp s w v dst
  else none

/-- Two-operand arithmetic of `w` bits (flags become unknown). -/
def alu (w : Nat) (f : BitVec w → BitVec w → BitVec w) (src dst : Opd) (s : State) : Option State :=
  if legal src dst then do
    let a ← getOp s w dst
    let b ← getOp s w src
    let s' ← putOp s w (f a b) dst
    pure { s' with fl := none }
  else none

/-- Widening moves. -/
def movx (w w' : Nat) (ext : BitVec w → BitVec w') (src dst : Opd) (s : State) : Option State :=
  match dst with
  | .reg .. => do
    let v ← getOp s w src
    putOp s w' (ext v) dst
  | _ => none

/-- Flags of `cmp b, a` (that is, of `a - b`). -/
def cmpFlags {w : Nat} (a b : BitVec w) : Flags :=
  { zf := a = b, cf := a.ult b, sf := (a - b).msb,
    of := (a - b).toInt ≠ a.toInt - b.toInt }

/-- Flags of `test b, a`. -/
def testFlags {w : Nat} (a b : BitVec w) : Flags :=
  { zf := a &&& b = 0, cf := false, sf := (a &&& b).msb, of := false }

/-- Flags of `ucomis b, a` (SDM: unordered 111, greater 000, less 001, equal 100 for
ZF, PF, CF; PF is not used by any emitted instruction). -/
def ucomFlags : Float.Cmp → Flags
  | .un => { zf := true, cf := true, sf := false, of := false }
  | .gt => { zf := false, cf := false, sf := false, of := false }
  | .lt => { zf := false, cf := true, sf := false, of := false }
  | .eq => { zf := true, cf := false, sf := false, of := false }

/-- Compare-like instruction. -/
def cmpIns (w : Nat) (f : BitVec w → BitVec w → Flags) (src dst : Opd) (s : State) :
    Option State :=
  if legal src dst then do
    let a ← getOp s w dst
    let b ← getOp s w src
    pure { s with fl := some (f a b) }
  else none

/-- `setcc` -/
def setcc (c : Flags → Bool) (dst : Opd) (s : State) : Option State := do
  let f ← s.fl
  putOp s 8 (if c f then 1 else 0) dst

/-- Shift by `%cl` or an immediate: the count is taken modulo 32 or 64. -/
def shift (w : Nat) (f : BitVec w → Nat → BitVec w) (cnt dst : Opd) (s : State) : Option State := do
  let c ← match cnt with
    | .reg .rcx 1 => getOp s 8 cnt
    | .imm none _ => getOp s 8 cnt
    | _ => none
  let a ← getOp s w dst
  let s' ← putOp s w (f a (c.toNat % (if w = 64 then 64 else 32))) dst
  pure { s' with fl := none }

/-- One-operand arithmetic. -/
def unary (w : Nat) (f : BitVec w → BitVec w) (dst : Opd) (s : State) : Option State := do
  let a ← getOp s w dst
  let s' ← putOp s w (f a) dst
  pure { s' with fl := none }

/-- Signed division of `rdx:rax` (low `w` bits of each) by the operand. -/
def idiv (w : Nat) (src : Opd) (s : State) : Out State :=
  (Out.of (getOp s w src)).bind fun d =>
  let n : Int := ((s.reg .rdx).setWidth w).toInt * 2 ^ w + ((s.reg .rax).setWidth w).toNat
  if d.toInt = 0 then .trap else
  let q := n.tdiv d.toInt
  if -(2 ^ (w - 1)) ≤ q ∧ q < 2 ^ (w - 1) then
    .ok { (s.set .rax (merge (s.reg .rax) w (BitVec.ofInt w q))).set .rdx
            (merge (s.reg .rdx) w (BitVec.ofInt w (n.tmod d.toInt))) with fl := none }
  else .trap

/-- Unsigned division. -/
def div (w : Nat) (src : Opd) (s : State) : Out State :=
  (Out.of (getOp s w src)).bind fun d =>
  let n : Nat := ((s.reg .rdx).setWidth w).toNat * 2 ^ w + ((s.reg .rax).setWidth w).toNat
  if d.toNat = 0 then .trap else
  let q := n / d.toNat
  if q < 2 ^ w then
    .ok { (s.set .rax (merge (s.reg .rax) w (BitVec.ofNat w q))).set .rdx
            (merge (s.reg .rdx) w (BitVec.ofNat w (n % d.toNat))) with fl := none }
  else .trap

/-- Low 32 bits of an XMM register. -/
def State.x32 (s : State) (i : Nat) : BitVec 32 := (s.xmm i).setWidth 32

/-- Replace the low 32 bits (scalar single operations keep the rest). -/
def State.setX32 (s : State) (i : Nat) (v : BitVec 32) : State :=
  s.setX i ((s.xmm i >>> 32) <<< 32 ||| v.setWidth 64)

/-- `cvttss2si`, `cvttsd2si` to 64 bits: the integer indefinite value when out of range. -/
def cvtt (t : Option Int) : BitVec 64 :=
  match t with
  | some v => if -(2 ^ 63) ≤ v ∧ v < 2 ^ 63 then BitVec.ofInt 64 v else 0x8000000000000000
  | none => 0x8000000000000000

/-- One instruction that does not transfer control. -/
def exec (F : FP) (i : Ins) (s : State) : Out State :=
  match i.mn, i.ops with
  | .addl, [a, b] => Out.of (alu 32 (· + ·) a b s)
  | .addq, [a, b] => Out.of (alu 64 (· + ·) a b s)
  | .subl, [a, b] => Out.of (alu 32 (· - ·) a b s)
  | .subq, [a, b] => Out.of (alu 64 (· - ·) a b s)
  | .imull, [a, b] => Out.of (alu 32 (· * ·) a b s)
  | .imulq, [a, b] => Out.of (alu 64 (· * ·) a b s)
  | .xorl, [a, b] => Out.of (alu 32 (· ^^^ ·) a b s)
  | .xorq, [a, b] => Out.of (alu 64 (· ^^^ ·) a b s)
  | .orl, [a, b] => Out.of (alu 32 (· ||| ·) a b s)
  | .orq, [a, b] => Out.of (alu 64 (· ||| ·) a b s)
  | .andl, [a, b] => Out.of (alu 32 (· &&& ·) a b s)
  | .andq, [a, b] => Out.of (alu 64 (· &&& ·) a b s)
  | .cltd, [] => .ok (s.set .rdx (merge 0 32 (if ((s.reg .rax).setWidth 32).msb then -1 else 0)))
  | .cqto, [] => .ok (s.set .rdx (if (s.reg .rax).msb then -1 else 0))
  | .idivl, [a] => idiv 32 a s
  | .idivq, [a] => idiv 64 a s
  | .divl, [a] => div 32 a s
  | .divq, [a] => div 64 a s
  | .sall, [a, b] => Out.of (shift 32 (· <<< ·) a b s)
  | .salq, [a, b] => Out.of (shift 64 (· <<< ·) a b s)
  | .sarl, [a, b] => Out.of (shift 32 BitVec.sshiftRight a b s)
  | .sarq, [a, b] => Out.of (shift 64 BitVec.sshiftRight a b s)
  | .shrl, [a, b] => Out.of (shift 32 (· >>> ·) a b s)
  | .shrq, [a, b] => Out.of (shift 64 (· >>> ·) a b s)
  | .cmpl, [a, b] => Out.of (cmpIns 32 cmpFlags a b s)
  | .cmpq, [a, b] => Out.of (cmpIns 64 cmpFlags a b s)
  | .testb, [a, b] => Out.of (cmpIns 8 testFlags a b s)
  | .testq, [a, b] => Out.of (cmpIns 64 testFlags a b s)
  | .seta, [a] => Out.of (setcc (fun f => !f.cf && !f.zf) a s)
  | .setb, [a] => Out.of (setcc (fun f => f.cf) a s)
  | .setbe, [a] => Out.of (setcc (fun f => f.cf || f.zf) a s)
  | .sete, [a] => Out.of (setcc (fun f => f.zf) a s)
  | .setg, [a] => Out.of (setcc (fun f => !f.zf && f.sf == f.of) a s)
  | .setge, [a] => Out.of (setcc (fun f => f.sf == f.of) a s)
  | .setl, [a] => Out.of (setcc (fun f => f.sf != f.of) a s)
  | .setle, [a] => Out.of (setcc (fun f => f.zf || f.sf != f.of) a s)
  | .setnb, [a] => Out.of (setcc (fun f => !f.cf) a s)
  | .setne, [a] => Out.of (setcc (fun f => !f.zf) a s)
  | .movb, [a, b] => Out.of (mov 8 a b s)
  | .movw, [a, b] => Out.of (mov 16 a b s)
  | .movl, [a, b] => Out.of (mov 32 a b s)
  | .movq, [.reg r 8, .xmm i] => .ok (s.setX i (s.reg r))
  | .movq, [.xmm i, .reg r 8] => .ok (s.set r (s.xmm i))
  | .movq, [a, b] => Out.of (mov 64 a b s)
  | .movabsq, [.imm none v, .reg r 8] => .ok (s.set r (BitVec.ofInt 64 v))
  | .movzbl, [a, b] => Out.of (movx 8 32 (·.setWidth 32) a b s)
  | .movzwl, [a, b] => Out.of (movx 16 32 (·.setWidth 32) a b s)
  | .movsbl, [a, b] => Out.of (movx 8 32 (·.signExtend 32) a b s)
  | .movswl, [a, b] => Out.of (movx 16 32 (·.signExtend 32) a b s)
  | .movsbq, [a, b] => Out.of (movx 8 64 (·.signExtend 64) a b s)
  | .movswq, [a, b] => Out.of (movx 16 64 (·.signExtend 64) a b s)
  | .movslq, [a, b] => Out.of (movx 32 64 (·.signExtend 64) a b s)
  | .leal, [.mem off b, .reg r 4] => .ok (s.set r (((s.addr off b).setWidth 32).setWidth 64))
  | .leaq, [.mem off b, .reg r 8] => .ok (s.set r (s.addr off b))
  | .notq, [a] => Out.of (unary 64 (~~~ ·) a s)
  | .negq, [a] => Out.of (unary 64 (- ·) a s)
  | .btcq, [.imm none v, .reg r 8] =>
    .ok { s.set r (s.reg r ^^^ (1#64 <<< ((BitVec.ofInt 64 v).toNat % 64))) with fl := none }
  | .movd, [.reg r 4, .xmm i] => .ok (s.setX i (((s.reg r).setWidth 32).setWidth 64))
  | .movd, [.reg r 8, .xmm i] => .ok (s.setX i (s.reg r))
  | .movd, [.xmm i, .reg r 4] => .ok (s.set r ((s.x32 i).setWidth 64))
  | .movss, [.xmm i, .mem off b] => .ok (s.store (s.addr off b) 4 (s.x32 i).toNat)
  | .movsd, [.xmm i, .mem off b] => .ok (s.store (s.addr off b) 8 (s.xmm i).toNat)
  | .movsd, [.mem off b, .xmm i] => .ok (s.setX i (BitVec.ofNat 64 (rd s.mem (s.addr off b) 8)))
  | .addss, [.xmm i, .xmm j] => .ok (s.setX32 j (F.add32 (s.x32 j) (s.x32 i)))
  | .subss, [.xmm i, .xmm j] => .ok (s.setX32 j (F.sub32 (s.x32 j) (s.x32 i)))
  | .mulss, [.xmm i, .xmm j] => .ok (s.setX32 j (F.mul32 (s.x32 j) (s.x32 i)))
  | .divss, [.xmm i, .xmm j] => .ok (s.setX32 j (F.div32 (s.x32 j) (s.x32 i)))
  | .addsd, [.xmm i, .xmm j] => .ok (s.setX j (F.add64 (s.xmm j) (s.xmm i)))
  | .subsd, [.xmm i, .xmm j] => .ok (s.setX j (F.sub64 (s.xmm j) (s.xmm i)))
  | .mulsd, [.xmm i, .xmm j] => .ok (s.setX j (F.mul64 (s.xmm j) (s.xmm i)))
  | .divsd, [.xmm i, .xmm j] => .ok (s.setX j (F.div64 (s.xmm j) (s.xmm i)))
  | .ucomiss, [.xmm i, .xmm j] =>
    .ok { s with fl := some (ucomFlags (Float.cmp Float.f32 (s.x32 j).toNat (s.x32 i).toNat)) }
  | .ucomisd, [.xmm i, .xmm j] =>
    .ok { s with fl := some (ucomFlags (Float.cmp Float.f64 (s.xmm j).toNat (s.xmm i).toNat)) }
  | .cvtss2sd, [.xmm i, .xmm j] => .ok (s.setX j (F.widen (s.x32 i)))
  | .cvtsd2ss, [.xmm i, .xmm j] => .ok (s.setX32 j (F.narrow (s.xmm i)))
  | .cvtsi2ss, [.reg r 8, .xmm j] =>
    .ok (s.setX32 j (BitVec.ofNat 32 (Float.ofInt Float.f32 (s.reg r).toInt)))
  | .cvtsi2sd, [.reg r 8, .xmm j] =>
    .ok (s.setX j (BitVec.ofNat 64 (Float.ofInt Float.f64 (s.reg r).toInt)))
  | .cvttss2si, [.xmm i, .reg r 8] => .ok (s.set r (cvtt (Float.trunc Float.f32 (s.x32 i).toNat)))
  | .cvttsd2si, [.xmm i, .reg r 8] => .ok (s.set r (cvtt (Float.trunc Float.f64 (s.xmm i).toNat)))
  | .pushq, [.reg r 8] =>
    .ok ((s.set .rsp (s.reg .rsp - 8)).store (s.reg .rsp - 8) 8 (s.reg r).toNat)
  | .leave, [] =>
    .ok ((s.set .rsp (s.reg .rbp + 8)).set .rbp (BitVec.ofNat 64 (rd s.mem (s.reg .rbp) 8)))
  | _, _ => .bad

/-- A sequence of instructions without control transfer. -/
def run (F : FP) : List Ins → State → Out State
  | [], s => .ok s
  | i :: is, s => (exec F i s).bind (run F is)

end Verif.X86
