import Verif.CodegenLemmas
import Verif.MemorySpec
import Verif.CallSpec
import Verif.FuncCode
/-!
Specification of the code of functions: what the instructions of a function compute, block by block,
and a machine that runs a list of lines of assembly.

Of the model only the syntax is used: functions, blocks, nodes, lines.
-/
namespace Verif.FuncSpec
open Verif Asm X86
open Verif.Codegen (bvOp)
open Verif.Call (Dest)
open Verif.CallSpec (regVal)
open Verif.MemorySpec (NoPartialOverlap copied)
open Verif.FuncCode (Kind Node PhiNode End Block Func Item)

/-- Memory. -/
abbrev Mem := BitVec 64 → BitVec 8

/-! ### The instructions -/

/-- The world of a function that has been called: floating arithmetic, the addresses of symbols and of
the function's objects, the bytes it may read and write, the first argument on the stack, and what calls do (callee;
registers with the sizes and values of the arguments; memory) to the registers and to memory. -/
structure World where
  fp : FP
  sym : Nat → BitVec 64
  loc : Nat → BitVec 64
  acc : BitVec 64 → Prop
  args : BitVec 64
  call : BitVec 64 → List (Dest × Nat × Nat) → Mem → Option ((Dest → Nat) × Mem)

/-- The values of the nodes (`none`: undefined), and memory. -/
structure IS where
  vals : Nat → Option Nat
  mem : Mem

/-- Node `n` has the value. -/
def IS.put (i : IS) (n : Nat) (v : Option Nat) : IS := { i with vals := fun k => if k = n then v else i.vals k }

/-- The size of a node. -/
def size (f : Func) (n : Nat) : Nat :=
  match f.nodes.find? (·.num == n) with
  | some x => x.size
  | none => 0

/-- The `n` bytes at `a` may be accessed. -/
def World.Acc (W : World) (a : BitVec 64) (n : Nat) : Prop := ∀ k, k < n → W.acc (a + BitVec.ofNat 64 k)

/-- Registers with the sizes and the values of nodes. -/
def Args (sz : Nat → Nat) (i : IS) : List (Dest × Nat) → List (Dest × Nat × Nat) → Prop
  | [], l => l = []
  | r :: regs, l => ∃ v l', i.vals r.2 = some v ∧ Args sz i regs l' ∧ l = (r.1, sz r.2, v) :: l'

/-- The values that registers give to nodes. -/
def received (sz : Nat → Nat) (rs : Dest → Nat) (outs : List (Dest × Nat)) (old : Nat → Option Nat) (n : Nat) : Option Nat :=
  match outs.find? (·.2 == n) with
  | some o => some (rs o.1 % 256 ^ sz n)
  | none => old n

/-- The format of floating values of that size. -/
def fmt (n : Nat) : Float.Fmt := if n = 4 then Float.f32 else Float.f64

/-- The operations on floating values of `n` bytes.  Comparisons of unordered operands other than `>`
and `>=` are given no meaning (the code for them is wrong, C35). -/
def fltOp (F : FP) (n : Nat) (op : Codegen.IrOp) (x y : Nat) : Option Nat :=
  let arith (f : BitVec 32 → BitVec 32 → BitVec 32) (d : BitVec 64 → BitVec 64 → BitVec 64) : Option Nat :=
    some (if n = 4 then (f (BitVec.ofNat 32 x) (BitVec.ofNat 32 y)).toNat
      else (d (BitVec.ofNat 64 x) (BitVec.ofNat 64 y)).toNat)
  let c := Float.cmp (fmt n) x y
  let ordered (b : Bool) : Option Nat := if c = .un then none else some b.toNat
  match op with
  | .fltAdd => arith F.add32 F.add64
  | .fltSub => arith F.sub32 F.sub64
  | .fltMul => arith F.mul32 F.mul64
  | .fltDiv => arith F.div32 F.div64
  | .fltLess => ordered (c = .lt)
  | .fltGreater => some (decide (c = .gt)).toNat
  | .fltLessEq => ordered (c = .lt ∨ c = .eq)
  | .fltGreaterEq => some (decide (c = .gt ∨ c = .eq)).toNat
  | .fltEqual => ordered (c = .eq)
  | .fltNotEqual => ordered (c = .lt ∨ c = .gt)
  | _ => none

/-- A floating value of `n` bytes in the format of `m` bytes. -/
def refloat (F : FP) (n m x : Nat) : Nat :=
  if n = 4 ∧ m = 8 then (F.widen (BitVec.ofNat 32 x)).toNat
  else if n = 8 ∧ m = 4 then (F.narrow (BitVec.ofNat 64 x)).toNat
  else x

/-- What an instruction does.  Calls that pass something on the stack are given no meaning here, nor
conversions to floating types of negative integers of one and two bytes and of unsigned integers
from 2^63 on, which are wrong (C34). -/
inductive Does (W : World) (sz : Nat → Nat) : Node → IS → IS → Prop
  | bin {n s op a b out i x y z} : i.vals a = some x → i.vals b = some y →
      bvOp op (BitVec.ofNat (8 * sz a) x) (BitVec.ofNat (8 * sz a) y) = some z →
      Does W sz ⟨n, s, .bin op a b out⟩ i (i.put out (some z.toNat))
  | const {n s v i} : Does W sz ⟨n, s, .const v⟩ i (i.put n (some (v.toNat % 256 ^ s)))
  | label {n s l off i} : Does W sz ⟨n, s, .label l off⟩ i (i.put n (some (W.sym l + BitVec.ofInt 64 off).toNat))
  | bnot {n s a i x} : i.vals a = some x →
      Does W sz ⟨n, s, .bnot a⟩ i (i.put n (some (~~~ BitVec.ofNat (8 * s) x).toNat))
  | neg {n s a i x} : i.vals a = some x →
      Does W sz ⟨n, s, .neg a⟩ i (i.put n (some (- BitVec.ofNat (8 * s) x).toNat))
  | flt {n s op a b out i x y z} : i.vals a = some x → i.vals b = some y → sz b = sz a →
      fltOp W.fp (sz a) op x y = some z → Does W sz ⟨n, s, .bin op a b out⟩ i (i.put out (some z))
  | negFloat {n s a i x} : i.vals a = some x →
      Does W sz ⟨n, s, .negFloat a⟩ i (i.put n (some (BitVec.ofNat (8 * s) x ^^^ BitVec.intMin (8 * s)).toNat))
  | castFloat {n s a i x} : i.vals a = some x →
      Does W sz ⟨n, s, .castFloat a⟩ i (i.put n (some (refloat W.fp (sz a) s x)))
  | intFloat {n s a i x} : i.vals a = some x → (4 ≤ sz a ∨ 0 ≤ (BitVec.ofNat (8 * sz a) x).toInt) →
      Does W sz ⟨n, s, .intFloat a⟩ i (i.put n (some (Float.ofInt (fmt s) (BitVec.ofNat (8 * sz a) x).toInt)))
  | uintFloat {n s a i} {x : Nat} : i.vals a = some x → x < 2 ^ 63 →
      Does W sz ⟨n, s, .uintFloat a⟩ i (i.put n (some (Float.ofInt (fmt s) (x : Int))))
  | floatInt {n s a i x v} : i.vals a = some x → Float.trunc (fmt (sz a)) x = some v →
      -(2 ^ 63) ≤ v → v < 2 ^ 63 →
      Does W sz ⟨n, s, .floatInt a⟩ i (i.put n (some (BitVec.ofInt (8 * s) v).toNat))
  | call {n s f regs outs i a l rs m} : i.vals f = some a → Args sz i regs l →
      W.call (BitVec.ofNat 64 a) l i.mem = some (rs, m) →
      Does W sz ⟨n, s, .call f 0 [] regs outs⟩ i ⟨received sz rs outs i.vals, m⟩
  | load {n s p i a} : i.vals p = some a → W.Acc (BitVec.ofNat 64 a) s →
      Does W sz ⟨n, s, .load p⟩ i (i.put n (some (rd i.mem (BitVec.ofNat 64 a) s)))
  | loadVolatile {n s p out i a} : i.vals p = some a → W.Acc (BitVec.ofNat 64 a) (sz out) →
      Does W sz ⟨n, s, .loadVolatile p out⟩ i (i.put out (some (rd i.mem (BitVec.ofNat 64 a) (sz out))))
  | loadPart {n s p off out i a} : i.vals p = some a → W.Acc (BitVec.ofNat 64 (a + off)) (sz out) →
      Does W sz ⟨n, s, .loadPart p off out⟩ i (i.put out (some (rd i.mem (BitVec.ofNat 64 (a + off)) (sz out))))
  | store {n s p v i a x} : i.vals p = some a → i.vals v = some x → W.Acc (BitVec.ofNat 64 a) (sz v) →
      Does W sz ⟨n, s, .store p v⟩ i { i with mem := wr i.mem (BitVec.ofNat 64 a) (sz v) x }
  | storePart {n s p v off i a x} : i.vals p = some a → i.vals v = some x →
      W.Acc (BitVec.ofNat 64 (a + off)) (sz v) →
      Does W sz ⟨n, s, .storePart p v off⟩ i { i with mem := wr i.mem (BitVec.ofNat 64 (a + off)) (sz v) x }
  | castZero {n s a i x} : i.vals a = some x → Does W sz ⟨n, s, .castZero a⟩ i (i.put n (some (x % 256 ^ s)))
  | castSign {n s a i x} : i.vals a = some x →
      Does W sz ⟨n, s, .castSign a⟩ i (i.put n (some ((BitVec.ofNat (8 * sz a) x).signExtend (8 * s)).toNat))
  | castBool {n s a i x} : i.vals a = some x →
      Does W sz ⟨n, s, .castBool a⟩ i (i.put n (some (if x = 0 then 0 else 1)))
  | setZero {n s p k i a} : i.vals p = some a → W.Acc (BitVec.ofNat 64 a) k →
      Does W sz ⟨n, s, .setZero p k⟩ i { i with mem := wr i.mem (BitVec.ofNat 64 a) k 0 }
  | undef {n s i} : Does W sz ⟨n, s, .undef⟩ i (i.put n none)
  | alloc {n s k al i} : Does W sz ⟨n, s, .alloc k al⟩ i (i.put n (some (W.loc n).toNat))
  | copy {n s d p k i a b} : i.vals d = some a → i.vals p = some b → W.Acc (BitVec.ofNat 64 a) k →
      W.Acc (BitVec.ofNat 64 b) k → NoPartialOverlap (BitVec.ofNat 64 b) (BitVec.ofNat 64 a) k →
      Does W sz ⟨n, s, .copy d p k⟩ i { i with mem := copied i.mem (BitVec.ofNat 64 b) (BitVec.ofNat 64 a) k }
  | loadBase {n s off i} : W.Acc (W.args + BitVec.ofInt 64 (off - 16)) s →
      Does W sz ⟨n, s, .loadBase off⟩ i (i.put n (some (rd i.mem (W.args + BitVec.ofInt 64 (off - 16)) s)))
  | loadBaseAddress {n s p off k i a} : i.vals p = some a → W.Acc (BitVec.ofNat 64 a) k →
      W.Acc (W.args + BitVec.ofInt 64 (off - 16)) k →
      NoPartialOverlap (W.args + BitVec.ofInt 64 (off - 16)) (BitVec.ofNat 64 a) k →
      Does W sz ⟨n, s, .loadBaseAddress p off k⟩ i
        { i with mem := copied i.mem (W.args + BitVec.ofInt 64 (off - 16)) (BitVec.ofNat 64 a) k }
  | nothing {n s i} : Does W sz ⟨n, s, .nothing⟩ i i

/-- Instructions, one after the other. -/
inductive DoesAll (W : World) (sz : Nat → Nat) : List Node → IS → IS → Prop
  | nil {i} : DoesAll W sz [] i i
  | cons {n ns i i1 i2} : Does W sz n i i1 → DoesAll W sz ns i1 i2 → DoesAll W sz (n :: ns) i i2

/-- The source of a phi node of `t` for a jump from the block `cur`. -/
def source (cur : Nat) (t : Block) (p : PhiNode) : Option Nat :=
  match t.preds with
  | some (a, b) => if cur = a then p.src.1 else if cur = b then p.src.2 else none
  | none => none

/-- A jump from the block `cur` to `t`: all phi nodes of `t` get the values of their sources at
once. -/
def enter (cur : Nat) (t : Block) (i : IS) : IS :=
  { i with vals := fun n =>
      match t.phis.find? (·.out == n) with
      | some p => (source cur t p).bind i.vals
      | none => i.vals n }

/-- The block with the label. -/
def blockAt (f : Func) (l : Nat) (b : Block) : Prop := b ∈ f.blocks ∧ b.label = l

/-- From the beginning of a block to the beginning of the next. -/
inductive Step (W : World) (f : Func) : Nat → IS → Nat → IS → Prop
  | jump {l b i i1 l' t} : blockAt f l b → DoesAll W (size f) b.ins i i1 → b.last = .jump l' → blockAt f l' t →
      Step W f l i l' (enter l t i1)
  | branch {l b i i1 c lt lf x l' t} : blockAt f l b → DoesAll W (size f) b.ins i i1 → b.last = .branch c lt lf →
      i1.vals c = some x → l' = (if x ≠ 0 then lt else lf) → blockAt f l' t → Step W f l i l' (enter l t i1)

/-- Any number of blocks. -/
inductive Steps (W : World) (f : Func) : Nat → IS → Nat → IS → Prop
  | refl {l i} : Steps W f l i l i
  | tail {l i l1 i1 l2 i2} : Steps W f l i l1 i1 → Step W f l1 i1 l2 i2 → Steps W f l i l2 i2

/-- The function returns from the block: registers with sizes and values, and memory. -/
inductive Returns (W : World) (f : Func) : Nat → IS → List (Dest × Nat × Nat) → Mem → Prop
  | ret {l b i i1 regs rs} : blockAt f l b → DoesAll W (size f) b.ins i i1 → b.last = .ret regs →
      Args (size f) i1 regs rs → Returns W f l i rs i1.mem

/-- The state in which a function begins. -/
def start (f : Func) (s : State) : IS := ⟨received (size f) (regVal s) f.gets fun _ => none, s.mem⟩

/-! ### The machine -/

/-- A machine: its floating point unit, the addresses of symbols, what a call of an address does (up
to the return to the next line), and the lines of the program. -/
structure Machine where
  fp : FP
  sym : Nat → BitVec 64
  call : BitVec 64 → State → Option State
  code : List Item

/-- The line of a label. -/
def Machine.line (M : Machine) (l : Nat) : Option Nat := M.code.findIdx? (· == .label l)

/-- One line. -/
inductive Machine.Step (M : Machine) : Nat → State → Nat → State → Prop
  | label {k s l} : M.code[k]? = some (.label l) → M.Step k s (k + 1) s
  | exec {k s i s'} : M.code[k]? = some (.ins i) → X86.exec M.fp i s = .ok s' → M.Step k s (k + 1) s'
  | symbol {k s m l off d s'} : M.code[k]? = some (.ins ⟨m, [.imm (some l) off, d]⟩) →
      X86.exec M.fp ⟨m, [.imm none ((M.sym l).toInt + off), d]⟩ s = .ok s' → M.Step k s (k + 1) s'
  | jmp {k s l k'} : M.code[k]? = some (.ins ⟨.jmp, [.abs (some l) 0]⟩) → M.line l = some k' → M.Step k s k' s
  | je {k s l k' fl} : M.code[k]? = some (.ins ⟨.je, [.abs (some l) 0]⟩) → M.line l = some k' → s.fl = some fl →
      M.Step k s (if fl.zf then k' else k + 1) s
  | call {k s r s'} : M.code[k]? = some (.ins ⟨.callq, [.star r]⟩) → M.call (s.reg r) s = some s' →
      M.Step k s (k + 1) s'

/-- Any number of lines. -/
inductive Machine.Steps (M : Machine) : Nat → State → Nat → State → Prop
  | refl {k s} : M.Steps k s k s
  | tail {k s k1 s1 k2 s2} : M.Steps k s k1 s1 → M.Step k1 s1 k2 s2 → M.Steps k s k2 s2

/-- The machine comes to a `ret` that returns to the address `a`; `s'` is the state then. -/
def Machine.Finishes (M : Machine) (k : Nat) (s : State) (a : BitVec 64) (s' : State) : Prop :=
  ∃ k1 s1, M.Steps k s k1 s1 ∧ M.code[k1]? = some (.ins ⟨.ret, []⟩) ∧
    s' = s1.set .rsp (s1.reg .rsp + 8) ∧ a = BitVec.ofNat 64 (rd s1.mem (s1.reg .rsp) 8)

/-- The labels of a program. -/
def labels (c : List Item) : List Nat := c.filterMap fun | .label l => some l | .ins _ => none

/-! ### Functions -/

/-- Sizes of scalars. -/
def Scalar (n : Nat) : Prop := n = 1 ∨ n = 2 ∨ n = 4 ∨ n = 8

/-- Sizes of floating values. -/
def Flt (n : Nat) : Prop := n = 4 ∨ n = 8

instance (n : Nat) : Decidable (Flt n) := by unfold Flt; infer_instance
instance (n : Nat) : Decidable (Scalar n) := by unfold Scalar; infer_instance

/-- Registers for values: all different, none of `used`. -/
def RegsOk (sz : Nat → Nat) (used : List Reg) (l : List (Dest × Nat)) : Prop :=
  (l.map (·.1)).Nodup ∧ ∀ r ∈ l, match r.1 with
    | .gpr g => g ∉ used ∧ Scalar (sz r.2)
    | .sse _ => sz r.2 = 4 ∨ sz r.2 = 8

/-- Nodes that take values from registers. -/
def OutsOk (sz : Nat → Nat) (l : List (Dest × Nat)) : Prop :=
  (l.map (·.2)).Nodup ∧ ∀ r ∈ l, match r.1 with
    | .gpr g => g ∉ [Reg.rsp, .rbp] ∧ Scalar (sz r.2)
    | .sse _ => sz r.2 = 4 ∨ sz r.2 = 8

/-- The registers of results (psABI 3.2.3). -/
def resultRegs : List Dest := [.gpr .rax, .gpr .rdx, .sse 0, .sse 1]

/-- The sizes are right for the instruction.  A call passes nothing on the stack; the callee's address
goes to `%rbx`. -/
def NodeOk (sz : Nat → Nat) (n : Node) : Prop :=
  match n.kind with
  | .bin _ a b out => (sz a = 4 ∨ sz a = 8) ∧ Scalar (sz b) ∧ sz out = sz a
  | .const _ => Scalar n.size
  | .label _ _ => n.size = 8
  | .bnot a | .neg a => Scalar n.size ∧ sz a = n.size
  | .negFloat a => Flt n.size ∧ sz a = n.size
  | .castFloat a => Flt n.size ∧ Flt (sz a)
  | .intFloat a | .uintFloat a => Flt n.size ∧ Scalar (sz a)
  | .floatInt a => Scalar n.size ∧ Flt (sz a)
  | .call f change stack regs outs => change = 0 ∧ stack = [] ∧ sz f = 8 ∧ RegsOk sz [.rsp, .rbp, .rbx] regs ∧
      OutsOk sz outs ∧ ∀ o ∈ outs, o.1 ∈ resultRegs
  | .load p => sz p = 8
  | .loadVolatile p _ => sz p = 8
  | .loadPart p off _ => sz p = 8 ∧ off < 2 ^ 31
  | .store p _ => sz p = 8
  | .storePart p _ off => sz p = 8 ∧ off < 2 ^ 31
  | .castZero a => Scalar n.size ∧ Scalar (sz a)
  | .castSign a => Scalar n.size ∧ Scalar (sz a)
  | .castBool a => n.size = 1 ∧ Scalar (sz a)
  | .setZero p k => sz p = 8 ∧ k < 2 ^ 31
  | .undef => Scalar n.size
  | .alloc _ al => n.size = 8 ∧ (al = 0 ∨ ∃ k, k ≤ 30 ∧ al = 2 ^ k)
  | .copy d p k => sz d = 8 ∧ sz p = 8 ∧ k < 2 ^ 31
  | .loadBase _ => True
  | .loadBaseAddress p _ k => sz p = 8 ∧ k < 2 ^ 31
  | .nothing => True

/-- Does the instruction read an argument on the stack? -/
def readsStack (n : Node) : Prop :=
  match n.kind with
  | .loadBase _ | .loadBaseAddress _ _ _ => True
  | _ => False

/-- The phi nodes of a join, for a jump from `cur`: scalars, sources of the same size. -/
structure JoinOk (sz : Nat → Nat) (cur : Nat) (t : Block) : Prop where
  outs : (t.phis.map (·.out)).Nodup
  preds : ∀ a b, t.preds = some (a, b) → a ≠ b ∧ (cur = a ∨ cur = b)
  plain : t.preds = none → t.phis = []
  scalar : ∀ p ∈ t.phis, sz p.out = 0 ∨ Scalar (sz p.out)
  same : ∀ p ∈ t.phis, ∀ v, source cur t p = some v → sz v = sz p.out

/-- No phi node is the source of a later one: the copies can be made one after the other (C38). -/
def NoSwap (cur : Nat) (t : Block) : Prop :=
  t.phis.Pairwise fun p q => source cur t q ≠ some p.out

/-- A function as the scheduler makes it.  Phi nodes are only in blocks that are jumped to. -/
structure FuncOk (f : Func) : Prop where
  entry : f.blocks ≠ []
  nums : (f.nodes.map (·.num)).Nodup
  labels : (f.label :: f.blocks.map (·.label)).Nodup
  nodes : ∀ n ∈ f.nodes, NodeOk (size f) n
  gets : OutsOk (size f) f.gets
  ret : ∀ b ∈ f.blocks, ∀ regs, b.last = .ret regs → RegsOk (size f) [.rsp, .rbp] regs
  jump : ∀ b ∈ f.blocks, ∀ l, b.last = .jump l → ∃ t, blockAt f l t ∧ JoinOk (size f) b.label t
  branch : ∀ b ∈ f.blocks, ∀ c lt lf, b.last = .branch c lt lf →
    Scalar (size f c) ∧ (∃ t, blockAt f lt t ∧ t.phis = []) ∧ ∃ t, blockAt f lf t ∧ t.phis = []

/-- Where the code generator is right: no join has to exchange values, and no argument is read from
the stack in a function with an object that needs an alignment of more than 16 (C80). -/
structure Limits (f : Func) : Prop where
  swap : ∀ b ∈ f.blocks, ∀ l t, b.last = .jump l → blockAt f l t → NoSwap b.label t
  base : ∀ n ∈ f.nodes, readsStack n → ∀ m ∈ f.nodes, ∀ k al, m.kind = .alloc k al → al ≤ 16

/-- The objects are on the stack, between `lo` and `hi`, aligned and apart. -/
structure Objects (f : Func) (loc : Nat → BitVec 64) (lo hi : Nat) : Prop where
  inside : ∀ n ∈ f.nodes, ∀ k al, n.kind = .alloc k al → lo ≤ (loc n.num).toNat ∧ (loc n.num).toNat + k ≤ hi
  aligned : ∀ n ∈ f.nodes, ∀ k al, n.kind = .alloc k al → al = 0 ∨ al ∣ (loc n.num).toNat
  apart : ∀ n ∈ f.nodes, ∀ k al, n.kind = .alloc k al → ∀ m ∈ f.nodes, ∀ k' al', m.kind = .alloc k' al' →
    n.num ≠ m.num → (loc n.num).toNat + k ≤ (loc m.num).toNat ∨ (loc m.num).toNat + k' ≤ (loc n.num).toNat

/-- What a function may access: everything but the stack from `lo` to the end of the return address
at `sp`, and its objects there. -/
def Accessible (f : Func) (loc : Nat → BitVec 64) (lo sp : Nat) (x : BitVec 64) : Prop :=
  x.toNat < lo ∨ sp + 8 ≤ x.toNat ∨
  ∃ n ∈ f.nodes, ∃ k al, n.kind = .alloc k al ∧ (loc n.num).toNat ≤ x.toNat ∧ x.toNat < (loc n.num).toNat + k

/-- The registers have the values. -/
def Passed (s : State) (l : List (Dest × Nat × Nat)) : Prop :=
  ∀ a ∈ l, match a.1 with
    | .gpr r => s.reg r = BitVec.ofNat 64 a.2.2
    | .sse i => (s.xmm i).toNat % 256 ^ a.2.1 = a.2.2

/-- The machine's calls do what the calls of the world do.  They are made with an aligned stack
pointer; they keep `%rsp`, `%rbp` and all memory from `%rsp` on that the calling function keeps to
itself. -/
def Calls (M : Machine) (W : World) : Prop :=
  ∀ a l m rs m' s, W.call a l m = some (rs, m') → (∀ x, W.acc x → s.mem x = m x) → Passed s l →
    16 ∣ (s.reg .rsp).toNat →
    ∃ s', M.call a s = some s' ∧ s'.reg .rsp = s.reg .rsp ∧ s'.reg .rbp = s.reg .rbp ∧
      (∀ d ∈ resultRegs, regVal s' d = rs d) ∧ (∀ x, W.acc x → s'.mem x = m' x) ∧
      ∀ x : BitVec 64, (s.reg .rsp).toNat ≤ x.toNat → ¬ W.acc x → s'.mem x = s.mem x

/-- An amount of stack that is enough for the values and the objects of a function. -/
def stack (f : Func) : Nat :=
  (f.nodes.map fun n => n.size + match n.kind with | .alloc k al => k + 2 * al | _ => 0).sum + 64

/-- The code `P` does what the function says.  Called with enough stack above `lo`, it has a place for
its objects, and in the world with the objects in this place:

* whenever the function gets to a block, the machine gets to the label of the block, with the same
  memory as far as the function may access it;
* when the function returns, the machine returns to its caller, with the returned values in their
  registers, the caller's `%rsp` and `%rbp`, and the same memory. -/
def Implements (f : Func) (P : List Item) : Prop :=
  ∀ (M : Machine) (A B : List Item), M.code = A ++ P ++ B → (labels M.code).Nodup →
    ∀ (s : State) (lo : Nat), (s.reg .rsp).toNat % 16 = 8 → lo + stack f ≤ (s.reg .rsp).toNat →
    (s.reg .rsp).toNat < 2 ^ 63 →
    ∃ loc, Objects f loc lo (s.reg .rsp).toNat ∧ ∀ call,
      let W : World := ⟨M.fp, M.sym, loc, Accessible f loc lo (s.reg .rsp).toNat, s.reg .rsp + 8, call⟩
      Calls M W → ∀ b, f.blocks.head? = some b → ∀ l i, Steps W f b.label (start f s) l i →
        (∃ k s1, M.line l = some k ∧ M.Steps A.length s k s1 ∧ ∀ x, W.acc x → s1.mem x = i.mem x) ∧
        ∀ rs m, Returns W f l i rs m →
          ∃ s1, M.Finishes A.length s (BitVec.ofNat 64 (rd s.mem (s.reg .rsp) 8)) s1 ∧
            s1.reg .rsp = s.reg .rsp + 8 ∧ s1.reg .rbp = s.reg .rbp ∧ Passed s1 rs ∧ ∀ x, W.acc x → s1.mem x = m x

/-- The full property. -/
def Correct (gen : Func → Res (List Item)) : Prop :=
  ∀ f, FuncOk f → ∃ P, gen f = .ok P ∧ Implements f P

end Verif.FuncSpec
