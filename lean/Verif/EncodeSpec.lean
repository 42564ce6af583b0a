import Verif.Encode
/-!
What the encoder should do, independently of src/assembler/encode.c: a decoder of x86-64 machine
code (Intel SDM volume 2, chapter 2 for the instruction format and appendix A for the opcode
maps), and the instruction that a mnemonic of the AT&T assembler with given operands denotes.
-/
namespace Verif.EncodeSpec
open Verif
open Verif.Asm (Reg)
open Verif.Encode (Operand Acc Encoding Rel)

/-! ### Instructions -/

/-- The processor's number of a general register (SDM volume 2, table 3-1 and 2.2.1.2). -/
def regNumber : Reg → Nat
  | .rax => 0 | .rcx => 1 | .rdx => 2 | .rbx => 3 | .rsp => 4 | .rbp => 5 | .rsi => 6 | .rdi => 7
  | .r8 => 8 | .r9 => 9 | .r10 => 10 | .r11 => 11 | .r12 => 12 | .r13 => 13 | .r14 => 14 | .r15 => 15

/-- Operations. `jcc`/`setcc` carry the condition code of the manual. -/
inductive Op where
  | add | or | and | sub | xor | cmp | test | mov | lea
  | imul | div | idiv | not | neg | sal | sar | shr | btc
  | movsx | movzx | movsxd
  | push | pop | call | jmp | ret | leave | ud2 | cwd | cdq | cqo
  | jcc (cc : Nat) | setcc (cc : Nat)
  | movss | movsd | movd | xorps
  | addss | addsd | mulss | mulsd | subss | subsd | divss | divsd | ucomiss | ucomisd
  | cvtsi2ss | cvtsi2sd | cvttss2si | cvttsd2si | cvtss2sd | cvtsd2ss
  deriving DecidableEq, Repr, Inhabited

/-- Operands of an instruction.  The size of a memory operand is the number of bytes accessed
(0 for `lea`, which accesses none); an immediate is reduced modulo `2 ^ (8 * size)`. -/
inductive Arg where
  | gpr (n size : Nat)
  /-- `ah`, `ch`, `dh`, `bh` -/
  | high (n : Nat)
  | xmm (n : Nat)
  | mem (size : Nat) (base : Option Nat) (index : Option (Nat × Nat)) (disp : Int)
  | ripRel (size : Nat) (disp : Int)
  | imm (size : Nat) (v : Nat)
  | rel (v : Nat)
  deriving DecidableEq, Repr, Inhabited

/-- An instruction: the destination is the first operand. -/
structure Insn where
  op : Op
  args : List Arg
  deriving DecidableEq, Repr, Inhabited

/-! ### The decoder -/

/-- Legacy prefixes seen. -/
structure Prefixes where
  p66 : Bool := false
  pF2 : Bool := false
  pF3 : Bool := false
  deriving DecidableEq, Repr, Inhabited

/-- The REX prefix (`present = false`: none). -/
structure Rex where
  present : Bool := false
  w : Bool := false
  r : Bool := false
  x : Bool := false
  b : Bool := false
  deriving DecidableEq, Repr, Inhabited

/-- Legacy prefixes (SDM volume 2, 2.1.1; only the operand-size and repeat prefixes). -/
def prefixes (p : Prefixes) : List Byte → Prefixes × List Byte
  | b :: bs =>
    if b = 0x66 then prefixes { p with p66 := true } bs
    else if b = 0xf2 then prefixes { p with pF2 := true } bs
    else if b = 0xf3 then prefixes { p with pF3 := true } bs
    else (p, b :: bs)
  | [] => (p, [])

/-- A REX prefix immediately before the opcode (SDM volume 2, 2.2.1). -/
def rexPrefix : List Byte → Rex × List Byte
  | b :: bs =>
    if b.extractLsb' 4 4 = 4#4 then
      ({ present := true, w := b.getLsbD 3, r := b.getLsbD 2, x := b.getLsbD 1, b := b.getLsbD 0 }, bs)
    else ({}, b :: bs)
  | [] => ({}, [])

/-- Opcode: `true` for the two-byte map (escape `0f`).  The three-byte maps are not decoded. -/
def opcode : List Byte → Option (Bool × Byte × List Byte)
  | b :: bs =>
    if b = 0x0f then
      match bs with
      | c :: cs => if c = 0x38 ∨ c = 0x3a then none else some (true, c, cs)
      | [] => none
    else some (false, b, bs)
  | [] => none

/-- A little-endian field of `n` bytes. -/
def field : Nat → List Byte → Option (Nat × List Byte)
  | 0, bs => some (0, bs)
  | n + 1, b :: bs => (field n bs).map fun (v, r) => (b.toNat + 256 * v, r)
  | _ + 1, [] => none

/-- The two's-complement value of an `n`-byte field. -/
def signed (n : Nat) (v : Nat) : Int := if 2 * v < 256 ^ n then v else v - 256 ^ n

/-- The addressing forms of ModRM and SIB: a register number, or a memory address. -/
inductive Rm where
  | reg (n : Nat)
  | mem (base : Option Nat) (index : Option (Nat × Nat)) (disp : Int)
  | ripRel (disp : Int)
  deriving DecidableEq, Repr, Inhabited

/-- `REX.b`, `REX.r` and `REX.x` extend a three-bit register field. -/
def ext (b : Bool) (n : Nat) : Nat := if b then n + 8 else n

/-- A displacement of `n` bytes. -/
def displacement (n : Nat) (bs : List Byte) : Option (Int × List Byte) :=
  (field n bs).map fun (v, r) => (signed n v, r)

/-- ModRM, SIB and displacement in 64-bit mode (SDM volume 2, tables 2-2 and 2-3, 2.2.1.6):
the raw reg field, the r/m operand and the remaining bytes. -/
def modRM (rex : Rex) : List Byte → Option (Nat × Rm × List Byte)
  | [] => none
  | m :: bs =>
    let mod := (m.extractLsb' 6 2).toNat
    let reg := (m.extractLsb' 3 3).toNat
    let rm := (m.extractLsb' 0 3).toNat
    if mod = 3 then some (reg, .reg (ext rex.b rm), bs)
    else
      let dispSize := if mod = 0 then 0 else if mod = 1 then 1 else 4
      if rm = 4 then
        match bs with
        | [] => none
        | s :: bs =>
          let scale := 2 ^ (s.extractLsb' 6 2).toNat
          let index := ext rex.x (s.extractLsb' 3 3).toNat
          let idx := if index = 4 then none else some (index, scale)
          let base := (s.extractLsb' 0 3).toNat
          if base = 5 ∧ mod = 0 then
            (displacement 4 bs).map fun (d, r) => (reg, .mem none idx d, r)
          else
            (displacement dispSize bs).map fun (d, r) => (reg, .mem (some (ext rex.b base)) idx d, r)
      else if rm = 5 ∧ mod = 0 then
        (displacement 4 bs).map fun (d, r) => (reg, .ripRel d, r)
      else
        (displacement dispSize bs).map fun (d, r) => (reg, .mem (some (ext rex.b rm)) none d, r)

/-- How an operand is found (the notation of SDM volume 2, A.2): `E s` general register or
memory from ModRM.r/m with `s` bytes, `G s` general register from ModRM.reg, `Z s` general
register from the opcode, `M` memory only, `V` SSE register from ModRM.reg, `W s` SSE register
or `s` bytes of memory from ModRM.r/m, `I f s` immediate field of `f` bytes sign-extended to `s`
bytes, `J` 32-bit jump displacement, `fixed` an implied register. -/
inductive Kind where
  | E (s : Nat) | G (s : Nat) | Z (s : Nat) | M | V | W (s : Nat)
  | I (f s : Nat) | J | fixed (n s : Nat)
  deriving DecidableEq, Repr, Inhabited

/-- The operand size of an instruction that is neither byte-sized nor 64 bits by default. -/
def opSize (p : Prefixes) (rex : Rex) : Nat := if rex.w then 8 else if p.p66 then 2 else 4

/-- The one-byte operations of "group 1" (`80`-`83`), of which only some are used. -/
def group1 : Nat → Option Op
  | 0 => some .add | 1 => some .or | 4 => some .and | 5 => some .sub | 6 => some .xor | 7 => some .cmp
  | _ => none

/-- "Group 2": shifts. -/
def group2 : Nat → Option Op
  | 4 => some .sal | 5 => some .shr | 7 => some .sar | _ => none

/-- "Group 3" (`f7`) without `test` and `mul`. -/
def group3 : Nat → Option Op
  | 2 => some .not | 3 => some .neg | 6 => some .div | 7 => some .idiv | _ => none

/-- Does the opcode have a ModRM byte (SDM volume 2, tables A-2 and A-3)? -/
def hasModRM (two : Bool) (b : Byte) : Option Bool :=
  let o := b.toNat
  if two then
    if o = 0x0b then some false
    else if 0x80 ≤ o ∧ o ≤ 0x8f then some false
    else if o ∈ [0x10, 0x11, 0x2a, 0x2c, 0x2e, 0x57, 0x58, 0x59, 0x5a, 0x5c, 0x5e, 0x6e, 0x7e,
                 0xaf, 0xb6, 0xb7, 0xba, 0xbe, 0xbf] then some true
    else if 0x90 ≤ o ∧ o ≤ 0x9f then some true
    else none
  else
    if o ∈ [0x04, 0x05, 0x99, 0xc9, 0xc3, 0xe9] then some false
    else if 0x50 ≤ o ∧ o ≤ 0x5f then some false
    else if 0xb8 ≤ o ∧ o ≤ 0xbf then some false
    else if o ∈ [0x01, 0x03, 0x09, 0x21, 0x29, 0x31, 0x39, 0x63, 0x69, 0x6b, 0x81, 0x83, 0x84, 0x85,
                 0x88, 0x89, 0x8a, 0x8b, 0x8d, 0xc1, 0xc6, 0xc7, 0xd3, 0xf7, 0xff] then some true
    else none

/-- The scalar SSE operation selected by the `f3` (single) or `f2` (double) prefix. -/
def scalar (p : Prefixes) (ss sd : Op) (k : Nat → List Kind) : Option (Op × List Kind) :=
  if p.pF3 then some (ss, k 4) else if p.pF2 then some (sd, k 8) else none

/-- The opcode maps (SDM volume 2, tables A-2, A-3 and A-6), restricted to what the assembler
has: the operation and its operands, destination first.  `reg` is the raw ModRM.reg field. -/
def lookup (p : Prefixes) (rex : Rex) (two : Bool) (b : Byte) (reg : Nat) : Option (Op × List Kind) :=
  let o := b.toNat
  let s := opSize p rex
  let z := if s = 2 then 2 else 4
  if two then
    if o = 0x0b then some (.ud2, [])
    else if 0x80 ≤ o ∧ o ≤ 0x8f then some (.jcc (o - 0x80), [.J])
    else if 0x90 ≤ o ∧ o ≤ 0x9f then some (.setcc (o - 0x90), [.E 1])
    else if o = 0xaf then some (.imul, [.G s, .E s])
    else if o = 0xb6 then some (.movzx, [.G s, .E 1])
    else if o = 0xb7 then some (.movzx, [.G s, .E 2])
    else if o = 0xbe then some (.movsx, [.G s, .E 1])
    else if o = 0xbf then some (.movsx, [.G s, .E 2])
    else if o = 0xba then if reg = 7 then some (.btc, [.E s, .I 1 1]) else none
    else if o = 0x10 then scalar p .movss .movsd fun n => [.V, .W n]
    else if o = 0x11 then scalar p .movss .movsd fun n => [.W n, .V]
    else if o = 0x2a then scalar p .cvtsi2ss .cvtsi2sd fun _ => [.V, .E (if rex.w then 8 else 4)]
    else if o = 0x2c then scalar p .cvttss2si .cvttsd2si fun n => [.G (if rex.w then 8 else 4), .W n]
    else if o = 0x58 then scalar p .addss .addsd fun n => [.V, .W n]
    else if o = 0x59 then scalar p .mulss .mulsd fun n => [.V, .W n]
    else if o = 0x5c then scalar p .subss .subsd fun n => [.V, .W n]
    else if o = 0x5e then scalar p .divss .divsd fun n => [.V, .W n]
    else if o = 0x5a then scalar p .cvtss2sd .cvtsd2ss fun n => [.V, .W n]
    else if o = 0x57 then
      if p.p66 ∨ p.pF2 ∨ p.pF3 then none else some (.xorps, [.V, .W 16])
    else if o = 0x2e then
      if p.pF2 ∨ p.pF3 then none
      else if p.p66 then some (.ucomisd, [.V, .W 8]) else some (.ucomiss, [.V, .W 4])
    else if o = 0x6e then if p.p66 then some (.movd, [.V, .E (if rex.w then 8 else 4)]) else none
    else if o = 0x7e then
      if p.p66 ∧ ¬ p.pF3 then some (.movd, [.E (if rex.w then 8 else 4), .V]) else none
    else none
  else
    if p.pF2 ∨ p.pF3 then none
    else if o = 0x01 then some (.add, [.E s, .G s])
    else if o = 0x03 then some (.add, [.G s, .E s])
    else if o = 0x04 then some (.add, [.fixed 0 1, .I 1 1])
    else if o = 0x05 then some (.add, [.fixed 0 s, .I z s])
    else if o = 0x09 then some (.or, [.E s, .G s])
    else if o = 0x21 then some (.and, [.E s, .G s])
    else if o = 0x29 then some (.sub, [.E s, .G s])
    else if o = 0x31 then some (.xor, [.E s, .G s])
    else if o = 0x39 then some (.cmp, [.E s, .G s])
    else if 0x50 ≤ o ∧ o ≤ 0x57 then if p.p66 then none else some (.push, [.Z 8])
    else if 0x58 ≤ o ∧ o ≤ 0x5f then if p.p66 then none else some (.pop, [.Z 8])
    else if o = 0x63 then if rex.w then some (.movsxd, [.G 8, .E 4]) else none
    else if o = 0x69 then some (.imul, [.G s, .E s, .I z s])
    else if o = 0x6b then some (.imul, [.G s, .E s, .I 1 s])
    else if o = 0x81 then (group1 reg).map fun op => (op, [.E s, .I z s])
    else if o = 0x83 then (group1 reg).map fun op => (op, [.E s, .I 1 s])
    else if o = 0x84 then some (.test, [.E 1, .G 1])
    else if o = 0x85 then some (.test, [.E s, .G s])
    else if o = 0x88 then some (.mov, [.E 1, .G 1])
    else if o = 0x89 then some (.mov, [.E s, .G s])
    else if o = 0x8a then some (.mov, [.G 1, .E 1])
    else if o = 0x8b then some (.mov, [.G s, .E s])
    else if o = 0x8d then some (.lea, [.G s, .M])
    else if o = 0x99 then some (if rex.w then .cqo else if p.p66 then .cwd else .cdq, [])
    else if 0xb8 ≤ o ∧ o ≤ 0xbf then some (.mov, [.Z s, .I s s])
    else if o = 0xc1 then (group2 reg).map fun op => (op, [.E s, .I 1 1])
    else if o = 0xc3 then some (.ret, [])
    else if o = 0xc6 then if reg = 0 then some (.mov, [.E 1, .I 1 1]) else none
    else if o = 0xc7 then if reg = 0 then some (.mov, [.E s, .I z s]) else none
    else if o = 0xc9 then if p.p66 then none else some (.leave, [])
    else if o = 0xd3 then (group2 reg).map fun op => (op, [.E s, .fixed 1 1])
    else if o = 0xe9 then if p.p66 then none else some (.jmp, [.J])
    else if o = 0xf7 then (group3 reg).map fun op => (op, [.E s])
    else if o = 0xff then if reg = 2 then some (.call, [.E 8]) else none
    else none

/-- A general register of `s` bytes: without a REX prefix the byte registers 4-7 are the high
bytes of registers 0-3 (SDM volume 2, table 3-1). -/
def gprArg (rex : Rex) (n s : Nat) : Arg :=
  if s = 1 ∧ rex.present = false ∧ 4 ≤ n ∧ n < 8 then .high (n - 4) else .gpr n s

/-- The fields an operand is taken from. -/
structure Fields where
  rex : Rex
  op : Byte
  reg : Nat
  rm : Rm

/-- An operand, and the bytes that remain after it. -/
def arg (f : Fields) (k : Kind) (bs : List Byte) : Option (Arg × List Byte) :=
  match k with
  | .E s => match f.rm with
    | .reg n => some (gprArg f.rex n s, bs)
    | .mem b i d => some (.mem s b i d, bs)
    | .ripRel d => some (.ripRel s d, bs)
  | .M => match f.rm with
    | .reg _ => none
    | .mem b i d => some (.mem 0 b i d, bs)
    | .ripRel d => some (.ripRel 0 d, bs)
  | .W s => match f.rm with
    | .reg n => some (.xmm n, bs)
    | .mem b i d => some (.mem s b i d, bs)
    | .ripRel d => some (.ripRel s d, bs)
  | .G s => some (gprArg f.rex (ext f.rex.r f.reg) s, bs)
  | .V => some (.xmm (ext f.rex.r f.reg), bs)
  | .Z s => some (gprArg f.rex (ext f.rex.b (f.op.extractLsb' 0 3).toNat) s, bs)
  | .I fs s => (field fs bs).map fun (v, r) => (.imm s ((signed fs v) % 256 ^ s).toNat, r)
  | .J => (field 4 bs).map fun (v, r) => (.rel v, r)
  | .fixed n s => some (.gpr n s, bs)

/-- The operands of an instruction. -/
def args (f : Fields) : List Kind → List Byte → Option (List Arg × List Byte)
  | [], bs => some ([], bs)
  | k :: ks, bs => do
    let (a, bs) ← arg f k bs
    let (as, bs) ← args f ks bs
    some (a :: as, bs)

/-- Decode one instruction: the instruction and the bytes that follow it. -/
def decode (bs : List Byte) : Option (Insn × List Byte) := do
  let (p, bs) := prefixes {} bs
  let (rex, bs) := rexPrefix bs
  let (two, op, bs) ← opcode bs
  let (reg, rm, bs) ← (if ← hasModRM two op then modRM rex bs else some (0, .reg 0, bs))
  let (o, kinds) ← lookup p rex two op reg
  let (as, bs) ← args ⟨rex, op, reg, rm⟩ kinds bs
  some (⟨o, as⟩, bs)

/-! ### What a mnemonic denotes -/

/-- What an operand position of an AT&T mnemonic takes: an integer operand of `s` bytes, a
general register of `s` bytes, an SSE register or `s` bytes of memory, an SSE register, an
address, a jump target, an indirect call target. -/
inductive Slot where
  | int (s : Nat) | greg (s : Nat) | sse (s : Nat) | xmm | addr | target | star
  deriving DecidableEq, Repr, Inhabited

/-- The operation and operand positions (destination first) of the AT&T mnemonics.  `movd` with
a 64-bit register is `movq`.  Mnemonics without a size suffix whose meaning with a memory operand
would depend on the assembler's default (`movd`, `cvtsi2ss`, `cvtsi2sd`, `xor`) are listed with
registers only. -/
def mnemonics : List (String × Op × List Slot) := [
  ("addl", .add, [.int 4, .int 4]), ("addq", .add, [.int 8, .int 8]),
  ("subl", .sub, [.int 4, .int 4]), ("subq", .sub, [.int 8, .int 8]),
  ("andl", .and, [.int 4, .int 4]), ("andq", .and, [.int 8, .int 8]),
  ("orl", .or, [.int 4, .int 4]), ("orq", .or, [.int 8, .int 8]),
  ("xorl", .xor, [.int 4, .int 4]), ("xorq", .xor, [.int 8, .int 8]),
  ("cmpl", .cmp, [.int 4, .int 4]), ("cmpq", .cmp, [.int 8, .int 8]),
  ("testb", .test, [.int 1, .int 1]), ("testw", .test, [.int 2, .int 2]),
  ("testl", .test, [.int 4, .int 4]), ("testq", .test, [.int 8, .int 8]),
  ("divl", .div, [.int 4]), ("divq", .div, [.int 8]),
  ("idivl", .idiv, [.int 4]), ("idivq", .idiv, [.int 8]),
  ("imull", .imul, [.int 4, .int 4]), ("imulq", .imul, [.int 8, .int 8]),
  ("notl", .not, [.int 4]), ("notq", .not, [.int 8]),
  ("negl", .neg, [.int 4]), ("negq", .neg, [.int 8]),
  ("sall", .sal, [.int 4, .int 1]), ("salq", .sal, [.int 8, .int 1]),
  ("sarl", .sar, [.int 4, .int 1]), ("sarq", .sar, [.int 8, .int 1]),
  ("shrl", .shr, [.int 4, .int 1]), ("shrq", .shr, [.int 8, .int 1]),
  ("btcq", .btc, [.int 8, .int 1]),
  ("movb", .mov, [.int 1, .int 1]), ("movw", .mov, [.int 2, .int 2]),
  ("movl", .mov, [.int 4, .int 4]), ("movq", .mov, [.int 8, .int 8]),
  ("movabsq", .mov, [.int 8, .int 8]),
  ("leal", .lea, [.int 4, .addr]), ("leaq", .lea, [.int 8, .addr]),
  ("movzbl", .movzx, [.int 4, .int 1]), ("movzwl", .movzx, [.int 4, .int 2]),
  ("movsbw", .movsx, [.int 2, .int 1]), ("movsbl", .movsx, [.int 4, .int 1]),
  ("movswl", .movsx, [.int 4, .int 2]), ("movsbq", .movsx, [.int 8, .int 1]),
  ("movswq", .movsx, [.int 8, .int 2]), ("movslq", .movsxd, [.int 8, .int 4]),
  ("pushq", .push, [.int 8]), ("popq", .pop, [.int 8]), ("callq", .call, [.star]),
  ("cltd", .cdq, []), ("cqto", .cqo, []), ("leave", .leave, []), ("ret", .ret, []), ("ud2", .ud2, []),
  ("jmp", .jmp, [.target]), ("jnae", .jcc 2, [.target]), ("jnb", .jcc 3, [.target]),
  ("je", .jcc 4, [.target]), ("jne", .jcc 5, [.target]), ("jna", .jcc 6, [.target]),
  ("ja", .jcc 7, [.target]),
  ("seta", .setcc 7, [.int 1]), ("setb", .setcc 2, [.int 1]), ("setbe", .setcc 6, [.int 1]),
  ("sete", .setcc 4, [.int 1]), ("setg", .setcc 15, [.int 1]), ("setge", .setcc 13, [.int 1]),
  ("setl", .setcc 12, [.int 1]), ("setle", .setcc 14, [.int 1]), ("setnb", .setcc 3, [.int 1]),
  ("setne", .setcc 5, [.int 1]),
  ("movss", .movss, [.sse 4, .sse 4]), ("movsd", .movsd, [.sse 8, .sse 8]),
  ("cvtss2sd", .cvtss2sd, [.sse 8, .sse 4]), ("cvtsd2ss", .cvtsd2ss, [.sse 4, .sse 8]),
  ("cvttss2si", .cvttss2si, [.int 8, .sse 4]), ("cvttsd2si", .cvttsd2si, [.int 8, .sse 8]),
  ("cvtsi2ss", .cvtsi2ss, [.xmm, .greg 8]), ("cvtsi2sd", .cvtsi2sd, [.xmm, .greg 8]),
  ("movd", .movd, [.greg 4, .xmm]), ("movd", .movd, [.xmm, .greg 4]),
  ("movd", .movd, [.greg 8, .xmm]), ("movd", .movd, [.xmm, .greg 8]),
  ("movq", .movd, [.int 8, .xmm]), ("movq", .movd, [.xmm, .int 8]),
  ("xor", .xor, [.greg 8, .greg 8]),
  ("xorps", .xorps, [.sse 16, .sse 16]),
  ("addss", .addss, [.sse 4, .sse 4]), ("addsd", .addsd, [.sse 8, .sse 8]),
  ("subss", .subss, [.sse 4, .sse 4]), ("subsd", .subsd, [.sse 8, .sse 8]),
  ("mulss", .mulss, [.sse 4, .sse 4]), ("mulsd", .mulsd, [.sse 8, .sse 8]),
  ("divss", .divss, [.sse 4, .sse 4]), ("divsd", .divsd, [.sse 8, .sse 8]),
  ("ucomiss", .ucomiss, [.sse 4, .sse 4]), ("ucomisd", .ucomisd, [.sse 8, .sse 8])]

/-- A memory operand of the assembler: base register, and an index register other than `%rsp`
with a scale of 1, 2, 4 or 8. -/
def memArg (size : Nat) (index base : Option Reg) (scale : Nat) (off : BitVec 64) : Option Arg :=
  match base, index with
  | some b, none => some (.mem size (some (regNumber b)) none off.toInt)
  | some b, some i =>
    if i ≠ .rsp ∧ scale ∈ [1, 2, 4, 8] then
      some (.mem size (some (regNumber b)) (some (regNumber i, scale)) off.toInt)
    else none
  | none, _ => none

/-- A general register operand. -/
def regArg (r : Reg) (upper : Bool) (size : Nat) : Option Arg :=
  if upper then (if size = 1 ∧ regNumber r < 4 then some (.high (regNumber r)) else none)
  else some (.gpr (regNumber r) size)

/-- The machine operand that an assembler operand denotes in a position.  An immediate has to
be representable in the size of the operation, signed or unsigned. -/
def slotArg (s : Slot) (o : Operand) : Option Arg :=
  match s, o with
  | .int s, .reg r upper size => if size = s then regArg r upper size else none
  | .int s, .mem i b sc off => memArg s i b sc off
  | .int s, .imm _ v =>
    if s = 8 ∨ (-((256 ^ s / 2 : Nat) : Int) ≤ v.toInt ∧ v.toInt < (256 ^ s : Nat)) then
      some (.imm s (v.toNat % 256 ^ s))
    else none
  | .greg s, .reg r upper size => if size = s then regArg r upper size else none
  | .sse _, .sse i => if i < 16 then some (.xmm i) else none
  | .sse s, .mem i b sc off => memArg s i b sc off
  | .xmm, .sse i => if i < 16 then some (.xmm i) else none
  | .addr, .mem i b sc off => memArg 0 i b sc off
  | .target, .abs _ v => some (.rel (v.toNat % 2 ^ 32))
  | .star, .star r 8 => some (.gpr (regNumber r) 8)
  | _, _ => none

/-- All operands, one per position. -/
def slotArgs : List Slot → List Operand → Option (List Arg)
  | [], [] => some []
  | s :: ss, o :: os => do
    let a ← slotArg s o
    let as ← slotArgs ss os
    some (a :: as)
  | _, _ => none

/-- `imul` of a register by an immediate is the three-operand form with the register twice. -/
def expand (op : Op) (as : List Arg) : List Arg :=
  match op, as with
  | .imul, [d, .imm s v] => [d, d, .imm s v]
  | _, as => as

/-- The instruction that a mnemonic with operands denotes. -/
def Denotes (mn : String) (ops : List Operand) (i : Insn) : Prop :=
  ∃ m ∈ mnemonics, m.1 = mn ∧ ∃ as, slotArgs m.2.2 ops = some as ∧ i = ⟨m.2.1, expand m.2.1 as⟩

/-! ### Operands that are handled -/

/-- The memory operands that the encoder gets right: no index register, and no zero
displacement from `%rbp` or `%r13`. -/
def PlainMem : Operand → Prop
  | .mem i b _ off => i = none ∧ ¬ ((b = some .rbp ∨ b = some .r13) ∧ off = 0)
  | _ => True

instance (o : Operand) : Decidable (PlainMem o) := by
  cases o <;> unfold PlainMem <;> exact inferInstance

/-- Does the operand occupy memory? -/
def isMem : Operand → Bool
  | .mem .. => true
  | _ => false

/-- Register operands without REX extension: the first eight of each kind. -/
def LowReg : Operand → Prop
  | .reg r _ _ => regNumber r < 8
  | .star r _ => regNumber r < 8
  | .sse i => i < 8
  | _ => True

/-- Not one of `ah`, `bh`, `ch`, `dh`. -/
def NotUpper : Operand → Prop
  | .reg _ u _ => u = false
  | _ => True

instance (o : Operand) : Decidable (LowReg o) := by
  cases o <;> unfold LowReg <;> exact inferInstance

instance (o : Operand) : Decidable (NotUpper o) := by
  cases o <;> unfold NotUpper <;> exact inferInstance

/-- Mnemonics of 64-bit operations with the operand in ModRM (`REX.w` is always there). -/
def wideMnemonics : List String :=
  ["addq", "subq", "andq", "orq", "xor", "xorq", "divq", "idivq", "imulq", "cmpq", "movq", "leaq",
   "movswq", "movslq", "movsbq", "notq", "negq", "salq", "sarq", "shrq", "testq",
   "cvtsi2ss", "cvtsi2sd", "cvttss2si", "cvttsd2si", "btcq"]

/-- The instructions for which the encoder is claimed to be right: no upper-byte registers, only
plain memory operands, and registers `r8`-`r15`, `xmm8`-`xmm15` only beside a memory operand or in
a 64-bit operation. -/
def Handled (mn : String) (ops : List Operand) : Prop :=
  (∀ o ∈ ops, PlainMem o ∧ NotUpper o) ∧
  (ops.any isMem = true ∨ mn ∈ wideMnemonics ∨ ∀ o ∈ ops, LowReg o)

instance (mn : String) (ops : List Operand) : Decidable (Handled mn ops) := by
  unfold Handled; exact inferInstance

/-! ### Relocations -/

/-- Operands once the address of their label is known to be `x`. -/
def resolve (x : BitVec 64) : Operand → Operand
  | .imm (some _) _ => .imm none x
  | .abs (some _) _ => .abs none x
  | o => o

/-- The little-endian bytes of a field of `n` bytes. -/
def fieldBytes (n : Nat) (x : BitVec 64) : List Byte :=
  (List.range n).map fun i => BitVec.ofNat 8 (x.toNat / 256 ^ i)

/-- The code after the value `x` is stored in the field of a relocation. -/
def patch (x : BitVec 64) (bs : List Byte) (r : Rel) : List Byte :=
  bs.take r.offset ++ fieldBytes r.size x ++ bs.drop (r.offset + r.size)

/-- The code after all relocations. -/
def patchAll (x : BitVec 64) (bs : List Byte) (rs : List Rel) : List Byte := rs.foldl (patch x) bs

/-- `x` can be stored in `n` bytes as a signed number. -/
def FitsField (n : Nat) (x : BitVec 64) : Prop :=
  -((256 ^ n / 2 : Nat) : Int) ≤ x.toInt ∧ x.toInt < ((256 ^ n / 2 : Nat) : Int)

/-! ### Choosing an encoding -/

/-- The operands of a kind that a table row describes. -/
def accepts (a : Acc) (o : Operand) : Prop :=
  match a, o with
  | .empty, .empty => True
  | .rax s, .reg r _ s' => r = .rax ∧ s' = s
  | .rcx s, .reg r _ s' => r = .rcx ∧ s' = s
  | .reg s, .reg _ _ s' => s' = s
  | .regStar s, .star _ s' => s' = s
  | .imm8s, .imm _ v => -128 ≤ v.toInt ∧ v.toInt < 128
  | .imm16s, .imm _ v => -32768 ≤ v.toInt ∧ v.toInt < 32768
  | .imm32s, .imm _ v => -2147483648 ≤ v.toInt ∧ v.toInt < 2147483648
  | .imm8u, .imm _ v => 0 ≤ v.toInt ∧ v.toInt < 256
  | .imm16u, .imm _ v => 0 ≤ v.toInt ∧ v.toInt < 65536
  | .imm32u, .imm _ v => v.toNat < 4294967296
  | .imm64, .imm _ _ => True
  | .rel32, .abs _ _ => True
  | .modrm s, .reg _ _ s' => s' = s
  | .modrm _, .mem .. => True
  | .xmm, .sse _ => True
  | .xmmM32, .sse _ => True
  | .xmmM32, .mem .. => True
  | .xmmM64, .sse _ => True
  | .xmmM64, .mem .. => True
  | .xmmM128, .sse _ => True
  | .xmmM128, .mem .. => True
  | _, _ => False

/-- A row accepts a list of operands: one description per operand, each met. -/
def Accepts : List Acc → List Operand → Prop
  | [], [] => True
  | a :: as, o :: os => accepts a o ∧ Accepts as os
  | _, _ => False

/-- A memory operand that has an encoding: a base register and a displacement of 32 bits; with
an index register (not `%rsp`) no displacement, and then not the bases `%rbp` and `%r13`, which
need one. -/
def Addressable : Operand → Prop
  | .mem i b _ off =>
    b ≠ none ∧ -2147483648 ≤ off.toInt ∧ off.toInt < 2147483648 ∧
    (i ≠ none → off = 0 ∧ i ≠ some .rsp ∧ b ≠ some .rbp ∧ b ≠ some .r13)
  | _ => True

instance (o : Operand) : Decidable (Addressable o) := by
  cases o <;> unfold Addressable <;> exact inferInstance

end Verif.EncodeSpec
