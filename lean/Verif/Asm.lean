import Verif.Basic
/-!
Assembly instructions as data: src/assembler/assembler.h (`enum reg`, `struct operand`,
`struct asm_instruction`) and the mnemonics of src/assembler/instructions.h.
-/
namespace Verif.Asm
open Verif

/-- src/assembler/assembler.h:10-29 `enum reg` (`REG_NONE`, used only for an absent index,
is not modelled: `MEM` never has an index). -/
inductive Reg where
  | rax | rbx | rcx | rdx | rsi | rdi | rbp | rsp
  | r8 | r9 | r10 | r11 | r12 | r13 | r14 | r15
  deriving DecidableEq, Repr, Inhabited

/-- src/assembler/assembler.h:31-88 `struct operand` and the macros that build it:
`R1`-`R8`, `XMM`, `R8S`, `IMM`/`IMML`, `IMM_ABS`/`IMML_ABS`, `MEM`.  `upper_byte` (`ah`) is
never set by the code generator and is left out.  Offsets are `uint64_t`; the model keeps
the integer passed to the macro. -/
inductive Opd where
  | reg (r : Reg) (size : Nat)
  | xmm (i : Nat)
  | star (r : Reg)
  | imm (label : Option Nat) (v : Int)
  | abs (label : Option Nat) (v : Int)
  | mem (off : Int) (base : Reg)
  deriving DecidableEq, Repr, Inhabited

/-- assembler.h:83 `R8`. -/
abbrev R8 (r : Reg) : Opd := .reg r 8
/-- assembler.h:84 `R4`. -/
abbrev R4 (r : Reg) : Opd := .reg r 4
/-- assembler.h:85 `R2`. -/
abbrev R2 (r : Reg) : Opd := .reg r 2
/-- assembler.h:86 `R1`. -/
abbrev R1 (r : Reg) : Opd := .reg r 1
/-- assembler.h:77 `IMM`. -/
abbrev IMM (v : Int) : Opd := .imm none v
/-- assembler.h:81 `MEM`. -/
abbrev MEM (off : Int) (base : Reg) : Opd := .mem off base
/-- assembler.h:88 `XMM`. -/
abbrev XMM (i : Nat) : Opd := .xmm i

/-- The mnemonics of the code generator (src/codegen, src/abi, src/assembler/instructions.h). -/
inductive Mn where
  | addl | addq | subl | subq | imull | imulq | xorl | xorq | orl | orq | andl | andq
  | cltd | cqto | idivl | idivq | divl | divq
  | sall | salq | sarl | sarq | shrl | shrq
  | cmpl | cmpq | testb | testq
  | seta | setb | setbe | sete | setg | setge | setl | setle | setnb | setne
  | movb | movw | movl | movq | movabsq | movzbl | movzwl | movsbl | movswl | movsbq | movswq | movslq
  | leal | leaq | notq | negq | btcq
  | movd | movss | movsd
  | addss | addsd | subss | subsd | mulss | mulsd | divss | divsd | ucomiss | ucomisd
  | cvtss2sd | cvtsd2ss | cvtsi2ss | cvtsi2sd | cvttss2si | cvttsd2si
  | pushq | callq | leave | ret | ud2
  | jmp | je | jne | jnb | ja | jna
  deriving DecidableEq, Repr, Inhabited

/-- src/assembler/assembler.h:99-102 `struct asm_instruction`: operands in AT&T order
(source first). -/
structure Ins where
  mn : Mn
  ops : List Opd
  deriving DecidableEq, Repr, Inhabited

end Verif.Asm
