import Verif.Encode
/-!
The table of instruction encodings: src/assembler/instructions.h:94-273 `encodings`, row by row
in the order of the source.
-/
namespace Verif.Encode

/-- src/assembler/instructions.h:94-273 `encodings`. -/
def encodings : List Encoding := [
  { mnemonic := "addq", opcode := 0x05, rex := true, rexw := true, operandEncoding := [⟨.none,
    false⟩, ⟨.imm32, false⟩], operandAccepts := [.rax 8, .imm32s] },
  { mnemonic := "addq", opcode := 0x04, operandEncoding := [⟨.none, false⟩, ⟨.imm8, false⟩],
    operandAccepts := [.reg 4, .imm8s] },
  { mnemonic := "addq", opcode := 0x83, rex := true, rexw := true, operandEncoding := [⟨.modrmRm,
    false⟩, ⟨.imm8, false⟩], operandAccepts := [.reg 8, .imm8s] },
  { mnemonic := "addq", opcode := 0x81, rexw := true, operandEncoding := [⟨.modrmRm, false⟩,
    ⟨.imm32, false⟩], operandAccepts := [.reg 8, .imm32s] },
  { mnemonic := "addl", opcode := 0x01, slashR := true, operandEncoding := [⟨.modrmRm, false⟩,
    ⟨.modrmReg, false⟩], operandAccepts := [.reg 4, .reg 4] },
  { mnemonic := "addq", opcode := 0x01, rex := true, rexw := true, slashR := true, operandEncoding
    := [⟨.modrmRm, false⟩, ⟨.modrmReg, false⟩], operandAccepts := [.reg 8, .reg 8] },
  { mnemonic := "addq", opcode := 0x03, rex := true, rexw := true, slashR := true, operandEncoding
    := [⟨.modrmReg, false⟩, ⟨.modrmRm, false⟩], operandAccepts := [.reg 8, .modrm 8] },
  { mnemonic := "subq", opcode := 0x83, rex := true, rexw := true, modrmExtension := 5,
    operandEncoding := [⟨.modrmRm, false⟩, ⟨.imm8, false⟩], operandAccepts := [.modrm 8, .imm8s]
    },
  { mnemonic := "subq", opcode := 0x81, rex := true, rexw := true, modrmExtension := 5,
    operandEncoding := [⟨.modrmRm, false⟩, ⟨.imm32, false⟩], operandAccepts := [.modrm 8, .imm32s]
    },
  { mnemonic := "subq", opcode := 0x29, rex := true, rexw := true, slashR := true, operandEncoding
    := [⟨.modrmRm, false⟩, ⟨.modrmReg, false⟩], operandAccepts := [.modrm 8, .reg 8] },
  { mnemonic := "subl", opcode := 0x29, slashR := true, operandEncoding := [⟨.modrmRm, false⟩,
    ⟨.modrmReg, false⟩], operandAccepts := [.modrm 4, .reg 4] },
  { mnemonic := "andl", opcode := 0x21, slashR := true, operandEncoding := [⟨.modrmRm, false⟩,
    ⟨.modrmReg, false⟩], operandAccepts := [.reg 4, .reg 4] },
  { mnemonic := "andq", opcode := 0x21, rex := true, rexw := true, slashR := true, operandEncoding
    := [⟨.modrmRm, false⟩, ⟨.modrmReg, false⟩], operandAccepts := [.reg 8, .reg 8] },
  { mnemonic := "andq", opcode := 0x83, rex := true, rexw := true, modrmExtension := 4,
    operandEncoding := [⟨.modrmRm, false⟩, ⟨.imm8, false⟩], operandAccepts := [.reg 8, .imm8s] },
  { mnemonic := "andq", opcode := 0x81, rex := true, rexw := true, modrmExtension := 4,
    operandEncoding := [⟨.modrmRm, false⟩, ⟨.imm32, false⟩], operandAccepts := [.reg 8, .imm32s]
    },
  { mnemonic := "orl", opcode := 0x09, slashR := true, operandEncoding := [⟨.modrmRm, false⟩,
    ⟨.modrmReg, false⟩], operandAccepts := [.reg 4, .reg 4] },
  { mnemonic := "orq", opcode := 0x09, rexw := true, slashR := true, operandEncoding :=
    [⟨.modrmRm, false⟩, ⟨.modrmReg, false⟩], operandAccepts := [.reg 8, .reg 8] },
  { mnemonic := "xor", opcode := 0x31, rex := true, rexw := true, slashR := true, operandEncoding
    := [⟨.modrmRm, false⟩, ⟨.modrmReg, false⟩], operandAccepts := [.reg 8, .reg 8] },
  { mnemonic := "xorq", opcode := 0x31, rex := true, rexw := true, slashR := true, operandEncoding
    := [⟨.modrmRm, false⟩, ⟨.modrmReg, false⟩], operandAccepts := [.reg 8, .reg 8] },
  { mnemonic := "xorl", opcode := 0x31, slashR := true, operandEncoding := [⟨.modrmRm, false⟩,
    ⟨.modrmReg, false⟩], operandAccepts := [.reg 4, .reg 4] },
  { mnemonic := "divl", opcode := 0xf7, modrmExtension := 6, operandEncoding := [⟨.modrmRm,
    false⟩], operandAccepts := [.modrm 4] },
  { mnemonic := "divq", opcode := 0xf7, rexw := true, modrmExtension := 6, operandEncoding :=
    [⟨.modrmRm, false⟩], operandAccepts := [.modrm 8] },
  { mnemonic := "idivl", opcode := 0xf7, modrmExtension := 7, operandEncoding := [⟨.modrmRm,
    false⟩], operandAccepts := [.modrm 4] },
  { mnemonic := "idivq", opcode := 0xf7, rexw := true, modrmExtension := 7, operandEncoding :=
    [⟨.modrmRm, false⟩], operandAccepts := [.modrm 8] },
  { mnemonic := "imulq", opcode := 0x69, rex := true, rexw := true, slashR := true,
    operandEncoding := [⟨.modrmRm, true⟩, ⟨.modrmReg, false⟩, ⟨.imm32, false⟩], operandAccepts :=
    [.reg 8, .imm32s] },
  { mnemonic := "imulq", opcode := 0x6b, rex := true, rexw := true, slashR := true,
    operandEncoding := [⟨.modrmRm, true⟩, ⟨.modrmReg, false⟩, ⟨.imm8, false⟩], operandAccepts :=
    [.reg 8, .imm8s] },
  { mnemonic := "imulq", opcode := 0x0f, op2 := 0xaf, rex := true, rexw := true, slashR := true,
    operandEncoding := [⟨.modrmReg, false⟩, ⟨.modrmRm, false⟩], operandAccepts := [.reg 8, .modrm
    8] },
  { mnemonic := "imull", opcode := 0x0f, op2 := 0xaf, slashR := true, operandEncoding :=
    [⟨.modrmReg, false⟩, ⟨.modrmRm, false⟩], operandAccepts := [.reg 4, .modrm 4] },
  { mnemonic := "callq", opcode := 0xff, modrmExtension := 2, operandEncoding := [⟨.modrmRm,
    false⟩], operandAccepts := [.regStar 8] },
  { mnemonic := "cltd", opcode := 0x99 },
  { mnemonic := "cqto", opcode := 0x99, rexw := true },
  { mnemonic := "leave", opcode := 0xc9 },
  { mnemonic := "ret", opcode := 0xc3 },
  { mnemonic := "ud2", opcode := 0x0f, op2 := 0x0b },
  { mnemonic := "jmp", opcode := 0xe9, operandEncoding := [⟨.rel32, false⟩], operandAccepts :=
    [.rel32] },
  { mnemonic := "jnae", opcode := 0x0f, op2 := 0x82, operandEncoding := [⟨.rel32, false⟩],
    operandAccepts := [.rel32] },
  { mnemonic := "jnb", opcode := 0x0f, op2 := 0x83, operandEncoding := [⟨.rel32, false⟩],
    operandAccepts := [.rel32] },
  { mnemonic := "je", opcode := 0x0f, op2 := 0x84, operandEncoding := [⟨.rel32, false⟩],
    operandAccepts := [.rel32] },
  { mnemonic := "jne", opcode := 0x0f, op2 := 0x85, operandEncoding := [⟨.rel32, false⟩],
    operandAccepts := [.rel32] },
  { mnemonic := "jna", opcode := 0x0f, op2 := 0x86, operandEncoding := [⟨.rel32, false⟩],
    operandAccepts := [.rel32] },
  { mnemonic := "ja", opcode := 0x0f, op2 := 0x87, operandEncoding := [⟨.rel32, false⟩],
    operandAccepts := [.rel32] },
  { mnemonic := "cmpl", opcode := 0x39, slashR := true, operandEncoding := [⟨.modrmRm, false⟩,
    ⟨.modrmReg, false⟩], operandAccepts := [.reg 4, .reg 4] },
  { mnemonic := "cmpq", opcode := 0x39, rex := true, rexw := true, slashR := true, operandEncoding
    := [⟨.modrmRm, false⟩, ⟨.modrmReg, false⟩], operandAccepts := [.modrm 8, .reg 8] },
  { mnemonic := "cmpl", opcode := 0x83, modrmExtension := 7, operandEncoding := [⟨.modrmRm,
    false⟩, ⟨.imm8, false⟩], operandAccepts := [.reg 4, .imm8s] },
  { mnemonic := "cmpq", opcode := 0x83, rex := true, rexw := true, modrmExtension := 7,
    operandEncoding := [⟨.modrmRm, false⟩, ⟨.imm8, false⟩], operandAccepts := [.reg 8, .imm8s] },
  { mnemonic := "cmpl", opcode := 0x81, modrmExtension := 7, operandEncoding := [⟨.modrmRm,
    false⟩, ⟨.imm32, false⟩], operandAccepts := [.reg 4, .imm32u] },
  { mnemonic := "cmpq", opcode := 0x81, rex := true, rexw := true, modrmExtension := 7,
    operandEncoding := [⟨.modrmRm, false⟩, ⟨.imm32, false⟩], operandAccepts := [.reg 8, .imm32s]
    },
  { mnemonic := "movl", opcode := 0xb8, operandEncoding := [⟨.opext, false⟩, ⟨.imm32, false⟩],
    operandAccepts := [.reg 4, .imm32u] },
  { mnemonic := "movl", opcode := 0xc7, operandEncoding := [⟨.modrmRm, false⟩, ⟨.imm32, false⟩],
    operandAccepts := [.modrm 4, .imm32u] },
  { mnemonic := "movl", opcode := 0xc7, operandEncoding := [⟨.modrmRm, false⟩, ⟨.imm32, false⟩],
    operandAccepts := [.modrm 4, .imm32s] },
  { mnemonic := "movl", opcode := 0x89, slashR := true, operandEncoding := [⟨.modrmRm, false⟩,
    ⟨.modrmReg, false⟩], operandAccepts := [.modrm 4, .reg 4] },
  { mnemonic := "movl", opcode := 0x89, slashR := true, operandEncoding := [⟨.modrmRm, false⟩,
    ⟨.modrmReg, false⟩], operandAccepts := [.modrm 4, .reg 4] },
  { mnemonic := "movw", opcode := 0xc7, opSizePrefix := true, operandEncoding := [⟨.modrmRm,
    false⟩, ⟨.imm16, false⟩], operandAccepts := [.modrm 2, .imm16u] },
  { mnemonic := "movw", opcode := 0xc7, opSizePrefix := true, operandEncoding := [⟨.modrmRm,
    false⟩, ⟨.imm16, false⟩], operandAccepts := [.modrm 2, .imm16s] },
  { mnemonic := "movw", opcode := 0x89, slashR := true, opSizePrefix := true, operandEncoding :=
    [⟨.modrmRm, false⟩, ⟨.modrmReg, false⟩], operandAccepts := [.modrm 2, .reg 2] },
  { mnemonic := "movw", opcode := 0x8b, slashR := true, opSizePrefix := true, operandEncoding :=
    [⟨.modrmReg, false⟩, ⟨.modrmRm, false⟩], operandAccepts := [.reg 2, .modrm 2] },
  { mnemonic := "movq", opcode := 0x89, rex := true, rexw := true, slashR := true, operandEncoding
    := [⟨.modrmRm, false⟩, ⟨.modrmReg, false⟩], operandAccepts := [.modrm 8, .reg 8] },
  { mnemonic := "movq", opcode := 0x8b, rex := true, rexw := true, slashR := true, operandEncoding
    := [⟨.modrmReg, false⟩, ⟨.modrmRm, false⟩], operandAccepts := [.reg 8, .modrm 8] },
  { mnemonic := "movb", opcode := 0x8a, slashR := true, operandEncoding := [⟨.modrmReg, false⟩,
    ⟨.modrmRm, false⟩], operandAccepts := [.reg 1, .modrm 1] },
  { mnemonic := "movb", opcode := 0x88, slashR := true, operandEncoding := [⟨.modrmRm, false⟩,
    ⟨.modrmReg, false⟩], operandAccepts := [.modrm 1, .reg 1] },
  { mnemonic := "movb", opcode := 0xc6, operandEncoding := [⟨.modrmRm, false⟩, ⟨.imm8, false⟩],
    operandAccepts := [.modrm 1, .imm8s] },
  { mnemonic := "movb", opcode := 0xc6, operandEncoding := [⟨.modrmRm, false⟩, ⟨.imm8, false⟩],
    operandAccepts := [.modrm 1, .imm8u] },
  { mnemonic := "movl", opcode := 0x8b, slashR := true, operandEncoding := [⟨.modrmReg, false⟩,
    ⟨.modrmRm, false⟩], operandAccepts := [.reg 4, .modrm 4] },
  { mnemonic := "movq", opcode := 0xc7, rex := true, rexw := true, slashR := true, operandEncoding
    := [⟨.modrmRm, false⟩, ⟨.imm32, false⟩], operandAccepts := [.modrm 8, .imm32s] },
  { mnemonic := "movabsq", opcode := 0xb8, rex := true, rexw := true, operandEncoding := [⟨.opext,
    false⟩, ⟨.imm64, false⟩], operandAccepts := [.reg 8, .imm64] },
  { mnemonic := "leaq", opcode := 0x8d, rex := true, rexw := true, slashR := true, operandEncoding
    := [⟨.modrmReg, false⟩, ⟨.modrmRm, false⟩], operandAccepts := [.reg 8, .modrm 8] },
  { mnemonic := "leal", opcode := 0x8d, slashR := true, operandEncoding := [⟨.modrmReg, false⟩,
    ⟨.modrmRm, false⟩], operandAccepts := [.reg 4, .modrm 4] },
  { mnemonic := "movswl", opcode := 0x0f, op2 := 0xbf, slashR := true, operandEncoding :=
    [⟨.modrmReg, false⟩, ⟨.modrmRm, false⟩], operandAccepts := [.reg 4, .modrm 2] },
  { mnemonic := "movswq", opcode := 0x0f, op2 := 0xbf, rexw := true, slashR := true,
    operandEncoding := [⟨.modrmReg, false⟩, ⟨.modrmRm, false⟩], operandAccepts := [.reg 8, .modrm
    2] },
  { mnemonic := "movslq", opcode := 0x63, rex := true, rexw := true, slashR := true,
    operandEncoding := [⟨.modrmReg, false⟩, ⟨.modrmRm, false⟩], operandAccepts := [.reg 8, .modrm
    4] },
  { mnemonic := "movsbl", opcode := 0x0f, op2 := 0xbe, slashR := true, operandEncoding :=
    [⟨.modrmReg, false⟩, ⟨.modrmRm, false⟩], operandAccepts := [.reg 4, .modrm 1] },
  { mnemonic := "movsbw", opcode := 0x0f, op2 := 0xbe, slashR := true, opSizePrefix := true,
    operandEncoding := [⟨.modrmReg, false⟩, ⟨.modrmRm, false⟩], operandAccepts := [.reg 2, .modrm
    1] },
  { mnemonic := "movsbq", opcode := 0x0f, op2 := 0xbe, rexw := true, slashR := true,
    operandEncoding := [⟨.modrmReg, false⟩, ⟨.modrmRm, false⟩], operandAccepts := [.reg 8, .modrm
    1] },
  { mnemonic := "movzwl", opcode := 0x0f, op2 := 0xb7, slashR := true, operandEncoding :=
    [⟨.modrmReg, false⟩, ⟨.modrmRm, false⟩], operandAccepts := [.reg 4, .modrm 2] },
  { mnemonic := "movzbl", opcode := 0x0f, op2 := 0xb6, slashR := true, operandEncoding :=
    [⟨.modrmReg, false⟩, ⟨.modrmRm, false⟩], operandAccepts := [.reg 4, .modrm 1] },
  { mnemonic := "pushq", opcode := 0x50, operandEncoding := [⟨.opext, false⟩], operandAccepts :=
    [.reg 8] },
  { mnemonic := "popq", opcode := 0x58, operandEncoding := [⟨.opext, false⟩], operandAccepts :=
    [.reg 8] },
  { mnemonic := "notl", opcode := 0xf7, modrmExtension := 2, operandEncoding := [⟨.modrmRm,
    false⟩], operandAccepts := [.modrm 4] },
  { mnemonic := "notq", opcode := 0xf7, rex := true, rexw := true, modrmExtension := 2,
    operandEncoding := [⟨.modrmRm, false⟩], operandAccepts := [.modrm 8] },
  { mnemonic := "negl", opcode := 0xf7, modrmExtension := 3, operandEncoding := [⟨.modrmRm,
    false⟩], operandAccepts := [.modrm 4] },
  { mnemonic := "negq", opcode := 0xf7, rexw := true, modrmExtension := 3, operandEncoding :=
    [⟨.modrmRm, false⟩], operandAccepts := [.modrm 8] },
  { mnemonic := "seta", opcode := 0x0f, op2 := 0x97, operandEncoding := [⟨.modrmRm, false⟩],
    operandAccepts := [.modrm 1] },
  { mnemonic := "setb", opcode := 0x0f, op2 := 0x92, operandEncoding := [⟨.modrmRm, false⟩],
    operandAccepts := [.modrm 1] },
  { mnemonic := "setbe", opcode := 0x0f, op2 := 0x96, operandEncoding := [⟨.modrmRm, false⟩],
    operandAccepts := [.modrm 1] },
  { mnemonic := "sete", opcode := 0x0f, op2 := 0x94, operandEncoding := [⟨.modrmRm, false⟩],
    operandAccepts := [.modrm 1] },
  { mnemonic := "setg", opcode := 0x0f, op2 := 0x9f, operandEncoding := [⟨.modrmRm, false⟩],
    operandAccepts := [.modrm 1] },
  { mnemonic := "setge", opcode := 0x0f, op2 := 0x9d, operandEncoding := [⟨.modrmRm, false⟩],
    operandAccepts := [.modrm 1] },
  { mnemonic := "setgl", opcode := 0x0f, op2 := 0x9c, operandEncoding := [⟨.modrmRm, false⟩],
    operandAccepts := [.modrm 1] },
  { mnemonic := "setl", opcode := 0x0f, op2 := 0x9c, operandEncoding := [⟨.modrmRm, false⟩],
    operandAccepts := [.modrm 1] },
  { mnemonic := "setle", opcode := 0x0f, op2 := 0x9e, operandEncoding := [⟨.modrmRm, false⟩],
    operandAccepts := [.modrm 1] },
  { mnemonic := "setnb", opcode := 0x0f, op2 := 0x93, operandEncoding := [⟨.modrmRm, false⟩],
    operandAccepts := [.modrm 1] },
  { mnemonic := "setne", opcode := 0x0f, op2 := 0x95, operandEncoding := [⟨.modrmRm, false⟩],
    operandAccepts := [.modrm 1] },
  { mnemonic := "salq", opcode := 0xd3, rex := true, rexw := true, modrmExtension := 4,
    operandEncoding := [⟨.modrmRm, false⟩, ⟨.none, false⟩], operandAccepts := [.modrm 8, .rcx 1]
    },
  { mnemonic := "sall", opcode := 0xd3, modrmExtension := 4, operandEncoding := [⟨.modrmRm,
    false⟩, ⟨.none, false⟩], operandAccepts := [.modrm 4, .rcx 1] },
  { mnemonic := "sarl", opcode := 0xd3, modrmExtension := 7, operandEncoding := [⟨.modrmRm,
    false⟩, ⟨.none, false⟩], operandAccepts := [.modrm 4, .rcx 1] },
  { mnemonic := "sarq", opcode := 0xd3, rexw := true, modrmExtension := 7, operandEncoding :=
    [⟨.modrmRm, false⟩, ⟨.none, false⟩], operandAccepts := [.modrm 8, .rcx 1] },
  { mnemonic := "shrl", opcode := 0xd3, modrmExtension := 5, operandEncoding := [⟨.modrmRm,
    false⟩, ⟨.none, false⟩], operandAccepts := [.modrm 4, .rcx 1] },
  { mnemonic := "shrq", opcode := 0xd3, rexw := true, modrmExtension := 5, operandEncoding :=
    [⟨.modrmRm, false⟩, ⟨.none, false⟩], operandAccepts := [.modrm 8, .rcx 1] },
  { mnemonic := "shrq", opcode := 0xc1, rexw := true, modrmExtension := 5, operandEncoding :=
    [⟨.modrmRm, false⟩, ⟨.imm8, false⟩], operandAccepts := [.reg 8, .imm8u] },
  { mnemonic := "testb", opcode := 0x84, slashR := true, operandEncoding := [⟨.modrmRm, false⟩,
    ⟨.modrmReg, false⟩], operandAccepts := [.modrm 1, .reg 1] },
  { mnemonic := "testl", opcode := 0x85, slashR := true, operandEncoding := [⟨.modrmRm, false⟩,
    ⟨.modrmReg, false⟩], operandAccepts := [.modrm 4, .reg 4] },
  { mnemonic := "testw", opcode := 0x85, slashR := true, opSizePrefix := true, operandEncoding :=
    [⟨.modrmRm, false⟩, ⟨.modrmReg, false⟩], operandAccepts := [.modrm 2, .reg 2] },
  { mnemonic := "testq", opcode := 0x85, rexw := true, slashR := true, operandEncoding :=
    [⟨.modrmRm, false⟩, ⟨.modrmReg, false⟩], operandAccepts := [.modrm 8, .reg 8] },
  { mnemonic := "movsd", opcode := 0x0f, op2 := 0x11, slashR := true, repnePrefix := true,
    operandEncoding := [⟨.modrmRm, false⟩, ⟨.modrmReg, false⟩], operandAccepts := [.xmmM64, .xmm]
    },
  { mnemonic := "movsd", opcode := 0x0f, op2 := 0x10, slashR := true, repnePrefix := true,
    operandEncoding := [⟨.modrmReg, false⟩, ⟨.modrmRm, false⟩], operandAccepts := [.xmm, .xmmM64]
    },
  { mnemonic := "movss", opcode := 0x0f, op2 := 0x11, slashR := true, repePrefix := true,
    operandEncoding := [⟨.modrmRm, false⟩, ⟨.modrmReg, false⟩], operandAccepts := [.xmmM32, .xmm]
    },
  { mnemonic := "movd", opcode := 0x0f, op2 := 0x7e, slashR := true, opSizePrefix := true,
    operandEncoding := [⟨.modrmRm, false⟩, ⟨.modrmReg, false⟩], operandAccepts := [.modrm 4, .xmm]
    },
  { mnemonic := "movd", opcode := 0x0f, op2 := 0x6e, slashR := true, opSizePrefix := true,
    operandEncoding := [⟨.modrmReg, false⟩, ⟨.modrmRm, false⟩], operandAccepts := [.xmm, .modrm 4]
    },
  { mnemonic := "movd", opcode := 0x0f, op2 := 0x7e, rexw := true, slashR := true, opSizePrefix :=
    true, operandEncoding := [⟨.modrmRm, false⟩, ⟨.modrmReg, false⟩], operandAccepts := [.modrm 8,
    .xmm] },
  { mnemonic := "movd", opcode := 0x0f, op2 := 0x6e, rexw := true, slashR := true, opSizePrefix :=
    true, operandEncoding := [⟨.modrmReg, false⟩, ⟨.modrmRm, false⟩], operandAccepts := [.xmm,
    .modrm 8] },
  { mnemonic := "movq", opcode := 0x0f, op2 := 0x7e, rexw := true, slashR := true, opSizePrefix :=
    true, operandEncoding := [⟨.modrmRm, false⟩, ⟨.modrmReg, false⟩], operandAccepts := [.modrm 8,
    .xmm] },
  { mnemonic := "movq", opcode := 0x0f, op2 := 0x6e, rexw := true, slashR := true, opSizePrefix :=
    true, operandEncoding := [⟨.modrmReg, false⟩, ⟨.modrmRm, false⟩], operandAccepts := [.xmm,
    .modrm 8] },
  { mnemonic := "cvtsi2ss", opcode := 0x0f, op2 := 0x2a, rexw := true, slashR := true, repePrefix
    := true, operandEncoding := [⟨.modrmReg, false⟩, ⟨.modrmRm, false⟩], operandAccepts := [.xmm,
    .modrm 8] },
  { mnemonic := "cvtsi2sd", opcode := 0x0f, op2 := 0x2a, rexw := true, slashR := true, repnePrefix
    := true, operandEncoding := [⟨.modrmReg, false⟩, ⟨.modrmRm, false⟩], operandAccepts := [.xmm,
    .modrm 8] },
  { mnemonic := "cvtsd2ss", opcode := 0x0f, op2 := 0x5a, slashR := true, repnePrefix := true,
    operandEncoding := [⟨.modrmReg, false⟩, ⟨.modrmRm, false⟩], operandAccepts := [.xmm, .xmmM64]
    },
  { mnemonic := "cvtss2sd", opcode := 0x0f, op2 := 0x5a, slashR := true, repePrefix := true,
    operandEncoding := [⟨.modrmReg, false⟩, ⟨.modrmRm, false⟩], operandAccepts := [.xmm, .xmmM32]
    },
  { mnemonic := "cvttss2si", opcode := 0x0f, op2 := 0x2c, rexw := true, slashR := true, repePrefix
    := true, operandEncoding := [⟨.modrmReg, false⟩, ⟨.modrmRm, false⟩], operandAccepts := [.reg
    8, .xmmM32] },
  { mnemonic := "cvttsd2si", opcode := 0x0f, op2 := 0x2c, rexw := true, slashR := true,
    repnePrefix := true, operandEncoding := [⟨.modrmReg, false⟩, ⟨.modrmRm, false⟩],
    operandAccepts := [.reg 8, .xmmM64] },
  { mnemonic := "xorps", opcode := 0x0f, op2 := 0x57, slashR := true, operandEncoding :=
    [⟨.modrmReg, false⟩, ⟨.modrmRm, false⟩], operandAccepts := [.xmm, .xmmM128] },
  { mnemonic := "subss", opcode := 0x0f, op2 := 0x5c, slashR := true, repePrefix := true,
    operandEncoding := [⟨.modrmReg, false⟩, ⟨.modrmRm, false⟩], operandAccepts := [.xmm, .xmmM32]
    },
  { mnemonic := "subsd", opcode := 0x0f, op2 := 0x5c, slashR := true, repnePrefix := true,
    operandEncoding := [⟨.modrmReg, false⟩, ⟨.modrmRm, false⟩], operandAccepts := [.xmm, .xmmM64]
    },
  { mnemonic := "addss", opcode := 0x0f, op2 := 0x58, slashR := true, repePrefix := true,
    operandEncoding := [⟨.modrmReg, false⟩, ⟨.modrmRm, false⟩], operandAccepts := [.xmm, .xmmM32]
    },
  { mnemonic := "addsd", opcode := 0x0f, op2 := 0x58, slashR := true, repnePrefix := true,
    operandEncoding := [⟨.modrmReg, false⟩, ⟨.modrmRm, false⟩], operandAccepts := [.xmm, .xmmM64]
    },
  { mnemonic := "mulss", opcode := 0x0f, op2 := 0x59, slashR := true, repePrefix := true,
    operandEncoding := [⟨.modrmReg, false⟩, ⟨.modrmRm, false⟩], operandAccepts := [.xmm, .xmmM32]
    },
  { mnemonic := "mulsd", opcode := 0x0f, op2 := 0x59, slashR := true, repnePrefix := true,
    operandEncoding := [⟨.modrmReg, false⟩, ⟨.modrmRm, false⟩], operandAccepts := [.xmm, .xmmM64]
    },
  { mnemonic := "divss", opcode := 0x0f, op2 := 0x5e, slashR := true, repePrefix := true,
    operandEncoding := [⟨.modrmReg, false⟩, ⟨.modrmRm, false⟩], operandAccepts := [.xmm, .xmmM32]
    },
  { mnemonic := "divsd", opcode := 0x0f, op2 := 0x5e, slashR := true, repnePrefix := true,
    operandEncoding := [⟨.modrmReg, false⟩, ⟨.modrmRm, false⟩], operandAccepts := [.xmm, .xmmM64]
    },
  { mnemonic := "ucomiss", opcode := 0x0f, op2 := 0x2e, slashR := true, operandEncoding :=
    [⟨.modrmReg, false⟩, ⟨.modrmRm, false⟩], operandAccepts := [.xmm, .xmmM32] },
  { mnemonic := "ucomisd", opcode := 0x0f, op2 := 0x2e, slashR := true, opSizePrefix := true,
    operandEncoding := [⟨.modrmReg, false⟩, ⟨.modrmRm, false⟩], operandAccepts := [.xmm, .xmmM64]
    },
  { mnemonic := "btcq", opcode := 0x0f, op2 := 0xba, rexw := true, modrmExtension := 7,
    operandEncoding := [⟨.modrmRm, false⟩, ⟨.imm8, false⟩], operandAccepts := [.reg 8, .imm8u] }
]

end Verif.Encode
