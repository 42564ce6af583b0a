import Verif.Asm
/-!
Specification: how the instructions are spelled (Intel manual, volume 2, with the suffixes of AT&T
syntax).  Nothing here mentions the model.
-/
namespace Verif.AsmNames
open Verif Asm

/-- The spelling of an instruction. -/
def spelling : Mn → String
  | .addl => "addl" | .addq => "addq" | .subl => "subl" | .subq => "subq" | .imull => "imull" | .imulq => "imulq"
  | .xorl => "xorl" | .xorq => "xorq" | .orl => "orl" | .orq => "orq" | .andl => "andl" | .andq => "andq"
  | .cltd => "cltd" | .cqto => "cqto" | .idivl => "idivl" | .idivq => "idivq" | .divl => "divl" | .divq => "divq"
  | .sall => "sall" | .salq => "salq" | .sarl => "sarl" | .sarq => "sarq" | .shrl => "shrl" | .shrq => "shrq"
  | .cmpl => "cmpl" | .cmpq => "cmpq" | .testb => "testb" | .testq => "testq" | .seta => "seta" | .setb => "setb"
  | .setbe => "setbe" | .sete => "sete" | .setg => "setg" | .setge => "setge" | .setl => "setl" | .setle => "setle"
  | .setnb => "setnb" | .setne => "setne" | .movb => "movb" | .movw => "movw" | .movl => "movl" | .movq => "movq"
  | .movabsq => "movabsq" | .movzbl => "movzbl" | .movzwl => "movzwl" | .movsbl => "movsbl" | .movswl => "movswl" | .movsbq => "movsbq"
  | .movswq => "movswq" | .movslq => "movslq" | .leal => "leal" | .leaq => "leaq" | .notq => "notq" | .negq => "negq"
  | .btcq => "btcq" | .movd => "movd" | .movss => "movss" | .movsd => "movsd" | .addss => "addss" | .addsd => "addsd"
  | .subss => "subss" | .subsd => "subsd" | .mulss => "mulss" | .mulsd => "mulsd" | .divss => "divss" | .divsd => "divsd"
  | .ucomiss => "ucomiss" | .ucomisd => "ucomisd" | .cvtss2sd => "cvtss2sd" | .cvtsd2ss => "cvtsd2ss" | .cvtsi2ss => "cvtsi2ss" | .cvtsi2sd => "cvtsi2sd"
  | .cvttss2si => "cvttss2si" | .cvttsd2si => "cvttsd2si" | .pushq => "pushq" | .callq => "callq" | .leave => "leave" | .ret => "ret"
  | .ud2 => "ud2" | .jmp => "jmp" | .je => "je" | .jne => "jne" | .jnb => "jnb" | .ja => "ja"
  | .jna => "jna"

end Verif.AsmNames
