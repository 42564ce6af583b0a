import Verif.EncodeTotalLemmas
/-!
C43 and C44: the instruction encoder (src/assembler/encode.c) and its table
(src/assembler/instructions.h) against an independent decoder (EncodeSpec.lean).
-/
namespace Verif.Encode
open Verif Verif.EncodeSpec

/-! ### C43 -/

/-- C43 (partial): for the handled instructions (EncodeSpec.lean: no index register, no zero
displacement from `%rbp`/`%r13`, no high byte register, the second eight registers only beside a
memory operand or in a 64-bit operation) and any label address `x`, the bytes the encoder reports,
with the fields of its relocations filled in, are one instruction of exactly the reported length
(at most 15 bytes), and that instruction is the one that the mnemonic and operands denote: the
operation, registers, memory operand, displacement and immediate.

Full statement: the same for every instruction that the encoder accepts (`Handled` dropped).  It
is false: see the `encode_…_violated` theorems below. -/
theorem encode_partial (mn : String) (l : List Operand) (x : BitVec 64) (i : Insn)
    (bytes : List Byte) (rels : List Rel) (rest : List Byte)
    (h : assembleInstruction encodings mn (pad4 .empty l) = .ok (some (bytes, rels)))
    (hH : Handled mn l) (hD : Denotes mn (l.map (resolve x)) i)
    (hfit : ∀ r ∈ rels, r.relative = false → FitsField r.size x) :
    decode (patchAll x bytes rels ++ rest) = some (i, rest) ∧
    (patchAll x bytes rels).length = bytes.length ∧ bytes.length ≤ 15 := by
  obtain ⟨m, hm, rfl, as, has, rfl⟩ := hD
  obtain ⟨_, _, _, h4⟩ := search_spec _ _ _ _ _ h (by simp)
  rcases h4 _ rfl with h | ⟨e, he, hmn, hM, ha⟩
  · cases h
  · refine ⟨row_decodes he hm hmn.symm hM hH has ha hfit rest, ?_⟩
    rw [assembleEncoding] at ha
    obtain ⟨P, _, hp⟩ := Res.bind_eq_ok.1 ha
    dsimp only at hp
    split at hp
    · next hl =>
      injection hp with hp
      have hr := emit_rels (e := e) (p := finishRex P)
      rw [hp] at hl hr
      exact ⟨patchAll_length hr, hl⟩
    · cases hp

/-- The hypotheses are met by `movq $0x12345678, -8(%r11)` and by `movabsq $label, %rdi` with the
label at address `0x401000`. -/
example : assembleInstruction encodings "movq"
      (pad4 .empty [.mem none (some .r11) 1 (-8), .imm none 0x12345678]) =
      .ok (some ([0x49, 0xc7, 0x43, 0xf8, 0x78, 0x56, 0x34, 0x12], [])) ∧
    Handled "movq" [.mem none (some .r11) 1 (-8), .imm none 0x12345678] ∧
    Denotes "movq" [.mem none (some .r11) 1 (-8), .imm none 0x12345678]
      ⟨.mov, [.mem 8 (some 11) none (-8), .imm 8 0x12345678]⟩ ∧
    assembleInstruction encodings "movabsq" (pad4 .empty [.reg .rdi false 8, .imm (some 3) 0]) =
      .ok (some ([0x48, 0xbf, 0, 0, 0, 0, 0, 0, 0, 0], [⟨2, 8, false, 3, 0⟩])) ∧
    Handled "movabsq" [.reg .rdi false 8, .imm (some 3) 0] ∧
    Denotes "movabsq" ([.reg .rdi false 8, .imm (some 3) 0].map (resolve 0x401000))
      ⟨.mov, [.gpr 7 8, .imm 8 0x401000]⟩ ∧ FitsField 8 0x401000 := by
  refine ⟨by decide +kernel, by decide +kernel,
    ⟨("movq", .mov, [.int 8, .int 8]), by decide +kernel, rfl, _, rfl, by decide +kernel⟩,
    by decide +kernel, by decide +kernel,
    ⟨("movabsq", .mov, [.int 8, .int 8]), by decide +kernel, rfl, _, rfl, by decide +kernel⟩, ?_⟩
  unfold FitsField
  decide +kernel

/-- What the encoder produces for an instruction without labels decodes to something else. -/
def Wrong (mn : String) (l : List Operand) (wanted got : Insn) : Prop :=
  Denotes mn l wanted ∧ got ≠ wanted ∧
  ∃ bytes, assembleInstruction encodings mn (pad4 .empty l) = .ok (some (bytes, [])) ∧
    decode bytes = some (got, [])

/-- C43 fails for a register in the opcode byte: `pushq %r8` becomes `popq %rax`. -/
theorem encode_push_violated :
    Wrong "pushq" [.reg .r8 false 8] ⟨.push, [.gpr 8 8]⟩ ⟨.pop, [.gpr 0 8]⟩ :=
  ⟨⟨("pushq", .push, [.int 8]), by decide +kernel, rfl, _, rfl, by decide +kernel⟩, by decide +kernel,
   [0x58], by decide +kernel, by decide +kernel⟩

/-- C43 fails for `movabsq $5, %r8`, which becomes `movabsq $5, %rax`. -/
theorem encode_movabs_violated :
    Wrong "movabsq" [.reg .r8 false 8, .imm none 5] ⟨.mov, [.gpr 8 8, .imm 8 5]⟩
      ⟨.mov, [.gpr 0 8, .imm 8 5]⟩ :=
  ⟨⟨("movabsq", .mov, [.int 8, .int 8]), by decide +kernel, rfl, _, rfl, by decide +kernel⟩,
   by decide +kernel, [0x48, 0xb8, 5, 0, 0, 0, 0, 0, 0, 0], by decide +kernel, by decide +kernel⟩

/-- C43 fails for 32-bit operations on the second eight registers: `movl %ecx, %r8d` becomes
`movl %ecx, %eax`. -/
theorem encode_rex_b_violated :
    Wrong "movl" [.reg .r8 false 4, .reg .rcx false 4] ⟨.mov, [.gpr 8 4, .gpr 1 4]⟩
      ⟨.mov, [.gpr 0 4, .gpr 1 4]⟩ :=
  ⟨⟨("movl", .mov, [.int 4, .int 4]), by decide +kernel, rfl, _, rfl, by decide +kernel⟩,
   by decide +kernel, [0x89, 0xc8], by decide +kernel, by decide +kernel⟩

/-- C43 fails for `movq (%rbp), %rax`, which becomes `movq (%rax), %rax`. -/
theorem encode_rbp_violated :
    Wrong "movq" [.reg .rax false 8, .mem none (some .rbp) 1 0]
      ⟨.mov, [.gpr 0 8, .mem 8 (some 5) none 0]⟩ ⟨.mov, [.gpr 0 8, .mem 8 (some 0) none 0]⟩ :=
  ⟨⟨("movq", .mov, [.int 8, .int 8]), by decide +kernel, rfl, _, rfl, by decide +kernel⟩,
   by decide +kernel, [0x48, 0x8b, 0x40, 0], by decide +kernel, by decide +kernel⟩

/-- C43 fails for index registers: the scale is dropped, `leaq (%rax,%rcx,8), %rdx` becomes
`leaq (%rax,%rcx), %rdx`. -/
theorem encode_scale_violated :
    Wrong "leaq" [.reg .rdx false 8, .mem (some .rcx) (some .rax) 8 0]
      ⟨.lea, [.gpr 2 8, .mem 0 (some 0) (some (1, 8)) 0]⟩
      ⟨.lea, [.gpr 2 8, .mem 0 (some 0) (some (1, 1)) 0]⟩ :=
  ⟨⟨("leaq", .lea, [.int 8, .addr]), by decide +kernel, rfl, _, rfl, by decide +kernel⟩,
   by decide +kernel, [0x48, 0x8d, 0x14, 0x08], by decide +kernel, by decide +kernel⟩

/-- C43 fails for index registers: REX.x is dropped, `leaq (%rax,%r9), %rdx` becomes
`leaq (%rax,%rcx), %rdx`. -/
theorem encode_index_violated :
    Wrong "leaq" [.reg .rdx false 8, .mem (some .r9) (some .rax) 1 0]
      ⟨.lea, [.gpr 2 8, .mem 0 (some 0) (some (9, 1)) 0]⟩
      ⟨.lea, [.gpr 2 8, .mem 0 (some 0) (some (1, 1)) 0]⟩ :=
  ⟨⟨("leaq", .lea, [.int 8, .addr]), by decide +kernel, rfl, _, rfl, by decide +kernel⟩,
   by decide +kernel, [0x48, 0x8d, 0x14, 0x08], by decide +kernel, by decide +kernel⟩

/-- C43 fails for the high byte registers: `sete %ah` becomes `sete %al`. -/
theorem encode_upper_violated :
    Wrong "sete" [.reg .rax true 1] ⟨.setcc 4, [.high 0]⟩ ⟨.setcc 4, [.gpr 0 1]⟩ :=
  ⟨⟨("sete", .setcc 4, [.int 1]), by decide +kernel, rfl, _, rfl, by decide +kernel⟩,
   by decide +kernel, [0x0f, 0x94, 0xc0], by decide +kernel, by decide +kernel⟩

/-! ### C44 -/

/-- C44 (partial): in any table whose rows encode exactly the operands they describe, when the
encoder returns, the result is the encoding - with its relocations - of a row that accepts the
operands, no accepting row of the mnemonic has a shorter encoding, and failure is reported exactly
when no row accepts.  Negative immediates are excluded where a row takes an unsigned immediate of
8 or 16 bits.

Full statement: the same without the exclusion, and the encoder always returns.  Both are false:
see `choose_…_violated`. -/
theorem choose_partial (table : List Encoding) (hb : ∀ e ∈ table, Balanced e) (mn : String)
    (l : List Operand) (hne : ∀ o ∈ l, o ≠ .empty) (h4 : l.length ≤ 4)
    (hu : ∀ lb v, .imm lb v ∈ l → 0 ≤ v.toInt ∨
      ∀ e ∈ table, e.mnemonic = mn → .imm8u ∉ e.operandAccepts ∧ .imm16u ∉ e.operandAccepts)
    (r : Option (List Byte × List Rel))
    (h : assembleInstruction table mn (pad4 .empty l) = .ok r) :
    (∀ out, r = some out →
      (∃ e ∈ table, e.mnemonic = mn ∧ Accepts e.operandAccepts l ∧
        assembleEncoding e (pad4 .empty l) = .ok out) ∧
      ∀ e ∈ table, e.mnemonic = mn → Accepts e.operandAccepts l →
        ∃ out', assembleEncoding e (pad4 .empty l) = .ok out' ∧ out.1.length ≤ out'.1.length) ∧
    (r = none ↔ ∀ e ∈ table, e.mnemonic = mn → ¬ Accepts e.operandAccepts l) := by
  obtain ⟨h1, h2, _, h3⟩ := search_spec _ _ _ _ _ h (by simp)
  have hsome : ∀ out, r = some out → ∃ e ∈ table, e.mnemonic = mn ∧ Accepts e.operandAccepts l ∧
        assembleEncoding e (pad4 .empty l) = .ok out := by
    intro out ho
    rcases h3 out ho with hh | ⟨e, he, hmn, hM, ha⟩
    · cases hh
    · refine ⟨e, he, hmn, accepts_row (hb e he) hne h4 ?_ hM ha, ha⟩
      intro lb v hv
      rcases hu lb v hv with h | h
      · exact .inl h
      · exact .inr (h e he hmn)
  refine ⟨fun out ho => ⟨hsome out ho, ?_⟩, ?_, ?_⟩
  · intro e he hmn hA
    obtain ⟨out', o, ho', hr, hle⟩ := h2 e he hmn (match_row h4 hA)
    rw [ho] at hr
    injection hr with hr
    subst hr
    exact ⟨out', ho', hle⟩
  · intro hr e he hmn hA
    obtain ⟨out', o, _, hr', _⟩ := h2 e he hmn (match_row h4 hA)
    rw [hr] at hr'
    cases hr'
  · intro hno
    cases hr : r with
    | none => rfl
    | some out =>
      obtain ⟨e, he, hmn, hA, _⟩ := hsome out hr
      exact absurd hA (hno e he hmn)

/-- C44 (partial), the encoder returns: with the compiler's table, operands that have an encoding
and as many of them as the rows of the mnemonic describe, no row stops the encoder. -/
theorem choose_returns_partial (mn : String) (l : List Operand)
    (hl : ∀ o ∈ l, o ≠ .empty ∧ Addressable o)
    (hlen : ∀ e ∈ encodings, e.mnemonic = mn → l.length = e.operandAccepts.length) :
    ∃ r, assembleInstruction encodings mn (pad4 .empty l) = .ok r :=
  search_ok mn _ _ none (fun e he _ => row_match_total he _)
    (fun e he hmn hM => row_total he (hlen e he hmn) hl hM)

/-- The compiler's table is of the kind C44 is about, and `addq $5, %rax` meets the hypotheses of
both theorems; it takes the shorter of two encodings. -/
example : (∀ e ∈ encodings, Balanced e) ∧
    (∀ e ∈ encodings, e.mnemonic = "addq" → [Operand.reg .rax false 8, .imm none 5].length = e.operandAccepts.length) ∧
    (∀ o ∈ [Operand.reg .rax false 8, .imm none 5], o ≠ .empty ∧ Addressable o) ∧
    (0 : Int) ≤ (5 : BitVec 64).toInt ∧
    assembleInstruction encodings "addq" (pad4 .empty [.reg .rax false 8, .imm none 5]) =
      .ok (some ([0x48, 0x83, 0xc0, 5], [])) :=
  ⟨fun e he => of_decide_eq_true (List.all_eq_true.1 table_balanced e he), by decide +kernel,
   by decide +kernel, by decide, by decide +kernel⟩

/-- C44 fails for unsigned immediates: `shrq $-1, %rax` is encoded although the row takes 0 to 255
(and is a shift by 63). -/
theorem choose_unsigned_violated :
    (∀ e ∈ encodings, e.mnemonic = "shrq" → ¬ Accepts e.operandAccepts [.reg .rax false 8, .imm none (-1)]) ∧
    assembleInstruction encodings "shrq" (pad4 .empty [.reg .rax false 8, .imm none (-1)]) =
      .ok (some ([0x48, 0xc1, 0xe8, 0xff], [])) := by
  refine ⟨?_, by decide +kernel⟩
  have h : (encodings.all fun e => decide (e.mnemonic ≠ "shrq") ||
      decide (e.operandAccepts = [.reg 8, .imm8u]) || decide (e.operandAccepts = [.modrm 8, .rcx 1])) = true := by
    decide +kernel
  intro e he hmn hA
  have := List.all_eq_true.1 h e he
  simp only [hmn, ne_eq, not_true_eq_false, decide_false, Bool.false_or, Bool.or_eq_true, decide_eq_true_eq] at this
  rcases this with h | h
  · rw [h] at hA
    exact absurd hA.2.1.1 (by decide)
  · rw [h] at hA
    exact hA.2.1

/-- C44 fails for an operand too many: no row for `ret` accepts an operand, but instead of
reporting failure the encoder stops the compiler. -/
theorem choose_extra_violated :
    (∀ e ∈ encodings, e.mnemonic = "ret" → e.operandAccepts = []) ∧
    assembleInstruction encodings "ret" (pad4 .empty [.reg .rax false 8]) = .fail := by
  refine ⟨?_, by decide +kernel⟩
  have h : (encodings.all fun e => decide (e.mnemonic ≠ "ret") || decide (e.operandAccepts = [])) = true := by
    decide +kernel
  intro e he hmn
  have := List.all_eq_true.1 h e he
  simpa [hmn] using this

/-- The table has no encoding of `cmpl $-1000, %eax`: a 32-bit comparison takes its immediate as
an unsigned 64-bit number, so that the front end's sign-extended constants are rejected. -/
theorem cmpl_negative_rejected :
    Denotes "cmpl" [.reg .rax false 4, .imm none (-1000)] ⟨.cmp, [.gpr 0 4, .imm 4 4294966296]⟩ ∧
    assembleInstruction encodings "cmpl" (pad4 .empty [.reg .rax false 4, .imm none (-1000)]) = .ok none :=
  ⟨⟨("cmpl", .cmp, [.int 4, .int 4]), by decide +kernel, rfl, _, rfl, by decide +kernel⟩,
   by decide +kernel⟩

end Verif.Encode
