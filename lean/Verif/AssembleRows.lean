import Verif.AssembleSim
/-! Lemmas for C97: the forms of instructions that the code generator emits all have an encoding. -/
namespace Verif.Assemble
open Verif Asm AssembleSpec EncodeSpec
open Verif.Encode (Operand Rel Parts Encoding OpEnc Acc OE encodings assembleInstruction assembleEncoding pad4 loop encodeOperand
  encodeSib setImm askRex finishRex emit immRels relRels immSize)

/-! ### Forms -/

/-- A set of operands: a register of a size (one of the first eight, or any), `%cl`, SSE registers, the
target of an indirect call, memory, immediates from `lo` to below `hi` (as 64-bit numbers), a label with an
offset of 31 bits, the target of a jump. -/
inductive Shape where
  | low (s : Nat) | any (s : Nat) | cl | xmmLow | xmm | star | mem | imm (lo hi : Int) | label | target
  deriving DecidableEq, Repr

/-- An operand of the shape. -/
def Fits : Shape → Opd → Prop
  | .low s, .reg r s' => s' = s ∧ regNumber r < 8
  | .any s, .reg _ s' => s' = s
  | .cl, .reg r s' => r = .rcx ∧ s' = 1
  | .xmmLow, .xmm i => i < 8
  | .xmm, .xmm i => i < 16
  | .star, .star r => regNumber r < 8
  | .mem, .mem off b => -2147483648 ≤ off ∧ off < 2147483648 ∧ ¬ ((b = .rbp ∨ b = .r13) ∧ off = 0)
  | .imm lo hi, .imm none v => lo ≤ (BitVec.ofInt 64 v).toInt ∧ (BitVec.ofInt 64 v).toInt < hi
  | .label, .imm (some _) v => -2147483648 ≤ v ∧ v < 2147483648
  | .target, .abs (some _) v => v = 0
  | _, _ => False

/-- Operands of the shapes. -/
def FitsAll : List Shape → List Opd → Prop
  | [], [] => True
  | s :: ss, o :: os => Fits s o ∧ FitsAll ss os
  | _, _ => False

/-- The immediates of 32 bits. -/
def imm32 : Shape := .imm (-2147483648) 2147483648

/-- The forms of instructions, operands in the order of the assembly. -/
def forms : List (Mn × List Shape) := [
  -- scalar_to_reg, reg_to_scalar, memory
  (.movzbl, [.mem, .any 4]), (.movzwl, [.mem, .any 4]), (.movl, [.mem, .any 4]), (.movq, [.mem, .any 8]),
  (.shrq, [.imm 0 256, .any 8]),
  (.movb, [.any 1, .mem]), (.movw, [.any 2, .mem]), (.movl, [.any 4, .mem]), (.movq, [.any 8, .mem]),
  (.movb, [.mem, .low 1]), (.movw, [.mem, .low 2]),
  (.movb, [.imm (-128) 128, .mem]), (.movb, [.imm 0 256, .mem]),
  (.movw, [.imm (-32768) 32768, .mem]), (.movw, [.imm 0 65536, .mem]),
  (.movl, [imm32, .mem]), (.movl, [.imm 0 4294967296, .mem]), (.movq, [imm32, .mem]),
  (.leaq, [.mem, .any 8]), (.leal, [.mem, .low 4]), (.btcq, [.imm 0 256, .low 8]),
  (.movabsq, [.imm (-9223372036854775808) 9223372036854775808, .low 8]), (.movq, [.label, .mem]),
  -- operators
  (.addl, [.low 4, .low 4]), (.addq, [.low 8, .low 8]), (.subl, [.low 4, .low 4]), (.subq, [.low 8, .low 8]),
  (.imull, [.low 4, .low 4]), (.imulq, [.low 8, .low 8]), (.xorl, [.low 4, .low 4]), (.xorq, [.low 8, .low 8]),
  (.orl, [.low 4, .low 4]), (.orq, [.low 8, .low 8]), (.andl, [.low 4, .low 4]), (.andq, [.low 8, .low 8]),
  (.cltd, []), (.cqto, []), (.idivl, [.low 4]), (.idivq, [.low 8]), (.divl, [.low 4]), (.divq, [.low 8]),
  (.movl, [.low 4, .low 4]), (.movq, [.low 8, .low 8]),
  (.sall, [.cl, .low 4]), (.salq, [.cl, .low 8]), (.sarl, [.cl, .low 4]), (.sarq, [.cl, .low 8]),
  (.shrl, [.cl, .low 4]), (.shrq, [.cl, .low 8]),
  (.cmpl, [.low 4, .low 4]), (.cmpq, [.low 8, .low 8]), (.testq, [.low 8, .low 8]),
  (.seta, [.low 1]), (.setb, [.low 1]), (.setbe, [.low 1]), (.sete, [.low 1]), (.setg, [.low 1]), (.setge, [.low 1]),
  (.setl, [.low 1]), (.setle, [.low 1]), (.setnb, [.low 1]), (.setne, [.low 1]),
  (.movzbl, [.low 1, .low 4]), (.movzwl, [.low 2, .low 4]), (.movsbl, [.low 1, .low 4]), (.movswl, [.low 2, .low 4]),
  (.movsbq, [.low 1, .low 8]), (.movswq, [.low 2, .low 8]), (.movslq, [.low 4, .low 8]),
  (.notq, [.low 8]), (.negq, [.low 8]),
  -- floating point
  (.movq, [.low 8, .xmmLow]), (.movq, [.xmmLow, .low 8]), (.movd, [.low 4, .xmmLow]), (.movd, [.xmmLow, .low 4]),
  (.movd, [.low 8, .xmmLow]),
  (.addss, [.xmmLow, .xmmLow]), (.addsd, [.xmmLow, .xmmLow]), (.subss, [.xmmLow, .xmmLow]), (.subsd, [.xmmLow, .xmmLow]),
  (.mulss, [.xmmLow, .xmmLow]), (.mulsd, [.xmmLow, .xmmLow]), (.divss, [.xmmLow, .xmmLow]), (.divsd, [.xmmLow, .xmmLow]),
  (.ucomiss, [.xmmLow, .xmmLow]), (.ucomisd, [.xmmLow, .xmmLow]),
  (.cvtss2sd, [.xmmLow, .xmmLow]), (.cvtsd2ss, [.xmmLow, .xmmLow]),
  (.cvtsi2ss, [.low 8, .xmmLow]), (.cvtsi2sd, [.low 8, .xmmLow]),
  (.cvttss2si, [.xmmLow, .low 8]), (.cvttsd2si, [.xmmLow, .low 8]),
  -- calls, entry and return
  (.movsd, [.mem, .xmm]), (.movsd, [.xmm, .mem]), (.movss, [.xmm, .mem]),
  (.addq, [imm32, .low 8]), (.andq, [imm32, .low 8]), (.subq, [imm32, .low 8]),
  (.pushq, [.low 8]), (.callq, [.star]), (.leave, []), (.ret, []), (.ud2, []),
  (.jmp, [.target]), (.je, [.target])]

/-- The instruction has one of the forms. -/
def Emitted (i : Ins) : Prop := ∃ f ∈ forms, f.1 = i.mn ∧ FitsAll f.2 i.ops

/-! ### The checks -/

/-- A row's description accepts everything of the shape. -/
def accShape : Acc → Shape → Bool
  | .reg s, .low s' => s == s'
  | .reg s, .any s' => s == s'
  | .rcx s, .cl => s == 1
  | .regStar s, .star => s == 8
  | .modrm s, .low s' => s == s'
  | .modrm s, .any s' => s == s'
  | .modrm _, .mem => true
  | .xmm, .xmmLow => true
  | .xmm, .xmm => true
  | .xmmM32, .xmmLow => true
  | .xmmM32, .xmm => true
  | .xmmM32, .mem => true
  | .xmmM64, .xmmLow => true
  | .xmmM64, .xmm => true
  | .xmmM64, .mem => true
  | .imm8s, .imm lo hi => decide (-128 ≤ lo) && decide (hi ≤ 128)
  | .imm8u, .imm lo hi => decide (0 ≤ lo) && decide (hi ≤ 256)
  | .imm16s, .imm lo hi => decide (-32768 ≤ lo) && decide (hi ≤ 32768)
  | .imm16u, .imm lo hi => decide (0 ≤ lo) && decide (hi ≤ 65536)
  | .imm32s, .imm lo hi => decide (-2147483648 ≤ lo) && decide (hi ≤ 2147483648)
  | .imm32u, .imm lo hi => decide (0 ≤ lo) && decide (hi ≤ 4294967296)
  | .imm64, .imm _ _ => true
  | .imm32s, .label => true
  | .rel32, .target => true
  | _, _ => false

/-- A position of a mnemonic has a meaning for everything of the shape. -/
def slotShape : Slot → Shape → Bool
  | .int s, .low s' => s == s'
  | .int s, .any s' => s == s'
  | .int s, .cl => s == 1
  | .int _, .mem => true
  | .int s, .imm lo hi => s == 8 || (decide (-((256 ^ s / 2 : Nat) : Int) ≤ lo) && decide (hi ≤ (256 ^ s : Nat)))
  | .int s, .label => s == 8
  | .greg s, .low s' => s == s'
  | .sse _, .xmmLow => true
  | .sse _, .xmm => true
  | .sse _, .mem => true
  | .xmm, .xmmLow => true
  | .addr, .mem => true
  | .target, .target => true
  | .star, .star => true
  | _, _ => false

/-- Pairwise. -/
def all2 {α β : Type} (f : α → β → Bool) : List α → List β → Bool
  | [], [] => true
  | a :: as, b :: bs => f a b && all2 f as bs
  | _, _ => false

/-- Only the first eight registers. -/
def lowShape : Shape → Bool
  | .any _ => false
  | .xmm => false
  | _ => true

/-- A row takes a label in a field of 4 or 8 bytes. -/
def wideImm (e : Encoding) : Bool := e.operandEncoding.all fun x => x.type != .imm8 && x.type != .imm16

/-- Is it a label? -/
def isLabel : Shape → Bool
  | .label => true
  | .target => true
  | _ => false

/-- The form is encoded. -/
def formOk (f : Mn × List Shape) : Bool :=
  encodings.any (fun e => e.mnemonic == mnName f.1 && all2 accShape e.operandAccepts f.2.reverse) &&
  encodings.all (fun e => e.mnemonic != mnName f.1 ||
    (e.operandAccepts.length == f.2.length && (wideImm e || f.2.all (fun s => !isLabel s)))) &&
  mnemonics.any (fun m => m.1 == mnName f.1 && all2 slotShape m.2.2 f.2.reverse) &&
  (f.2.any (· == .mem) || wideMnemonics.contains (mnName f.1) || f.2.all lowShape) &&
  decide ((f.2.filter isLabel).length ≤ 1)

theorem forms_ok : forms.all formOk = true := by decide +kernel


/-! ### What the checks mean -/

theorem fits_acc {a : Acc} {s : Shape} {o : Opd} (h : accShape a s = true) (hf : Fits s o) : accepts a (operand o) := by
  cases a <;> cases s <;> simp only [accShape, Bool.false_eq_true] at h <;>
    cases o <;> (try simp only [Fits] at hf) <;>
    (try simp only [beq_iff_eq, Bool.and_eq_true, decide_eq_true_eq] at h) <;>
    simp only [operand, accepts]
  all_goals first
    | omega
    | (obtain ⟨h1, h2⟩ := hf; subst h1; subst h2; subst h; exact ⟨rfl, rfl⟩)
    | skip
  all_goals
    rename_i lb v
    cases lb with
    | none =>
      try simp only [Fits] at hf
      first
        | done
        | omega
        | (have := BitVec.toInt_eq_toNat_cond (BitVec.ofInt 64 v)
           split at this <;> omega)
    | some l =>
      try simp only [Fits] at hf
      try (rw [BitVec.toInt_ofInt, Int.bmod_def]; omega)

theorem fits_slot {t : Slot} {s : Shape} {o : Opd} (A : Nat → BitVec 64) (next : BitVec 64) (h : slotShape t s = true)
    (hf : Fits s o) : ∃ a, slotArg t (located A next o) = some a := by
  cases t <;> cases s <;> simp only [slotShape, Bool.false_eq_true] at h <;>
    cases o <;> (try simp only [Fits] at hf) <;>
    (try simp only [beq_iff_eq] at h)
  all_goals first
    | (simp_all [located, slotArg, regArg]; done)
    | (simp only [located, slotArg, memArg]; exact ⟨_, rfl⟩)
    | (simp only [located, slotArg]; rw [if_pos (by omega)]; exact ⟨_, rfl⟩)
    | skip
  all_goals
    rename_i lb v
    cases lb with
    | none =>
      try simp only [Fits] at hf
      try simp only [located, slotArg]
      first
        | done
        | (refine ⟨_, if_pos ?_⟩
           simp only [Bool.or_eq_true, Bool.and_eq_true, beq_iff_eq, decide_eq_true_eq] at h
           rcases h with h | ⟨h1, h2⟩
           · exact .inl h
           · exact .inr ⟨by omega, by omega⟩)
        | exact ⟨_, rfl⟩
    | some l =>
      try simp only [Fits] at hf
      try simp only [located, slotArg]
      try exact ⟨_, if_pos (.inl h)⟩
      try exact ⟨_, rfl⟩

theorem fitsAll_append : ∀ {ss ts : List Shape} {os : List Opd}, FitsAll ss os → ∀ {ps : List Opd}, FitsAll ts ps →
    FitsAll (ss ++ ts) (os ++ ps)
  | [], _, [], _, _, h => h
  | _ :: _, _, _ :: _, h, _, h' => ⟨h.1, fitsAll_append h.2 h'⟩

theorem fitsAll_reverse : ∀ {ss : List Shape} {os : List Opd}, FitsAll ss os → FitsAll ss.reverse os.reverse
  | [], [], _ => trivial
  | s :: ss, o :: os, h => by
    rw [List.reverse_cons, List.reverse_cons]
    exact fitsAll_append (fitsAll_reverse h.2) ⟨h.1, trivial⟩

theorem fitsAll_length : ∀ {ss : List Shape} {os : List Opd}, FitsAll ss os → ss.length = os.length
  | [], [], _ => rfl
  | _ :: _, _ :: _, h => by simp [fitsAll_length h.2]

theorem fitsAll_mem : ∀ {ss : List Shape} {os : List Opd}, FitsAll ss os → ∀ o ∈ os, ∃ s ∈ ss, Fits s o
  | _ :: _, _ :: _, h, o, ho => by
    rcases List.mem_cons.1 ho with h1 | h1
    · subst h1; exact ⟨_, by simp, h.1⟩
    · obtain ⟨s, hs, hf⟩ := fitsAll_mem h.2 o h1
      exact ⟨s, List.mem_cons_of_mem _ hs, hf⟩
  | [], [], _, _, ho => by cases ho

theorem fitsAll_mem' : ∀ {ss : List Shape} {os : List Opd}, FitsAll ss os → ∀ s ∈ ss, ∃ o ∈ os, Fits s o
  | _ :: _, _ :: _, h, o, ho => by
    rcases List.mem_cons.1 ho with h1 | h1
    · subst h1; exact ⟨_, by simp, h.1⟩
    · obtain ⟨s, hs, hf⟩ := fitsAll_mem' h.2 o h1
      exact ⟨s, List.mem_cons_of_mem _ hs, hf⟩
  | [], [], _, _, ho => by cases ho

theorem fitsAll_acc : ∀ {as : List Acc} {ss : List Shape} {os : List Opd}, all2 accShape as ss = true → FitsAll ss os →
    Accepts as (os.map operand)
  | [], [], [], _, _ => trivial
  | _ :: _, _ :: _, _ :: _, h, hf => by
    simp only [all2, Bool.and_eq_true] at h
    exact ⟨fits_acc h.1 hf.1, fitsAll_acc h.2 hf.2⟩
  | [], _ :: _, _, h, _ => by simp [all2] at h
  | _ :: _, [], _, h, _ => by simp [all2] at h
  | _ :: _, _ :: _, [], _, hf => hf.elim
  | [], [], _ :: _, _, hf => hf.elim

theorem fitsAll_slot (A : Nat → BitVec 64) (next : BitVec 64) : ∀ {ts : List Slot} {ss : List Shape} {os : List Opd},
    all2 slotShape ts ss = true → FitsAll ss os → ∃ as, slotArgs ts (os.map (located A next)) = some as
  | [], [], [], _, _ => ⟨[], rfl⟩
  | _ :: _, _ :: _, _ :: _, h, hf => by
    simp only [all2, Bool.and_eq_true] at h
    obtain ⟨a, ha⟩ := fits_slot A next h.1 hf.1
    obtain ⟨as, has⟩ := fitsAll_slot A next h.2 hf.2
    exact ⟨a :: as, by simp only [List.map_cons, slotArgs, ha, has]; rfl⟩
  | [], _ :: _, _, h, _ => by simp [all2] at h
  | _ :: _, [], _, h, _ => by simp [all2] at h
  | _ :: _, _ :: _, [], _, hf => hf.elim
  | [], [], _ :: _, _, hf => hf.elim

theorem label_fits {s : Shape} {o : Opd} {l : Nat} (h : Fits s o) (hl : labelOf o = some l) : isLabel s = true := by
  cases s <;> cases o <;> simp only [Fits] at h <;> simp only [labelOf] at hl <;> simp_all [isLabel, Fits]

theorem labels_le : ∀ {ss : List Shape} {os : List Opd}, FitsAll ss os → (os.filterMap labelOf).length ≤ (ss.filter isLabel).length
  | [], [], _ => Nat.le_refl _
  | s :: ss, o :: os, h => by
    have := labels_le h.2
    rw [List.filterMap_cons]
    cases hl : labelOf o with
    | none =>
      rw [List.filter_cons]
      dsimp only
      split
      · rw [List.length_cons]; omega
      · omega
    | some l =>
      rw [List.filter_cons, if_pos (label_fits h.1 hl)]
      simp; omega

theorem fits_plain {s : Shape} {o : Opd} {A : Nat → BitVec 64} {next : BitVec 64} (h : Fits s o) :
    PlainMem (located A next o) ∧ NotUpper (located A next o) ∧
    (lowShape s = true → LowReg (located A next o)) ∧ (s = .mem → isMem (located A next o) = true) ∧
    operand o ≠ .empty ∧ Addressable (operand o) := by
  cases s <;> cases o <;> simp only [Fits] at h <;> try simp only [] at h
  all_goals first
    | (simp_all [located, PlainMem, NotUpper, lowShape, LowReg, isMem, operand, Addressable, regNumber]; done)
    | (rename_i lb v
       cases lb <;> simp_all [located, PlainMem, NotUpper, lowShape, LowReg, isMem, operand, Addressable]
       done)
    | skip
  obtain ⟨h1, h2, h3⟩ := h
  rename_i off b
  have ht : (BitVec.ofInt 64 off).toInt = off := by rw [BitVec.toInt_ofInt, Int.bmod_def]; omega
  refine ⟨⟨rfl, ?_⟩, trivial, fun _ => trivial, fun _ => rfl, by simp [operand], by simp, by rw [ht]; exact h1, by rw [ht]; exact h2,
    by simp⟩
  rintro ⟨hb, h0⟩
  refine h3 ⟨by simpa using hb, ?_⟩
  rw [← ht, h0]
  rfl

/-! ### Instructions of the forms -/

theorem form_facts {i : Ins} (h : Emitted i) : ∃ ss, FitsAll ss i.ops ∧ formOk (i.mn, ss) = true := by
  obtain ⟨f, hf, h1, h2⟩ := h
  exact ⟨f.2, h2, h1 ▸ List.all_eq_true.1 forms_ok f hf⟩

theorem emitted_sound {i : Ins} (h : Emitted i) : Sound i := by
  obtain ⟨ss, hs, hok⟩ := form_facts h
  simp only [formOk, Bool.and_eq_true, Bool.or_eq_true, decide_eq_true_eq] at hok
  obtain ⟨⟨⟨⟨_, _⟩, hm⟩, hh⟩, h1⟩ := hok
  constructor
  · refine ⟨?_, ?_⟩
    · intro o ho
      obtain ⟨x, hx, rfl⟩ := List.mem_map.1 ho
      obtain ⟨s, _, hf⟩ := fitsAll_mem hs x (List.mem_reverse.1 hx)
      exact ⟨(fits_plain hf).1, (fits_plain hf).2.1⟩
    · rcases hh with (hh | hh) | hh
      · obtain ⟨s, hmem, hs2⟩ := List.any_eq_true.1 hh
        obtain ⟨o, ho, hf⟩ := fitsAll_mem' hs s hmem
        left
        refine List.any_eq_true.2 ⟨_, List.mem_map.2 ⟨o, List.mem_reverse.2 ho, rfl⟩, (fits_plain hf).2.2.2.1 (by simpa using hs2)⟩
      · exact .inr (.inl (by rw [← mnName_spelling]; simpa using hh))
      · refine .inr (.inr ?_)
        intro o ho
        obtain ⟨x, hx, rfl⟩ := List.mem_map.1 ho
        obtain ⟨s, hs', hf⟩ := fitsAll_mem hs x (List.mem_reverse.1 hx)
        exact (fits_plain hf).2.2.1 (List.all_eq_true.1 hh s hs')
  · intro A next _
    obtain ⟨m, hm, hm2⟩ := List.any_eq_true.1 hm
    simp only [Bool.and_eq_true, beq_iff_eq] at hm2
    obtain ⟨as, has⟩ := fitsAll_slot A next hm2.2 (fitsAll_reverse hs)
    exact ⟨_, m, hm, hm2.1, as, has, rfl⟩
  · exact Nat.le_trans (labels_le hs) h1
  · intro l v hv
    obtain ⟨s, _, hf⟩ := fitsAll_mem hs _ hv
    cases s <;> simp only [Fits] at hf
    exact hf

/-! ### The size of the immediate -/

/-- No immediate of less than 4 bytes. -/
def Wide (p : Parts) : Prop := p.hasImm8 = false ∧ p.hasImm16 = false

theorem encodeSib_wide {i b : Option Reg} {off : BitVec 64} {p q : Parts} (h : encodeSib i b off p = .ok q) :
    q.hasImm8 = p.hasImm8 ∧ q.hasImm16 = p.hasImm16 := by
  unfold encodeSib at h
  obtain ⟨d, _, h⟩ := Res.bind_eq_ok.1 h
  repeat' split at h
  all_goals first
    | (injection h with h; subst h; exact ⟨rfl, rfl⟩)
    | cases h

theorem setImm_wide {o : Operand} {p : Parts} (h : Wide p) : Wide (setImm o p) := by
  unfold setImm; split <;> exact h

theorem encodeOperand_wide {e : Encoding} {oe : OE} {o : Operand} {p q : Parts} (h1 : oe ≠ .imm8) (h2 : oe ≠ .imm16)
    (hp : Wide p) (h : encodeOperand e oe o p = .ok q) : Wide q := by
  cases oe
  all_goals simp only [encodeOperand] at h
  all_goals first
    | exact absurd rfl h1
    | exact absurd rfl h2
    | skip
  all_goals repeat' split at h
  all_goals first
    | (injection h with h; subst h; exact hp)
    | (injection h with h; subst h; exact setImm_wide hp)
    | (have := encodeSib_wide h; unfold Wide at *; rw [this.1, this.2]; exact hp)
    | cases h

theorem askRex_wide {o : Operand} {p : Parts} (h : Wide p) : Wide (askRex o p) := by
  unfold askRex; repeat' split
  all_goals exact h

theorem loop_wide {e : Encoding} : ∀ {oes : List OpEnc} {ops : List Operand} {p q : Parts},
    (∀ x ∈ oes, x.type ≠ .imm8 ∧ x.type ≠ .imm16) → Wide p → loop e oes ops p = .ok q → Wide q := by
  intro oes
  induction oes with
  | nil => intro ops p q _ hp h; simp only [loop] at h; injection h with h; subst h; exact hp
  | cons x oes ih =>
    intro ops p q ho hp h
    cases ops with
    | nil => simp only [loop] at h; injection h with h; subst h; exact hp
    | cons o os =>
      simp only [loop] at h
      split at h
      · cases h
      · obtain ⟨r, h1, h2⟩ := Res.bind_eq_ok.1 h
        exact ih (fun y hy => ho y (List.mem_cons_of_mem _ hy))
          (encodeOperand_wide (ho x (by simp)).1 (ho x (by simp)).2 (askRex_wide hp) h1) h2

theorem sizes_of {mn : String} {l : List Operand} {bytes : List Byte} {rels : List Rel}
    (hw : ∀ e ∈ encodings, e.mnemonic = mn → wideImm e = true)
    (h : assembleInstruction encodings mn l = .ok (some (bytes, rels))) :
    ∀ r ∈ rels, r.size = 4 ∨ (r.size = 8 ∧ r.relative = false) := by
  obtain ⟨_, _, _, h4⟩ := Encode.search_spec _ _ _ _ _ h (by simp)
  rcases h4 _ rfl with h | ⟨e, he, hmn, hM, ha⟩
  · cases h
  · rw [assembleEncoding] at ha
    obtain ⟨P, hP, hp⟩ := Res.bind_eq_ok.1 ha
    dsimp only at hp
    split at hp
    · injection hp with hp
      have hw := hw e he hmn
      have hP : Wide P := by
        refine loop_wide ?_ ⟨rfl, rfl⟩ hP
        intro x hx
        unfold pad4 at hx
        rcases List.mem_append.1 (List.mem_of_mem_take hx) with hx | hx
        · have := List.all_eq_true.1 hw x hx
          simpa using this
        · simp at hx; subst hx; exact ⟨by simp, by simp⟩
      have hP : Wide (finishRex P) := by
        unfold finishRex
        split <;> exact hP
      intro r hr
      have hr : r ∈ (emit e (finishRex P)).2 := by rw [hp]; exact hr
      unfold emit at hr
      dsimp only at hr
      generalize (Encode.headBytes e (finishRex P)).length = a at hr
      generalize (Encode.headBytes e (finishRex P) ++ Encode.immBytes (finishRex P)).length = b at hr
      rcases List.mem_append.1 hr with hr | hr
      · unfold immRels at hr
        split at hr
        · cases hr
        · next h0 =>
          split at hr
          · rw [List.mem_singleton] at hr
            subst hr
            dsimp only
            unfold immSize at h0 ⊢
            rw [hP.1, hP.2] at h0 ⊢
            simp only [Bool.false_eq_true, if_false] at h0 ⊢
            split
            · exact .inl rfl
            · next h1 =>
              rw [if_neg h1] at h0
              split
              · exact .inr ⟨rfl, trivial⟩
              · next h2 => rw [if_neg h2] at h0; exact absurd rfl h0
          · cases hr
      · unfold relRels at hr
        split at hr
        · split at hr
          · rw [List.mem_singleton] at hr
            subst hr
            exact .inl rfl
          · cases hr
        · cases hr
    · cases hp

theorem asmRels_ok {ids : Nat → Int} {len : Nat} : ∀ {rels : List Rel},
    (∀ r ∈ rels, r.size = 4 ∨ (r.size = 8 ∧ r.relative = false)) → ∃ os, asmRels ids len rels = .ok os
  | [], _ => ⟨[], rfl⟩
  | r :: rs, h => by
    obtain ⟨os, hos⟩ := asmRels_ok (ids := ids) (len := len) (fun x hx => h x (List.mem_cons_of_mem _ hx))
    have : ∃ o, asmRel ids len r = .ok o := by
      unfold asmRel
      rcases h r (by simp) with h | ⟨h, h'⟩
      · cases hrel : r.relative <;> simp [h]
      · rw [h]; simp only [h', Bool.false_eq_true, if_false]; exact ⟨_, rfl⟩
    obtain ⟨o, ho⟩ := this
    exact ⟨o :: os, by simp only [asmRels, ho, hos, Res.bind_ok]; rfl⟩

theorem emitted_assembles {i : Ins} (h : Emitted i) (ids : Nat → Int) : ∃ ops, asmIns ids i = .ok ops := by
  obtain ⟨ss, hs, hok⟩ := form_facts h
  simp only [formOk, Bool.and_eq_true] at hok
  obtain ⟨⟨⟨⟨hr, hall⟩, _⟩, _⟩, _⟩ := hok
  have hall := List.all_eq_true.1 hall
  obtain ⟨e, he, hr⟩ := List.any_eq_true.1 hr
  simp only [Bool.and_eq_true, beq_iff_eq] at hr
  have hA : Accepts e.operandAccepts (i.ops.map operand).reverse := by
    rw [← List.map_reverse]
    exact fitsAll_acc hr.2 (fitsAll_reverse hs)
  have hlen : ∀ e ∈ encodings, e.mnemonic = mnName i.mn → (i.ops.map operand).reverse.length = e.operandAccepts.length := by
    intro e he hm
    have := hall e he
    simp only [hm, bne_self_eq_false, Bool.false_or, Bool.and_eq_true, beq_iff_eq] at this
    rw [List.length_reverse, List.length_map, ← fitsAll_length hs]
    exact this.1.symm
  have hop : ∀ o ∈ (i.ops.map operand).reverse, o ≠ .empty ∧ Addressable o := by
    intro o ho
    obtain ⟨x, hx, rfl⟩ := List.mem_map.1 (List.mem_reverse.1 ho)
    obtain ⟨s, _, hf⟩ := fitsAll_mem hs x hx
    exact (fits_plain (A := fun _ => 0) (next := 0) hf).2.2.2.2
  obtain ⟨r, hr2⟩ := Encode.choose_returns_partial _ _ hop hlen
  have h4 : (i.ops.map operand).reverse.length ≤ 4 := by
    have := hlen e he hr.1
    rw [this]
    exact (by decide +kernel : ∀ e ∈ encodings, e.operandAccepts.length ≤ 4) e he
  obtain ⟨_, h2, _, _⟩ := Encode.search_spec _ _ _ _ _ hr2 (by simp)
  obtain ⟨_, o, _, ho, _⟩ := h2 e he hr.1 (Encode.match_row h4 hA)
  subst ho
  obtain ⟨bytes, rels⟩ := o
  have hsz : ∀ r ∈ rels, r.size = 4 ∨ (r.size = 8 ∧ r.relative = false) := by
    by_cases hl : ss.all (fun s => !isLabel s) = true
    · intro r hr
      exfalso
      have hno : ∀ o ∈ i.ops, labelOf o = none := by
        intro o ho
        cases hx : labelOf o with
        | none => rfl
        | some l =>
          obtain ⟨s, hs', hf⟩ := fitsAll_mem hs o ho
          have := List.all_eq_true.1 hl s hs'
          rw [label_fits hf hx] at this
          cases this
      rcases ((relocs_of hr2).1 r hr).1 with ⟨_, h⟩ | ⟨_, _, v, h⟩
      · obtain ⟨o, ho, h⟩ := mem_operands h (by simp)
        obtain ⟨w, rfl, _⟩ := operand_imm h
        cases hno _ ho
      · obtain ⟨o, ho, h⟩ := mem_operands h (by simp)
        obtain ⟨w, rfl, _⟩ := operand_abs h
        cases hno _ ho
    · refine sizes_of ?_ hr2
      intro e he hm
      have := hall e he
      simp only [hm, bne_self_eq_false, Bool.false_or, Bool.and_eq_true, Bool.or_eq_true] at this
      rcases this.2 with h | h
      · exact h
      · exact absurd h hl
  obtain ⟨os, hos⟩ := asmRels_ok (ids := ids) (len := bytes.length) hsz
  refine ⟨os ++ [.write bytes], ?_⟩
  unfold asmIns
  rw [hr2]
  simp only [Res.bind_ok, hos]
  rfl

end Verif.Assemble
