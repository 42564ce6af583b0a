import Verif.AsmTextView
/-!
Property C99: the text that `-S` writes says what the object would contain.
-/
namespace Verif.AsmText
open Verif Asm AsmTextSpec
open Verif.Object (Name str Entry getLabel)
open Verif.ObjectSpec (Call CallOf CallsOf View Shows view step quadBytes)

/-- C99.  The text of any calls of the assembler is read - by a reader of the assembler's syntax that
knows nothing of the printer - as exactly the statements that the calls mean, each in its section. -/
theorem text_reads {es : List Entry} (hs : Syms es) {ids : Nat → Int} {ls : List Line} {t : Name}
    (h : asmText es ids ls = .ok t) (hl : ∀ l ∈ ls, LineOk es ids l) :
    ∃ ss, readText t = some ss ∧ place ss = place (ls.map (meant es ids)).flatten := by
  exact ⟨_, (emitLines_reads hs h hl).readText, placeIn_squeeze _ _⟩

/-- C99.  Assembled by an assembler that encodes the instructions as the compiler itself does, the text
gives the sections, symbols and references of the object that the compiler writes for the same calls. -/
theorem text_same_object {es : List Entry} (hs : Syms es) {ids : Nat → Int} {ls : List Line} {t : Name}
    (h : asmText es ids ls = .ok t) (hl : ∀ l ∈ ls, LineOk es ids l)
    {ops : List Object.Op} (ho : objLines ids ls = .ok ops)
    (enc : Txt → List Operand → List Call)
    (henc : ∀ i, .ins i ∈ ls → ∀ os, Assemble.asmIns ids i = .ok os →
      CallsOf es os (enc (txt (AsmNames.spelling i.mn)) (i.ops.map (meantOp es ids))))
    (hid : ∀ l, ids l ≠ -1) (hal : ∀ n, .align n ∈ ls → 0 < n)
    (hg : ∀ l g l' g', .label g l ∈ ls → .label g' l' ∈ ls → nameOf es ids l = nameOf es ids l' → g = g') :
    ∃ ss o, readText t = some ss ∧ Object.run es Object.objectStart ops = .ok o ∧
      Shows (Object.objectFinish o) (assembled enc ss) := by
  obtain ⟨calls, hc, hv⟩ := objLines_calls (gs := globals (ls.map (meant es ids)).flatten) hs hid h ho henc hal
    (flags_of hg)
  obtain ⟨o, hr, hsh⟩ := Object.object_accumulates hc
  refine ⟨_, o, (emitLines_reads hs h hl).readText, hr, ?_⟩
  have : assembled enc (squeeze (str ".text") (ls.map (meant es ids)).flatten) = view calls := by
    unfold assembled view
    rw [globals_squeeze, foldl_squeeze enc _ (no_sect ho henc) (str ".text") (v := ObjectSpec.start) rfl]
    exact (hv ObjectSpec.start).symm
  rw [this]
  exact hsh

/-! ### Which calls are written -/

/-- The property in full: calls with named labels are written as text. -/
def TextWritten : Prop :=
  ∀ (es : List Entry) (ids : Nat → Int) (ls : List Line), (∀ l ∈ ls, Writable es ids l) → ∃ t, asmText es ids ls = .ok t

/-- C99, `_partial`: calls with named labels are written as text.  Missing: strings with the byte 127
(`text_written_violated`). -/
theorem text_written_partial {es : List Entry} {ids : Nat → Int} {ls : List Line} (h : ∀ l ∈ ls, Writable es ids l)
    (hd : ∀ bs, .string bs ∈ ls → (127 : Byte) ∉ bs) : ∃ t, asmText es ids ls = .ok t := by
  unfold asmText
  generalize str ".text" = cur
  induction ls generalizing cur with
  | nil => exact ⟨_, rfl⟩
  | cons l ls ih =>
    obtain ⟨⟨a, cur'⟩, ha⟩ := emitLine_ok cur (h l (List.mem_cons_self ..)) (fun bs e => hd bs (by rw [e]; exact List.mem_cons_self ..))
    obtain ⟨b, hb⟩ := ih (fun x hx => h x (List.mem_cons_of_mem _ hx)) (fun bs hbs => hd bs (List.mem_cons_of_mem _ hbs)) cur'
    exact ⟨_, by unfold emitLines; rw [ha, Res.bind_ok]; dsimp only; rw [hb, Res.bind_ok]; rfl⟩

/-- C99 is violated for strings with the byte 127: `character_to_escape_sequence` reads past its tables
(src/escape_sequence.c:56-128), although the object is written. -/
theorem text_written_violated : ¬ TextWritten := by
  intro h
  obtain ⟨t, ht⟩ := h [] (fun _ => 0) [.string [127]] (by
    intro l hl
    rw [List.mem_singleton.1 hl]
    trivial)
  have : asmText [] (fun _ => 0) [.string [127]] = .ub := by decide
  rw [this] at ht
  cases ht

/-! ### An example -/

/-- Names of a function and a variable. -/
def sampleEs : List Entry := [⟨.labelName, str "main"⟩, ⟨.labelName, str "x"⟩, ⟨.str, str "a\"\n"⟩]

/-- Label 0 is `main`, 1 is `x`, 2 is the string, and 3 is a temporary one. -/
def sampleIds : Nat → Int
  | 0 => 0
  | 1 => 1
  | 2 => 2
  | _ => -2

/-- A function, a string and a variable. -/
def sampleLines : List Line :=
  [.sect (str ".text"), .label true 0, .comment (str "code"), .ins ⟨.movq, [.imm (some 1) 8, .reg .rax 8]⟩,
   .ins ⟨.movb, [.reg .r8 1, .mem (-24) .rbp]⟩, .ins ⟨.movl, [.imm none (-5), .mem 0 .rdi]⟩, .label false 3,
   .ins ⟨.jne, [.abs (some 3) 0]⟩, .ins ⟨.callq, [.star .rax]⟩, .ins ⟨.movsd, [.xmm 15, .xmm 0]⟩, .ins ⟨.ret, []⟩,
   .sect (str ".rodata"), .label false 2, .string (str "a\"\n"), .sect (str ".data"), .align 8, .label true 1,
   .quad (some 0) (-8), .quad none 258, .byte 255, .zero 7, .sect (str ".text")]

/-- Its text. -/
def sampleText : String :=
  ".global main\nmain:\n\t#code\n\tmovq $x+8, %rax\n\tmovb %r8b, -24(%rbp)\n\tmovl $-5, (%rdi)\n.L2:\n\tjne .L2\n" ++
  "\tcallq *%rax\n\tmovsd %xmm15, %xmm0\n\tret \n.section .rodata\n.Ls2:\n\t.string \"a\\\"\\n\"\n" ++
  ".section .data\n.align 8\n.global x\nx:\n.quad main+-8\n.quad 258\n.byte 255\n.zero 7\n.section .text\n"

theorem sample_text : asmText sampleEs sampleIds sampleLines = .ok (str sampleText) := by decide +kernel

theorem sample_syms : Syms sampleEs := by
  intro e he _
  simp only [sampleEs, List.mem_cons, List.not_mem_nil, or_false] at he
  rcases he with rfl | rfl | rfl <;> first | decide | contradiction

theorem sample_ok : ∀ l ∈ sampleLines, LineOk sampleEs sampleIds l := by
  intro l hl
  simp only [sampleLines, List.mem_cons, List.not_mem_nil, or_false] at hl
  rcases hl with rfl | rfl | rfl | rfl | rfl | rfl | rfl | rfl | rfl | rfl | rfl | rfl | rfl | rfl | rfl | rfl | rfl | rfl | rfl |
    rfl | rfl | rfl
  all_goals first
    | trivial
    | (show isSym _ = true; decide)
    | (intro o ho; cases ho; done)
    | (show ch '\n' ∉ _; decide)
    | (intro o ho
       simp only [List.mem_cons, List.not_mem_nil, or_false] at ho
       rcases ho with rfl | rfl <;> first | trivial | (show _ < 16; decide))
    | (intro o ho
       simp only [List.mem_cons, List.not_mem_nil, or_false] at ho
       subst ho
       first | trivial | (show (nameOf sampleEs sampleIds 3).head? ≠ _; decide +kernel))

example : ∃ ss, readText (str sampleText) = some ss ∧
    place ss = place (sampleLines.map (meant sampleEs sampleIds)).flatten :=
  text_reads sample_syms sample_text sample_ok

/-- The encoder of the compiler, as an assembler would use it. -/
def sampleData : List Line := sampleLines.filter fun l => match l with | .ins _ => false | _ => true

example : ∃ t ss o ops, asmText sampleEs sampleIds sampleData = .ok t ∧ readText t = some ss ∧
    objLines sampleIds sampleData = .ok ops ∧
    Object.run sampleEs Object.objectStart ops = .ok o ∧ Shows (Object.objectFinish o) (assembled (fun _ _ => []) ss) := by
  obtain ⟨t, ht⟩ : ∃ t, asmText sampleEs sampleIds sampleData = .ok t := by
    refine text_written_partial ?_ ?_
    · intro l hl
      have hl := List.mem_filter.1 hl
      simp only [sampleLines, List.mem_cons, List.not_mem_nil, or_false] at hl
      obtain ⟨hl, h2⟩ := hl
      rcases hl with rfl | rfl | rfl | rfl | rfl | rfl | rfl | rfl | rfl | rfl | rfl | rfl | rfl | rfl | rfl | rfl | rfl | rfl | rfl |
        rfl | rfl | rfl
      all_goals first
        | trivial
        | exact ⟨str "main", by decide +kernel⟩
        | exact ⟨str "x", by decide +kernel⟩
        | exact ⟨str ".Ls2", by decide +kernel⟩
        | exact ⟨str ".L2", by decide +kernel⟩
        | (exfalso; revert h2; decide)
    · intro bs hbs
      have hbs : Line.string bs = .string (str "a\"\n") := by simpa [sampleData, sampleLines] using hbs
      injection hbs with hbs
      subst hbs; decide
  obtain ⟨ops, ho⟩ : ∃ ops, objLines sampleIds sampleData = .ok ops := ⟨_, rfl⟩
  obtain ⟨ss, o, h1, h2, h3⟩ := text_same_object sample_syms ht (fun l hl => sample_ok l (List.mem_filter.1 hl).1) ho (fun _ _ => [])
    (by
      intro i hi
      have := (List.mem_filter.1 hi).2
      cases this)
    (by intro l; unfold sampleIds; split <;> decide)
    (by
      intro n hn
      have : Line.align n = .align 8 := by simpa [sampleData, sampleLines] using hn
      injection this with this
      omega)
    (by
      have key : ∀ g l, Line.label g l ∈ sampleData → nameOf sampleEs sampleIds l =
          (if g then nameOf sampleEs sampleIds l else nameOf sampleEs sampleIds l) ∧
          (g = decide (nameOf sampleEs sampleIds l = str "main" ∨ nameOf sampleEs sampleIds l = str "x")) := by
        intro g l h
        have : (g = true ∧ l = 0) ∨ (g = false ∧ l = 3) ∨ (g = false ∧ l = 2) ∨ (g = true ∧ l = 1) := by
          simpa [sampleData, sampleLines] using h
        rcases this with ⟨rfl, rfl⟩ | ⟨rfl, rfl⟩ | ⟨rfl, rfl⟩ | ⟨rfl, rfl⟩ <;> decide +kernel
      intro l g l' g' h h' e
      rw [(key g l h).2, (key g' l' h').2, e])
  exact ⟨t, ss, o, ops, ht, h1, ho, h2, h3⟩

end Verif.AsmText
