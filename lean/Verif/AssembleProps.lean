import Verif.AssembleFunc
import Verif.AssembleSection
/-!
Property C97: the machine code of a function.
-/
namespace Verif.Assemble
open Verif Asm AssembleSpec EncodeSpec ObjectSpec LinkerSpec
open Verif.Encode (Operand Rel)
open Verif.FuncCode (Item Func)
open Verif.Object (Obj Name Section Entry str run objectStart objectFinish)

/-! ### C97 -/

/-- C97, lines of assembly.  Lines that the assembler accepts, whose instructions are in the domain of
the encoder (`Sound`), are written to an object among other output, and the object is linked with
others.  Then the image holds the lines from the position of the section and the bytes before them on:
each instruction decodes to what its line says, with the addresses the labels have in the image
(`At`), jumps relative to the next instruction, and every label has the address where it stands.

Assumptions: the labels have distinct names that are not defined again, labels used as immediates are
below 2 GiB (the code model), and the rest of the output keeps its relocated fields inside what it
writes (`Inside`). -/
theorem lines_in_image {es : List Entry} {ids : Nat → Int} {global : Nat → Bool} {items : List Item} {nm : Nat → Name}
    {pre ops post : List Object.Op} {cpre ci cpost : List Call} {o : Obj} {os : List Obj} {a : Nat} {A : Nat → BitVec 64}
    (ha : asmItems ids global items = .ok ops) (hs : ∀ i, .ins i ∈ items → Sound i)
    (hpre : CallsOf es pre cpre) (hi : CallsOf es ops ci) (hpost : CallsOf es post cpost)
    (hrun : run es objectStart (pre ++ ops ++ post) = .ok o) (ho : os[a]? = some (objectFinish o)) (hl : Linkable os)
    (hin : Inside (view cpre)) (hall : Inside (view (cpre ++ ci ++ cpost)))
    (hn : ∀ l ∈ items.flatMap mentioned, Object.getLabel es (ids l) = .ok (nm l) ∧ At os a (nm l) (A l))
    (hsm : ∀ i l v, .ins i ∈ items → .imm (some l) v ∈ i.ops → (A l + BitVec.ofInt 64 v).toNat < 2 ^ 31)
    (hd : (defined items).Pairwise (fun l k => nm l ≠ nm k)) (hno : ∀ l ∈ defined items, ∀ g, Call.define (nm l) g ∉ cpost) :
    ∃ e s t, Linker.linkerLink os = .ok e ∧ (objectFinish o).sections[s]? = some t ∧ t.name = some (view cpre).cur ∧
      Laid e.data A (LinkerSpec.start os a s + ((view cpre).content (view cpre).cur).length) items
        (LinkerSpec.start os a s + ((view (cpre ++ ci)).content (view cpre).cur).length) := by
  have hcall : CallsOf es (pre ++ ops ++ post) (cpre ++ ci ++ cpost) := Object.callsOf_append (Object.callsOf_append hpre hi) hpost
  obtain ⟨o', e1, hsh⟩ := Object.object_accumulates hcall
  rw [hrun] at e1; injection e1 with e1; subst e1
  obtain ⟨o1, r1, hg⟩ := Object.good_run Object.good_start hpre
  rw [List.append_assoc] at hrun
  obtain ⟨o2, r1', r2⟩ := run_append hrun
  rw [r1] at r1'; injection r1' with r1'; subst r1'
  obtain ⟨t0, ht0, hn0⟩ := hg.cur
  obtain ⟨t, ht, htn⟩ := sections_kept hg (Object.callsOf_append hi hpost) r2 ht0
  obtain ⟨e, he, _⟩ := Linker.sections_placed hl
  refine ⟨e, o1.cur, t, he, ht, by rw [htn]; exact hn0, ?_⟩
  exact items_laid ⟨ho, hsh, hl, he, hall, t, ht, by rw [htn]; exact hn0⟩ rfl hin ha hi hs hn hsm hd hno

/-- C97, functions.  The code of a function that is within the limits of the machine (`FuncWithin`) is
accepted by the assembler, and whatever is written before and after it, the image of the linked
program holds it: every instruction decodes to what the code generator said, and every block is where
its jumps go.

Full statement: without `FuncWithin`.  A node of size 0 whose address is taken breaks it: its place is
`0(%rbp)`, which the encoder gets wrong (C43, `encode_rbp_violated`; below, `function_in_image_violated`). -/
theorem function_in_image_partial {es : List Entry} {ids : Nat → Int} {nm : Nat → Name} (global : Nat → Bool) {f : Func}
    {items : List Item} (hf : FuncWithin f) (hc : FuncCode.function f = .ok items)
    (hn : ∀ l ∈ items.flatMap mentioned, Object.getLabel es (ids l) = .ok (nm l) ∧ ids l ≠ -1)
    (hd : (defined items).Pairwise (fun l k => nm l ≠ nm k)) :
    ∃ ops ci, asmItems ids global items = .ok ops ∧ CallsOf es ops ci ∧
      ∀ pre post cpre cpost o os a A, CallsOf es pre cpre → CallsOf es post cpost →
        run es objectStart (pre ++ ops ++ post) = .ok o → os[a]? = some (objectFinish o) → Linkable os →
        Inside (view cpre) → Inside (view (cpre ++ ci ++ cpost)) →
        (∀ l ∈ items.flatMap mentioned, At os a (nm l) (A l)) →
        (∀ i l v, .ins i ∈ items → .imm (some l) v ∈ i.ops → (A l + BitVec.ofInt 64 v).toNat < 2 ^ 31) →
        (∀ l ∈ defined items, ∀ g, Call.define (nm l) g ∉ cpost) →
        ∃ e s t, Linker.linkerLink os = .ok e ∧ (objectFinish o).sections[s]? = some t ∧ t.name = some (view cpre).cur ∧
          Laid e.data A (LinkerSpec.start os a s + ((view cpre).content (view cpre).cur).length) items
            (LinkerSpec.start os a s + ((view (cpre ++ ci)).content (view cpre).cur).length) := by
  have hall := function_all hf hc
  obtain ⟨ops, ho⟩ := asmItems_ok (ids := ids) (global := global) hall
  obtain ⟨ci, hci⟩ := asmItems_calls ho hn
  refine ⟨ops, ci, ho, hci, ?_⟩
  intro pre post cpre cpost o os a A hpre hpost hrun hos hl hin hin2 hat hsm hno
  exact lines_in_image ho (fun i hi => emitted_sound (hall i hi)) hpre hci hpost hrun hos hl hin hin2
    (fun l hl => ⟨(hn l hl).1, hat l hl⟩) hsm hd hno

/-! ### An example -/

/-- `int _start(void) { return 42; }` with a jump over a dead block. -/
def sampleF : Func :=
  ⟨0, [], [⟨1, [⟨0, 4, .const 42⟩], .jump 3, none, []⟩, ⟨2, [], .dead, none, []⟩, ⟨3, [], .ret [(.gpr .rax, 0)], none, []⟩]⟩

/-- The names of its labels: `_start`, `.L2`, `.L3`, `.L4`. -/
def sampleIds : Nat → Int
  | 0 => 0
  | n + 1 => -(n + 2)

/-- The registered names. -/
def sampleEs : List Entry := [⟨.labelName, str "_start"⟩]

/-- The names as byte strings. -/
def sampleNm (l : Nat) : Name := match Object.getLabel sampleEs (sampleIds l) with | .ok n => n | _ => []

/-- Its code. -/
def sampleItems : List Item := match FuncCode.function sampleF with | .ok is => is | _ => []

/-- What the assembler writes. -/
def sampleOps : List Object.Op := match asmItems sampleIds (· == 0) sampleItems with | .ok ops => ops | _ => []

/-- The finished object. -/
def sampleObj : Obj :=
  { sections := [{ name := some (str ".text"), relocs := [⟨.r32rel, 2, 19, -4⟩]
                   data := [0x55, 0x48, 0x89, 0xe5, 0x48, 0x83, 0xec, 0x10, 0x48, 0x8d, 0x7d, 0xfc, 0xc7, 0x07, 0x2a, 0, 0, 0,
                     0xe9, 0, 0, 0, 0, 0x0f, 0x0b, 0x8b, 0x45, 0xfc, 0xc9, 0xc3] }]
    symbols := [⟨some (str "_start"), 0, 0, true, some 0⟩, ⟨some (str ".L2"), 8, 0, false, some 0⟩,
      ⟨some (str ".L4"), 25, 0, false, some 0⟩, ⟨some (str ".L3"), 23, 0, false, some 0⟩] }

/-- The addresses of its labels. -/
def sampleA : Nat → BitVec 64
  | 0 => 0x10000
  | 1 => 0x10008
  | 2 => 0x10017
  | _ => 0x10019

theorem sample_linkable : Linkable [sampleObj] := by
  have hd : ∀ a o y b s w, ([sampleObj] : List Obj)[a]? = some o → y ∈ o.symbols →
      Target [sampleObj] a y b s w → b = 0 ∧ s = 0 ∧ w = y.value := by
    intro a o y b s w ho hy ht
    match a, ho with
    | 0, ho =>
      simp at ho; subst ho
      have hsec := (by decide : ∀ y ∈ sampleObj.symbols, y.sect = some 0) y hy
      cases ht with
      | own hs => rw [hsec] at hs; injection hs with hs; subst hs; exact ⟨rfl, rfl, rfl⟩
      | other hs => rw [hsec] at hs; cases hs
    | a + 1, ho => simp at ho
  refine ⟨by simp [sampleObj], by simp [sampleObj], ?_, ?_, ?_, by simp [sampleObj], by decide +kernel⟩
  · intro o ho s hs
    simp at ho; subst ho
    simp [sampleObj] at hs; subst hs
    exact ⟨by simp [width], List.pairwise_singleton _ _⟩
  · intro a o y ho hy
    match a, ho with
    | 0, ho =>
      simp at ho; subst ho
      have hsec := (by decide : ∀ y ∈ sampleObj.symbols, y.sect = some 0) y hy
      exact ⟨0, 0, y.value, .own hsec⟩
    | a + 1, ho => simp at ho
  · intro a o y b s w b' s' w' ho hy h1 h2
    obtain ⟨rfl, rfl, rfl⟩ := hd a o y b s w ho hy h1
    obtain ⟨rfl, rfl, rfl⟩ := hd a o y b' s' w' ho hy h2
    exact ⟨rfl, rfl, rfl⟩

/-- The calls by name. -/
def sampleCalls : List Call :=
  [.define (str "_start") true, .emit [0x55], .emit [0x48, 0x89, 0xe5], .emit [0x48, 0x83, 0xec, 0x10], .define (str ".L2") false,
   .emit [0x48, 0x8d, 0x7d, 0xfc], .emit [0xc7, 0x07, 0x2a, 0, 0, 0], .refer ⟨.r32rel, str ".L4", 1, -4⟩,
   .emit [0xe9, 0, 0, 0, 0], .define (str ".L3") false, .emit [0x0f, 0x0b], .define (str ".L4") false,
   .emit [0x8b, 0x45, 0xfc], .emit [0xc9], .emit [0xc3]]

/-- The function meets the hypotheses of both theorems, with nothing before and after it; its image. -/
example : FuncWithin sampleF ∧ FuncCode.function sampleF = .ok sampleItems ∧
    (∀ l ∈ sampleItems.flatMap mentioned, Object.getLabel sampleEs (sampleIds l) = .ok (sampleNm l) ∧ sampleIds l ≠ -1) ∧
    (defined sampleItems).Pairwise (fun l k => sampleNm l ≠ sampleNm k) ∧
    asmItems sampleIds (· == 0) sampleItems = .ok sampleOps ∧ CallsOf sampleEs sampleOps sampleCalls ∧
    (run sampleEs objectStart ([] ++ sampleOps ++ []) >>= fun o => .ok (objectFinish o)) = .ok sampleObj ∧ Linkable [sampleObj] ∧
    Inside (view []) ∧ Inside (view ([] ++ sampleCalls ++ [])) ∧
    (∀ l ∈ sampleItems.flatMap mentioned, At [sampleObj] 0 (sampleNm l) (sampleA l)) ∧
    (Linker.linkerLink [sampleObj] >>= fun e => .ok (e.data.drop 18)) =
      .ok [0xe9, 2, 0, 0, 0, 0x0f, 0x0b, 0x8b, 0x45, 0xfc, 0xc9, 0xc3] := by
  refine ⟨⟨by decide +kernel, by decide +kernel, ?_, ?_, ?_⟩, by decide +kernel, by decide +kernel, by decide +kernel, by decide +kernel,
    ?_, by decide +kernel, sample_linkable, ?_, ?_, ?_, by decide +kernel⟩
  · intro b hb n hn
    simp [sampleF] at hb
    rcases hb with rfl | rfl | rfl <;> simp at hn
    subst hn
    show -2147483648 ≤ (42 : BitVec 64).toInt ∧ (42 : BitVec 64).toInt < 4294967296
    decide
  · intro r hr; cases hr
  · intro b hb regs hr r hr'
    simp [sampleF] at hb
    rcases hb with rfl | rfl | rfl <;> simp at hr
    subst hr
    simp at hr'
    subst hr'
    trivial
  · exact ⟨⟨str "_start", by decide +kernel, by decide +kernel, rfl⟩, rfl, rfl, rfl, ⟨str ".L2", by decide +kernel, by decide +kernel, rfl⟩, rfl, rfl,
      ⟨str ".L4", by decide +kernel, by decide +kernel, rfl⟩, rfl, ⟨str ".L3", by decide +kernel, by decide +kernel, rfl⟩, rfl,
      ⟨str ".L4", by decide +kernel, by decide +kernel, rfl⟩, rfl, rfl, rfl, trivial⟩
  · intro n f hf; cases hf
  · intro n f hf
    by_cases hn : n = str ".text"
    · subst hn
      have : f = ⟨.r32rel, str ".L4", 19, -4⟩ := by
        have hr : (view ([] ++ sampleCalls ++ [])).refs (str ".text") = [⟨.r32rel, str ".L4", 19, -4⟩] := by decide +kernel
        rw [hr] at hf
        simpa using hf
      subst this
      decide +kernel
    · have hr : (view ([] ++ sampleCalls ++ [])).refs n = [] := by
        show upd _ _ _ n = _
        exact Object.upd_other _ _ hn
      rw [hr] at hf; cases hf
  · have key : ∀ l ∈ [0, 1, 2, 3], At [sampleObj] 0 (sampleNm l) (sampleA l) := by
      intro l hl
      have := (by decide +kernel : ∀ l ∈ [0, 1, 2, 3], ∃ y ∈ sampleObj.symbols, y.name = some (sampleNm l) ∧ y.sect = some 0 ∧
        sampleA l = LinkerSpec.addr [sampleObj] 0 0 + y.value) l hl
      obtain ⟨y, hy, h1, h2, h3⟩ := this
      exact ⟨sampleObj, y, 0, 0, _, rfl, hy, h1, .own h2, rfl, by simp [sampleObj], h3⟩
    intro l hl
    exact key l ((by decide +kernel : ∀ l ∈ sampleItems.flatMap mentioned, l ∈ [0, 1, 2, 3]) l hl)

/-! ### Where it fails -/

/-- The next line is where the decoder stops. -/
theorem laid_next {img : List Byte} {A : Nat → BitVec 64} {p r q : Nat} {i : Ins} {is : List Item}
    (h : Laid img A p (.ins i :: is) q) (hr : r ≤ img.length)
    (hd : (decode (img.drop p)).map (fun x => x.2.length) = some (img.length - r)) : Laid img A r is q := by
  cases h with
  | @ins _ _ m r' _ _ hm h1 h2 h3 h4 =>
    rw [h3] at hd
    simp at hd
    have : r' = r := by omega
    exact this ▸ h4

/-- `void _start(struct E *p) { *p; }` where `struct E {}` is empty. -/
def sampleE : Func := ⟨0, [(.gpr .rdi, 0)], [⟨1, [⟨0, 8, .nothing⟩, ⟨1, 0, .load 0⟩], .ret [], none, []⟩]⟩

/-- Its code. -/
def sampleEItems : List Item := match FuncCode.function sampleE with | .ok is => is | _ => []

/-- What the assembler writes. -/
def sampleEOps : List Object.Op := match asmItems sampleIds (· == 0) sampleEItems with | .ok ops => ops | _ => []

/-- The image: `leaq 0(%rbp), %rsi` has become `leaq 0(%rax), %rsi` (48 8d 70 00). -/
def sampleEImage : List Byte :=
  [0x55, 0x48, 0x89, 0xe5, 0x48, 0x83, 0xec, 0x10, 0x48, 0x89, 0x7d, 0xf8, 0x48, 0x8b, 0x7d, 0xf8, 0x48, 0x8d, 0x70, 0, 0xc9, 0xc3]

/-- C97 fails for an empty value whose address is taken: code is generated, assembled and linked, but
the image does not hold it, whatever the addresses of the labels. -/
theorem function_in_image_violated :
    ∃ f items ops, FuncCode.function f = .ok items ∧ asmItems sampleIds (· == 0) items = .ok ops ∧
      (run sampleEs objectStart ops >>= fun o => Linker.linkerLink [objectFinish o] >>= fun e => .ok e.data) = .ok sampleEImage ∧
      ∀ A q, ¬ Laid sampleEImage A 0 items q := by
  refine ⟨sampleE, sampleEItems, sampleEOps, by decide +kernel, by decide +kernel, by decide +kernel, ?_⟩
  intro A q h
  have hi : sampleEItems = [.label 0, .ins ⟨.pushq, [.reg .rbp 8]⟩, .ins ⟨.movq, [.reg .rsp 8, .reg .rbp 8]⟩,
    .ins ⟨.subq, [.imm none 16, .reg .rsp 8]⟩, .ins ⟨.movq, [.reg .rdi 8, .mem (-8) .rbp]⟩, .label 1,
    .ins ⟨.movq, [.mem (-8) .rbp, .reg .rdi 8]⟩, .ins ⟨.leaq, [.mem 0 .rbp, .reg .rsi 8]⟩, .ins ⟨.leave, []⟩, .ins ⟨.ret, []⟩] := by
    decide +kernel
  rw [hi] at h
  cases h with
  | label _ h =>
  replace h := laid_next (r := 1) h (by decide) (by decide +kernel)
  replace h := laid_next (r := 4) h (by decide) (by decide +kernel)
  replace h := laid_next (r := 8) h (by decide) (by decide +kernel)
  replace h := laid_next (r := 12) h (by decide) (by decide +kernel)
  cases h with
  | label _ h =>
  replace h := laid_next (r := 16) h (by decide) (by decide +kernel)
  cases h with
  | ins hm _ _ hd _ =>
  have hne : ∀ m ∈ mnemonics, m.1 = "leaq" →
      (slotArgs m.2.2 [.reg .rsi false 8, .mem none (some .rbp) 1 (BitVec.ofInt 64 0)]).map (fun as => (⟨m.2.1, expand m.2.1 as⟩ : Insn)) ≠
        (decode (sampleEImage.drop 16)).map (·.1) := by decide +kernel
  obtain ⟨m, h1, h2, as, h3, rfl⟩ := hm
  refine hne m h1 h2 ?_
  rw [hd]
  have h3' : slotArgs m.2.2 [.reg .rsi false 8, .mem none (some .rbp) 1 (BitVec.ofInt 64 0)] = some as := h3
  rw [h3']
  rfl

/-- C97 fails for a jump to an offset from a label (which is why `Sound` excludes it): the relocation of
`jmp l+4` is that of `jmp l`, and the field with the 4 is overwritten by it (C49).  The code generator
emits no such jump. -/
theorem jump_offset_violated :
    asmIns sampleIds ⟨.jmp, [.abs (some 3) 0]⟩ = .ok [.reloc (-4) 1 (-4) .r32rel, .write [0xe9, 0, 0, 0, 0]] ∧
      asmIns sampleIds ⟨.jmp, [.abs (some 3) 4]⟩ = .ok [.reloc (-4) 1 (-4) .r32rel, .write [0xe9, 4, 0, 0, 0]] := by
  decide +kernel

end Verif.Assemble
