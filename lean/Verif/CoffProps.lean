import Verif.CoffFileLemmas
/-!
C54: every field of a COFF object file is where the format puts it and has the right value.
-/
namespace Verif.Coff
open Verif Verif.Object Verif.Bytes Verif.ElfSpec Verif.CoffSpec

/-- C54. The file of a writable object is a COFF file of that object: every header, symbol, string, section and relocation is at
its place, and the parts follow each other without gaps and overlaps. What is missing: sections whose names have more than 8
bytes, for which the statement does not hold (`coff_layout_violated`). -/
theorem coff_layout_partial {o : Obj} (h : CoffSpec.Writable o) (hn : ∀ s ∈ o.sections, (s.name.getD []).length ≤ 8) :
    ∃ file strings raw, writeObject o = .ok file ∧ IsCoff o file strings raw := by
  obtain ⟨file, h1, h2⟩ := file_isCoff h hn
  exact ⟨file, _, _, h1, h2⟩

/-- An object with code that calls a function with a long name. -/
def sampleCoff : Obj :=
  { sections := [{ name := some (str ".text"), alignment := 16, data := [0xe8, 0, 0, 0, 0, 0xc3]
                   relocs := [{ type := .r32rel, idx := 1, offset := 1, add := -4 }] },
                 { name := some (str ".data"), alignment := 8, data := List.replicate 8 0
                   relocs := [{ type := .r64, idx := 0, offset := 0, add := 5 }] }]
    symbols := [{ name := some (str "main"), value := 0, size := 0, global := true, sect := some 0 },
                { name := some (str "a_long_function"), value := 0, size := 0, global := true, sect := none }] }

theorem sampleCoff_writable : CoffSpec.Writable sampleCoff where
  align := by
    intro s hs
    simp only [sampleCoff, List.mem_cons, List.not_mem_nil, or_false] at hs
    rcases hs with rfl | rfl
    · exact .inr ⟨4, by decide, rfl⟩
    · exact .inr ⟨3, by decide, rfl⟩
  add := by decide
  field := by decide
  apart := by decide
  index := by decide
  sect := by
    intro y hy s hs
    simp only [sampleCoff, List.mem_cons, List.not_mem_nil, or_false] at hy
    rcases hy with rfl | rfl
    · injection hs with hs
      subst hs
      decide
    · cases hs
  value := by decide
  nsect := by decide
  nrel := by decide
  dataSize := by decide
  small := by decide +kernel

example : ∃ file strings raw, writeObject sampleCoff = .ok file ∧ IsCoff sampleCoff file strings raw :=
  coff_layout_partial sampleCoff_writable (by decide +kernel)

/-- An object with a section whose name has more than 8 bytes. -/
def longSection : Obj :=
  { sections := [{ name := some (str ".initialised"), alignment := 1, data := [1], relocs := [] }], symbols := [] }

theorem longSection_writable : CoffSpec.Writable longSection where
  align := by
    intro s hs
    simp only [longSection, List.mem_cons, List.not_mem_nil, or_false] at hs
    subst hs
    exact .inr ⟨0, by decide, rfl⟩
  add := by decide
  field := by decide
  apart := by decide
  index := by decide
  sect := by intro y hy; cases hy
  value := by decide
  nsect := by decide
  nrel := by decide
  dataSize := by decide
  small := by decide +kernel

/-- The decimal digits that the name of a section can hold. -/
theorem sect_digits {file : List Byte} {p : Nat} {ds : List Nat} (h : ShortName file p (ch '/' :: ds.map fun d => BitVec.ofNat 8 (48 + d)))
    (hd : ∀ d ∈ ds, d < 10) (hne : ds ≠ []) (h1 : file[p + 1]? = some 49) (h2 : file[p + 2]? = some 0) : ds = [1] := by
  obtain ⟨hl, -, hat⟩ := h
  match ds, hne with
  | [d], _ =>
    have := hat 1 (by simp)
    rw [h1] at this
    simp only [List.map_cons, List.map_nil, List.cons_append, List.getElem?_cons_succ, List.getElem?_cons_zero, Option.some.injEq] at this
    have hlt := hd d (by simp)
    have e : (49 : BitVec 8).toNat = (BitVec.ofNat 8 (48 + d)).toNat := congrArg BitVec.toNat this
    rw [BitVec.toNat_ofNat, Nat.mod_eq_of_lt (by omega)] at e
    have : (49 : BitVec 8).toNat = 49 := by decide
    congr 1
    omega
  | d :: e :: ds, _ =>
    have := hat 2 (by simp)
    rw [h2] at this
    simp only [List.map_cons, List.cons_append, List.getElem?_cons_succ, List.getElem?_cons_zero, Option.some.injEq] at this
    have hlt := hd e (by simp)
    have e0 : (0 : BitVec 8).toNat = (BitVec.ofNat 8 (48 + e)).toNat := congrArg BitVec.toNat this
    rw [BitVec.toNat_ofNat, Nat.mod_eq_of_lt (by omega)] at e0
    have : (0 : BitVec 8).toNat = 0 := by decide
    omega

/-- C54 does not hold for sections with long names: the name of the section is written as `/1`, the offset of the name in the
strings, but the format counts from the size field of the table, four bytes before. -/
theorem coff_layout_violated : ∃ o, CoffSpec.Writable o ∧ ∃ file, writeObject o = .ok file ∧ ∀ strings raw, ¬IsCoff o file strings raw := by
  obtain ⟨file, hf, h1, h2, h3, h4⟩ : ∃ file, writeObject longSection = .ok file ∧ file[20 + 1]? = some 49 ∧ file[20 + 2]? = some 0 ∧
      file[20]? = some 47 ∧ file[60 + 1]? = some 0 := by
    have hc : (match writeObject longSection with
        | .ok f => decide (f[20 + 1]? = some 49 ∧ f[20 + 2]? = some 0 ∧ f[20]? = some 47 ∧ f[60 + 1]? = some 0)
        | _ => false) = true := by decide +kernel
    cases hw : writeObject longSection with
    | ok f =>
      rw [hw] at hc
      exact ⟨f, rfl, of_decide_eq_true hc⟩
    | fail => rw [hw] at hc; cases hc
    | ub => rw [hw] at hc; cases hc
  refine ⟨longSection, longSection_writable, file, hf, ?_⟩
  intro strings raw hc
  have hs := (hc.sections 0 _ rfl).name
  rcases hs with hs | ⟨-, ds, hne, hd, hsn, htab⟩
  · exact absurd hs.1 (by decide +kernel)
  · have := sect_digits hsn hd hne h1 h2
    subst this
    have hb := htab.2 0 (by simp)
    rw [show 20 + 40 * longSection.sections.length + 18 * longSection.symbols.length + decValue [1] + 0 = 60 + 1 by decide, h4] at hb
    exact absurd hb (by decide +kernel)

end Verif.Coff
