import Verif.TentativeLemmas
/-!
C90: the translation unit defines exactly the objects that C17 6.9.2 says it defines, each once,
with the right initialiser, linkage and type.
-/
namespace Verif.Tentative
open Verif Types Simple

/-- `int`. -/
def tInt : Ty := .node (.simple .int) false []
/-- `int[]`. -/
def tUnknown : Ty := .node .incompleteArray false [tInt]
/-- `int[n]`. -/
def tArray (n : Nat) : Ty := .node (.array n) false [tInt]
/-- The name `x`. -/
def nameX : Str := [120]

/-- What is missing from the full statement (the conclusion for every valid `declarations x is`):
a tentative definition followed only by `extern` declarations is lost
(`tentative_then_extern_violated`), `extern` with an initialiser is rejected
(`extern_initialiser_violated`), and an array that nobody sizes does not get its one element
(`unsized_array_violated`).  The first and the last are excluded by hypotheses; the second by the
unit being accepted. -/
theorem objects_defined_partial {is : List Item} {vars : List Var} {x : Str} (hu : unit is = .ok vars)
    (hx : IsIdentifier x) (hv : Valid (declarations x is))
    (hlast : (declarations x is).any Decl.isDefinition = false → (declarations x is).any Decl.isTentative = true →
      ∀ d, (declarations x is).getLast? = some d → d.isExtern = false)
    (hsize : Defined (declarations x is) = true → (declarations x is).any Decl.isDefinition = true ∨
      ((declarations x is).any fun d => isComplete d.type) = true) :
    (Defined (declarations x is) = true → ∃ v, labelled x vars = [v] ∧
      v.init = (initialiser (declarations x is)).map (·.1) ∧
      v.isGlobal = !Internal (declarations x is) ∧
      objectType (declarations x is) = some v.type ∧
      ∀ a, (∀ d ∈ declarations x is, d.alignment = a) → v.alignment = a) ∧
    (Defined (declarations x is) = false → labelled x vars = []) := by
  obtain ⟨st, h1, h2⟩ := unit_eq hu
  have hinv : Inv x (declarations x is) st := by
    have := inv_items hx is [] St.start st (by simpa using hv) (inv_start x) h1
    simpa using this
  generalize declarations x is = ds at *
  rw [h2]
  cases ds with
  | nil =>
    refine ⟨fun hd => by simp [Defined] at hd, fun _ => ?_⟩
    obtain ⟨a, b⟩ := hinv.empty rfl
    rw [tentative_none _ _ (by rw [a]; intro s hs; simp at hs), b]
  | cons e es =>
    generalize hds : e :: es = ds at *
    have hne : ds ≠ [] := by rw [← hds]; simp
    obtain ⟨s, hs, hty, hal, hd1, hd2⟩ := hinv.sym (ds.getLast hne) (List.getLast?_eq_some_getLast hne)
    cases hdef : ds.any Decl.isDefinition with
    | true =>
      obtain ⟨_, hnt, v, a, b, c, d, f⟩ := hd1 hdef
      refine ⟨fun _ => ⟨v, ?_, b, c, ?_, f⟩, fun hd => by rw [Defined, hdef] at hd; simp at hd⟩
      · rw [tentative_none _ _ (by rw [hs]; intro s' hs'; rw [← Option.some.inj hs']; exact hnt), a]
      · rw [symType_object (.inr hdef)]; exact d
    | false =>
      obtain ⟨_, ht, hl, hg⟩ := hd2 hdef
      refine ⟨fun hd => ?_, fun hd => ?_⟩
      · have hte : ds.any Decl.isTentative = true := by simpa [Defined, hdef] using hd
        have hext := hlast hdef hte _ (List.getLast?_eq_some_getLast hne)
        have hst : s.isTentative = true := by rw [ht, hext]; rfl
        refine ⟨⟨x, s.type, none, s.isGlobal, s.alignment⟩, ?_, ?_, (hg hst).2, ?_, ?_⟩
        · rw [tentative_some hst _ _ hs (hg hst).1, hl]; rfl
        · rw [initialiser_none hdef]; rfl
        · rw [symType_object (by
            rcases hsize hd with h | h
            · rw [hdef] at h; simp at h
            · exact .inl h)]
          exact hty
        · intro a hall
          dsimp only
          rw [hal]
          exact hall _ (List.getLast_mem hne)
      · have hte : ds.any Decl.isTentative = false := by simpa [Defined, hdef] using hd
        have hst : s.isTentative = false := by
          rw [ht]
          rw [List.any_eq_false] at hte hdef
          have h3 := hte _ (List.getLast_mem hne)
          have h4 := hdef _ (List.getLast_mem hne)
          simp only [Decl.isTentative, Decl.isDefinition] at h3 h4
          cases hi : (ds.getLast hne).init.isSome <;> simp_all
        rw [tentative_none _ _ (by rw [hs]; intro s' hs'; rw [← Option.some.inj hs']; exact hst), hl]

/-- `static int x[]; static int y; static int x[2]; extern int x[2];
void f(void) { static int x = 1; }  static int x[] = {7, 8}; extern int z;` -/
def sample : List Item :=
  [.file ⟨nameX, tUnknown, true, false, none, 0⟩, .file ⟨[121], tInt, true, false, none, 0⟩,
   .file ⟨nameX, tArray 2, true, false, none, 0⟩, .file ⟨nameX, tArray 2, false, true, none, 0⟩,
   .block ⟨nameX, tInt, true, false, some (1, 1), 0⟩, .file ⟨nameX, tUnknown, true, false, some (5, 2), 0⟩,
   .file ⟨[122], tInt, false, true, none, 0⟩]

-- the hypotheses are met by the sample and its name `x`, which has four declarations
example : (unit sample).bind (fun vars => .ok (vars.map (fun v => (v.label, v.init, v.isGlobal))))
    = .ok [(localLabel 0 nameX, some 1, false), (nameX, some 5, false), ([121], none, false)] := by rfl

example : Valid (declarations nameX sample) ∧ (declarations nameX sample).length = 4 ∧
    Defined (declarations nameX sample) = true ∧ IsIdentifier nameX := by
  refine ⟨⟨?_, ?_, ?_, ?_, ?_⟩, rfl, rfl, 120, [], rfl, by decide, by decide⟩
  · intro d hd; simp [declarations, sample, nameX] at hd
    rcases hd with rfl | rfl | rfl | rfl <;> simp [tag, tUnknown, tArray, Kind.tag]
  · intro d hd; simp [declarations, sample, nameX] at hd
    rcases hd with rfl | rfl | rfl | rfl <;> simp
  · intro d hd; simp [declarations, sample, nameX] at hd
    rcases hd with rfl | rfl | rfl | rfl <;> simp [Internal, declarations, sample, nameX]
  · intro d hd; simp [declarations, sample, nameX] at hd
    rcases hd with rfl | rfl | rfl | rfl <;> simp [Internal, declarations, sample, nameX]
  · decide

/-- No two static variables have the same label: not two objects of file scope, not two `static`
variables of blocks that have the same name, and not one of each. -/
theorem labels_distinct {is : List Item} {vars : List Var} (hu : unit is = .ok vars) (hn : Named is)
    (hv : ∀ x ∈ fileNames is, Valid (declarations x is)) (l : Str) : (labelled l vars).length ≤ 1 := by
  obtain ⟨st, h1, h2⟩ := unit_eq hu
  have hid := named_fileNames is hn
  have hlab : Labels (fileNames is) (tentative st.names st) := by
    refine labels_tentative hid _ _ (names_items is St.start st (fun x hx => hx) (by simp [St.start]) h1) ?_
    exact labels_items hid is St.start st hn (fun x hx => hx) ⟨by simp [St.start], by simp [St.start, labelled]⟩ h1
  rw [h2]
  by_cases hf : l ∈ fileNames is
  · have hx := hid l hf
    have hinv : Inv l (declarations l is) st := by
      have := inv_items hx is [] St.start st (by simpa using hv l hf) (inv_start l) h1
      simpa using this
    generalize declarations l is = ds at *
    cases ds with
    | nil =>
      obtain ⟨a, b⟩ := hinv.empty rfl
      rw [tentative_none _ _ (by rw [a]; intro s hs; simp at hs), b]
      simp
    | cons e es =>
      generalize hds : e :: es = ds at *
      have hne : ds ≠ [] := by rw [← hds]; simp
      obtain ⟨s, hs, _, _, hd1, hd2⟩ := hinv.sym (ds.getLast hne) (List.getLast?_eq_some_getLast hne)
      cases hdef : ds.any Decl.isDefinition with
      | true =>
        obtain ⟨_, hnt, v, a, _⟩ := hd1 hdef
        rw [tentative_none _ _ (by rw [hs]; intro s' hs'; rw [← Option.some.inj hs']; exact hnt), a]
        simp
      | false =>
        obtain ⟨_, _, hl, hg⟩ := hd2 hdef
        cases hst : s.isTentative with
        | true => rw [tentative_some hst _ _ hs (hg hst).1, hl]; simp
        | false =>
          rw [tentative_none _ _ (by rw [hs]; intro s' hs'; rw [← Option.some.inj hs']; exact hst), hl]
          simp
  · by_cases hm : ∃ n x, IsIdentifier x ∧ l = localLabel n x
    · obtain ⟨n, x, hx, rfl⟩ := hm
      exact hlab.few n x hx
    · have : labelled l (tentative st.names st).vars = [] := by
        unfold labelled
        rw [List.filter_eq_nil_iff]
        intro v hvm hc
        simp only [decide_eq_true_eq] at hc
        rcases hlab.isLocal v hvm with h | ⟨n, x, _, hx, he⟩
        · exact hf (hc ▸ h)
        · exact hm ⟨n, x, hx, hc ▸ he⟩
      rw [this]; simp

-- two `static int x` in blocks and one at file scope
example : Named [.block ⟨nameX, tInt, true, false, none, 0⟩, .block ⟨nameX, tInt, true, false, none, 0⟩,
    .file ⟨nameX, tInt, true, false, none, 0⟩] := by
  have : IsIdentifier nameX := ⟨120, [], rfl, by decide, by decide⟩
  exact ⟨this, this, this, trivial⟩

/-- `int x; extern int x;` declares `x` twice and defines it (6.9.2p2), but no definition is
generated. -/
theorem tentative_then_extern_violated :
    ∃ is vars, unit is = .ok vars ∧ Valid (declarations nameX is) ∧ Defined (declarations nameX is) = true ∧
      (∀ d ∈ declarations nameX is, d.type = tInt) ∧ labelled nameX vars = [] := by
  refine ⟨[.file ⟨nameX, tInt, false, false, none, 0⟩, .file ⟨nameX, tInt, false, true, none, 0⟩], [], rfl,
    ⟨?_, ?_, ?_, ?_, ?_⟩, rfl, ?_, rfl⟩
  · intro d hd; simp [declarations, nameX] at hd
    rcases hd with rfl | rfl <;> simp [tag, tInt, Kind.tag]
  · intro d hd; simp [declarations, nameX] at hd
    rcases hd with rfl | rfl <;> simp
  · intro d hd; simp [declarations, nameX] at hd
    rcases hd with rfl | rfl <;> simp
  · intro d hd; simp [declarations, nameX] at hd
    rcases hd with rfl | rfl <;> simp [Internal, declarations, nameX]
  · decide
  · intro d hd; simp [declarations, nameX] at hd
    rcases hd with rfl | rfl <;> rfl

/-- `extern int x = 1;` is a definition of `x` (6.9.2p1), but it is rejected. -/
theorem extern_initialiser_violated :
    ∃ is, Valid (declarations nameX is) ∧ Defined (declarations nameX is) = true ∧ unit is = .fail := by
  refine ⟨[.file ⟨nameX, tInt, false, true, some (1, 1), 0⟩], ⟨?_, ?_, ?_, ?_, ?_⟩, rfl, rfl⟩
  · intro d hd; simp [declarations, nameX] at hd
    subst hd; simp [tag, tInt, Kind.tag]
  · intro d hd; simp [declarations, nameX] at hd
    subst hd; simp
  · intro d hd; simp [declarations, nameX] at hd
    subst hd; simp
  · intro d hd; simp [declarations, nameX] at hd
    subst hd; simp
  · decide

/-- `int x[];` has one element at the end of the unit (6.9.2p5), but the variable registered
keeps the type of unknown size, for which `calculate_size` is -1 (src/arch/x64.c:183-184). -/
theorem unsized_array_violated :
    ∃ is vars v, unit is = .ok vars ∧ Valid (declarations nameX is) ∧ labelled nameX vars = [v] ∧
      objectType (declarations nameX is) = some (tArray 1) ∧ v.type = tUnknown := by
  refine ⟨[.file ⟨nameX, tUnknown, false, false, none, 0⟩], [⟨nameX, tUnknown, none, true, 0⟩], _, rfl,
    ⟨?_, ?_, ?_, ?_, ?_⟩, rfl, rfl, rfl⟩
  · intro d hd; simp [declarations, nameX] at hd
    subst hd; simp [tag, tUnknown, Kind.tag]
  · intro d hd; simp [declarations, nameX] at hd
    subst hd; simp
  · intro d hd; simp [declarations, nameX] at hd
    subst hd; simp
  · intro d hd; simp [declarations, nameX] at hd
    subst hd; simp [Internal, declarations, nameX]
  · decide

end Verif.Tentative
