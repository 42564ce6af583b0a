import Verif.ClassifyLemmas
/-!
Properties of argument classification (C40).
-/
namespace Verif.Classify
open Verif ClassifySpec

/-- The merged class of INTEGER and SSE scalars. -/
def total (cs : List Class) : Class := if .integer ∈ cs then .integer else if cs = [] then .noClass else .sse

theorem fold_total (cs : List Class) (h : ∀ c ∈ cs, c = .integer ∨ c = .sse) : cs.foldl merge .noClass = total cs := by
  have key : ∀ cs : List Class, (∀ c ∈ cs, c = .integer ∨ c = .sse) →
      cs.foldl merge .integer = .integer ∧ cs.foldl merge .sse = (if .integer ∈ cs then .integer else .sse) := by
    intro cs
    induction cs with
    | nil => simp
    | cons c cs ih =>
      intro h
      have := ih fun d hd => h d (by simp [hd])
      rcases h c (by simp) with rfl | rfl
      · constructor
        · simpa [merge] using this.1
        · simpa [merge] using this.1
      · constructor
        · simpa [merge] using this.1
        · simpa [merge] using this.2
  cases cs with
  | nil => rfl
  | cons c cs =>
    have := key cs fun d hd => h d (by simp [hd])
    rcases h c (by simp) with rfl | rfl
    · simpa [merge, total] using this.1
    · simp only [List.foldl_cons, total]
      rw [show merge .noClass .sse = .sse from rfl, this.2]
      simp

theorem mapM_ok {α β : Type} (l : List α) (f : α → Res β) (g : α → β) (h : ∀ i ∈ l, f i = .ok (g i)) :
    l.mapM f = .ok (l.map g) := by
  have key : ∀ (l : List α) (acc : List β), (∀ i ∈ l, f i = .ok (g i)) →
      List.mapM.loop f l acc = .ok (acc.reverse ++ l.map g) := by
    intro l
    induction l with
    | nil => intro acc _; simp [List.mapM.loop]
    | cons i l ih =>
      intro acc h
      rw [List.mapM.loop, h i (by simp), Res.bind_ok, ih _ fun j hj => h j (by simp [hj])]
      simp
  exact key l [] h

mutual
theorem leaf_class (t : Ty) (h : Valid t) : ∀ l ∈ leaves t, l.cls = .integer ∨ l.cls = .sse := by
  match t with
  | .scalar c n =>
    unfold Valid at h
    unfold leaves
    intro l hl
    simp only [List.mem_singleton] at hl
    subst hl
    exact h.1
  | .struct n fs =>
    unfold Valid at h
    unfold leaves
    exact field_class n fs h
  | .array e n =>
    unfold Valid at h
    unfold leaves
    intro l hl
    obtain ⟨i, hi, hl⟩ := List.mem_flatMap.1 hl
    obtain ⟨l', hl', rfl⟩ := List.mem_map.1 hl
    exact leaf_class e h.1 l' hl'
  | .flex => intro l hl; simp [leaves] at hl
  | .other => intro l hl; simp [leaves] at hl
theorem field_class (n : Nat) (fs : Fields) (h : ValidFields n fs) :
    ∀ l ∈ fieldLeaves fs, l.cls = .integer ∨ l.cls = .sse := by
  match fs with
  | .nil => intro l hl; simp [fieldLeaves] at hl
  | .cons off t rest =>
    unfold ValidFields at h
    unfold fieldLeaves
    intro l hl
    rcases List.mem_append.1 hl with hl | hl
    · obtain ⟨l', hl', rfl⟩ := List.mem_map.1 hl
      exact leaf_class t h.1 l' hl'
    · exact field_class n rest h.2.2 l hl
end

/-- The class the code computes for eightbyte `i`. -/
def code (ls : List Leaf) (i : Nat) : Class := total (sel ls (i * 8 : Nat) ((i + 1) * 8 : Nat))

theorem parts_eq (n : Nat) (fs : Fields) (h : ValidFields n fs) (k : Nat) :
    parts (.struct n fs) k = .ok ((List.range k).map (code (fieldLeaves fs))) := by
  refine mapM_ok _ _ _ fun i hi => ?_
  have hc : combine = merge := by funext a b; exact combine_eq a b
  rw [rec, recFields_eq n fs h, hc, fold_total]
  · rfl
  · intro c hc
    obtain ⟨l, hl, rfl⟩ := List.mem_map.1 hc
    exact field_class n fs h l (List.mem_filter.1 hl).1

theorem code_cases (ls : List Leaf) (i : Nat) : code ls i = .integer ∨ code ls i = .noClass ∨ code ls i = .sse := by
  unfold code total
  split
  · simp
  · split <;> simp

theorem spec_total (n : Nat) (fs : Fields) (h : ValidFields n fs) (i : Nat) :
    eightbyte (fieldLeaves fs) i = total ((inEightbyte (fieldLeaves fs) i).map (·.cls)) := by
  refine fold_total _ ?_
  intro c hc
  obtain ⟨l, hl, rfl⟩ := List.mem_map.1 hc
  exact field_class n fs h l (List.mem_filter.1 hl).1

/-- The code's eightbyte is right if no scalar that ends where the eightbyte begins changes
its class. -/
theorem code_eq (n : Nat) (fs : Fields) (h : ValidFields n fs) (i : Nat)
    (hi : 0 < i → ∀ l ∈ fieldLeaves fs, l.off + l.size = 8 * i →
      l.cls = eightbyte (fieldLeaves fs) i ∨ eightbyte (fieldLeaves fs) i = .integer) :
    code (fieldLeaves fs) i = eightbyte (fieldLeaves fs) i := by
  generalize hls : fieldLeaves fs = ls at *
  have hcls : ∀ l ∈ ls, l.cls = .integer ∨ l.cls = .sse := by subst hls; exact field_class n fs h
  have hpos : ∀ l ∈ ls, 0 < l.size := by subst hls; exact fun l hl => (field_bounds n fs h l hl).2
  have hsp : eightbyte ls i = total ((inEightbyte ls i).map (·.cls)) := by subst hls; exact spec_total n fs h i
  have hmem : ∀ l, l ∈ ls.filter (fun l => !skip l.off l.size (i * 8 : Nat) ((i + 1) * 8 : Nat)) ↔
      l ∈ ls ∧ 8 * i ≤ l.off + l.size ∧ l.off < 8 * i + 8 := by
    intro l
    rw [List.mem_filter]
    simp only [skip, Bool.not_eq_true', decide_eq_false_iff_not]
    refine and_congr_right fun _ => ?_
    omega
  have hmem2 : ∀ l, l ∈ inEightbyte ls i ↔ l ∈ ls ∧ 8 * i < l.off + l.size ∧ l.off < 8 * i + 8 := by
    intro l; simp [inEightbyte]
  -- every scalar the code looks at is in the eightbyte or ends where it begins
  have hint : Class.integer ∈ sel ls (i * 8 : Nat) ((i + 1) * 8 : Nat) ↔ .integer ∈ (inEightbyte ls i).map (·.cls) := by
    constructor
    · intro hm
      obtain ⟨l, hl, hc⟩ := List.mem_map.1 hm
      rw [hmem] at hl
      by_cases he : 8 * i < l.off + l.size
      · exact List.mem_map.2 ⟨l, (hmem2 l).2 ⟨hl.1, he, hl.2.2⟩, hc⟩
      · have hi0 : 0 < i := by have := hpos l hl.1; omega
        have : eightbyte ls i = .integer := by
          rcases hi hi0 l hl.1 (by omega) with h1 | h1
          · rw [← h1, hc]
          · exact h1
        rw [hsp] at this
        unfold total at this
        split at this
        · assumption
        · split at this <;> cases this
    · intro hm
      obtain ⟨l, hl, hc⟩ := List.mem_map.1 hm
      rw [hmem2] at hl
      exact List.mem_map.2 ⟨l, (hmem l).2 ⟨hl.1, by omega, hl.2.2⟩, hc⟩
  have hnil : sel ls (i * 8 : Nat) ((i + 1) * 8 : Nat) = [] ↔ (inEightbyte ls i).map (·.cls) = [] := by
    constructor
    · intro hm
      rw [sel, List.map_eq_nil_iff, List.eq_nil_iff_forall_not_mem] at hm
      rw [List.map_eq_nil_iff, List.eq_nil_iff_forall_not_mem]
      intro l hl
      rw [hmem2] at hl
      exact hm l ((hmem l).2 ⟨hl.1, by omega, hl.2.2⟩)
    · intro hm
      have hz : eightbyte ls i = .noClass := by rw [hsp, hm]; rfl
      rw [List.map_eq_nil_iff, List.eq_nil_iff_forall_not_mem] at hm
      rw [sel, List.map_eq_nil_iff, List.eq_nil_iff_forall_not_mem]
      intro l hl
      rw [hmem] at hl
      by_cases he : 8 * i < l.off + l.size
      · exact hm l ((hmem2 l).2 ⟨hl.1, he, hl.2.2⟩)
      · have hi0 : 0 < i := by have := hpos l hl.1; omega
        rcases hi hi0 l hl.1 (by omega) with h1 | h1
        · rw [hz] at h1; rcases hcls l hl.1 with h2 | h2 <;> rw [h2] at h1 <;> cases h1
        · rw [hz] at h1; cases h1
  rw [hsp]
  unfold code total
  simp only [hint, hnil]

theorem code_zero (n : Nat) (fs : Fields) (h : ValidFields n fs) :
    code (fieldLeaves fs) 0 = eightbyte (fieldLeaves fs) 0 := code_eq n fs h 0 (fun h => absurd h (by decide))

theorem not_bad (ls : List Leaf) (k : Nat) : bad ((List.range k).map (code ls)) = false := by
  unfold bad
  rw [List.any_eq_false]
  intro i hi
  have hlt : i < k := by simpa using hi
  have e : ((List.range k).map (code ls))[i]? = some (code ls i) := by
    simp [hlt]
  rw [e]
  rcases code_cases ls i with h | h | h <;> simp [h]

/-- C40 for structures of naturally aligned scalars, when no scalar that ends where an
eightbyte begins has a class that matters there, and, between 17 and 32 bytes, the first
eightbyte is not SSE. -/
theorem classify_partial (n : Nat) (fs : Fields) (h0 : 0 < n) (h : Valid (.struct n fs))
    (ha : ∀ l ∈ fieldLeaves fs, aligned l = true)
    (hc : ∀ l ∈ fieldLeaves fs, l.off + l.size = 8 →
      l.cls = eightbyte (fieldLeaves fs) 1 ∨ eightbyte (fieldLeaves fs) 1 = .integer ∨ n ≤ 8)
    (hl : n ≤ 16 ∨ 32 < n ∨ eightbyte (fieldLeaves fs) 0 ≠ .sse) :
    classify (.struct n fs) = .ok (spec n (fieldLeaves fs)) := by
  unfold Valid at h
  have hal : (fieldLeaves fs).any (!aligned ·) = false := by
    rw [List.any_eq_false]
    intro l hl'
    simp [ha l hl']
  by_cases h32 : n > 32
  · simp [classify, spec, h32, show n > 16 by omega]
  · rw [classify, if_neg h32]
    simp only [parts_eq n fs h, Res.bind_ok]
    rw [not_bad]
    by_cases h16 : n > 16
    · have hne : ((List.range ((n + 7) / 8)).map (code (fieldLeaves fs)))[0]? ≠ some .sse := by
        have hk : 0 < (n + 7) / 8 := by omega
        have e : ((List.range ((n + 7) / 8)).map (code (fieldLeaves fs)))[0]? = some (code (fieldLeaves fs) 0) := by
          simp [hk]
        rw [e, code_zero n fs h]
        rcases hl with h' | h' | h'
        · omega
        · omega
        · simpa using h'
      rw [if_pos (.inr ⟨by omega, hne⟩)]
      simp [spec, h16]
    · rw [if_neg (by
        rintro (hb | hb)
        · cases hb
        · omega), spec, if_neg (by simp only [hal, h16]; simp)]
      show Res.ok _ = _
      congr 1
      refine List.map_congr_left fun i hi => ?_
      have hik : i < (n + 7) / 8 := List.mem_range.1 hi
      have hi1 : i = 0 ∨ i = 1 := by omega
      rcases hi1 with rfl | rfl
      · exact code_zero n fs h
      · refine code_eq n fs h 1 fun _ l hl' he => ?_
        rcases hc l hl' he with h' | h' | h'
        · exact .inl h'
        · exact .inr h'
        · omega

/-- `struct { double a; struct { int b[2]; } c; }`: SSE, INTEGER. -/
def mixed : Fields :=
  .cons 0 (.scalar .sse 8) (.cons 8 (.struct 8 (.cons 0 (.array (.scalar .integer 4) 2) .nil)) .nil)

example : Valid (.struct 16 mixed) ∧ (∀ l ∈ fieldLeaves mixed, aligned l = true) ∧
    (∀ l ∈ fieldLeaves mixed, l.off + l.size = 8 →
      l.cls = eightbyte (fieldLeaves mixed) 1 ∨ eightbyte (fieldLeaves mixed) 1 = .integer ∨ 16 ≤ 8) ∧
    spec 16 (fieldLeaves mixed) = [.sse, .integer] := by
  refine ⟨?_, by decide, by decide, by decide⟩
  simp [mixed, Valid, ValidFields, bytes, size]

/-- `struct { long a; double b; }`. -/
def longDouble : Fields := .cons 0 (.scalar .integer 8) (.cons 8 (.scalar .sse 8) .nil)

/-- C40 fails: the `long` of `struct { long a; double b; }` ends where the second eightbyte
begins and makes it INTEGER; the psABI passes `b` in an SSE register. -/
theorem classify_violated : ¬ Follows classify := by
  intro h
  have := h 16 longDouble (by decide) (by simp [longDouble, Valid, ValidFields, bytes, size])
  rw [show spec 16 (fieldLeaves longDouble) = [.integer, .sse] by decide] at this
  rw [show classify (.struct 16 longDouble) = .ok [.integer, .integer] by rfl] at this
  cases this

/-- C40 fails for `struct { double a, b, c; }`: three SSE registers instead of memory. -/
theorem classify_large_violated : ∃ fs, Valid (.struct 24 fs) ∧ classify (.struct 24 fs) = .ok [.sse, .sse, .sse] ∧
    spec 24 (fieldLeaves fs) = [.memory] :=
  ⟨.cons 0 (.scalar .sse 8) (.cons 8 (.scalar .sse 8) (.cons 16 (.scalar .sse 8) .nil)),
    by simp [Valid, ValidFields, bytes, size], rfl, by decide⟩

/-- C40 fails for packed structures: `struct { char a; int b; }` with `#pragma pack(1)` goes to
a register instead of memory. -/
theorem classify_packed_violated : ∃ fs, Valid (.struct 5 fs) ∧ classify (.struct 5 fs) = .ok [.integer] ∧
    spec 5 (fieldLeaves fs) = [.memory] :=
  ⟨.cons 0 (.scalar .integer 1) (.cons 1 (.scalar .integer 4) .nil),
    by simp [Valid, ValidFields, bytes, size], rfl, by decide⟩

end Verif.Classify
