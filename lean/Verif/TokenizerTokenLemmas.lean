import Verif.TokenizerScanLemmas
/-!
Helper lemmas: the token that the tokenizer finds is the longest one.
-/
namespace Verif.Tokenizer
open Verif TokenizerSpec

set_option maxRecDepth 4000

theorem isIdent_kind {w : List Byte} (h : isIdent w = true) : kind w = some .T_IDENT := by
  unfold kind; rw [if_pos h]

theorem isNumber_kind {w : List Byte} (h : isNumber w = true) : kind w ≠ none := by
  unfold kind; rw [if_pos h]; split <;> simp

theorem isString_kind {w : List Byte} (h : isString w = true) : kind w ≠ none := by
  unfold kind; rw [if_pos h]; split <;> (try split) <;> simp

theorem isCharConst_kind {w : List Byte} (h : isCharConst w = true) : kind w ≠ none := by
  unfold kind; rw [if_pos h]; split <;> (try split) <;> (try split) <;> simp

theorem kind_cases {w : List Byte} {k : TType} (h : kind w = some k) :
    (isIdent w = true ∧ k = .T_IDENT) ∨ (isIdent w = false ∧ isNumber w = true ∧ k = .T_NUM) ∨
    (isString w = true ∧ k = .T_STRING) ∨ (isCharConst w = true ∧ k = .T_CHARACTER_CONSTANT) ∨
    (isIdent w = false ∧ isNumber w = false ∧ punctuators.lookup w = some k) := by
  unfold kind at h
  cases h1 : isIdent w <;> rw [h1] at h
  · cases h2 : isNumber w <;> rw [h2] at h
    · cases h3 : isString w <;> rw [h3] at h
      · cases h4 : isCharConst w <;> rw [h4] at h
        · simp at h; simp [h]
        · simp at h; simp [h]
      · simp at h; simp [h]
    · simp at h; simp [h]
  · simp at h; simp [h]

/-- The next character does not continue the word. -/
theorem _root_.Verif.TokenizerSpec.Longest.next {w : List Byte} {r : List Char'} {k : TType} (h : Longest w (bytes r) k) :
    headByte r = 0 ∨ kind (w ++ [headByte r]) = none := by
  cases r with
  | nil => exact .inl rfl
  | cons x r =>
    right
    have := h.2 (w.length + 1) (by omega) (by simp [bytes])
    have e : (w ++ bytes (x :: r)).take (w.length + 1) = w ++ [x.1] := by
      rw [List.take_append, List.take_of_length_le (by omega)]
      simp [bytes]
    rw [e] at this
    exact this

theorem stops {w : List Byte} {b : Byte} (h : b = 0 ∨ kind (w ++ [b]) = none) (c : Char) (hc : (kind (w ++ [ch c])).isSome = true)
    (h0 : ch c ≠ 0) : b ≠ ch c := by
  rintro rfl
  rcases h with h | h
  · exact h0 h
  · rw [h] at hc; cases hc

theorem head_ne {r : List Char'} {b : Byte} (hb : b ≠ 0) : (bytes r).head? ≠ some b → headByte r ≠ b := by
  cases r with
  | nil => intro _; exact hb.symm
  | cons x r => intro h e; exact h (by simp [bytes, ← e, headByte])

theorem words_table (b : Byte) : (isNondigit b = true → eq b = 'u'.toNat ∨ eq b = 'L'.toNat ∨ eq b = 'U'.toNat ∨ eq b = EQ_EXPONENT ∨
    eq b = EQ_UTF8 ∨ eq b = EQ_ALPHA) ∧ (isDigit b = true → eq b = '8'.toNat ∨ eq b = EQ_DECIMAL) ∧
    (isDigit b = false → eq b ≠ '8'.toNat ∧ eq b ≠ EQ_DECIMAL) := by
  have := byte_table (p := fun b => decide ((isNondigit b = true → eq b = 'u'.toNat ∨ eq b = 'L'.toNat ∨ eq b = 'U'.toNat ∨ eq b = EQ_EXPONENT ∨
    eq b = EQ_UTF8 ∨ eq b = EQ_ALPHA) ∧ (isDigit b = true → eq b = '8'.toNat ∨ eq b = EQ_DECIMAL) ∧
    (isDigit b = false → eq b ≠ '8'.toNat ∧ eq b ≠ EQ_DECIMAL))) (by decide +kernel) b
  exact of_decide_eq_true this

theorem identifier_ok {m : Nat} {w r : List Char'} {s : St} {f : Nat} (h : At m s (w ++ r))
    (hw : ∀ x ∈ w, (isNondigit x.1 || isDigit x.1) = true) (hr : (isNondigit (headByte r) || isDigit (headByte r)) = false)
    (hb : headByte r ≠ ch '\\') (hf : w.length < f) :
    ∃ s', identifier f s = .ok (.T_IDENT, s') ∧ Reads s (bytes w) s' ∧ At m s' r := by
  obtain ⟨s', e, hr, ha⟩ := identifier_reads h hw hr hb hf
  exact ⟨s', by rw [identifier, e]; rfl, hr, ha⟩

theorem ident_ne {b : Byte} (h : (isNondigit b || isDigit b) = true) : b ≠ ch '"' ∧ b ≠ ch '\'' := by
  constructor <;> rintro rfl <;> exact absurd h (by decide)

/-- Identifiers. -/
theorem word_ident {m : Nat} {x : Char'} {w r : List Char'} {s : St} {f : Nat} (h : At m s (x :: w ++ r)) (hx : isNondigit x.1 = true)
    (hw : ∀ y ∈ w, (isNondigit y.1 || isDigit y.1) = true) (hr : (isNondigit (headByte r) || isDigit (headByte r)) = false)
    (hb : headByte r ≠ ch '\\')
    (hq : bytes (x :: w) = str "u" ∨ bytes (x :: w) = str "U" ∨ bytes (x :: w) = str "L" → headByte r ≠ ch '"' ∧ headByte r ≠ ch '\'')
    (hq8 : bytes (x :: w) = str "u8" → headByte r ≠ ch '"') (hf : w.length < f) :
    ∃ s', scanWord f s = .ok (.T_IDENT, s') ∧ Reads s (bytes (x :: w)) s' ∧ At m s' r := by
  obtain ⟨s1, e1, h1, hx1⟩ := At.read (t := w ++ r) h
  obtain ⟨s2, e2, hr2, h2⟩ := identifier_ok h1 hw hr hb hf
  have hc : s.c = eq x.1 := h.c
  have hxq := ident_ne (b := x.1) (by simp [hx])
  -- what stands after the first letter
  have hnext : (x.1 = ch 'u' ∨ x.1 = ch 'U' ∨ x.1 = ch 'L') → headByte (w ++ r) ≠ ch '"' ∧ headByte (w ++ r) ≠ ch '\'' := by
    intro hx'
    cases w with
    | nil =>
      apply hq
      rcases hx' with e | e | e <;> simp [bytes, e, str]
    | cons y w => exact ident_ne (hw y (by simp))
  unfold scanWord
  by_cases hu : x.1 = ch 'u'
  · rw [if_pos ((h.is (by decide)).2 hu), e1]
    obtain ⟨hn1, hn2⟩ := hnext (.inl hu)
    simp only [Run.bind_ok]
    by_cases h8 : s1.c = '8'.toNat
    · rw [if_pos h8]
      have hy : headByte (w ++ r) = ch '8' := (h1.is (by decide)).1 h8
      match w with
      | [] =>
        change headByte r = _ at hy
        rw [hy] at hr
        exact absurd hr (by decide)
      | y :: w =>
        obtain ⟨s3, e3, h3, hx3⟩ := At.read (t := w ++ r) h1
        obtain ⟨s4, e4, hr4, h4⟩ := identifier_ok (f := f) h3 (fun z hz => hw z (by simp [hz])) hr hb (by simp at hf ⊢; omega)
        rw [e3]
        simp only [Run.bind_ok]
        have : s3.c ≠ '"'.toNat := by
          intro e
          have e := (h3.is (by decide)).1 e
          cases w with
          | nil =>
            refine hq8 ?_ e
            change y.1 = _ at hy
            simp [bytes, hu, hy, str]
          | cons z w => exact (ident_ne (hw z (by simp))).1 e
        rw [if_neg this]
        exact ⟨s4, e4, hx1 (hx3 hr4), h4⟩
    · rw [if_neg h8, if_neg (fun e => hn1 ((h1.is (by decide)).1 e)), if_neg (fun e => hn2 ((h1.is (by decide)).1 e))]
      exact ⟨s2, e2, hx1 hr2, h2⟩
  · rw [if_neg (fun e => hu ((h.is (by decide)).1 e))]
    by_cases hL : x.1 = ch 'L' ∨ x.1 = ch 'U'
    · have : s.c = 'L'.toNat ∨ s.c = 'U'.toNat := by
        rcases hL with e | e
        · exact .inl ((h.is (by decide)).2 e)
        · exact .inr ((h.is (by decide)).2 e)
      obtain ⟨hn1, hn2⟩ := hnext (by rcases hL with e | e <;> simp [e])
      rw [if_pos this, e1]
      simp only [Run.bind_ok]
      rw [if_neg (fun e => hn1 ((h1.is (by decide)).1 e)), if_neg (fun e => hn2 ((h1.is (by decide)).1 e))]
      exact ⟨s2, e2, hx1 hr2, h2⟩
    · have hL' : ¬ (s.c = 'L'.toNat ∨ s.c = 'U'.toNat) := by
        rintro (e | e)
        · exact hL (.inl ((h.is (by decide)).1 e))
        · exact hL (.inr ((h.is (by decide)).1 e))
      have hcl : s.c = EQ_EXPONENT ∨ s.c = EQ_UTF8 ∨ s.c = EQ_ALPHA := by
        rcases (words_table x.1).1 hx with e | e | e | e | e | e
        · exact absurd ((self_table 'u' (by decide) _).1 e) hu
        · exact absurd (.inl ((self_table 'L' (by decide) _).1 e)) hL
        · exact absurd (.inr ((self_table 'U' (by decide) _).1 e)) hL
        · exact .inl (by rw [hc, e])
        · exact .inr (.inl (by rw [hc, e]))
        · exact .inr (.inr (by rw [hc, e]))
      rw [if_neg hL', if_neg (fun e => hxq.1 ((h.is (by decide)).1 e)), if_neg (fun e => hxq.2 ((h.is (by decide)).1 e)), if_pos hcl, e1]
      exact ⟨s2, e2, hx1 hr2, h2⟩

theorem digit_ne {b : Byte} (h : isDigit b = true) : b ≠ ch 'u' ∧ b ≠ ch 'L' ∧ b ≠ ch 'U' ∧ b ≠ ch '"' ∧ b ≠ ch '\'' ∧ eq b ≠ EQ_EXPONENT ∧
    eq b ≠ EQ_UTF8 ∧ eq b ≠ EQ_ALPHA := by
  have := byte_table (p := fun b => decide (isDigit b = true → b ≠ ch 'u' ∧ b ≠ ch 'L' ∧ b ≠ ch 'U' ∧ b ≠ ch '"' ∧ b ≠ ch '\'' ∧
    eq b ≠ EQ_EXPONENT ∧ eq b ≠ EQ_UTF8 ∧ eq b ≠ EQ_ALPHA)) (by decide +kernel) b
  exact of_decide_eq_true this h

/-- Numbers that begin with a digit. -/
theorem word_number {m : Nat} {x : Char'} {w r : List Char'} {s : St} {f : Nat} (h : At m s (x :: w ++ r)) (hx : isDigit x.1 = true)
    (hw : numberTail .plain (bytes w) = true) (hn : NoNames (bytes w)) (hl : ∀ b ∈ bytes w, b < 128)
    (hr : numberTail .plain (bytes w ++ [headByte r]) = false) (hq : headByte r ≠ ch '\'') (hf : w.length < f) :
    ∃ s', scanWord f s = .ok (.T_NUM, s') ∧ Reads s (bytes (x :: w)) s' ∧ At m s' r := by
  obtain ⟨s1, e1, h1, hx1⟩ := At.read (t := w ++ r) h
  obtain ⟨s2, e2, hr2, h2⟩ := number_reads h1 hw hn hl hr hq hf
  refine ⟨s2, ?_, hx1 hr2, h2⟩
  obtain ⟨n1, n2, n3, n4, n5, n6, n7, n8⟩ := digit_ne hx
  have hc : s.c = eq x.1 := h.c
  unfold scanWord
  rw [if_neg (fun e => n1 ((h.is (by decide)).1 e)), if_neg, if_neg (fun e => n4 ((h.is (by decide)).1 e)),
    if_neg (fun e => n5 ((h.is (by decide)).1 e)), if_neg, e1]
  · simp only [Run.bind_ok]
    rw [e2]
    rfl
  · rw [hc]; rintro (e | e | e) <;> contradiction
  · rintro (e | e)
    · exact n2 ((h.is (by decide)).1 e)
    · exact n3 ((h.is (by decide)).1 e)

/-- Strings. -/
theorem word_string {m : Nat} {w r : List Char'} {s : St} {f : Nat} (h : At m s (w ++ r)) (hw : isString (bytes w) = true) (hn : NoNames (bytes w))
    (hz : ∀ b ∈ bytes w, b ≠ 0) (hf : w.length < f) :
    ∃ s', scanWord f s = .ok (.T_STRING, s') ∧ Reads s (bytes w) s' ∧ At m s' r := by
  match w with
  | [] => simp [bytes, isString] at hw
  | x :: w =>
  simp only [bytes, List.map_cons, isString, Bool.or_eq_true, Bool.and_eq_true, beq_iff_eq] at hw
  unfold scanWord
  rcases hw with ⟨hx, hw⟩ | hw
  · obtain ⟨s', e, hr, ha⟩ := quoted_reads (q := '"') (by decide) (by decide) (by decide) (t := .T_STRING) h hw hn.tail
      (fun b hb => hz b (by simp only [bytes, List.map_cons, List.mem_cons]; exact .inr hb)) (f := f) (by simp at hf ⊢; omega)
    refine ⟨s', ?_, hr, ha⟩
    have hc : s.c = '"'.toNat := (h.is (by decide)).2 hx
    rw [if_neg (by rw [hc]; decide), if_neg (by rw [hc]; decide), if_pos hc, e]
  · match w with
    | [] => simp at hw
    | y :: w =>
    simp only [List.map_cons, Bool.or_eq_true, Bool.and_eq_true, beq_iff_eq] at hw
    obtain ⟨s1, e1, h1, hx1⟩ := At.read (t := y :: w ++ r) h
    rcases hw with ⟨⟨hx, hy⟩, hw⟩ | hw
    · obtain ⟨s', e, hr, ha⟩ := quoted_reads (q := '"') (by decide) (by decide) (by decide) (t := .T_STRING) h1 hw hn.tail.tail
        (fun b hb => hz b (by simp only [bytes, List.map_cons, List.mem_cons]; exact .inr (.inr hb))) (f := f) (by simp at hf ⊢; omega)
      have hc : s1.c = '"'.toNat := (h1.is (by decide)).2 hy
      refine ⟨s', ?_, hx1 hr, ha⟩
      rcases hx with (hx | hx) | hx
      · rw [if_pos ((h.is (by decide)).2 hx), e1]
        simp only [Run.bind_ok]
        rw [if_neg (by rw [hc]; decide), if_pos hc, e]
      · have hc0 : s.c = 'U'.toNat := (h.is (by decide)).2 hx
        rw [if_neg (by rw [hc0]; decide), if_pos (.inr hc0), e1]
        simp only [Run.bind_ok]
        rw [if_pos hc, e]
      · have hc0 : s.c = 'L'.toNat := (h.is (by decide)).2 hx
        rw [if_neg (by rw [hc0]; decide), if_pos (.inl hc0), e1]
        simp only [Run.bind_ok]
        rw [if_pos hc, e]
    · match w with
      | [] => simp at hw
      | z :: w =>
      simp only [List.map_cons, Bool.and_eq_true, beq_iff_eq] at hw
      obtain ⟨⟨⟨hx, hy⟩, hzq⟩, hw⟩ := hw
      obtain ⟨s2, e2, h2, hx2⟩ := At.read (t := z :: w ++ r) h1
      obtain ⟨s', e, hr, ha⟩ := quoted_reads (q := '"') (by decide) (by decide) (by decide) (t := .T_STRING) h2 hw hn.tail.tail.tail
        (fun b hb => hz b (by simp only [bytes, List.map_cons, List.mem_cons]; exact .inr (.inr (.inr hb)))) (f := f) (by simp at hf ⊢; omega)
      refine ⟨s', ?_, hx1 (hx2 hr), ha⟩
      rw [if_pos ((h.is (by decide)).2 hx), e1]
      simp only [Run.bind_ok]
      rw [if_pos ((h1.is (by decide)).2 hy), e2]
      simp only [Run.bind_ok]
      rw [if_pos ((h2.is (by decide)).2 hzq), e]

/-- Character constants. -/
theorem word_char {m : Nat} {w r : List Char'} {s : St} {f : Nat} (h : At m s (w ++ r)) (hw : isCharConst (bytes w) = true) (hn : NoNames (bytes w))
    (hz : ∀ b ∈ bytes w, b ≠ 0) (hf : w.length < f) :
    ∃ s', scanWord f s = .ok (.T_CHARACTER_CONSTANT, s') ∧ Reads s (bytes w) s' ∧ At m s' r := by
  match w with
  | [] => simp [bytes, isCharConst] at hw
  | x :: w =>
  simp only [bytes, List.map_cons, isCharConst, Bool.or_eq_true, Bool.and_eq_true, beq_iff_eq] at hw
  unfold scanWord
  rcases hw with ⟨⟨hx, -⟩, hw⟩ | hw
  · obtain ⟨s', e, hr, ha⟩ := quoted_reads (q := '\'') (by decide) (by decide) (by decide) (t := .T_CHARACTER_CONSTANT) h hw hn.tail
      (fun b hb => hz b (by simp only [bytes, List.map_cons, List.mem_cons]; exact .inr hb)) (f := f) (by simp at hf ⊢; omega)
    refine ⟨s', ?_, hr, ha⟩
    have hc : s.c = '\''.toNat := (h.is (by decide)).2 hx
    rw [if_neg (by rw [hc]; decide), if_neg (by rw [hc]; decide), if_neg (by rw [hc]; decide), if_pos hc, e]
  · match w with
    | [] => simp at hw
    | y :: w =>
    simp only [List.map_cons, Bool.or_eq_true, Bool.and_eq_true, beq_iff_eq] at hw
    obtain ⟨s1, e1, h1, hx1⟩ := At.read (t := y :: w ++ r) h
    obtain ⟨⟨⟨hx, hy⟩, -⟩, hw⟩ := hw
    obtain ⟨s', e, hr, ha⟩ := quoted_reads (q := '\'') (by decide) (by decide) (by decide) (t := .T_CHARACTER_CONSTANT) h1 hw hn.tail.tail
      (fun b hb => hz b (by simp only [bytes, List.map_cons, List.mem_cons]; exact .inr (.inr hb))) (f := f) (by simp at hf ⊢; omega)
    have hc : s1.c = '\''.toNat := (h1.is (by decide)).2 hy
    refine ⟨s', ?_, hx1 hr, ha⟩
    rcases hx with (hx | hx) | hx
    · rw [if_pos ((h.is (by decide)).2 hx), e1]
      simp only [Run.bind_ok]
      rw [if_neg (by rw [hc]; decide), if_neg (by rw [hc]; decide), if_pos hc, e]
    · have hc0 : s.c = 'U'.toNat := (h.is (by decide)).2 hx
      rw [if_neg (by rw [hc0]; decide), if_pos (.inr hc0), e1]
      simp only [Run.bind_ok]
      rw [if_neg (by rw [hc]; decide), if_pos hc, e]
    · have hc0 : s.c = 'L'.toNat := (h.is (by decide)).2 hx
      rw [if_neg (by rw [hc0]; decide), if_pos (.inl hc0), e1]
      simp only [Run.bind_ok]
      rw [if_neg (by rw [hc]; decide), if_pos hc, e]

/-- The last character of a punctuator. -/
theorem op_end {m : Nat} {x : Char'} {r : List Char'} {s : St} {t : TType} {alts : List (Char × (St → Run (TType × St)))} (h : At m s (x :: r))
    (hs : ∀ c ∈ alts.map Prod.fst, c ∈ selfChars ∧ headByte r ≠ ch c) :
    ∃ s', op t alts s = .ok (t, s') ∧ Reads s (bytes [x]) s' ∧ At m s' r := by
  obtain ⟨s1, e1, h1, hx1⟩ := At.read (t := r) h
  refine ⟨s1, ?_, hx1 (.refl s1), h1⟩
  have : (alts.find? fun a => a.1.toNat == s1.c) = none := by
    rw [List.find?_eq_none]
    intro a ha e
    obtain ⟨h2, h3⟩ := hs a.1 (List.mem_map.2 ⟨a, ha, rfl⟩)
    simp only [beq_iff_eq] at e
    exact h3 ((h1.is h2).1 e.symm)
  rw [op, e1]
  simp only [Run.bind_ok]
  rw [this]

/-- Any other character of a punctuator. -/
theorem op_go {m : Nat} {x y : Char'} {w r : List Char'} {s : St} {t k : TType} {alts : List (Char × (St → Run (TType × St)))} {c : Char}
    {g : St → Run (TType × St)} (h : At m s (x :: y :: (w ++ r))) (hc : c ∈ selfChars) (hy : y.1 = ch c)
    (hf : (alts.find? fun a => a.1.toNat == c.toNat) = some (c, g))
    (hg : ∀ s1, At m s1 (y :: (w ++ r)) → ∃ s', g s1 = .ok (k, s') ∧ Reads s1 (bytes (y :: w)) s' ∧ At m s' r) :
    ∃ s', op t alts s = .ok (k, s') ∧ Reads s (bytes (x :: y :: w)) s' ∧ At m s' r := by
  obtain ⟨s1, e1, h1, hx1⟩ := At.read (t := y :: (w ++ r)) h
  obtain ⟨s2, e2, hr2, h2⟩ := hg s1 h1
  refine ⟨s2, ?_, hx1 hr2, h2⟩
  have hc' : s1.c = c.toNat := (h1.is hc).2 hy
  rw [op, e1]
  simp only [Run.bind_ok]
  rw [hc', hf]
  exact e2

end Verif.Tokenizer
