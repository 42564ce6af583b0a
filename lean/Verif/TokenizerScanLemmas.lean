import Verif.TokenizerLemmas
/-!
Helper lemmas: each kind of token is read as the specification says.
-/
namespace Verif.Tokenizer
open Verif TokenizerSpec

set_option maxRecDepth 4000

theorem byte_table {p : Byte → Bool} (h : (List.range 256).all (fun n => p (BitVec.ofNat 8 n)) = true) (b : Byte) : p b = true := by
  have := List.all_eq_true.1 h b.toNat (List.mem_range.2 b.isLt)
  rwa [BitVec.ofNat_toNat, BitVec.setWidth_eq] at this

/-- The classes that `parse_identifier` accepts. -/
def identClass (c : Nat) : Bool :=
  decide (c = EQ_ALPHA ∨ c = 'u'.toNat ∨ c = 'U'.toNat ∨ c = EQ_EXPONENT ∨ c = 'L'.toNat ∨ c = EQ_DECIMAL ∨ c = '8'.toNat ∨ c = EQ_UTF8)

theorem ident_table (b : Byte) : identClass (eq b) = (isNondigit b || isDigit b) := by
  have := byte_table (p := fun b => identClass (eq b) == (isNondigit b || isDigit b)) (by decide +kernel) b
  simpa using this

/-- Characters of which the class is the character itself. -/
def selfChars : List Char := ['!', '"', '#', '%', '&', '\'', '(', ')', '*', '+', ',', '-', '.', '/', '8', ':', ';', '<', '=', '>', '?', 'L', 'U',
  '[', '\\', ']', '^', 'u', '{', '|', '}', '~', '\n']

theorem self_table (c : Char) (hc : c ∈ selfChars) (b : Byte) : eq b = c.toNat ↔ b = ch c := by
  have h : selfChars.all (fun c => (List.range 256).all (fun n => decide (eq (BitVec.ofNat 8 n) = c.toNat) == decide (BitVec.ofNat 8 n = ch c)))
      = true := by decide +kernel
  have h1 := List.all_eq_true.1 h c hc
  have := byte_table (p := fun b => decide (eq b = c.toNat) == decide (b = ch c)) h1 b
  simpa using this

theorem null_table (b : Byte) : eq b = EQ_NULL ↔ b = 0 := by
  have := byte_table (p := fun b => decide (eq b = EQ_NULL) == decide (b = 0)) (by decide +kernel) b
  simpa using this

theorem At.is {m : Nat} {s : St} {t : List Char'} (h : At m s t) {c : Char} (hc : c ∈ selfChars) : s.c = c.toNat ↔ headByte t = ch c := by
  rw [h.c]; exact self_table c hc _

/-- A read character. -/
theorem At.read {m : Nat} {s : St} {x : Char'} {t : List Char'} (h : At m s (x :: t)) :
    ∃ s', nextChar s = .ok s' ∧ At m s' t ∧ ∀ {w s''}, Reads s' w s'' → Reads s (x.1 :: w) s'' := by
  obtain ⟨s1, e1, h1, -⟩ := h.step
  refine ⟨s1, e1, h1, fun hr => ?_⟩
  have := Reads.step e1 hr
  rwa [At.prev h] at this

theorem _root_.Verif.TokenizerSpec.NoNames.right {a b : List Byte} (h : NoNames (a ++ b)) : NoNames b :=
  fun x y c e => h (a ++ x) y c (by rw [e, List.append_assoc])

theorem _root_.Verif.TokenizerSpec.NoNames.tail {a : Byte} {b : List Byte} (h : NoNames (a :: b)) : NoNames b := NoNames.right (a := [a]) h

/-- Identifiers without universal character names. -/
theorem identTail_chars : ∀ {w : List Byte}, NoNames w → (identTail .plain w = true ↔ ∀ b ∈ w, (isNondigit b || isDigit b) = true) := by
  intro w
  induction w with
  | nil => intro _; simp [identTail]
  | cons b w ih =>
    intro hn
    rw [identTail]
    by_cases hb : b = ch '\\'
    · rw [if_pos hb]
      subst hb
      constructor
      · cases w with
        | nil => intro h; exact absurd h (by decide)
        | cons c r =>
          intro h
          obtain ⟨h1, h2⟩ := hn [] r c rfl
          simp [identTail, Within.name, h1, h2] at h
      · intro h
        have := h (ch '\\') (by simp)
        exact absurd this (by decide)
    · rw [if_neg hb]
      simp only [Bool.and_eq_true, List.forall_mem_cons, ih hn.tail]

theorem identifier_reads {m : Nat} : ∀ {w r : List Char'} {s : St} {f : Nat}, At m s (w ++ r) → (∀ x ∈ w, (isNondigit x.1 || isDigit x.1) = true) →
    (isNondigit (headByte r) || isDigit (headByte r)) = false → headByte r ≠ ch '\\' → w.length < f →
    ∃ s', parseIdentifier f s = .ok s' ∧ Reads s (bytes w) s' ∧ At m s' r := by
  intro w
  induction w with
  | nil =>
    intro r s f h _ hr hb hf
    match f with
    | f + 1 =>
    refine ⟨s, ?_, .refl s, h⟩
    rw [parseIdentifier]
    have h1 : identClass s.c = false := by rw [h.c, ident_table]; exact hr
    have h2 : s.c ≠ '\\'.toNat := fun e => hb ((h.is (by decide)).1 e)
    rw [if_neg (by simpa [identClass] using h1), if_neg h2]
  | cons x w ih =>
    intro r s f h hw hr hb hf
    match f with
    | f + 1 =>
    obtain ⟨s1, e1, h1, hx⟩ := At.read (t := w ++ r) h
    obtain ⟨s2, e2, hr2, h2⟩ := ih (f := f) h1 (fun y hy => hw y (by simp [hy])) hr hb (by simpa using hf)
    refine ⟨s2, ?_, hx hr2, h2⟩
    have hc : identClass s.c = true := by rw [h.c, ident_table]; exact hw x (by simp)
    rw [parseIdentifier, if_pos (by simpa [identClass] using hc), e1]
    exact e2

/-- The classes of characters of a number, other than the exponent letters. -/
theorem number_table (b : Byte) (h : b < 128) : ((isNondigit b || isDigit b || b == ch '.') = true ↔
      (eq b = EQ_DECIMAL ∨ eq b = '8'.toNat ∨ eq b = EQ_ALPHA ∨ eq b = 'u'.toNat ∨ eq b = 'U'.toNat ∨ eq b = EQ_EXPONENT ∨
        eq b = 'L'.toNat ∨ eq b = '.'.toNat)) ∧ (isExponent b = true ↔ eq b = EQ_EXPONENT) := by
  have := byte_table (p := fun b => decide (b < 128 → ((isNondigit b || isDigit b || b == ch '.') = true ↔
      (eq b = EQ_DECIMAL ∨ eq b = '8'.toNat ∨ eq b = EQ_ALPHA ∨ eq b = 'u'.toNat ∨ eq b = 'U'.toNat ∨ eq b = EQ_EXPONENT ∨
        eq b = 'L'.toNat ∨ eq b = '.'.toNat)) ∧ (isExponent b = true ↔ eq b = EQ_EXPONENT))) (by decide +kernel) b
  exact of_decide_eq_true this h

/-- What does not continue a number. -/
theorem number_stop (b : Byte) (h : (isNondigit b || isDigit b || b == ch '.') = false) :
    ¬ (eq b = EQ_DECIMAL ∨ eq b = '8'.toNat ∨ eq b = EQ_ALPHA ∨ eq b = 'u'.toNat ∨ eq b = 'U'.toNat ∨ eq b = EQ_EXPONENT ∨
        eq b = 'L'.toNat ∨ eq b = '.'.toNat) ∧ eq b ≠ EQ_EXPONENT := by
  have := byte_table (p := fun b => decide ((isNondigit b || isDigit b || b == ch '.') = false →
    ¬ (eq b = EQ_DECIMAL ∨ eq b = '8'.toNat ∨ eq b = EQ_ALPHA ∨ eq b = 'u'.toNat ∨ eq b = 'U'.toNat ∨ eq b = EQ_EXPONENT ∨
        eq b = 'L'.toNat ∨ eq b = '.'.toNat) ∧ eq b ≠ EQ_EXPONENT)) (by decide +kernel) b
  exact of_decide_eq_true this h

/-- `numberTail` with the empty rest of the text counted as a character that no number has. -/
theorem numberTail_zero : isNondigit 0 = false ∧ isDigit 0 = false := by decide

theorem exponent_eq {b : Byte} (h1 : b ≠ ch '+') (h2 : b ≠ ch '-') (r : List Byte) :
    numberTail .exponent (b :: r) = numberTail .plain (b :: r) := by
  rw [numberTail, numberTail, if_neg (by rintro (h | h) <;> contradiction)]

theorem number_reads {m : Nat} : ∀ {f : Nat} {w r : List Char'} {s : St}, At m s (w ++ r) → numberTail .plain (bytes w) = true → NoNames (bytes w) →
    (∀ b ∈ bytes w, b < 128) → numberTail .plain (bytes w ++ [headByte r]) = false → headByte r ≠ ch '\'' → w.length < f →
    ∃ s', parseNumber f s = .ok s' ∧ Reads s (bytes w) s' ∧ At m s' r := by
  intro f
  induction f with
  | zero => intro w r s _ _ _ _ _ _ hf; omega
  | succ f ih =>
  intro w r s h hw hn hl hr hq hf
  match w with
  | [] =>
    refine ⟨s, ?_, .refl s, h⟩
    have h1 : (isNondigit (headByte r) || isDigit (headByte r) || headByte r == ch '.') = false ∨ headByte r = ch '\\' := by
      simp only [bytes, List.map_nil, List.nil_append, numberTail] at hr
      by_cases hb : headByte r = ch '\\'
      · exact .inr hb
      · rw [if_neg hb] at hr
        left
        cases hx : (isNondigit (headByte r) || isDigit (headByte r) || headByte r == ch '.')
        · rfl
        · rw [hx] at hr
          exfalso
          revert hr
          split <;> simp
    have h2 : (isNondigit (headByte r) || isDigit (headByte r) || headByte r == ch '.') = false := by
      rcases h1 with h1 | h1
      · exact h1
      · rw [h1]; decide
    obtain ⟨h3, h4⟩ := number_stop _ h2
    have hc : s.c = eq (headByte r) := h.c
    rw [← hc] at h3 h4
    rw [parseNumber, if_neg h4, if_neg (fun e => hq ((h.is (by decide)).1 e)), if_neg h3]
  | x :: w =>
    obtain ⟨s1, e1, h1, hx⟩ := At.read (t := w ++ r) h
    have hxl : x.1 < 128 := hl x.1 (by simp [bytes])
    obtain ⟨ht1, ht2⟩ := number_table x.1 hxl
    have hc : s.c = eq x.1 := h.c
    have hxb : x.1 ≠ ch '\\' := by
      intro e
      simp only [bytes, List.map_cons] at hw hn
      rw [numberTail, if_pos e] at hw
      cases hw' : List.map Prod.fst w with
      | nil => rw [hw'] at hw; exact absurd hw (by decide)
      | cons c r =>
        rw [hw', e] at hn
        obtain ⟨h3, h4⟩ := hn [] r c rfl
        rw [hw'] at hw
        simp [numberTail, Within.name, h3, h4] at hw
    have hw0 := hw
    have hr0 := hr
    simp only [bytes, List.map_cons, List.cons_append] at hw hr
    rw [numberTail, if_neg hxb] at hw hr
    simp only [Bool.and_eq_true] at hw
    rw [hw.1, Bool.true_and] at hr
    have hcls := ht1.1 hw.1
    have hnt : NoNames (bytes w) := hn.tail
    have hlt : ∀ b ∈ bytes w, b < 128 := fun b hb => hl b (by simp only [bytes, List.map_cons, List.mem_cons]; exact .inr hb)
    by_cases hexp : isExponent x.1 = true
    · rw [hexp] at hw hr
      simp only [if_true] at hw hr
      rw [parseNumber, if_pos (by rw [hc]; exact ht2.1 hexp), e1]
      simp only [Run.bind_ok]
      match w with
      | [] =>
        have hsgn : headByte r ≠ ch '+' ∧ headByte r ≠ ch '-' := by
          simp only [List.map_nil, List.nil_append] at hr
          constructor <;> intro e <;> rw [e] at hr <;> exact absurd hr (by decide)
        have h5 : ¬ (s1.c = '+'.toNat ∨ s1.c = '-'.toNat) := by
          rintro (e | e)
          · exact hsgn.1 ((h1.is (by decide)).1 e)
          · exact hsgn.2 ((h1.is (by decide)).1 e)
        rw [if_neg h5]
        obtain ⟨s2, e2, hr2, h2⟩ := ih (w := []) (r := r) (s := s1) h1 rfl hnt hlt (by
          simp only [List.map_nil, List.nil_append] at hr
          rw [exponent_eq hsgn.1 hsgn.2] at hr
          exact hr) hq (by simp at hf ⊢; omega)
        exact ⟨s2, e2, hx hr2, h2⟩
      | y :: w =>
        by_cases hy : y.1 = ch '+' ∨ y.1 = ch '-'
        · have h5 : s1.c = '+'.toNat ∨ s1.c = '-'.toNat := by
            rcases hy with hy | hy
            · exact .inl ((h1.is (by decide)).2 hy)
            · exact .inr ((h1.is (by decide)).2 hy)
          rw [if_pos h5]
          obtain ⟨s2, e2, h2, hy2⟩ := At.read (t := w ++ r) h1
          rw [e2]
          simp only [Run.bind_ok, List.map_cons, List.cons_append] at hw hr ⊢
          rw [numberTail, if_pos hy] at hw hr
          obtain ⟨s3, e3, hr3, h3⟩ := ih (w := w) h2 hw.2 hnt.tail (fun b hb => hlt b (by simp only [bytes, List.map_cons, List.mem_cons]; exact .inr hb))
            hr hq (by simp at hf ⊢; omega)
          exact ⟨s3, e3, hx (hy2 hr3), h3⟩
        · have h5 : ¬ (s1.c = '+'.toNat ∨ s1.c = '-'.toNat) := by
            rintro (e | e)
            · exact hy (.inl ((h1.is (by decide)).1 e))
            · exact hy (.inr ((h1.is (by decide)).1 e))
          rw [if_neg h5]
          simp only [List.map_cons, List.cons_append] at hw hr
          rw [exponent_eq (fun e => hy (.inl e)) (fun e => hy (.inr e))] at hw hr
          obtain ⟨s2, e2, hr2, h2⟩ := ih (w := y :: w) h1 hw.2 hnt hlt hr hq (by simp at hf ⊢; omega)
          exact ⟨s2, e2, hx hr2, h2⟩
    · rw [if_neg hexp] at hw hr
      have h4 : s.c ≠ EQ_EXPONENT := by rw [hc]; exact fun e => hexp (ht2.2 e)
      have h5 : s.c ≠ '\''.toNat := by
        intro e
        have : x.1 = ch '\'' := (h.is (by decide)).1 e
        rw [this] at hw
        exact absurd hw.1 (by decide)
      obtain ⟨s2, e2, hr2, h2⟩ := ih (w := w) h1 hw.2 hnt hlt hr hq (by simp at hf ⊢; omega)
      refine ⟨s2, ?_, hx hr2, h2⟩
      rw [parseNumber, if_neg h4, if_neg h5, if_pos (by rw [hc]; exact hcls), e1]
      exact e2

/-- A string up to its closing quote. -/
theorem string_reads {m : Nat} {q : Char} (hqs : q ∈ selfChars) (hqn : ch q ≠ ch '\\') : ∀ {f : Nat} {w r : List Char'} {s : St}, At m s (w ++ r) →
    quotedTail (ch q) (bytes w) = true → NoNames (bytes w) → (∀ b ∈ bytes w, b ≠ 0) → ch q ≠ ch '\n' → w.length < f →
    ∃ s', parseStringLike q.toNat f s = .ok s' ∧ Reads s (bytes w) s' ∧ At m s' r := by
  intro f
  induction f with
  | zero => intro w r s _ _ _ _ _ hf; omega
  | succ f ih =>
  intro w r s h hw hn hz hnl hf
  match w with
  | [] => simp [bytes, quotedTail] at hw
  | [x] =>
    simp only [bytes, List.map_cons, List.map_nil, quotedTail, beq_iff_eq] at hw
    obtain ⟨s1, e1, h1, hx⟩ := At.read (t := r) h
    refine ⟨s1, ?_, hx (.refl s1), h1⟩
    have hc : s.c = q.toNat := (h.is hqs).2 hw
    rw [parseStringLike, if_neg (by rintro ⟨-, h2, -⟩; exact h2 hc), if_neg (by simp [hc]), e1]
  | x :: y :: w =>
    simp only [bytes, List.map_cons, quotedTail] at hw
    have hx0 : x.1 ≠ 0 := hz x.1 (by simp [bytes])
    obtain ⟨s1, e1, h1, hx⟩ := At.read (t := y :: w ++ r) h
    by_cases hb : x.1 = ch '\\'
    · rw [hb] at hw
      simp only [BEq.rfl, if_true, Bool.and_eq_true] at hw
      obtain ⟨s2, e2, h2, hy⟩ := At.read (t := w ++ r) h1
      obtain ⟨s3, e3, hr3, h3⟩ := ih (w := w) h2 hw.2 hn.tail.tail (fun b hb => hz b (by
        simp only [bytes, List.map_cons, List.mem_cons]; exact .inr (.inr hb))) hnl (by simp at hf ⊢; omega)
      refine ⟨s3, ?_, hx (hy hr3), h3⟩
      have hc : s.c = '\\'.toNat := (h.is (by decide)).2 hb
      have h5 : s.c ≠ '\n'.toNat ∧ s.c ≠ q.toNat ∧ s.c ≠ EQ_NULL := by
        refine ⟨by rw [hc]; decide, ?_, by rw [hc]; decide⟩
        intro e
        have : x.1 = ch q := (h.is hqs).1 e
        rw [hb] at this
        exact hqn this.symm
      have hyn : y.1 ≠ ch 'u' ∧ y.1 ≠ ch 'U' := by
        refine hn [] (bytes w) y.1 ?_
        simp only [bytes, List.map_cons, List.nil_append, hb]
      have h6 : ¬ (s1.c = 'u'.toNat ∨ s1.c = 'U'.toNat) := by
        rintro (e | e)
        · exact hyn.1 ((h1.is (by decide)).1 e)
        · exact hyn.2 ((h1.is (by decide)).1 e)
      rw [parseStringLike, if_pos h5, if_pos hc, e1]
      simp only [Run.bind_ok]
      rw [if_neg h6, e2]
      exact e3
    · have : (x.1 == ch '\\') = false := by simpa using hb
      rw [this] at hw
      simp only [Bool.false_eq_true, if_false, Bool.and_eq_true, bne_iff_ne, ne_eq] at hw
      obtain ⟨s2, e2, hr2, h2⟩ := ih (w := y :: w) h1 hw.2 hn.tail (fun b hb => hz b (by
        simp only [bytes, List.map_cons, List.mem_cons] at hb ⊢; exact .inr hb)) hnl (by simp at hf ⊢; omega)
      refine ⟨s2, ?_, hx hr2, h2⟩
      have h5 : s.c ≠ '\n'.toNat ∧ s.c ≠ q.toNat ∧ s.c ≠ EQ_NULL := by
        refine ⟨fun e => hw.1.2 ((h.is (by decide)).1 e), fun e => hw.1.1 ((h.is hqs).1 e), fun e => ?_⟩
        rw [h.c, null_table] at e
        exact hx0 e
      rw [parseStringLike, if_pos h5, if_neg (fun e => hb ((h.is (by decide)).1 e)), e1]
      exact e2

theorem quoted_reads {m : Nat} {q : Char} (hqs : q ∈ selfChars) (hqn : ch q ≠ ch '\\') (hnl : ch q ≠ ch '\n') {f : Nat} {x : Char'}
    {w r : List Char'} {s : St} {t : TType} (h : At m s (x :: w ++ r)) (hw : quotedTail (ch q) (bytes w) = true) (hn : NoNames (bytes w))
    (hz : ∀ b ∈ bytes w, b ≠ 0) (hf : w.length < f) :
    ∃ s', quoted f t q s = .ok (t, s') ∧ Reads s (bytes (x :: w)) s' ∧ At m s' r := by
  obtain ⟨s1, e1, h1, hx⟩ := At.read (t := w ++ r) h
  obtain ⟨s2, e2, hr2, h2⟩ := string_reads hqs hqn h1 hw hn hz hnl hf
  refine ⟨s2, ?_, hx hr2, h2⟩
  rw [quoted, e1]
  simp only [Run.bind_ok]
  rw [e2]
  rfl

/-- To the end of the line. -/
theorem line_reads {m : Nat} : ∀ {w r : List Char'} {s : St} {f : Nat}, At m s (w ++ r) → (∀ x ∈ w, x.1 ≠ ch '\n' ∧ x.1 ≠ 0) →
    (headByte r = 0 ∨ headByte r = ch '\n') → w.length < f → ∃ s', lineComment f s = .ok s' ∧ At m s' r := by
  intro w
  induction w with
  | nil =>
    intro r s f h _ hr hf
    match f with
    | f + 1 =>
    refine ⟨s, ?_, h⟩
    rw [lineComment, if_neg]
    rintro ⟨h1, h2⟩
    rcases hr with hr | hr
    · exact h2 (by rw [h.c]; exact (null_table _).2 hr)
    · exact h1 ((h.is (by decide)).2 hr)
  | cons x w ih =>
    intro r s f h hw hr hf
    match f with
    | f + 1 =>
    obtain ⟨s1, e1, h1, -⟩ := At.read (t := w ++ r) h
    obtain ⟨s2, e2, h2⟩ := ih (f := f) h1 (fun y hy => hw y (by simp [hy])) hr (by simpa using hf)
    refine ⟨s2, ?_, h2⟩
    rw [lineComment, if_pos, e1]
    · exact e2
    · refine ⟨fun e => (hw x (by simp)).1 ((h.is (by decide)).1 e), fun e => (hw x (by simp)).2 ?_⟩
      rw [h.c] at e
      exact (null_table _).1 e

theorem takeWhile_self {α : Type} {p : α → Bool} : ∀ {l : List α}, l.takeWhile p = l ↔ ∀ x ∈ l, p x = true := by
  intro l
  induction l with
  | nil => simp
  | cons a l ih =>
    rw [List.takeWhile_cons]
    cases hp : p a
    · simp [hp]
    · simp [hp, ih]

theorem trailingStars_cons (b : Byte) (l : List Byte) :
    trailingStars (b :: l) = if b = ch '*' ∧ ∀ x ∈ l, x = ch '*' then l.length + 1 else trailingStars l := by
  unfold trailingStars
  rw [List.reverse_cons, List.takeWhile_append]
  by_cases hl : ∀ x ∈ l, x = ch '*'
  · have h1 : l.reverse.takeWhile (· == ch '*') = l.reverse := by
      rw [takeWhile_self]
      intro x hx
      simpa using hl x (by simpa using hx)
    rw [h1]
    simp only [if_true]
    by_cases hb : b = ch '*'
    · rw [if_pos ⟨hb, hl⟩]
      simp [List.takeWhile, hb]
    · rw [if_neg (fun h => hb h.1)]
      have : (b == ch '*') = false := by simpa using hb
      simp [List.takeWhile, this]
  · rw [if_neg (c := b = ch '*' ∧ ∀ x ∈ l, x = ch '*') (fun h => hl h.2), if_neg]
    intro h
    apply hl
    have h2 : l.reverse.takeWhile (· == ch '*') = l.reverse := (List.takeWhile_prefix _).eq_of_length h
    rw [takeWhile_self] at h2
    intro x hx
    simpa using h2 x (by simpa using hx)

/-- A block comment with an even number of asterisks before the final one. -/
theorem block_reads {m : Nat} : ∀ {f : Nat} {w r : List Char'} {x : Char'} {body : List Byte} {s : St}, At m s (x :: w ++ r) →
    bytes w = body ++ str "*/" → (∀ a b, body ++ [ch '*'] ≠ a ++ str "*/" ++ b) → trailingStars body % 2 = 0 → (∀ b ∈ body, b ≠ 0) → body.length < f →
    ∃ s', blockComment f s = .ok s' ∧ At m s' r := by
  intro f
  induction f with
  | zero => intro w r x body s _ _ _ _ _ hf; omega
  | succ f ih =>
  intro w r x body s h hw hb ht hz hf
  obtain ⟨s1, e1, h1, -⟩ := At.read (t := w ++ r) h
  rw [blockComment, e1]
  simp only [Run.bind_ok]
  have hstar : '*' ∈ selfChars := by decide
  match body with
  | [] =>
    have hw2 : bytes w = [ch '*', ch '/'] := hw
    match w, hw2 with
    | [], hw => cases hw
    | [_], hw => simp [bytes] at hw
    | _ :: _ :: _ :: _, hw => simp [bytes] at hw
    | [y, z], hw =>
      simp only [bytes, List.map_cons, List.map_nil] at hw
      have hy : y.1 = ch '*' ∧ z.1 = ch '/' := by
        have : [y.1, z.1] = [ch '*', ch '/'] := hw
        simpa using this
      obtain ⟨s2, e2, h2, -⟩ := At.read (t := z :: r) h1
      obtain ⟨s3, e3, h3, -⟩ := At.read (t := r) h2
      rw [if_pos ((h1.is hstar).2 hy.1), e2]
      simp only [Run.bind_ok]
      rw [if_pos ((h2.is (by decide)).2 hy.2)]
      exact ⟨s3, e3, h3⟩
  | b :: body =>
    match w, hw with
    | y :: w, hw =>
    simp only [bytes, List.map_cons, List.cons_append, List.cons.injEq] at hw
    obtain ⟨hy, hw⟩ := hw
    by_cases hbs : b = ch '*'
    · rw [if_pos ((h1.is hstar).2 (by rw [← hbs]; exact hy))]
      match body with
      | [] =>
        rw [trailingStars_cons, if_pos ⟨hbs, by simp⟩] at ht
        simp at ht
      | b2 :: body =>
        match w, hw with
        | z :: w, hw =>
        simp only [List.map_cons, List.cons_append, List.cons.injEq] at hw
        obtain ⟨hz2, hw⟩ := hw
        obtain ⟨s2, e2, h2, -⟩ := At.read (t := z :: w ++ r) h1
        rw [e2]
        simp only [Run.bind_ok]
        have hz3 : z.1 ≠ ch '/' := by
          intro e
          refine hb [] (body ++ [ch '*']) ?_
          rw [← hz2, hbs, e]
          rfl
        rw [if_neg (fun e => hz3 ((h2.is (by decide)).1 e))]
        refine ih (w := w) (body := body) h2 hw ?_ ?_ (fun c hc => hz c (by simp [hc])) (by simp at hf ⊢; omega)
        · intro a c e
          exact hb (b :: b2 :: a) c (by rw [List.cons_append, List.cons_append, e]; rfl)
        · rw [trailingStars_cons, trailingStars_cons] at ht
          by_cases hal : ∀ q ∈ body, q = ch '*'
          · by_cases hb2 : b2 = ch '*'
            · rw [if_pos ⟨hbs, by simpa [hb2] using hal⟩] at ht
              have : trailingStars body = body.length := by
                unfold trailingStars
                rw [takeWhile_self.2]
                · simp
                · intro q hq; simpa using hal q (by simpa using hq)
              rw [this]
              simp only [List.length_cons] at ht
              omega
            · rw [if_neg (fun h => hb2 (h.2 b2 (by simp))), if_neg (fun h => hb2 h.1)] at ht
              exact ht
          · rw [if_neg (fun h => hal (fun q hq => h.2 q (by simp [hq]))), if_neg (fun h => hal h.2)] at ht
            exact ht
    · have hc : s1.c ≠ '*'.toNat := fun e => hbs (by rw [← hy]; exact (h1.is hstar).1 e)
      have hc0 : s1.c ≠ EQ_NULL := by
        intro e
        rw [h1.c] at e
        exact hz b (by simp) (by rw [← hy]; exact (null_table _).1 e)
      rw [if_neg hc, if_neg hc0]
      refine ih (w := w) (body := body) h1 hw ?_ ?_ (fun c hc => hz c (by simp [hc])) (by simp at hf ⊢; omega)
      · intro a c e
        exact hb (b :: a) c (by rw [List.cons_append, e]; rfl)
      · rw [trailingStars_cons, if_neg (fun h => hbs h.1)] at ht
        exact ht

end Verif.Tokenizer
