import Verif.TokenizerPunctLemmas
/-!
Helper lemmas: the tokens of a text.
-/
namespace Verif.Tokenizer
open Verif TokenizerSpec

set_option maxRecDepth 4000

theorem first_table (b : Byte) (h : eq b = EQ_SPACE ∨ b = ch '\n') : isNondigit b = false ∧ isDigit b = false ∧ b ≠ ch '\\' ∧ b ≠ ch '.' ∧
    b ≠ ch '"' ∧ b ≠ ch '\'' ∧ b ≠ ch 'u' ∧ b ≠ ch 'U' ∧ b ≠ ch 'L' ∧ b ≠ ch '/' := by
  have := byte_table (p := fun b => decide ((eq b = EQ_SPACE ∨ b = ch '\n') → isNondigit b = false ∧ isDigit b = false ∧ b ≠ ch '\\' ∧ b ≠ ch '.' ∧
    b ≠ ch '"' ∧ b ≠ ch '\'' ∧ b ≠ ch 'u' ∧ b ≠ ch 'U' ∧ b ≠ ch 'L' ∧ b ≠ ch '/')) (by decide +kernel) b
  exact of_decide_eq_true this h

/-- No token begins with white space. -/
theorem kind_first {b : Byte} {w : List Byte} {k : TType} (h : kind (b :: w) = some k) : ¬ (eq b = EQ_SPACE ∨ b = ch '\n') := by
  intro hb
  obtain ⟨n1, n2, n3, n4, n5, n6, n7, n8, n9, -⟩ := first_table b hb
  rcases kind_cases h with ⟨h, -⟩ | ⟨-, h, -⟩ | ⟨h, -⟩ | ⟨h, -⟩ | ⟨-, -, h⟩
  · simp [isIdent, identTail, n1, n2, n3] at h
  · simp [isNumber, n2, n4] at h
  · cases w with
    | nil => simp [isString, n5] at h
    | cons c w => cases w <;> simp [isString, n5, n7, n8, n9] at h
  · cases w with
    | nil => simp [isCharConst, n6] at h
    | cons c w => simp [isCharConst, n6, n7, n8, n9] at h
  · have hm := lookup_mem h
    have ht : punctuators.all (fun p => match p.1 with
      | [] => true
      | c :: _ => decide (¬ (eq c = EQ_SPACE ∨ c = ch '\n'))) = true := by decide +kernel
    exact of_decide_eq_true (List.all_eq_true.1 ht _ hm) hb

theorem kind_not {w : List Byte} {k : TType} (h : kind w = some k) : k ≠ .T_EOI ∧ k ≠ .PP_DIRECTIVE := by
  rcases kind_cases h with ⟨-, rfl⟩ | ⟨-, -, rfl⟩ | ⟨-, rfl⟩ | ⟨-, rfl⟩ | ⟨-, -, h⟩
  · decide
  · decide
  · decide
  · decide
  · have ht : punctuators.all (fun p => decide (p.2 ≠ .T_EOI ∧ p.2 ≠ .PP_DIRECTIVE)) = true := by decide +kernel
    exact of_decide_eq_true (List.all_eq_true.1 ht _ (lookup_mem h))

/-- Tokens that begin with a slash. -/
theorem kind_slash {w : List Byte} {k : TType} (h : kind (ch '/' :: w) = some k) : (w = [] ∧ k = .T_DIV) ∨ (w = [ch '='] ∧ k = .T_DIVA) := by
  rcases kind_cases h with ⟨h, -⟩ | ⟨-, h, -⟩ | ⟨h, -⟩ | ⟨h, -⟩ | ⟨-, -, h⟩
  · rw [isIdent, identTail, if_neg (by decide), show (isNondigit (ch '/') || isDigit (ch '/')) = false by decide] at h
    simp at h
  · have n1 : isDigit (ch '/') = false := by decide
    have n2 : ¬ ch '/' = ch '.' := by decide
    simp [isNumber, n1, n2] at h
  · have n5 : ¬ ch '/' = ch '"' := by decide
    have n7 : ¬ ch '/' = ch 'u' := by decide
    have n8 : ¬ ch '/' = ch 'U' := by decide
    have n9 : ¬ ch '/' = ch 'L' := by decide
    cases w with
    | nil => simp [isString, n5] at h
    | cons c w => cases w <;> simp [isString, n5, n7, n8, n9] at h
  · have n5 : ¬ ch '/' = ch '\'' := by decide
    have n7 : ¬ ch '/' = ch 'u' := by decide
    have n8 : ¬ ch '/' = ch 'U' := by decide
    have n9 : ¬ ch '/' = ch 'L' := by decide
    cases w with
    | nil => simp [isCharConst, n5] at h
    | cons c w => simp [isCharConst, n5, n7, n8, n9] at h
  · have ht : punctuators.all (fun p => match p.1 with
      | [] => true
      | c :: w => decide (c = ch '/' → (w = [] ∧ p.2 = .T_DIV) ∨ (w = [ch '='] ∧ p.2 = .T_DIVA))) = true := by decide +kernel
    exact of_decide_eq_true (List.all_eq_true.1 ht _ (lookup_mem h)) rfl

/-- A token that begins with a double quote is a string. -/
theorem kind_quote {w : List Byte} {k : TType} (h : kind (ch '"' :: w) = some k) : quotedTail (ch '"') w = true := by
  rcases kind_cases h with ⟨h, -⟩ | ⟨-, h, -⟩ | ⟨h, -⟩ | ⟨h, -⟩ | ⟨-, -, h⟩
  · rw [isIdent, identTail, if_neg (by decide), show (isNondigit (ch '"') || isDigit (ch '"')) = false by decide] at h
    simp at h
  · have n1 : isDigit (ch '"') = false := by decide
    have n2 : ¬ ch '"' = ch '.' := by decide
    simp [isNumber, n1, n2] at h
  · have n7 : ¬ ch '"' = ch 'u' := by decide
    have n8 : ¬ ch '"' = ch 'U' := by decide
    have n9 : ¬ ch '"' = ch 'L' := by decide
    cases w with
    | nil => simp [isString, quotedTail] at h
    | cons c w =>
      cases w <;> simpa [isString, n7, n8, n9] using h
  · have n5 : ¬ ch '"' = ch '\'' := by decide
    have n7 : ¬ ch '"' = ch 'u' := by decide
    have n8 : ¬ ch '"' = ch 'U' := by decide
    have n9 : ¬ ch '"' = ch 'L' := by decide
    cases w with
    | nil => simp [isCharConst, n5] at h
    | cons c w => simp [isCharConst, n5, n7, n8, n9] at h
  · have ht : punctuators.all (fun p => match p.1 with
      | [] => true
      | c :: w => decide (c ≠ ch '"')) = true := by decide +kernel
    exact absurd rfl (of_decide_eq_true (List.all_eq_true.1 ht _ (lookup_mem h)))

/-- A token that begins with a single quote is a character constant. -/
theorem kind_tick {w : List Byte} {k : TType} (h : kind (ch '\'' :: w) = some k) : w ≠ [ch '\''] ∧ quotedTail (ch '\'') w = true := by
  rcases kind_cases h with ⟨h, -⟩ | ⟨-, h, -⟩ | ⟨h, -⟩ | ⟨h, -⟩ | ⟨-, -, h⟩
  · rw [isIdent, identTail, if_neg (by decide), show (isNondigit (ch '\'') || isDigit (ch '\'')) = false by decide] at h
    simp at h
  · have n1 : isDigit (ch '\'') = false := by decide
    have n2 : ¬ ch '\'' = ch '.' := by decide
    simp [isNumber, n1, n2] at h
  · have n5 : ¬ ch '\'' = ch '"' := by decide
    have n7 : ¬ ch '\'' = ch 'u' := by decide
    have n8 : ¬ ch '\'' = ch 'U' := by decide
    have n9 : ¬ ch '\'' = ch 'L' := by decide
    cases w with
    | nil => simp [isString, n5] at h
    | cons c w => cases w <;> simp [isString, n5, n7, n8, n9] at h
  · have n7 : ¬ ch '\'' = ch 'u' := by decide
    have n8 : ¬ ch '\'' = ch 'U' := by decide
    have n9 : ¬ ch '\'' = ch 'L' := by decide
    cases w with
    | nil => simp [isCharConst, quotedTail] at h
    | cons c w => simpa [isCharConst, n7, n8, n9] using h
  · have ht : punctuators.all (fun p => match p.1 with
      | [] => true
      | c :: w => decide (c ≠ ch '\'')) = true := by decide +kernel
    exact absurd rfl (of_decide_eq_true (List.all_eq_true.1 ht _ (lookup_mem h)))

/-- A text that begins with a quote begins with a token that does. -/
theorem lexes_quote {P : Ctx → List Byte → List Byte → Prop} {c : Ctx} {t : List Char'} {l : List Item} (h : Lexes P c t l) {q : Byte}
    (hq : q = ch '"' ∨ q = ch '\'') (ht : headByte t = q) :
    ∃ w r k, bytes t = (q :: w) ++ r ∧ kind (q :: w) = some k := by
  have hbl : q ∉ blanks := by rcases hq with rfl | rfl <;> decide
  have hne : q ≠ 0 ∧ q ≠ ch '\n' ∧ q ≠ ch '/' ∧ q ≠ ch '<' := by rcases hq with rfl | rfl <;> decide
  cases h with
  | done => exact absurd ht.symm hne.1
  | newline => exact absurd ht.symm hne.2.1
  | blank hb => exact absurd (by rw [← ht]; exact hb) hbl
  | @lineComment _ w r _ hw =>
    exfalso
    match w, hw with
    | x :: w, hw =>
      simp only [bytes, List.map_cons] at hw
      have : x.1 = ch '/' := by
        have := congrArg List.head? hw
        simpa [str] using this
      exact hne.2.2.1 (by rw [← this, ← ht]; rfl)
  | @blockComment _ w r body _ hw =>
    exfalso
    match w, hw with
    | x :: w, hw =>
      simp only [bytes, List.map_cons] at hw
      have : x.1 = ch '/' := by
        have := congrArg List.head? hw
        simpa [str] using this
      exact hne.2.2.1 (by rw [← this, ← ht]; rfl)
  | header => exact absurd ht.symm hne.2.2.2
  | @token _ b n w r k _ _ _ hL _ _ =>
    change b = q at ht
    subst ht
    refine ⟨bytes w, bytes r, k, ?_, ?_⟩
    · simp [bytes]
    · exact hL.1

/-- A prefix of a literal is not taken for an identifier. -/
theorem prefix_quote {P : Ctx → List Byte → List Byte → Prop} {c : Ctx} {w : List Byte} {t : List Char'} {l : List Item} {k : TType}
    (h : Lexes P c t l) (hL : Longest w (bytes t) k) :
    (w = str "u" ∨ w = str "U" ∨ w = str "L" → headByte t ≠ ch '"' ∧ headByte t ≠ ch '\'') ∧ (w = str "u8" → headByte t ≠ ch '"') := by
  have key : ∀ q : Byte, (q = ch '"' ∨ q = ch '\'') → headByte t = q →
      (∀ v, (∃ k, kind (q :: v) = some k) → kind (w ++ q :: v) ≠ none) → False := by
    intro q hq ht hv
    obtain ⟨v, r, k', e, hk⟩ := lexes_quote h hq ht
    refine hv v ⟨k', hk⟩ ?_
    have := hL.2 (w.length + (q :: v).length) (by simp) (by rw [e]; simp)
    rw [e, ← List.append_assoc, List.take_left' (by simp)] at this
    exact this
  refine ⟨fun hw => ⟨fun e => ?_, fun e => ?_⟩, fun hw e => ?_⟩
  · refine key _ (.inl rfl) e fun v ⟨k', hk⟩ => isString_kind ?_
    have := kind_quote hk
    rcases hw with rfl | rfl | rfl <;> simp [str, isString, this]
  · refine key _ (.inr rfl) e fun v ⟨k', hk⟩ => isCharConst_kind ?_
    obtain ⟨h1, h2⟩ := kind_tick hk
    rcases hw with rfl | rfl | rfl <;> simp [str, isCharConst, h1, h2]
  · refine key _ (.inl rfl) e fun v ⟨k', hk⟩ => isString_kind ?_
    have := kind_quote hk
    rw [hw]
    simp [str, isString, this]

theorem wordClass_of {c : Nat} (h : c = 'u'.toNat ∨ c = 'L'.toNat ∨ c = 'U'.toNat ∨ c = EQ_EXPONENT ∨ c = EQ_UTF8 ∨ c = EQ_ALPHA) : wordClass c := by
  unfold wordClass
  rcases h with h | h | h | h | h | h <;> simp [h]

theorem numberTail_zero_end : ∀ (v : List Byte) (p : Within), numberTail p (v ++ [0]) = false := by
  intro v
  induction v with
  | nil =>
    intro p
    match p with
    | .plain => decide
    | .exponent => decide
    | .slash => decide
    | .hex 0 => decide
    | .hex (n + 1) =>
      have : isHex 0 = false := by decide
      show (match (if isHex 0 = true then some (Within.hex n) else none) with | some p => numberTail p [] | none => false) = false
      rw [this]
      rfl
  | cons b v ih =>
    intro p
    match p with
    | .plain => rw [List.cons_append, numberTail]; split <;> (try simp only [ih, Bool.and_false])
    | .exponent => rw [List.cons_append, numberTail]; split <;> (try split) <;> (try simp only [ih, Bool.and_false])
    | .slash =>
      simp only [List.cons_append, numberTail]
      split <;> (try simp only [ih, Bool.and_false])
    | .hex n =>
      simp only [List.cons_append, numberTail]
      split <;> (try simp only [ih, Bool.and_false])

/-- The token at a position. -/
theorem scan_token {m f : Nat} {s : St} {fl : Flags} {c c' : Ctx} {x : Char'} {w r : List Char'} {k : TType} {l : List Item}
    (h : At m s (x :: w ++ r)) (hL : Longest (bytes (x :: w)) (bytes r) k) (hslash : x.1 ≠ ch '/') (hless : x.1 = ch '<' → fl.header = false)
    (hP : Supported c (bytes (x :: w)) (bytes r)) (hlex : Lexes Supported c' r l) (hz : ∀ b ∈ bytes (x :: w), b ≠ 0) (hf : w.length + 1 < f) :
    Scans m f s fl c.first (x :: w) r (inContext c k) (flagsAfter fl (inContext c k)) := by
  have hk := hL.1
  have hnames : NoNames (bytes (x :: w)) := hP.names (by rw [hk]; simp)
  have hs := hL.next
  have keep : k ≠ .PP_HASH → Scans m f s fl c.first (x :: w) r k fl →
      Scans m f s fl c.first (x :: w) r (inContext c k) (flagsAfter fl (inContext c k)) := by
    intro h1 h3
    have : inContext c k = k := by
      unfold inContext
      rw [if_neg (fun h => h1 h.1)]
    rw [this, flagsAfter, if_neg (kind_not hk).2]
    exact h3
  have hc : s.c = eq x.1 := h.c
  rcases kind_cases hk with ⟨hi, rfl⟩ | ⟨hni, hi, rfl⟩ | ⟨hi, rfl⟩ | ⟨hi, rfl⟩ | ⟨-, -, hi⟩
  · refine keep (by decide) ?_
    have hid := hi
    simp only [bytes, List.map_cons, isIdent, Bool.and_eq_true, Bool.not_eq_true'] at hi
    have hall := (identTail_chars hnames).1 hi.2
    have hx : isNondigit x.1 = true := by
      have := hall x.1 (by simp [bytes])
      rw [hi.1, Bool.or_false] at this
      exact this
    have hw : ∀ y ∈ w, (isNondigit y.1 || isDigit y.1) = true := fun y hy => hall y.1 (by simp only [bytes, List.map_cons, List.mem_cons, List.mem_map]; exact .inr ⟨y, hy, rfl⟩)
    have hbs : headByte r ≠ ch '\\' := head_ne (by decide) (hP.ident hid)
    have hstop : (isNondigit (headByte r) || isDigit (headByte r)) = false := by
      rcases hs with e | e
      · rw [e]; decide
      · cases hx' : (isNondigit (headByte r) || isDigit (headByte r))
        · rfl
        · exfalso
          have hnn : NoNames (bytes (x :: w) ++ [headByte r]) := by
            intro a b d e'
            exfalso
            have hmem : ch '\\' ∈ bytes (x :: w) ++ [headByte r] := by rw [e']; simp
            rcases List.mem_append.1 hmem with h1 | h1
            · exact absurd (hall _ h1) (by decide)
            · simp only [List.mem_singleton] at h1
              exact hbs h1.symm
          have : isIdent (bytes (x :: w) ++ [headByte r]) = true := by
            simp only [bytes, List.map_cons, List.cons_append, isIdent, hi.1, Bool.not_false, Bool.true_and]
            refine (identTail_chars hnn).2 ?_
            intro b hb
            rcases List.mem_append.1 (show b ∈ bytes (x :: w) ++ [headByte r] from hb) with h1 | h1
            · exact hall b h1
            · simp only [List.mem_singleton] at h1
              rw [h1]; exact hx'
          rw [isIdent_kind this] at e
          cases e
    obtain ⟨hq, hq8⟩ := prefix_quote hlex hL
    refine scan_word ?_ (word_ident h hx hw hstop hbs hq hq8 (by omega))
    rw [hc]
    exact wordClass_of ((words_table x.1).1 hx)
  · refine keep (by decide) ?_
    obtain ⟨hq, hl⟩ := hP.number hi
    have hq : headByte r ≠ ch '\'' := head_ne (by decide) hq
    have hnext : ∀ v : List Byte, (numberTail .plain (v ++ [headByte r]) = true → isNumber (bytes (x :: w) ++ [headByte r]) = true) →
        numberTail .plain (v ++ [headByte r]) = false := by
      intro v hv
      cases hx : numberTail .plain (v ++ [headByte r])
      · rfl
      · rcases hs with e | e
        · rw [e, numberTail_zero_end] at hx; exact hx.symm
        · exact absurd e (isNumber_kind (hv hx))
    have hi' := hi
    simp only [bytes, List.map_cons, isNumber, Bool.or_eq_true, Bool.and_eq_true, beq_iff_eq] at hi
    rcases hi with ⟨hx, hw⟩ | ⟨hx, hw⟩
    · refine scan_word ?_ (word_number h hx hw hnames.tail (fun b hb => hl b (by simp only [bytes, List.map_cons, List.mem_cons]; exact .inr hb))
        (hnext (bytes w) fun e => ?_) hq (by omega))
      · rw [hc]
        rcases (words_table x.1).2.1 hx with e | e <;> simp [wordClass, e]
      · simp only [bytes, List.map_cons, List.cons_append, isNumber, hx, Bool.true_and, Bool.or_eq_true]
        exact .inl e
    · match w with
      | [] => simp at hw
      | d :: w =>
      simp only [List.map_cons, Bool.and_eq_true] at hw
      refine scan_dot h hx (dotNumber_ok h hw.1 hw.2 hnames.tail.tail
        (fun b hb => hl b (by simp only [bytes, List.map_cons, List.mem_cons]; exact .inr (.inr hb))) (hnext (bytes w) fun e => ?_) hq
        (by simp at hf; omega))
      simp only [bytes, List.map_cons, List.cons_append, isNumber, hx, hw.1, Bool.true_and, Bool.or_eq_true, BEq.rfl]
      exact .inr e
  · refine keep (by decide) (scan_word ?_ (word_string h hi hnames hz (by simp; omega)))
    have : x.1 = ch '"' ∨ x.1 = ch 'u' ∨ x.1 = ch 'U' ∨ x.1 = ch 'L' := by
      match w with
      | [] => simp [bytes, isString, quotedTail] at hi
      | [y] => simp [bytes, isString, quotedTail] at hi; simp only [hi, true_or]
      | y :: z :: w =>
        simp only [bytes, List.map_cons, isString, Bool.or_eq_true, Bool.and_eq_true, beq_iff_eq] at hi
        rcases hi with ⟨h1, -⟩ | ⟨⟨(h1 | h1) | h1, -⟩, -⟩ | ⟨⟨⟨h1, -⟩, -⟩, -⟩ <;> simp [h1]
    rcases this with e | e | e | e <;> (rw [hc, e]; decide)
  · refine keep (by decide) (scan_word ?_ (word_char h hi hnames hz (by simp; omega)))
    have : x.1 = ch '\'' ∨ x.1 = ch 'u' ∨ x.1 = ch 'U' ∨ x.1 = ch 'L' := by
      match w with
      | [] => simp [bytes, isCharConst, quotedTail] at hi
      | y :: w =>
        simp only [bytes, List.map_cons, isCharConst, Bool.or_eq_true, Bool.and_eq_true, beq_iff_eq] at hi
        rcases hi with ⟨⟨h1, -⟩, -⟩ | ⟨⟨⟨(h1 | h1) | h1, -⟩, -⟩, -⟩ <;> simp [h1]
    rcases this with e | e | e | e <;> (rw [hc, e]; decide)
  · refine scan_punct h hi hs hP.digraph (fun e => head_ne (by decide) (hP.dots e)) ?_ ?_
    · simpa [bytes] using hslash
    · intro e; exact hless (by simpa [bytes] using e)

end Verif.Tokenizer
