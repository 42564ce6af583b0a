import Verif.PreprocessedLemmas
/-! The printed words of the tokens that are `Spelled`, and the text they make. -/
namespace Verif.PreprocessedLemmas
open Verif TokenizerSpec PreprocessedSpec
open Verif.Tokenizer (kind_cases kind_slash kind_quote kind_tick isIdent_kind isNumber_kind isString_kind isCharConst_kind)
open Verif.Preprocessed

/-! ### Words -/

/-- What a printed word must be. -/
structure Good (t : Tok) (w : List Byte) : Prop where
  wanted : wanted t = w
  slash : ch '\\' ∉ w
  kind : ∃ k, kind w = some k ∧ k ≠ .PP_HASH ∧ ∀ f b n, Stands ⟨k, w, f, b, n⟩ t.type t.str
  digraph : w ≠ str "%:"

theorem formatted_id {s : List Byte} (h : (0 : Byte) ∉ s) : formatted s = s := by
  unfold formatted
  have := List.takeWhile_append_of_pos (p := fun x : Byte => decide (x ≠ 0)) (l₁ := s) (l₂ := []) (by
    intro b hb
    exact decide_eq_true (fun e => h (e ▸ hb)))
  simpa using this

theorem identTail_bytes : ∀ (w : List Byte), ch '\\' ∉ w → identTail .plain w = true → ∀ b ∈ w, (isNondigit b || isDigit b) = true
  | [], _, _, b, hb => by cases hb
  | x :: w, hn, h, b, hb => by
    rw [identTail, if_neg (fun e => hn (by simp [e])), Bool.and_eq_true] at h
    rcases List.mem_cons.1 hb with rfl | hb
    · exact h.1
    · exact identTail_bytes w (fun e => hn (by simp [e])) h.2 b hb

theorem numberTail_bytes : ∀ (w : List Byte) (p : Within), (p = .plain ∨ p = .exponent) → ch '\\' ∉ w → numberTail p w = true →
    ∀ b ∈ w, (isNondigit b || isDigit b || b == ch '.' || b == ch '+' || b == ch '-') = true
  | [], _, _, _, _, b, hb => by cases hb
  | x :: w, p, hp, hn, h, b, hb => by
    have hx : x ≠ ch '\\' := fun e => hn (by simp [e])
    have hn' : ch '\\' ∉ w := fun e => hn (by simp [e])
    have hq : ∀ c : Bool, (if c = true then Within.exponent else Within.plain) = .plain ∨ (if c = true then Within.exponent else Within.plain) = .exponent := by
      intro c; cases c <;> simp
    rcases hp with rfl | rfl
    · rw [numberTail, if_neg hx, Bool.and_eq_true] at h
      rcases List.mem_cons.1 hb with rfl | hb
      · rw [h.1]; rfl
      · exact numberTail_bytes w _ (hq _) hn' h.2 b hb
    · rw [numberTail] at h
      by_cases hs : x = ch '+' ∨ x = ch '-'
      · rw [if_pos hs] at h
        rcases List.mem_cons.1 hb with rfl | hb
        · rcases hs with rfl | rfl <;> decide
        · exact numberTail_bytes w _ (.inl rfl) hn' h b hb
      · rw [if_neg hs, if_neg hx, Bool.and_eq_true] at h
        rcases List.mem_cons.1 hb with rfl | hb
        · rw [h.1]; rfl
        · exact numberTail_bytes w _ (hq _) hn' h.2 b hb

theorem ident_no_nul {w : List Byte} (hn : ch '\\' ∉ w) (h : isIdent w = true) : (0 : Byte) ∉ w := by
  intro h0
  cases w with
  | nil => cases h0
  | cons b w =>
    rw [isIdent, Bool.and_eq_true] at h
    exact absurd (identTail_bytes _ hn h.2 0 h0) (by decide)

theorem number_no_nul {w : List Byte} (hn : ch '\\' ∉ w) (h : isNumber w = true) : (0 : Byte) ∉ w := by
  intro h0
  cases w with
  | nil => cases h0
  | cons b w =>
    have hn1 : ch '\\' ∉ w := fun e => hn (by simp [e])
    unfold isNumber at h
    rw [Bool.or_eq_true] at h
    rcases h with h | h
    · rw [Bool.and_eq_true] at h
      rcases List.mem_cons.1 h0 with rfl | h0
      · exact absurd h.1 (by decide)
      · exact absurd (numberTail_bytes _ _ (.inl rfl) hn1 h.2 0 h0) (by decide)
    · rw [Bool.and_eq_true] at h
      rcases List.mem_cons.1 h0 with rfl | h0
      · exact absurd h.1 (by decide)
      · cases w with
        | nil => cases h0
        | cons d w =>
          have h2 := h.2
          simp only [Bool.and_eq_true] at h2
          rcases List.mem_cons.1 h0 with rfl | h0
          · exact absurd h2.1 (by decide)
          · exact absurd (numberTail_bytes _ _ (.inl rfl) (fun e => hn1 (by simp [e])) h2.2 0 h0) (by decide)

theorem number_not_ident {w : List Byte} (h : isNumber w = true) : isIdent w = false := by
  cases w with
  | nil => rfl
  | cons b w =>
    unfold isNumber at h
    rw [Bool.or_eq_true] at h
    rcases h with h | h
    · rw [Bool.and_eq_true] at h
      simp [isIdent, h.1]
    · rw [Bool.and_eq_true] at h
      have hb : b = ch '.' := by simpa using h.1
      subst hb
      rw [isIdent, identTail, if_neg (by decide), show (isNondigit (ch '.') || isDigit (ch '.')) = false by decide]
      simp

/-- The bytes of a character: the character itself, if it is below 128, otherwise bytes from 128. -/
theorem utf8_bytes {c : Nat} (hc : c ≤ 0x10ffff) : ∀ b ∈ Utf8.specUtf8 c, (c < 128 ∧ b = BitVec.ofNat 8 c) ∨ 128 ≤ b.toNat := by
  intro b hb
  simp only [Utf8.specUtf8, Utf8.specBytes] at hb
  split at hb
  · rename_i h
    simp at hb
    exact .inl ⟨by omega, hb⟩
  · right
    split at hb
    · simp at hb
      rcases hb with rfl | rfl <;> (simp only [BitVec.toNat_ofNat]; omega)
    · split at hb
      · simp at hb
        rcases hb with rfl | rfl | rfl <;> (simp only [BitVec.toNat_ofNat]; omega)
      · simp at hb
        rcases hb with rfl | rfl | rfl | rfl <;> (simp only [BitVec.toNat_ofNat]; omega)

/-- Characters that need no escape sequence. -/
def Harmless (c : Nat) : Prop := c ≤ 0x10ffff ∧ c ≠ 0 ∧ c ≠ '\n'.toNat ∧ c ≠ '"'.toNat ∧ c ≠ '\\'.toNat

theorem harmless_bytes {cps : List Nat} (h : ∀ c ∈ cps, Harmless c) : ∀ b ∈ EscapeSpec.renderAll (cps.map .plain),
    b ≠ 0 ∧ b ≠ ch '\n' ∧ b ≠ ch '"' ∧ b ≠ ch '\\' := by
  intro b hb
  simp only [EscapeSpec.renderAll, List.map_map, List.mem_flatten, List.mem_map, Function.comp_apply] at hb
  obtain ⟨l, ⟨c, hc, rfl⟩, hb⟩ := hb
  obtain ⟨h1, h2, h3, h4, h5⟩ := h c hc
  rcases utf8_bytes h1 b hb with ⟨hl, rfl⟩ | hb
  · have key : ∀ d : Nat, d < 128 → c ≠ d → BitVec.ofNat 8 c ≠ BitVec.ofNat 8 d := by
      intro d hd hne e
      have := congrArg BitVec.toNat e
      simp only [BitVec.toNat_ofNat] at this
      omega
    exact ⟨key 0 (by decide) h2, key 10 (by decide) h3, key 34 (by decide) h4, key 92 (by decide) h5⟩
  · refine ⟨?_, ?_, ?_, ?_⟩ <;> (rintro rfl; exact absurd hb (by decide))

theorem quotedTail_of : ∀ (s : List Byte), (∀ b ∈ s, b ≠ 0 ∧ b ≠ ch '\n' ∧ b ≠ ch '"' ∧ b ≠ ch '\\') → quotedTail (ch '"') (s ++ [ch '"']) = true
  | [], _ => by decide
  | x :: s, h => by
    have ih := quotedTail_of s (fun b hb => h b (by simp [hb]))
    obtain ⟨_, h2, h3, h4⟩ := h x (by simp)
    cases s with
    | nil => simp [quotedTail, h2, h3, h4]
    | cons y s =>
      rw [List.cons_append, List.cons_append, quotedTail, ← List.cons_append, ih]
      simp [h2, h3, h4]

theorem body_wf : ∀ {cps : List Nat}, (∀ c ∈ cps, Harmless c) → EscapeSpec.BodyWF (ch '"') (cps.map .plain)
  | [], _ => trivial
  | c :: cps, h => ⟨⟨(h c (by simp)).1, (h c (by simp)).2.2.2.2, (h c (by simp)).2.2.2.1⟩, body_wf fun d hd => h d (by simp [hd])⟩

theorem denote_plain (cps : List Nat) : EscapeSpec.denoteAll .narrow (cps.map .plain) = EscapeSpec.renderAll (cps.map .plain) := by
  simp [EscapeSpec.denoteAll, EscapeSpec.renderAll, EscapeSpec.denote, EscapeSpec.render, Function.comp_def]

/-- Keywords: identifiers of the language, printed as they are spelled. -/
theorem keyword_table : keywords.all (fun k => isIdent (str k.1) && decide (typeName k.2 = str k.1) && decide (ch '\\' ∉ str k.1) &&
    decide (str k.1 ≠ str "%:") && decide (k.2 ∉ [TType.T_IDENT, .T_NUM, .T_STRING, .T_STRING_CHAR16, .T_STRING_CHAR32, .T_STRING_WCHAR,
      .T_CHARACTER_CONSTANT, .T_CHARACTER_CONSTANT_CHAR16, .T_CHARACTER_CONSTANT_CHAR32, .T_CHARACTER_CONSTANT_WCHAR])) = true := by decide +kernel

/-- Punctuators are printed as they are spelled. -/
theorem punctuator_table : punctuators.all (fun p => decide (p.1 ∈ digraphs) || decide (p.2 = .PP_HASH) || decide (p.2 = .PP_HHASH) ||
    (decide (kind p.1 = some p.2) && decide (typeName p.2 = p.1) && decide (ch '\\' ∉ p.1) &&
    decide (p.2 ∉ [TType.T_IDENT, .T_NUM, .T_STRING, .T_STRING_CHAR16, .T_STRING_CHAR32, .T_STRING_WCHAR,
      .T_CHARACTER_CONSTANT, .T_CHARACTER_CONSTANT_CHAR16, .T_CHARACTER_CONSTANT_CHAR32, .T_CHARACTER_CONSTANT_WCHAR]))) = true := by decide +kernel

theorem wanted_type {t : Tok} (h1 : t.type ≠ .T_IDENT) (h2 : t.type ≠ .T_NUM) (h3 : t.type ≠ .T_STRING) : wanted t = typeName t.type := by
  unfold wanted
  rw [if_neg h1, if_neg h2, if_neg h3]

/-- Types whose tokens are recognised by the type alone. -/
theorem stands_other {i : Item} {t : TType} {s : Str} (ht : t ∉ [TType.T_IDENT, .T_NUM, .T_STRING, .T_STRING_CHAR16, .T_STRING_CHAR32, .T_STRING_WCHAR,
      .T_CHARACTER_CONSTANT, .T_CHARACTER_CONSTANT_CHAR16, .T_CHARACTER_CONSTANT_CHAR32, .T_CHARACTER_CONSTANT_WCHAR])
    (h : (i.kind = t ∧ (i.text, t) ∈ punctuators ∧ t ≠ .PP_HASH ∧ t ≠ .PP_HHASH) ∨
      (i.kind = .T_IDENT ∧ ∃ k ∈ keywords, k.2 = t ∧ i.text = str k.1)) : Stands i t s := by
  unfold Stands
  split <;> first | (exact absurd ht (by decide)) | exact h

theorem spelled_good {t : Tok} {w : List Byte} (h : Spelled t w) (hs : ch '\\' ∉ w) : Good t w := by
  cases h with
  | ident h1 h2 h3 =>
    refine ⟨?_, hs, ⟨.T_IDENT, isIdent_kind h2, by decide, fun f b n => ?_⟩, ?_⟩
    · unfold wanted; rw [if_pos h1]; exact formatted_id (ident_no_nul hs h2)
    · rw [h1]; exact ⟨rfl, rfl, h3⟩
    · intro e; rw [e] at h2; exact absurd h2 (by decide +kernel)
  | number h1 h2 =>
    refine ⟨?_, hs, ⟨.T_NUM, ?_, by decide, fun f b n => ?_⟩, ?_⟩
    · unfold wanted; rw [if_neg (by rw [h1]; decide), if_pos h1]; exact formatted_id (number_no_nul hs h2)
    · unfold TokenizerSpec.kind; rw [number_not_ident h2, h2]; rfl
    · rw [h1]; exact ⟨rfl, rfl⟩
    · intro e; rw [e] at h2; exact absurd h2 (by decide +kernel)
  | @keyword k h1 h2 =>
    have := List.all_eq_true.1 keyword_table k h1
    simp only [Bool.and_eq_true, decide_eq_true_eq] at this
    obtain ⟨⟨⟨⟨g1, g2⟩, g3⟩, g4⟩, g5⟩ := this
    refine ⟨?_, hs, ⟨.T_IDENT, isIdent_kind g1, by decide, fun f b n => ?_⟩, g4⟩
    · rw [wanted_type, h2, g2] <;> (rw [h2]; intro e; exact g5 (by rw [e]; decide))
    · rw [h2]; exact stands_other g5 (.inr ⟨rfl, k, h1, rfl, rfl⟩)
  | punctuator h1 h2 h3 h4 =>
    have := List.all_eq_true.1 punctuator_table _ h1
    simp only [h2, h3, h4, decide_false, Bool.false_or, Bool.and_eq_true, decide_eq_true_eq] at this
    obtain ⟨⟨⟨g1, g2⟩, g3⟩, g5⟩ := this
    refine ⟨?_, hs, ⟨t.type, g1, h3, fun f b n => ?_⟩, ?_⟩
    · rw [wanted_type, g2] <;> (intro e; exact g5 (by rw [e]; decide))
    · exact stands_other g5 (.inl ⟨rfl, h1, h3, h4⟩)
    · intro e; exact h2 (by rw [e]; decide)
  | @string cps h1 h2 h3 =>
    have hb := harmless_bytes h2
    have hq := quotedTail_of _ hb
    have hn : (0 : Byte) ∉ EscapeSpec.renderAll (cps.map .plain) := fun e => (hb 0 e).1 rfl
    have hstr : TokenizerSpec.isString (ch '"' :: (EscapeSpec.renderAll (cps.map .plain) ++ [ch '"'])) = true := by
      simp [TokenizerSpec.isString, hq]
    refine ⟨?_, hs, ⟨.T_STRING, ?_, by decide, fun f b n => ?_⟩, ?_⟩
    · unfold wanted
      rw [if_neg (by rw [h1]; decide), if_neg (by rw [h1]; decide), if_pos h1, h3]
      have : formatted (EscapeSpec.renderAll (cps.map .plain) ++ [0]) = EscapeSpec.renderAll (cps.map .plain) := by
        have := formatted_id hn
        unfold formatted at this ⊢
        rw [List.takeWhile_append_of_pos]
        · simp
        · intro b hb'; exact decide_eq_true (hb b hb').1
      rw [this]
    · cases e : TokenizerSpec.kind (ch '"' :: EscapeSpec.renderAll (cps.map .plain) ++ [ch '"']) with
      | none => exact absurd e (isString_kind hstr)
      | some k =>
        have n1 : isIdent (ch '"' :: (EscapeSpec.renderAll (cps.map .plain) ++ [ch '"'])) = false := by
          rw [isIdent, identTail, if_neg (by decide), show (isNondigit (ch '"') || isDigit (ch '"')) = false by decide]; simp
        have n2 : isNumber (ch '"' :: (EscapeSpec.renderAll (cps.map .plain) ++ [ch '"'])) = false := by
          have a : isDigit (ch '"') = false := by decide
          have b : ¬ ch '"' = ch '.' := by decide
          simp [isNumber, a, b]
        unfold TokenizerSpec.kind at e
        rw [List.cons_append, n1, n2, hstr] at e
        simp at e
        rw [e]
    · rw [h1]
      refine ⟨rfl, .inl ⟨cps.map .plain, ⟨body_wf h2, rfl⟩, ?_⟩⟩
      rw [h3, denote_plain]; rfl
    · intro e; cases e

/-! ### Text -/

/-- What is printed before a token. -/
def before (t : Tok) : List Byte := if t.firstOfLine then [ch '\n'] else if t.whitespace then [ch ' '] else []

/-- What is printed behind a token. -/
def behind (t : Tok) : List Byte := if t.whitespaceAfter then [ch ' '] else []

/-- The text of words. -/
def text : List (Tok × List Byte) → List Byte
  | [] => []
  | p :: l => before p.1 ++ (p.2 ++ (behind p.1 ++ text l))

theorem before_cases (t : Tok) : before t = [ch '\n'] ∨ before t = [ch ' '] ∨ (before t = [] ∧ t.firstOfLine = false ∧ t.whitespace = false) := by
  unfold before
  cases t.firstOfLine <;> cases t.whitespace <;> simp

theorem behind_cases (t : Tok) : behind t = [ch ' '] ∨ (behind t = [] ∧ t.whitespaceAfter = false) := by
  unfold behind
  cases t.whitespaceAfter <;> simp

theorem dbgToken_short {size : Nat} {t : Tok} {w : List Byte} (hs : 100 ≤ size) (h : wanted t = w) (hw : w.length ≤ 98) :
    dbgToken size t = (w, size) := by
  unfold dbgToken
  simp only [h]
  rw [if_neg (by omega)]
  unfold snprintf
  rw [List.take_of_length_le (by omega)]

theorem printAll_text {size : Nat} (hs : 100 ≤ size) : ∀ (l : List (Tok × List Byte)), (∀ p ∈ l, wanted p.1 = p.2 ∧ p.2.length ≤ 98) →
    printAll size (l.map (·.1)) = text l
  | [], _ => rfl
  | p :: l, h => by
    have hp := dbgToken_short hs (h p (by simp)).1 (h p (by simp)).2
    rw [List.map_cons, printAll, hp]
    rw [printAll_text hs l (fun q hq => h q (by simp [hq]))]
    simp only [text, before, behind, List.append_assoc]

theorem text_no_slash : ∀ (l : List (Tok × List Byte)), (∀ p ∈ l, ch '\\' ∉ p.2) → ch '\\' ∉ text l
  | [], _ => by simp [text]
  | p :: l, h => by
    have ih := text_no_slash l (fun q hq => h q (by simp [hq]))
    have hp := h p (by simp)
    have h1 : ch '\\' ∉ before p.1 := by rcases before_cases p.1 with e | e | ⟨e, -⟩ <;> rw [e] <;> decide
    have h2 : ch '\\' ∉ behind p.1 := by rcases behind_cases p.1 with e | ⟨e, -⟩ <;> rw [e] <;> decide
    simp [text, ih, hp, h1, h2]

/-- What a word is followed by. -/
theorem follows {p : Tok × List Byte} {l : List (Tok × List Byte)} (hs : Separated (p :: l)) :
    behind p.1 ++ text l = [] ∨ (∃ b r, behind p.1 ++ text l = b :: r ∧ (b = ch ' ' ∨ b = ch '\n')) ∨
    ∃ q m r, l = q :: m ∧ behind p.1 ++ text l = q.2 ++ r ∧ Apart p.2 q.2 := by
  rcases behind_cases p.1 with e | ⟨e, e'⟩
  · right; left
    exact ⟨ch ' ', text l, by rw [e]; rfl, .inl rfl⟩
  · rw [e, List.nil_append]
    cases hs with
    | last => left; rfl
    | @cons _ q m h1 h2 =>
      right
      rcases before_cases q.1 with g | g | ⟨g, g1, g2⟩
      · left; exact ⟨ch '\n', _, by rw [text, g]; rfl, .inr rfl⟩
      · left; exact ⟨ch ' ', _, by rw [text, g]; rfl, .inl rfl⟩
      · right
        refine ⟨q, m, behind q.1 ++ text m, rfl, by rw [text, g]; rfl, ?_⟩
        rcases h1 with h1 | h1 | h1 | h1
        · rw [e'] at h1; cases h1
        · rw [g1] at h1; cases h1
        · rw [g2] at h1; cases h1
        · exact h1

theorem not_comment {w r : List Byte} {k : TType} (h : kind w = some k)
    (hr : w = str "/" → r.head? ≠ some (ch '/') ∧ r.head? ≠ some (ch '*')) : ¬ commentStart (w ++ r) := by
  intro hc
  cases w with
  | nil => rw [show kind [] = none by decide] at h; cases h
  | cons x w =>
    have hx : x = ch '/' := by
      rcases hc with hc | hc
      · exact (List.cons.inj hc).1
      · exact (List.cons.inj hc).1
    subst hx
    rcases kind_slash h with ⟨rfl, -⟩ | ⟨rfl, -⟩
    · obtain ⟨h1, h2⟩ := hr rfl
      cases r with
      | nil => rcases hc with hc | hc <;> exact absurd hc (by decide)
      | cons y r =>
        rcases hc with hc | hc
        · have : y = ch '/' := (List.cons.inj (List.cons.inj hc).2).1
          exact h1 (by rw [this]; rfl)
        · have : y = ch '*' := (List.cons.inj (List.cons.inj hc).2).1
          exact h2 (by rw [this]; rfl)
    · rcases hc with hc | hc
      · exact absurd (List.cons.inj (List.cons.inj hc).2).1 (by decide)
      · exact absurd (List.cons.inj (List.cons.inj hc).2).1 (by decide)

theorem separated_tail {p : Tok × List Byte} {l : List (Tok × List Byte)} (hs : Separated (p :: l)) : Separated l := by
  cases hs with
  | last => exact .nil
  | cons _ h => exact h

theorem lexes_text : ∀ (l : List (Tok × List Byte)), (∀ p ∈ l, Good p.1 p.2) → Separated l → ∀ (c : Ctx) (n : Nat), c.hash = false → c.incl = false →
    ∃ is, Lexes Everything c (label n (text l)) is ∧ AllStand is (l.map (·.1)) ∧
      is.map (fun i => (some i.kind, i.text)) = l.map fun p => (kind p.2, p.2) := by
  intro l
  induction l with
  | nil => intro _ _ c n _ _; exact ⟨[], .done c, .nil, rfl⟩
  | cons p l ih =>
    intro hg hs c n hh hi
    have gp := hg p (by simp)
    obtain ⟨k, hk, hk1, hst⟩ := gp.kind
    have ih' := ih (fun q hq => hg q (by simp [hq])) (separated_tail hs)
    -- behind the word
    have tail : ∀ (c : Ctx) (n : Nat), c.hash = false → c.incl = false →
        ∃ is, Lexes Everything c (label n (behind p.1 ++ text l)) is ∧ AllStand is (l.map (·.1)) ∧
          is.map (fun i => (some i.kind, i.text)) = l.map fun p => (kind p.2, p.2) := by
      intro c n hh hi
      rcases behind_cases p.1 with e | ⟨e, -⟩
      · obtain ⟨is, h1, h2⟩ := ih' { c with white := true } n hh hi
        rw [e]
        refine ⟨is, ?_, h2⟩
        show Lexes Everything c ((ch ' ', n) :: label _ (text l)) is
        rw [if_neg (by decide)]
        exact .blank (by decide) trivial h1
      · rw [e]; exact ih' c n hh hi
    -- the word
    have word : ∀ (c : Ctx) (n : Nat), c.hash = false → c.incl = false →
        ∃ is, Lexes Everything c (label n (p.2 ++ (behind p.1 ++ text l))) is ∧ AllStand is ((p :: l).map (·.1)) ∧
          is.map (fun i => (some i.kind, i.text)) = (p :: l).map fun p => (kind p.2, p.2) := by
      intro c n hh hi
      have hlong : Longest p.2 (behind p.1 ++ text l) k := by
        rcases follows hs with e | ⟨b, r, e, hb⟩ | ⟨q, m, r, rfl, e, ha⟩
        · rw [e]
          refine longest_of hk ?_
          intro b s s' e; cases e
        · rw [e]; exact longest_white hk gp.slash hb
        · rw [e]
          have gq := hg q (by simp)
          obtain ⟨k', hk', -, -⟩ := gq.kind
          exact longest_apart hk hk' gp.slash gq.slash gp.digraph ha
      have hcomm : ¬ commentStart (p.2 ++ (behind p.1 ++ text l)) := by
        refine not_comment hk ?_
        intro hw
        rcases follows hs with e | ⟨b, r, e, hb⟩ | ⟨q, m, r, rfl, e, ha⟩
        · rw [e]; exact ⟨by simp, by simp⟩
        · rw [e]
          have : b ≠ ch '/' ∧ b ≠ ch '*' := by rcases hb with rfl | rfl <;> decide
          simp [this.1, this.2]
        · rw [e]
          have gq := hg q (by simp)
          obtain ⟨k', hk', -, -⟩ := gq.kind
          cases hq : q.2 with
          | nil => rw [hq, show kind [] = none by decide] at hk'; cases hk'
          | cons y v =>
            have := ha.2.2
            rw [hq] at this
            simp only [hw, true_and, List.head?_cons, not_or] at this
            simp only [List.cons_append, List.head?_cons]
            exact this
      obtain ⟨m, e⟩ := label_append p.2 (behind p.1 ++ text l) n
      rw [e]
      cases hw : p.2 with
      | nil => rw [hw, show kind [] = none by decide] at hk; cases hk
      | cons b w =>
        obtain ⟨is, h1, h2⟩ := tail (c.after (inContext c k) (b :: w)) m
          (by
            have hd : inContext c k = k := by unfold inContext; rw [if_neg (fun h => hk1 h.1)]
            show decide (inContext c k = .PP_DIRECTIVE) = false
            rw [hd]
            exact decide_eq_false (Tokenizer.kind_not hk).2)
          (by show (if c.hash then _ else c.incl) = false; rw [hh]; exact hi)
        have hd : inContext c k = k := by unfold inContext; rw [if_neg (fun h => hk1 h.1)]
        refine ⟨⟨inContext c k, b :: w, c.first, c.white, n⟩ :: is, ?_, .cons ?_ h2.1, ?_⟩
        · have hb : bytes (label n (b :: w)) = b :: w := bytes_label _ _
          have hr : bytes (label m (behind p.1 ++ text l)) = behind p.1 ++ text l := bytes_label _ _
          have := Lexes.token (P := Everything) (c := c) (b := b) (n := n) (w := label (if b = ch '\n' then n + 1 else n) w)
            (r := label m (behind p.1 ++ text l)) (k := k) (l := is)
            (by
              have e2 : bytes ((b, n) :: label (if b = ch '\n' then n + 1 else n) w ++ label m (behind p.1 ++ text l)) =
                  p.2 ++ (behind p.1 ++ text l) := by
                show bytes (label n (b :: w) ++ _) = _
                unfold bytes at hb hr ⊢
                rw [List.map_append, hb, hr, hw]
              rw [e2]; exact hcomm)
            (by rw [hi]; simp)
            (by
              show Longest (bytes (label n (b :: w))) _ _
              rw [hb, hr, ← hw]; exact hlong)
            trivial
            (by
              show Lexes Everything (c.after (inContext c k) (bytes (label n (b :: w)))) _ _
              rw [hb]; exact h1)
          have e3 : bytes ((b, n) :: label (if b = ch '\n' then n + 1 else n) w) = b :: w := hb
          rw [e3] at this
          exact this
        · rw [hd, ← hw]; exact hst _ _ _
        · rw [List.map_cons, List.map_cons, h2.2, hd, ← hw, hk]
    -- before the word
    rcases before_cases p.1 with e | e | ⟨e, -, -⟩
    · obtain ⟨is, h1, h2⟩ := word lineStart (n + 1) rfl rfl
      refine ⟨is, ?_, h2⟩
      rw [text, e]
      exact .newline h1
    · obtain ⟨is, h1, h2⟩ := word { c with white := true } n hh hi
      refine ⟨is, ?_, h2⟩
      rw [text, e]
      show Lexes Everything c ((ch ' ', n) :: label _ _) is
      rw [if_neg (by decide)]
      exact .blank (by decide) trivial h1
    · rw [text, e]; exact word c n hh hi

end Verif.PreprocessedLemmas
