import Verif.Preprocessed
import Verif.PreprocessedSpec
import Verif.TokenizerTextLemmas
/-! Lemmas about the text that `-E` prints. -/
namespace Verif.PreprocessedLemmas
open Verif TokenizerSpec PreprocessedSpec
open Verif.Tokenizer (kind_cases kind_slash kind_quote kind_tick isIdent_kind isNumber_kind isString_kind isCharConst_kind)

/-! ### Text without backslashes -/

/-- The characters with their lines. -/
def label (n : Nat) : List Byte → List Char'
  | [] => []
  | b :: r => (b, n) :: label (if b = ch '\n' then n + 1 else n) r

theorem spliced_label : ∀ (t : List Byte) (n : Nat), ch '\\' ∉ t → spliced n t = label n t := by
  intro t
  induction t with
  | nil => intro n _; rfl
  | cons b r ih =>
    intro n h
    have hb : b ≠ ch '\\' := fun e => h (by simp [e])
    have hr : ch '\\' ∉ r := fun e => h (by simp [e])
    match r, ih, hr with
    | [], _, _ => rfl
    | [c], ih, hr => rw [spliced]; simp only [hb, false_and, if_false]; rw [ih _ hr]; rfl
    | c :: d :: r, ih, hr =>
      rw [spliced]
      simp only [hb, false_and, if_false]
      rw [ih _ hr]; rfl

theorem bytes_label : ∀ (t : List Byte) (n : Nat), bytes (label n t) = t
  | [], _ => rfl
  | b :: r, n => by
    show b :: bytes (label _ r) = _
    rw [bytes_label r]

theorem label_append : ∀ (a b : List Byte) (n : Nat), ∃ m, label n (a ++ b) = label n a ++ label m b
  | [], b, n => ⟨n, rfl⟩
  | x :: a, b, n => by
    obtain ⟨m, e⟩ := label_append a b (if x = ch '\n' then n + 1 else n)
    exact ⟨m, by show (x, n) :: label _ (a ++ b) = _; rw [e]; rfl⟩

/-! ### Longer words -/

theorem identTail_prefix : ∀ (a b : List Byte), ch '\\' ∉ a → identTail .plain (a ++ b) = true → identTail .plain a = true
  | [], _, _, _ => rfl
  | x :: a, b, hn, h => by
    have hx : x ≠ ch '\\' := fun e => hn (by simp [e])
    rw [List.cons_append, identTail, if_neg hx] at h
    rw [identTail, if_neg hx]
    rw [Bool.and_eq_true] at h ⊢
    exact ⟨h.1, identTail_prefix a b (fun e => hn (by simp [e])) h.2⟩

theorem isIdent_prefix {x : Byte} {a b : List Byte} (hn : ch '\\' ∉ x :: a) (h : isIdent (x :: a ++ b) = true) : isIdent (x :: a) = true := by
  rw [List.cons_append, isIdent, Bool.and_eq_true] at h
  rw [isIdent, Bool.and_eq_true]
  exact ⟨h.1, identTail_prefix (x :: a) b hn h.2⟩

theorem numberTail_prefix : ∀ (a b : List Byte) (p : Within), (p = .plain ∨ p = .exponent) → ch '\\' ∉ a →
    numberTail p (a ++ b) = true → numberTail p a = true
  | [], _, p, hp, _, _ => by rcases hp with rfl | rfl <;> rfl
  | x :: a, b, p, hp, hn, h => by
    have hx : x ≠ ch '\\' := fun e => hn (by simp [e])
    have hn' : ch '\\' ∉ a := fun e => hn (by simp [e])
    have hq : ∀ c : Bool, (if c = true then Within.exponent else Within.plain) = .plain ∨ (if c = true then Within.exponent else Within.plain) = .exponent := by
      intro c; cases c <;> simp
    rcases hp with rfl | rfl
    · rw [List.cons_append, numberTail, if_neg hx, Bool.and_eq_true] at h
      rw [numberTail, if_neg hx, Bool.and_eq_true]
      exact ⟨h.1, numberTail_prefix a b _ (hq _) hn' h.2⟩
    · rw [List.cons_append, numberTail] at h
      rw [numberTail]
      by_cases hs : x = ch '+' ∨ x = ch '-'
      · rw [if_pos hs] at h ⊢
        exact numberTail_prefix a b _ (.inl rfl) hn' h
      · rw [if_neg hs, if_neg hx, Bool.and_eq_true] at h
        rw [if_neg hs, if_neg hx, Bool.and_eq_true]
        exact ⟨h.1, numberTail_prefix a b _ (hq _) hn' h.2⟩

theorem isNumber_prefix {x y : Byte} {a b : List Byte} (hn : ch '\\' ∉ x :: y :: a) (h : isNumber (x :: y :: a ++ b) = true) :
    isNumber (x :: y :: a) = true := by
  have hn1 : ch '\\' ∉ y :: a := fun e => hn (by simp [e])
  have hn2 : ch '\\' ∉ a := fun e => hn1 (by simp [e])
  simp only [List.cons_append, isNumber, Bool.or_eq_true, Bool.and_eq_true] at h ⊢
  rcases h with ⟨h1, h2⟩ | ⟨h1, h2, h3⟩
  · exact .inl ⟨h1, numberTail_prefix (y :: a) b _ (.inl rfl) hn1 h2⟩
  · exact .inr ⟨h1, h2, numberTail_prefix a b _ (.inl rfl) hn2 h3⟩

/-- No literal is the beginning of another. -/
theorem quotedTail_prefix (q : Byte) (hq : q ≠ ch '\\') : ∀ (n : Nat) (a b : List Byte), a.length ≤ n → quotedTail q a = true →
    quotedTail q (a ++ b) = true → b = [] := by
  intro n
  induction n with
  | zero =>
    intro a b hl h
    cases a with
    | nil => simp [quotedTail] at h
    | cons => simp at hl
  | succ n ih =>
    intro a b hl h h2
    match a, hl, h, h2 with
    | [], _, h, _ => simp [quotedTail] at h
    | [x], _, h, h2 =>
      simp only [quotedTail, beq_iff_eq] at h
      subst h
      cases b with
      | nil => rfl
      | cons c b =>
        simp [quotedTail, hq] at h2
    | x :: y :: a, hl, h, h2 =>
      simp only [List.cons_append, quotedTail] at h h2
      split at h
      · rename_i hs
        rw [if_pos hs, Bool.and_eq_true] at h2
        rw [Bool.and_eq_true] at h
        exact ih a b (by simp at hl; omega) h.2 h2.2
      · rename_i hs
        rw [if_neg hs, Bool.and_eq_true] at h2
        rw [Bool.and_eq_true] at h
        exact ih (y :: a) b (by simp at hl ⊢; omega) h.2 (by simpa using h2.2)

/-- Of two literals with the same quote, none is the beginning of the other. -/
theorem quote_same {q : Byte} (hq : q = ch '"' ∨ q = ch '\'') {a b : List Byte} {k k' : TType} (h : kind (q :: a) = some k)
    (h' : kind (q :: a ++ b) = some k') : b = [] := by
  have hs : q ≠ ch '\\' := by rcases hq with rfl | rfl <;> decide
  have h1 : quotedTail q a = true := by
    rcases hq with rfl | rfl
    · exact kind_quote h
    · exact (kind_tick h).2
  have h2 : quotedTail q (a ++ b) = true := by
    rcases hq with rfl | rfl
    · exact kind_quote h'
    · exact (kind_tick h').2
  exact quotedTail_prefix q hs _ a b (Nat.le_refl _) h1 h2

theorem not_lookup {c : Byte} {w : List Byte} {k : TType} (hc : c = ch 'u' ∨ c = ch 'U' ∨ c = ch 'L') : punctuators.lookup (c :: w) ≠ some k := by
  intro h
  have ht : punctuators.all (fun p => match p.1 with
      | [] => true
      | c :: w => decide (¬ (c = ch 'u' ∨ c = ch 'U' ∨ c = ch 'L'))) = true := by decide +kernel
  exact absurd hc (of_decide_eq_true (List.all_eq_true.1 ht _ (Tokenizer.lookup_mem h)))

/-- A token that begins with a prefix and a quote is a literal. -/
theorem kind_prefix {c q : Byte} {a : List Byte} {k : TType} (hc : c = ch 'u' ∨ c = ch 'U' ∨ c = ch 'L') (hq : q = ch '"' ∨ q = ch '\'')
    (h : kind (c :: q :: a) = some k) : quotedTail q a = true := by
  have d : c ≠ ch '\\' ∧ isDigit c = false ∧ c ≠ ch '.' ∧ c ≠ ch '"' ∧ c ≠ ch '\'' := by rcases hc with rfl | rfl | rfl <;> decide
  have e : q ≠ ch '\\' ∧ isNondigit q = false ∧ isDigit q = false ∧ q ≠ ch '8' := by rcases hq with rfl | rfl <;> decide
  rcases kind_cases h with ⟨h, -⟩ | ⟨-, h, -⟩ | ⟨h, -⟩ | ⟨h, -⟩ | ⟨-, -, h⟩
  · simp [isIdent, identTail, d.1, e.1, e.2.1, e.2.2.1] at h
  · simp [isNumber, d.2.1, d.2.2.1] at h
  · have h' : q = ch '"' ∧ quotedTail (ch '"') a = true := by
      cases a with
      | nil => simp [isString, d.2.2.2.1, quotedTail] at h
      | cons x a => simp [isString, d.2.2.2.1, e.2.2.2] at h; exact h.1.2.symm ▸ ⟨rfl, h.2⟩
    rw [h'.1]; exact h'.2
  · simp [isCharConst, d.2.2.2.2] at h
    rw [h.1.1.2]; exact h.2
  · exact absurd h (not_lookup hc)

theorem kind_prefix8 {a : List Byte} {k : TType} (h : kind (ch 'u' :: ch '8' :: ch '"' :: a) = some k) : quotedTail (ch '"') a = true := by
  have e : ch '"' ≠ ch '\\' ∧ isNondigit (ch '"') = false ∧ isDigit (ch '"') = false ∧ ch '8' ≠ ch '\\' := by decide
  have d : ch 'u' ≠ ch '\\' ∧ isDigit (ch 'u') = false ∧ ch 'u' ≠ ch '.' ∧ ch 'u' ≠ ch '"' ∧ ch 'u' ≠ ch '\'' := by decide
  have f : ch '8' ≠ ch '"' ∧ ch '8' ≠ ch '\'' := by decide
  rcases kind_cases h with ⟨h, -⟩ | ⟨-, h, -⟩ | ⟨h, -⟩ | ⟨h, -⟩ | ⟨-, -, h⟩
  · simp [isIdent, identTail, d.1, e.1, e.2.1, e.2.2.1, e.2.2.2] at h
  · simp [isNumber, d.2.1, d.2.2.1] at h
  · simpa [isString, d.2.2.2.1, f.1] using h
  · simp [isCharConst, d.2.2.2.2, f.2] at h
  · exact absurd h (not_lookup (.inl rfl))

/-- A token that is longer than another: the next character alone already makes a token of it, or the rest is a literal behind its prefix,
or it is an ellipsis or `%:%:`. -/
theorem longer {w s : List Byte} {b : Byte} {k k' : TType} (hn : ch '\\' ∉ w ++ [b]) (h : kind w = some k) (h' : kind (w ++ b :: s) = some k') :
    kind (w ++ [b]) ≠ none ∨ ((b = ch '"' ∨ b = ch '\'') ∧ kind (b :: s) ≠ none) ∨ (w = str "." ∧ b = ch '.') ∨ (w = str "%:" ∧ b = ch '%') := by
  have hq1 : ch '"' ≠ ch '\\' := by decide
  have hq2 : ch '\'' ≠ ch '\\' := by decide
  have e1 : w ++ b :: s = (w ++ [b]) ++ s := by simp
  cases w with
  | nil => rw [show kind [] = none by decide] at h; cases h
  | cons x w =>
    rcases kind_cases h' with ⟨g, -⟩ | ⟨-, g, -⟩ | ⟨g, -⟩ | ⟨g, -⟩ | ⟨-, -, g⟩
    · left
      rw [e1] at g
      have := isIdent_kind (isIdent_prefix (a := w ++ [b]) hn g)
      rw [List.cons_append, this]; simp
    · left
      cases w with
      | nil => exact isNumber_kind (isNumber_prefix (a := []) hn g)
      | cons y w =>
        rw [e1] at g
        exact isNumber_kind (isNumber_prefix (a := w ++ [b]) hn g)
    · -- a string
      rw [List.cons_append] at g
      by_cases hx : x = ch '"'
      · subst hx
        exact absurd (quote_same (.inl rfl) h h') (by simp)
      · cases w with
        | nil =>
          cases s with
          | nil => left; rw [show [x] ++ [b] = [x] ++ b :: [] from rfl, h']; simp
          | cons c s =>
            simp [isString, hx] at g
            rcases g with ⟨⟨g1, g2⟩, g3⟩ | ⟨⟨⟨g1, g2⟩, g3⟩, g4⟩
            · right; left
              refine ⟨.inl g2, isString_kind ?_⟩
              simp [isString, g2, g3]
            · left
              rw [g1, g2]
              decide +kernel
        | cons y w =>
          by_cases hy : y = ch '"'
          · subst hy
            have hc : x = ch 'u' ∨ x = ch 'U' ∨ x = ch 'L' := by
              have : ch '"' ≠ ch '8' := by decide
              cases w <;> simp [isString, hx, this] at g <;> (rcases g with ⟨g, -⟩ <;> rcases g with (g | g) | g <;> simp [g])
            have q1 := kind_prefix hc (.inl rfl) h
            have q2 := kind_prefix hc (.inl rfl) h'
            exact absurd (quotedTail_prefix _ hq1 _ w _ (Nat.le_refl _) q1 q2) (by simp)
          · cases w with
            | nil =>
              simp [isString, hx, hy] at g
              right; left
              refine ⟨.inl g.1.2, isString_kind ?_⟩
              cases s <;> simp [isString, g.1.2, g.2]
            | cons z w =>
              simp [isString, hx, hy] at g
              obtain ⟨⟨⟨g1, g2⟩, g3⟩, g4⟩ := g
              subst g1 g2 g3
              have q1 := kind_prefix8 h
              have q2 := kind_prefix8 h'
              exact absurd (quotedTail_prefix _ hq1 _ w _ (Nat.le_refl _) q1 q2) (by simp)
    · -- a character constant
      rw [List.cons_append] at g
      by_cases hx : x = ch '\''
      · subst hx
        exact absurd (quote_same (.inr rfl) h h') (by simp)
      · cases w with
        | nil =>
          simp [isCharConst, hx] at g
          right; left
          refine ⟨.inr g.1.1.2, isCharConst_kind ?_⟩
          cases s <;> simp_all [isCharConst, quotedTail]
        | cons y w =>
          have hy : y = ch '\'' := by simp [isCharConst, hx] at g; exact g.1.1.2
          subst hy
          have hc : x = ch 'u' ∨ x = ch 'U' ∨ x = ch 'L' := by
            simp [isCharConst, hx] at g; rcases g.1.1 with (g | g) | g <;> simp [g]
          have q1 := kind_prefix hc (.inr rfl) h
          have q2 := kind_prefix hc (.inr rfl) h'
          exact absurd (quotedTail_prefix _ hq2 _ w _ (Nat.le_refl _) q1 q2) (by simp)
    · -- a punctuator
      have ht : punctuators.all (fun p => (List.range p.1.length).all fun i =>
          decide (kind (p.1.take i) ≠ none → kind (p.1.take (i + 1)) ≠ none ∨ (p.1.take i = str "." ∧ p.1[i]? = some (ch '.')) ∨
            (p.1.take i = str "%:" ∧ p.1[i]? = some (ch '%')))) = true := by decide +kernel
      have hm := List.all_eq_true.1 ht _ (Tokenizer.lookup_mem g)
      have hi := of_decide_eq_true (List.all_eq_true.1 hm (x :: w).length (List.mem_range.2 (by show (x :: w).length < (x :: w ++ b :: s).length; simp only [List.length_append, List.length_cons]; omega)))
      have t1 : (x :: w ++ b :: s).take (x :: w).length = x :: w := by simp
      have t2 : (x :: w ++ b :: s).take ((x :: w).length + 1) = x :: w ++ [b] := by
        rw [e1, show (x :: w).length + 1 = (x :: w ++ [b]).length by simp, List.take_left]
      have t3 : (x :: w ++ b :: s)[(x :: w).length]? = some b := by simp
      simp only [t1, t2, t3] at hi
      rcases hi (by rw [h]; simp) with hi | hi | hi
      · exact .inl hi
      · exact .inr (.inr (.inl ⟨hi.1, by simpa using hi.2⟩))
      · exact .inr (.inr (.inr ⟨hi.1, by simpa using hi.2⟩))

/-- No token ends in white space. -/
theorem kind_white {w : List Byte} {b : Byte} (hn : ch '\\' ∉ w) (hb : b = ch ' ' ∨ b = ch '\n') : kind (w ++ [b]) = none := by
  have n : isNondigit b = false ∧ isDigit b = false ∧ b ≠ ch '\\' ∧ b ≠ ch '.' ∧ b ≠ ch '"' ∧ b ≠ ch '\'' ∧ b ≠ ch '+' ∧ b ≠ ch '-' := by
    rcases hb with rfl | rfl <;> decide
  obtain ⟨n1, n2, n3, n4, n5, n6, n7, n8⟩ := n
  have hid : ∀ w, ch '\\' ∉ w → identTail .plain (w ++ [b]) = false := by
    intro w
    induction w with
    | nil => intro _; simp [identTail, n1, n2, n3]
    | cons x w ih =>
      intro hn
      rw [List.cons_append, identTail, if_neg (fun e => hn (by simp [e])), ih (fun e => hn (by simp [e]))]; simp
  have hnum : ∀ w p, (p = .plain ∨ p = .exponent) → ch '\\' ∉ w → numberTail p (w ++ [b]) = false := by
    intro w
    induction w with
    | nil => intro p hp _; rcases hp with rfl | rfl <;> simp [numberTail, n1, n2, n3, n4, n7, n8]
    | cons x w ih =>
      intro p hp hn
      have hx : x ≠ ch '\\' := fun e => hn (by simp [e])
      have hw : ch '\\' ∉ w := fun e => hn (by simp [e])
      have hq : ∀ c : Bool, numberTail (if c = true then Within.exponent else Within.plain) (w ++ [b]) = false := by
        intro c; cases c
        · exact ih _ (.inl rfl) hw
        · exact ih _ (.inr rfl) hw
      rcases hp with rfl | rfl
      · rw [List.cons_append, numberTail, if_neg hx, hq]; simp
      · rw [List.cons_append, numberTail]
        split
        · exact ih _ (.inl rfl) hw
        · rw [hq]; simp
  have hlit : ∀ (q : Byte), q ≠ b → ∀ (n : Nat) (w : List Byte), w.length ≤ n → ch '\\' ∉ w → quotedTail q (w ++ [b]) = false := by
    intro q hq n
    induction n with
    | zero =>
      intro w hl _
      cases w with
      | nil => simp [quotedTail, Ne.symm hq]
      | cons => simp at hl
    | succ n ih =>
      intro w hl hw
      match w, hl, hw with
      | [], _, _ => simp [quotedTail, Ne.symm hq]
      | x :: w, hl, hw =>
        have hx : x ≠ ch '\\' := fun e => hw (by simp [e])
        have := ih w (by simp at hl; omega) (fun e => hw (by simp [e]))
        cases w with
        | nil => simp [quotedTail, hx] at this ⊢; simp [this]
        | cons y w =>
          rw [List.cons_append, List.cons_append, quotedTail, ← List.cons_append, this]
          simp [hx]
  have hl5 : ∀ w, ch '\\' ∉ w → quotedTail (ch '"') (w ++ [b]) = false := fun w => hlit _ (Ne.symm n5) _ w (Nat.le_refl _)
  have hl6 : ∀ w, ch '\\' ∉ w → quotedTail (ch '\'') (w ++ [b]) = false := fun w => hlit _ (Ne.symm n6) _ w (Nat.le_refl _)
  cases e : kind (w ++ [b]) with
  | none => rfl
  | some k =>
    exfalso
    rcases kind_cases e with ⟨h, -⟩ | ⟨-, h, -⟩ | ⟨h, -⟩ | ⟨h, -⟩ | ⟨-, -, h⟩
    · cases w with
      | nil => simp [isIdent, identTail, n1, n2, n3] at h
      | cons x w =>
        rw [List.cons_append, isIdent, ← List.cons_append, hid _ hn] at h
        simp at h
    · match w, hn with
      | [], _ => simp [isNumber, n2, n4] at h
      | [x], _ => simp [isNumber, n2, numberTail, n1, n3, n4] at h
      | x :: y :: w, hn =>
        have h1 := hnum (y :: w) .plain (.inl rfl) (fun e => hn (by simp at e ⊢; exact .inr e))
        have h2 := hnum w .plain (.inl rfl) (fun e => hn (by simp [e]))
        rw [List.cons_append] at h1
        simp [isNumber, h1, h2] at h
    · match w, hn with
      | [], _ => simp [isString, quotedTail] at h
      | [x], _ => simp [isString, quotedTail, n5] at h
      | [x, y], hn =>
        have := hl5 [y] (fun e => hn (by simp at e ⊢; exact .inr e))
        simp at this
        simp [isString, this, n5] at h
        simp [quotedTail, n5] at h
      | x :: y :: z :: w, hn =>
        have h1 := hl5 (y :: z :: w) (fun e => hn (by simp at e ⊢; exact .inr e))
        have h2 := hl5 (z :: w) (fun e => hn (by simp at e ⊢; exact .inr (.inr e)))
        have h3 := hl5 w (fun e => hn (by simp at e ⊢; exact .inr (.inr (.inr e))))
        simp only [List.cons_append] at h1 h2
        simp [isString, h1, h2, h3] at h
    · match w, hn with
      | [], _ => simp [isCharConst, quotedTail] at h
      | [x], _ => simp [isCharConst, quotedTail, n6] at h
      | x :: y :: w, hn =>
        have h1 := hl6 (y :: w) (fun e => hn (by simp at e ⊢; exact .inr e))
        have h2 := hl6 w (fun e => hn (by simp [e]))
        simp only [List.cons_append] at h1
        simp [isCharConst, h1, h2] at h
    · have ht : punctuators.all (fun p => decide (∀ b ∈ p.1, ¬ (b = ch ' ' ∨ b = ch '\n'))) = true := by decide +kernel
      exact of_decide_eq_true (List.all_eq_true.1 ht _ (Tokenizer.lookup_mem h)) b (by simp) hb

theorem longest_of {w r : List Byte} {k : TType} (h : kind w = some k) (hs : ∀ b s s', r = b :: s ++ s' → kind (w ++ b :: s) = none) : Longest w r k := by
  refine ⟨h, fun n h1 h2 => ?_⟩
  rw [List.take_append, List.take_of_length_le (by omega)]
  have hne : r.take (n - w.length) ≠ [] := by
    intro e
    have := congrArg List.length e
    simp at this h2
    rcases this with this | this
    · omega
    · rw [this] at h2; simp at h2; omega
  cases e : r.take (n - w.length) with
  | nil => exact absurd e hne
  | cons b s =>
    refine hs b s (r.drop (n - w.length)) ?_
    rw [← e, List.take_append_drop]

/-- A word is a whole token before white space. -/
theorem longest_white {w r : List Byte} {b : Byte} {k : TType} (h : kind w = some k) (hn : ch '\\' ∉ w) (hb : b = ch ' ' ∨ b = ch '\n') :
    Longest w (b :: r) k := by
  refine longest_of h fun x s s' e => ?_
  cases e
  cases e : kind (w ++ b :: s) with
  | none => rfl
  | some k' =>
    exfalso
    have hb' : b ≠ ch '\\' ∧ b ≠ ch '"' ∧ b ≠ ch '\'' ∧ b ≠ ch '.' ∧ b ≠ ch '%' := by rcases hb with rfl | rfl <;> decide
    rcases longer (b := b) (by simp [hn, Ne.symm hb'.1]) h e with g | ⟨g, -⟩ | ⟨-, g⟩ | ⟨-, g⟩
    · exact g (kind_white hn hb)
    · rcases g with g | g
      · exact hb'.2.1 g
      · exact hb'.2.2.1 g
    · exact hb'.2.2.2.1 g
    · exact hb'.2.2.2.2 g

/-- A word is a whole token before another word, whatever follows that. -/
theorem longest_apart {w v r : List Byte} {k k' : TType} (h : kind w = some k) (hv : kind v = some k') (hn : ch '\\' ∉ w) (hn' : ch '\\' ∉ v)
    (hd : w ≠ str "%:") (ha : Apart w v) : Longest w (v ++ r) k := by
  refine longest_of h fun x s s' e => ?_
  cases v with
  | nil => rw [show kind [] = none by decide] at hv; cases hv
  | cons b v =>
    have hb : x = b := by simp at e; exact e.1.symm
    subst hb
    cases e2 : kind (w ++ x :: s) with
    | none => rfl
    | some k2 =>
      exfalso
      have hx : x ≠ ch '\\' := fun e => hn' (by simp [e])
      rcases longer (by simp [hn, Ne.symm hx]) h e2 with g | ⟨g, g2⟩ | ⟨g, g2⟩ | ⟨g, -⟩
      · refine g ?_
        have := ha.1 (w.length + 1) (by omega) (by simp)
        rw [show (w ++ x :: v) = (w ++ [x]) ++ v by simp, show w.length + 1 = (w ++ [x]).length by simp, List.take_left] at this
        exact this
      · cases e3 : kind (x :: s) with
        | none => exact g2 e3
        | some k3 =>
          have e4 : v ++ r = s ++ s' := by simpa using e
          have hvs : v = s := by
            rcases List.append_eq_append_iff.1 e4 with ⟨a, p1, p2⟩ | ⟨a, p1, p2⟩
            · subst p1
              have := quote_same g hv e3
              rw [this]; simp
            · subst p1
              have := quote_same g e3 hv
              rw [this]; simp
          subst hvs
          have := ha.1 (w ++ x :: v).length (by simp) (Nat.le_refl _)
          rw [List.take_length] at this
          rw [this] at e2
          cases e2
      · exact ha.2.1 ⟨g, by simp [g2]⟩
      · exact hd g

end Verif.PreprocessedLemmas
