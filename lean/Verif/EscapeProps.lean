import Verif.EscapeLemmas
/-!
# C02, C03, C05, C62 – escapes, character constants, string literals
-/
namespace Verif.Escape
open Verif EscapeSpec

/-! ## C03: escape sequences denote their C17 values -/

/-- The property in full: every well-formed escape item, in front of any text that
does not continue it, is read as its value and consumed exactly. -/
def EscapesDenote : Prop :=
  ∀ (i : Item) (next : List Byte) (n : Nat),
    (∀ cp, i ≠ .plain cp) → ItemWF (ch '"') next i → next ≠ [] → (∀ b ∈ next.head?, b.toNat < 255) →
    (render i).length ≤ n →
    escRead (render i ++ next) n = .ok (some (BitVec.ofNat 32 (value i), next))

/-- C03 is violated: `\\x10` is read as 8 instead of 16, because the hexadecimal
loop multiplies by 8 (src/escape_sequence.c:28). -/
theorem escapes_denote_violated : ¬ EscapesDenote := by
  intro h
  have := h (.hex [1, 0]) [ch '"'] 5 (by simp) ⟨by decide, by decide, by decide⟩ (by simp) (by decide) (by decide)
  revert this
  decide

/-- What a hexadecimal escape is read as: the digits weighted with powers of 8. -/
theorem hex_escape_actual (ds : List Nat) (next : List Byte) (n : Nat)
    (hd : ∀ d ∈ ds, d < 16) (hn : ds.length + 2 ≤ n) (b : Byte) (hb : next.head? = some b)
    (hb2 : isHex b = false) (hb3 : b.toNat < 255) :
    escRead (render (.hex ds) ++ next) n
      = .ok (some (BitVec.ofNat 32 (digitsVal 8 ds), next)) := by
  obtain ⟨t, rfl⟩ : ∃ t, next = b :: t := by
    cases next with
    | nil => simp at hb
    | cons c t => simp at hb; exact ⟨t, by rw [hb]⟩
  exact escRead_hex ds _ n hd hn ⟨b, t, rfl, by rw [isHexadecimal_spec b hb3, hb2]⟩

/-- C03, `_partial`: all octal and simple escapes, and one-digit hexadecimal
escapes, denote their values.  Missing: hexadecimal escapes of two or more digits,
which the code reads wrongly (`escapes_denote_violated`). -/
theorem escapes_denote_partial (i : Item) (next : List Byte) (n : Nat)
    (hi : ∀ cp, i ≠ .plain cp) (hwf : ItemWF (ch '"') next i) (hne : next ≠ [])
    (h255 : ∀ b ∈ next.head?, b.toNat < 255) (hn : (render i).length ≤ n)
    (hhex : ∀ ds, i = .hex ds → ds.length = 1) :
    escRead (render i ++ next) n = .ok (some (BitVec.ofNat 32 (value i), next)) := by
  obtain ⟨b, t, rfl⟩ : ∃ b t, next = b :: t := by
    cases next with
    | nil => exact absurd rfl hne
    | cons c t => exact ⟨c, t, rfl⟩
  have hb := h255 b (by simp)
  cases i with
  | plain cp => exact absurd rfl (hi cp)
  | simple c =>
    obtain ⟨v, hv⟩ := Option.isSome_iff_exists.mp (hwf : (simpleVal c).isSome)
    simp only [render, List.cons_append, List.nil_append, value, hv, Option.getD_some]
    exact escRead_simple c v _ n hv (by simpa [render] using hn)
  | oct ds =>
    obtain ⟨h1, h2, h3, h4⟩ := hwf
    exact escRead_oct ds _ n h1 h2 h3 (by simpa [render] using hn)
      (fun hlt => ⟨b, t, rfl, by rw [isOctal_spec b hb, h4 hlt b (by simp)]⟩)
  | hex ds =>
    obtain ⟨h1, h2, h3⟩ := hwf
    obtain ⟨d, rfl⟩ : ∃ d, ds = [d] := List.length_eq_one_iff.mp (hhex ds rfl)
    have := escRead_hex [d] (b :: t) n h2 (by simpa [render] using hn)
      ⟨b, t, rfl, by rw [isHexadecimal_spec b hb, h3 b (by simp)]⟩
    simpa [value, digitsVal_one, render] using this

/-- A backslash followed by anything that is not an escape letter or digit is
diagnosed. -/
theorem bad_escape_diagnosed (c : Byte) (tl : List Byte) (n : Nat) (hn : 1 ≤ n)
    (h255 : c.toNat < 255) (ho : isOct c = false) (hx : c ≠ ch 'x')
    (hs : ∀ c' v, simpleVal c' = some v → c ≠ ch c') :
    escRead (ch '\\' :: c :: tl) n = .fail := by
  have hsimple : simpleEscape c = .fail := by
    unfold simpleEscape
    rw [if_neg (hs '\'' 39 rfl), if_neg (hs '"' 34 rfl), if_neg (hs '?' 63 rfl), if_neg (hs '\\' 92 rfl),
      if_neg (hs 'a' 7 rfl), if_neg (hs 'b' 8 rfl), if_neg (hs 'f' 12 rfl), if_neg (hs 'n' 10 rfl),
      if_neg (hs 'r' 13 rfl), if_neg (hs 't' 9 rfl), if_neg (hs 'v' 11 rfl)]
  simp only [escRead, ne_eq, not_true, if_false]
  rw [if_neg (by omega), isOctal_spec c h255, ho]
  simp [hx, hsimple]

example : escRead [ch '\\', ch '1', ch '2', ch '8', 0] 4 = .ok (some (10#32, [ch '8', 0])) := by decide
example : escRead [ch '\\', ch 'q', 0] 2 = .fail :=
  bad_escape_diagnosed _ _ _ (by decide) (by decide) (by decide) (by decide) (by
    intro c v h; unfold simpleVal at h; split at h <;> first | decide | cases h)

/-! ## C02: printing then re-reading preserves every byte -/

/-- Each byte is printed raw, as a two-character escape, or as three octal digits
(checked over the complete table of 2 × 256 entries). -/
def printTable (comp : Bool) (c : Byte) : Bool :=
  match printChar c comp with
  | .ok txt => decide ((txt = [c] ∧ c ≠ ch '\\' ∧ c ≠ ch '"') ∨
      (txt.length = 2 ∧ txt.head? = some (ch '\\') ∧ isOctal (txt.getD 1 0) = .ok false ∧
        txt.getD 1 0 ≠ ch 'x' ∧ simpleEscape (txt.getD 1 0) = .ok (c.setWidth 32)) ∨
      (txt = ch '\\' :: [c.toNat / 64, c.toNat / 8 % 8, c.toNat % 8].map digit))
  | _ => false

theorem printTable_ok : ∀ (comp : Bool) (c : Byte), c.toNat ≠ 127 → printTable comp c = true := by
  decide +kernel

/-- Printing one byte and reading it inside a narrow string literal, whatever
follows it, gives that byte back and consumes exactly the printed text.
Byte 127 is excluded: the printer indexes its tables out of bounds (see
`print_del_ub`). -/
theorem read_print_char (c : Byte) (comp : Bool) (tl : List Byte) (k : Nat) (hc : c.toNat ≠ 127) :
    ∃ txt, printChar c comp = .ok txt ∧
      escapeChar (txt ++ tl) (txt.length + k) (ch '"') .default = .ok (some (tl, k, [c])) := by
  -- each byte is printed either raw, as a two-character escape, or as three octal digits
  have table : ∀ (comp : Bool) (c : Byte), c.toNat ≠ 127 → ∃ txt, printChar c comp = .ok txt ∧
      ((txt = [c] ∧ c ≠ ch '\\' ∧ c ≠ ch '"') ∨
       (∃ e : Byte, txt = [ch '\\', e] ∧ isOctal e = .ok false ∧ e ≠ ch 'x' ∧
          simpleEscape e = .ok (c.setWidth 32)) ∨
       (txt = ch '\\' :: [c.toNat / 64, c.toNat / 8 % 8, c.toNat % 8].map digit)) := by
    intro comp c hc
    have := printTable_ok comp c hc
    unfold printTable at this
    split at this
    · rename_i txt htxt
      refine ⟨txt, htxt, ?_⟩
      rcases of_decide_eq_true this with h | ⟨h1, h2, h3, h4, h5⟩ | h
      · exact Or.inl h
      · right; left
        match txt, h1 with
        | [a, b], _ =>
          simp at h2
          exact ⟨b, by rw [h2], h3, h4, h5⟩
      · exact Or.inr (Or.inr h)
    · exact absurd this (by simp)
  obtain ⟨txt, htxt, h⟩ := table comp c hc
  refine ⟨txt, htxt, ?_⟩
  rcases h with ⟨rfl, h1, h2⟩ | ⟨e, rfl, h1, h2, h3⟩ | rfl
  · rw [show [c].length + k = k + 1 by simp [Nat.add_comm]]
    exact escapeChar_raw .default (ch '"') c tl k rfl h1 h2
  · have hr : escRead ([ch '\\', e] ++ tl) ([ch '\\', e].length + k)
        = .ok (some (BitVec.ofNat 32 c.toNat, tl)) := by
      simp only [escRead, List.cons_append, List.nil_append, ne_eq, not_true, if_false]
      rw [if_neg (by simp), h1]
      simp only [Res.bind_ok, Bool.false_eq_true, if_false, h2, h3, Res.pure_eq]
      congr 3
      apply BitVec.eq_of_toNat_eq; simp
    rw [escapeChar_esc .default (ch '"') _ tl k c.toNat ⟨_, rfl⟩ (by decide) hr,
      writeChar_le _ _ (by have := c.isLt; omega)]
    simp [enc]
  · have hlt := c.isLt
    have hds : ∀ d ∈ [c.toNat / 64, c.toNat / 8 % 8, c.toNat % 8], d < 8 := by
      intro d hd; simp at hd; omega
    have hr := escRead_oct [c.toNat / 64, c.toNat / 8 % 8, c.toNat % 8] tl (4 + k)
      (by simp) (by simp) hds (by simp) (by simp)
    have hv : digitsVal 8 [c.toNat / 64, c.toNat / 8 % 8, c.toNat % 8] = c.toNat := by
      simp [digitsVal]; omega
    rw [hv] at hr
    rw [escapeChar_esc .default (ch '"') _ tl k c.toNat ⟨_, rfl⟩ (by decide) (by simpa using hr),
      writeChar_le _ _ (by omega)]
    simp [enc]

/-- Printing a whole byte string (src/assembler/assembler.c:115-118 prints every
byte in turn). -/
def printAll (comp : Bool) : List Byte → Res (List Byte)
  | [] => .ok []
  | c :: cs => do
    let a ← printChar c comp
    let b ← printAll comp cs
    pure (a ++ b)

/-- C02 in full for every byte string without byte 127: the text printed between
double quotes is read back by the literal reader as exactly the same bytes. -/
theorem read_print_string (comp : Bool) (bs : List Byte) (h : ∀ b ∈ bs, b.toNat ≠ 127)
    (rest : List Byte) :
    ∃ txt, printAll comp bs = .ok txt ∧
      escapeString (ch '"' :: (txt ++ ch '"' :: rest)) (txt.length + 2) .default [] = .ok bs := by
  have key : ∀ (bs : List Byte), (∀ b ∈ bs, b.toNat ≠ 127) → ∃ txt, printAll comp bs = .ok txt ∧
      ∀ fuel k buf, txt.length < fuel →
        escapeLoop fuel (txt ++ ch '"' :: rest) (txt.length + (k + 1)) (ch '"') .default buf
          = .ok (buf ++ bs) := by
    intro bs
    induction bs with
    | nil =>
      intro _
      refine ⟨[], rfl, ?_⟩
      intro fuel k buf hf
      obtain ⟨fuel, rfl⟩ : ∃ f, fuel = f + 1 := ⟨fuel - 1, by omega⟩
      have : escapeChar (ch '"' :: rest) (k + 1) (ch '"') .default = .ok none := by simp [escapeChar]
      simp [escapeLoop, this]
    | cons b bs ih =>
      intro h
      obtain ⟨t2, h2, h2'⟩ := ih (fun b hb => h b (by simp [hb]))
      obtain ⟨t1, h1, _⟩ := read_print_char b comp [] 0 (h b (by simp))
      refine ⟨t1 ++ t2, by simp [printAll, h1, h2], ?_⟩
      intro fuel k buf hf
      obtain ⟨t1', h1', hr⟩ := read_print_char b comp (t2 ++ ch '"' :: rest) (t2.length + (k + 1)) (h b (by simp))
      have : t1' = t1 := by rw [h1] at h1'; injection h1' with h; exact h.symm
      subst this
      have hne : 1 ≤ t1'.length := by
        cases t1' with
        | nil =>
          have := hr
          have hfalse : ∀ (comp : Bool) (c : Byte), printChar c comp ≠ .ok [] := by decide +kernel
          exact absurd h1 (hfalse comp b)
        | cons => simp
      obtain ⟨fuel, rfl⟩ : ∃ f, fuel = f + 1 := ⟨fuel - 1, by omega⟩
      rw [List.append_assoc, List.length_append, Nat.add_assoc]
      rw [escapeLoop_some _ _ _ _ _ _ _ _ _ hr]
      rw [h2' fuel k _ (by simp at hf; omega)]
      simp
  obtain ⟨txt, h1, h2⟩ := key bs h
  refine ⟨txt, h1, ?_⟩
  simp only [escapeString]
  rw [if_neg (by omega)]
  have := h2 ((txt ++ ch '"' :: rest).length + 1) 0 [] (by simp; omega)
  simpa [show ch '"' ≠ ch '<' by decide] using this

example : printAll false [ch 'a', 10#8, 0xE9#8, 0#8, ch '7', ch '"'] =
    .ok ([ch 'a', ch '\\', ch 'n', ch '\\', ch '3', ch '5', ch '1', ch '\\', ch '0', ch '0', ch '0',
      ch '7', ch '\\', ch '"']) := by decide

/-- The excluded byte: printing DEL reads one element past `needs_no_escape`
(src/escape_sequence.c:56 and 104). -/
theorem print_del_ub (comp : Bool) : printChar 127#8 comp = .ub := by
  cases comp <;> decide

/-! ## C62: string literals and their concatenation -/

/-- How a token of a literal with a given prefix is spelled. -/
def prefixText : StrType → List Byte
  | .default => []
  | .u8 => [ch 'u', ch '8']
  | .uSmall => [ch 'u']
  | .uLarge => [ch 'U']
  | .l => [ch 'L']

/-- A source string literal: prefix and body. -/
def litText (l : StrType × List Item) : List Byte :=
  prefixText l.1 ++ ch '"' :: (renderAll l.2 ++ [ch '"'])

/-- C17 6.4.5p5: all prefixes that are present must be the same. -/
def Combined (c : StrType) (ls : List (StrType × List Item)) : Prop :=
  (∀ l ∈ ls, l.1 = .default ∨ l.1 = c) ∧ (c = .default ∨ ∃ l ∈ ls, l.1 = c)

theorem takePrefix_lit (l : StrType × List Item) :
    takePrefix (litText l) = (l.1, ch '"' :: (renderAll l.2 ++ [ch '"'])) := by
  obtain ⟨ty, is⟩ := l
  have n : ∀ c ∈ [ch 'u', ch 'U', ch 'L', ch '8'], ch '"' ≠ c := by decide
  have n1 := n (ch 'u') (by simp)
  have n2 := n (ch 'U') (by simp)
  have n3 := n (ch 'L') (by simp)
  have n4 := n (ch '8') (by simp)
  have m1 : ch 'U' ≠ ch 'u' := by decide
  have m2 : ch 'L' ≠ ch 'u' := by decide
  have m3 : ch 'L' ≠ ch 'U' := by decide
  cases ty <;> simp [litText, prefixText, takePrefix, n1, n2, n3, n4, m1, m2, m3]

theorem combine_ok (c : StrType) (ts : List StrType) (s : StrType)
    (h : ∀ t ∈ ts, t = .default ∨ t = c) (hs : s = .default ∨ s = c)
    (hc : c = .default ∨ s = c ∨ c ∈ ts) : combine s ts = .ok c := by
  induction ts generalizing s with
  | nil =>
    simp only [combine]
    rcases hs with rfl | rfl
    · rcases hc with rfl | rfl | h
      · rfl
      · rfl
      · simp at h
    · rfl
  | cons t ts ih =>
    simp only [combine]
    have ht := h t (by simp)
    have hts : ∀ t ∈ ts, t = .default ∨ t = c := fun t h' => h t (by simp [h'])
    split
    · rename_i hcond
      refine ih s hts hs ?_
      rcases hc with h1 | h1 | h1
      · exact Or.inl h1
      · exact Or.inr (Or.inl h1)
      · simp at h1
        rcases h1 with rfl | h1
        · rcases hcond with h2 | h2
          · exact Or.inl h2
          · exact Or.inr (Or.inl h2.symm)
        · exact Or.inr (Or.inr h1)
    · rename_i hcond
      have hne : t ≠ .default := fun h => hcond (Or.inl h)
      have htc : t = c := by rcases ht with h | h; exact absurd h hne; exact h
      split
      · exact ih t hts (Or.inr htc) (Or.inr (Or.inl htc))
      · rename_i hsd
        rcases hs with h1 | h1
        · exact absurd h1 hsd
        · exact absurd (Or.inr (htc.trans h1.symm)) hcond

theorem combine_fail (c d : StrType) (ts : List StrType) (s : StrType) (hd : d ∈ ts) (hdd : d ≠ .default)
    (hc : s = c ∨ c ∈ ts) (hcd : c ≠ .default) (hne : c ≠ d) : combine s ts = .fail := by
  induction ts generalizing s c d with
  | nil => simp at hd
  | cons t ts ih =>
    simp only [combine]
    split
    · rename_i hcond
      have hd' : d ∈ ts ∨ s = d := by
        simp at hd; rcases hd with rfl | h
        · rcases hcond with h | h
          · exact absurd h hdd
          · exact Or.inr h.symm
        · exact Or.inl h
      have hc' : s = c ∨ c ∈ ts := by
        rcases hc with h | h
        · exact Or.inl h
        · simp at h; rcases h with rfl | h
          · rcases hcond with h | h
            · exact absurd h hcd
            · exact Or.inl h.symm
          · exact Or.inr h
      rcases hd' with h | rfl
      · exact ih c d s h hdd hc' hcd hne
      · rcases hc' with h | h
        · exact absurd h.symm hne
        · exact ih s c s h hcd (Or.inl rfl) hdd (Ne.symm hne)
    · rename_i hcond
      split
      · rename_i hs
        subst hs
        have hc' : c = t ∨ c ∈ ts := by
          rcases hc with h | h
          · exact absurd h.symm hcd
          · simpa using h
        have hd' : d = t ∨ d ∈ ts := by simpa using hd
        rcases hd' with rfl | h
        · rcases hc' with h | h
          · exact absurd h hne
          · exact ih d c d h hcd (Or.inl rfl) hdd (Ne.symm hne)
        · rcases hc' with rfl | h2
          · exact ih c d c h hdd (Or.inl rfl) hcd hne
          · exact ih c d t h hdd (Or.inr h2) hcd hne
      · rfl

theorem escapeAll_lits (ty : StrType) (ls : List (StrType × List Item)) (buf : List Byte)
    (hwf : ∀ l ∈ ls, BodyWF (ch '"') l.2) (hsup : ∀ l ∈ ls, ∀ i ∈ l.2, Supported (enc ty) i) :
    escapeAll ty ((ls.map litText).map takePrefix |>.map (·.2)) buf
      = .ok (buf ++ (ls.map fun l => denoteAll (enc ty) l.2).flatten) := by
  induction ls generalizing buf with
  | nil => simp [escapeAll]
  | cons l ls ih =>
    simp only [List.map_cons, escapeAll, takePrefix_lit, List.flatten_cons]
    have hb := escapeLoop_body ty (ch '"') (by decide) (by decide) l.2 (hwf l (by simp))
      (hsup l (by simp)) [0] 0 ((renderAll l.2 ++ [ch '"', 0]).length + 1) buf (by simp; omega)
    have hs : escapeString ((ch '"' :: (renderAll l.2 ++ [ch '"'])) ++ [0])
        (ch '"' :: (renderAll l.2 ++ [ch '"'])).length ty buf
        = .ok (buf ++ denoteAll (enc ty) l.2) := by
      simp only [escapeString, List.cons_append, List.length_cons]
      rw [if_neg (by omega), if_neg (by decide)]
      simpa using hb
    rw [hs, Res.bind_ok, ih _ (fun l h => hwf l (by simp [h])) (fun l h => hsup l (by simp [h]))]
    simp

/-- C62, `_partial`: a run of adjacent string literals with compatible prefixes
becomes one literal of the common encoding whose bytes are the concatenation of
what each body denotes in that encoding, followed by one terminator; body text is
never affected by the neighbouring literal.
Full statement: without `Supported`.  Missing: multi-digit hexadecimal escapes
(violated, see C03) and supplementary characters in `u""` literals (violated, see
`utf16_supplementary_violated`). -/
theorem concat_strings_partial (c : StrType) (ls : List (StrType × List Item))
    (hc : Combined c ls) (hwf : ∀ l ∈ ls, BodyWF (ch '"') l.2)
    (hsup : ∀ l ∈ ls, ∀ i ∈ l.2, Supported (enc c) i) :
    concatStrings (ls.map litText)
      = .ok (c, (ls.map fun l => denoteAll (enc c) l.2).flatten ++ nul (enc c)) := by
  have hcomb : combine .default ((ls.map litText).map takePrefix |>.map (·.1)) = .ok c := by
    have : ((ls.map litText).map takePrefix |>.map (·.1)) = ls.map (·.1) := by
      rw [List.map_map, List.map_map]
      apply List.map_congr_left
      intro l _
      simp [takePrefix_lit]
    rw [this]
    refine combine_ok c _ _ ?_ (Or.inl rfl) ?_
    · intro t ht
      obtain ⟨l, hl, rfl⟩ := List.mem_map.mp ht
      exact hc.1 l hl
    · rcases hc.2 with h | ⟨l, hl, h⟩
      · exact Or.inl h
      · exact Or.inr (Or.inr (List.mem_map.mpr ⟨l, hl, h⟩))
  simp only [concatStrings]
  rw [hcomb, Res.bind_ok, escapeAll_lits c ls [] hwf hsup]
  cases c <;> simp [terminator, nul, enc]

/-- Two different prefixes in one run are diagnosed. -/
theorem concat_mixed_prefix_diagnosed (ls : List (StrType × List Item)) (l1 l2 : StrType × List Item)
    (h1 : l1 ∈ ls) (h2 : l2 ∈ ls) (hd1 : l1.1 ≠ .default) (hd2 : l2.1 ≠ .default) (hne : l1.1 ≠ l2.1) :
    concatStrings (ls.map litText) = .fail := by
  have : ((ls.map litText).map takePrefix |>.map (·.1)) = ls.map (·.1) := by
    rw [List.map_map, List.map_map]
    apply List.map_congr_left
    intro l _
    simp [takePrefix_lit]
  simp only [concatStrings]
  rw [this, combine_fail l1.1 l2.1 _ _ (List.mem_map.mpr ⟨l2, h2, rfl⟩) hd2
    (Or.inr (List.mem_map.mpr ⟨l1, h1, rfl⟩)) hd1 hne]
  rfl

/-- `u"\U0001F600"` written as a source character: UTF-16 requires the surrogate
pair D83D DE00, the code stores the low 16 bits of the code point
(src/preprocessor/string_concat.c:89-92). -/
theorem utf16_supplementary_violated :
    concatStrings [litText (.uSmall, [.plain 0x1F600])] = .ok (.uSmall, [0x00#8, 0xF6#8, 0, 0]) ∧
    denoteAll .utf16 [.plain 0x1F600] = [0x3D#8, 0xD8#8, 0x00#8, 0xDE#8] := by
  constructor <;> decide +kernel

/-- Non-vacuity: `L"aé\7" "8"` meets the hypotheses. -/
example : concatStrings ([(StrType.l, [Item.plain 97, .plain 0xE9, .oct [7]]), (.default, [.plain 56])].map litText)
    = .ok (.l, [97#8, 0, 0, 0, 0xE9#8, 0, 0, 0, 7#8, 0, 0, 0, 56#8, 0, 0, 0, 0, 0, 0, 0]) := by
  rw [concat_strings_partial .l _ ⟨by simp, Or.inr ⟨_, List.mem_cons_self, rfl⟩⟩]
  · rfl
  · intro l hl
    simp at hl
    rcases hl with rfl | rfl
    · refine ⟨?_, ?_, ?_, trivial⟩
      · exact ⟨by decide, by decide, by decide⟩
      · exact ⟨by decide, by decide, by decide⟩
      · exact ⟨by decide, by decide, by decide, by decide⟩
    · exact ⟨⟨by decide, by decide, by decide⟩, trivial⟩
  · intro l hl i hi
    simp at hl
    rcases hl with rfl | rfl <;> simp at hi
    · rcases hi with rfl | rfl | rfl <;> simp [Supported, enc]
    · subst hi; simp [Supported, enc]

/-! ## C05: character constants -/

/-- The value of a single character: `char` converted to `int`. -/
theorem char_const_single (c : Byte) : charConst 0 [c] = .ok (c.signExtend 64) := by
  simp [charConst]

/-- Base-256 value of a list of bytes. -/
def base256 (bs : List Byte) : Nat := bs.foldl (fun r b => r * 256 + b.toNat) 0

/-- C05, `_partial`: for up to seven characters in 0..127 the constant is the
base-256 combination.  Full statement: for all bytes and up to four characters
(an `int`).  Missing: bytes ≥ 0x80 in a multi-character constant, see
`char_const_multi_violated` and `char_const_negative_ub`. -/
theorem char_const_ascii_partial (bs : List Byte) (h : ∀ b ∈ bs, b.toNat < 128) (hl : bs.length ≤ 7) :
    charConst 0 bs = .ok (BitVec.ofNat 64 (base256 bs)) := by
  have key : ∀ (bs : List Byte) (r : Nat), (∀ b ∈ bs, b.toNat < 128) → r < 256 ^ (7 - bs.length) →
      bs.length ≤ 7 →
      charConst (BitVec.ofNat 64 r) bs
        = .ok (BitVec.ofNat 64 (bs.foldl (fun r b => r * 256 + b.toNat) r)) := by
    intro bs
    induction bs with
    | nil => intro r _ _ _; rfl
    | cons b bs ih =>
      intro r hb hr hl
      have hb0 := hb b (by simp)
      simp only [List.length_cons] at hr hl
      have hpow : 256 ^ (7 - (bs.length + 1)) ≤ 256 ^ 6 := Nat.pow_le_pow_right (by omega) (by omega)
      have hr2 : r < 256 ^ 6 := by omega
      have hti : (BitVec.ofNat 64 r).toInt = r := by
        rw [BitVec.toInt_eq_toNat_of_lt] <;> simp <;> omega
      simp only [charConst, hti]
      rw [if_neg (by omega)]
      have hstep : (BitVec.ofNat 64 r <<< 8) ||| b.signExtend 64 = BitVec.ofNat 64 (r * 256 + b.toNat) := by
        have hse : (b.signExtend 64).toNat = b.toNat := by
          rw [BitVec.toNat_signExtend]
          have : b.msb = false := by rw [BitVec.msb_eq_decide]; simp; omega
          simp [this]; omega
        apply BitVec.eq_of_toNat_eq
        have hb' := b.isLt
        rw [BitVec.toNat_or, hse, BitVec.toNat_shiftLeft, Nat.shiftLeft_eq]
        have e1 : (BitVec.ofNat 64 r).toNat * 2 ^ 8 % 2 ^ 64 = 2 ^ 8 * r := by
          simp; omega
        rw [e1, ← Nat.two_pow_add_eq_or_of_lt hb']
        simp; omega
      rw [hstep, ih _ (fun b h => hb b (by simp [h])) ?_ (by omega)]
      · rfl
      · have hp : 7 - bs.length = (7 - (bs.length + 1)) + 1 := by omega
        rw [hp, Nat.pow_succ]
        omega
  exact key bs 0 h (Nat.pow_pos (by omega)) hl

/-- C05 violated: `'a\377'` yields -1 instead of 0x61FF: the sign-extended second
character overwrites the first (src/common.c:56). -/
theorem char_const_multi_violated :
    charConst 0 [ch 'a', 0xFF#8] = .ok (BitVec.allOnes 64) ∧
    charConst 0 [ch 'a', 0xFF#8] ≠ .ok (BitVec.ofNat 64 (base256 [ch 'a', 0xFF#8])) := by
  constructor <;> decide

/-- A character after one with the top bit set makes the compiler shift a negative
number (undefined), e.g. `'é'` in UTF-8. -/
theorem char_const_negative_ub (a b : Byte) (ha : 128 ≤ a.toNat) (cs : List Byte) :
    charConst 0 (a :: b :: cs) = .ub := by
  have : ∀ a : Byte, 128 ≤ a.toNat → (0#64 <<< 8 ||| a.signExtend 64).toInt < 0 := by decide +kernel
  have h := this a ha
  simp only [charConst]
  rw [if_neg (by decide)]
  exact if_pos (Or.inl h)

example : charConst 0 [ch 'a', ch 'b'] = .ok 0x6162#64 := by decide

end Verif.Escape
