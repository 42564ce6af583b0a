import Verif.PreprocessedSource
/-! C103: what `-E` prints. -/
namespace Verif.Preprocessed
open Verif TokenizerSpec PreprocessedSpec PreprocessedLemmas DefineMap
open Verif.Tokenizer (Agrees Linked NoCrlf tokenizeInput)

/-- C103, the whole: the text printed for a source is split into the tokens that the compiler itself would parse. -/
def OutputRight (Q : List Tok → Prop) : Prop :=
  ∀ (env : Str → Option Define) (n : Nat) (ts us : List Tok), translated env n ts = .ok us → (∀ t ∈ us, IsToken t) → Q us →
    ∃ out, preprocess env n ts = .ok out ∧ Reads out us

/-- Tokens with a spelling that is `Short`, kept apart from one another. -/
def Printable (us : List Tok) : Prop :=
  ∃ l : List (Tok × List Byte), l.map (·.1) = us ∧ (∀ p ∈ l, Spelled p.1 p.2 ∧ Short p.2) ∧ Separated l

theorem printed {size : Nat} (hs : 100 ≤ size) {l : List (Tok × List Byte)} (h : ∀ p ∈ l, Spelled p.1 p.2 ∧ Short p.2) (hl : Separated l) :
    ∃ is, Lexes Everything lineStart (spliced 1 (printAll size (l.map (·.1)))) is ∧ AllStand is (l.map (·.1)) ∧
      is.map (fun i => (some i.kind, i.text)) = l.map fun p => (kind p.2, p.2) := by
  have hg : ∀ p ∈ l, Good p.1 p.2 := fun p hp => spelled_good (h p hp).1 (h p hp).2.2
  rw [printAll_text hs l (fun p hp => ⟨(hg p hp).wanted, (h p hp).2.1⟩), spliced_label _ _ (text_no_slash l fun p hp => (h p hp).2.2)]
  exact lexes_text l hg hl lineStart 1 rfl rfl

/-- C103 for identifiers, numbers, keywords, punctuators and strings without special characters, of at most 98 bytes, that are separated by
white space wherever they would otherwise run together. Missing: the cases below. -/
theorem output_partial : OutputRight Printable := by
  intro env n ts us h _ ⟨l, e, h1, h2⟩
  refine ⟨printAll initialSize us, ?_, ?_⟩
  · unfold preprocess
    rw [h]
    rfl
  · obtain ⟨is, h3, h4, -⟩ := printed (size := initialSize) (by decide) h1 h2
    rw [← e]
    exact ⟨is, h3, h4⟩

/-- `return -1` -/
example : Printable [{ type := .T_KRETURN }, { type := .T_SUB, whitespace := true }, { type := .T_NUM, str := str "1" }] := by
  refine ⟨[({ type := .T_KRETURN }, str "return"), ({ type := .T_SUB, whitespace := true }, str "-"), ({ type := .T_NUM, str := str "1" }, str "1")],
    rfl, ?_, .cons (.inr (.inr (.inl rfl))) (.cons (.inr (.inr (.inr ⟨?_, by decide +kernel, by decide +kernel⟩))) .last)⟩
  · intro p hp
    simp only [List.mem_cons, List.not_mem_nil, or_false] at hp
    rcases hp with rfl | rfl | rfl
    · exact ⟨.keyword (k := ("return", .T_KRETURN)) (by decide +kernel) rfl, by unfold Short; decide +kernel⟩
    · exact ⟨.punctuator (by decide +kernel) (by decide +kernel) (by decide) (by decide), by unfold Short; decide +kernel⟩
    · exact ⟨.number (t := { type := .T_NUM, str := str "1" }) rfl (by decide +kernel), by unfold Short; decide +kernel⟩
  · intro n h1 h2
    obtain rfl : n = 2 := by
      have : (str "-").length = 1 := rfl
      have : (str "-" ++ str "1").length = 2 := rfl
      simp only at h1 h2
      omega
    decide +kernel

/-! ### From the source -/

/-- C103 for a source without directives and macros, the whole: the printed text is split into the same tokens as the source. -/
def SourceKept (P : Ctx → List Byte → List Byte → Prop) (texts : List Byte → Prop) (Q : List Item → Prop) : Prop :=
  ∀ (contents : List Byte) (l : List Item), 0 ∉ contents → texts contents → Lexes P lineStart (spliced 1 (withoutMark contents)) l → Q l →
    ∀ (env : Str → Option Define), (∀ i ∈ l, i.kind = .T_IDENT → env i.text = none ∧ i.text ≠ str "__LINE__" ∧ i.text ≠ str "__FILE__") →
    ∀ f, contents.length + 5 ≤ f → ∃ toks out l', tokenizeInput f (contents ++ [0]) = .ok toks ∧
      (∀ n, toks.length < n → preprocess env n toks = .ok out) ∧
      Lexes Everything lineStart (spliced 1 out) l' ∧ l'.map (fun i => (i.kind, i.text)) = l.map fun i => (i.kind, i.text)

/-- Identifiers, numbers, punctuators and plain strings; no string directly before a string or an identifier. -/
def Ordinary (l : List Item) : Prop := (∀ i ∈ l, Plain i) ∧ Spaced l

theorem agrees_mem : ∀ {ts : List Tok} {l : List Item}, Agrees ts l → ∀ t ∈ ts, ∃ i ∈ l, Tokenizer.Shows t i
  | [], [], _, t, ht => by cases ht
  | u :: ts, i :: l, h, t, ht => by
    rcases List.mem_cons.1 ht with rfl | ht
    · exact ⟨i, by simp, h.1⟩
    · obtain ⟨j, h1, h2⟩ := agrees_mem h.2 t ht
      exact ⟨j, by simp [h1], h2⟩

theorem map_kinds : ∀ {is : List Item} {l : List Item}, (∀ i ∈ l, kind i.text = some i.kind) →
    is.map (fun i => (some i.kind, i.text)) = (l.map (·.text)).map (fun w => (kind w, w)) →
    is.map (fun i => (i.kind, i.text)) = l.map fun i => (i.kind, i.text)
  | [], [], _, _ => rfl
  | [], _ :: _, _, e => by simp at e
  | _ :: _, [], _, e => by simp at e
  | i :: is, j :: l, h, e => by
    simp only [List.map_cons, List.cons.injEq, Prod.mk.injEq] at e ⊢
    obtain ⟨⟨e1, e2⟩, e3⟩ := e
    rw [h j (by simp), Option.some.injEq] at e1
    exact ⟨⟨e1, e2⟩, map_kinds (fun x hx => h x (by simp [hx])) e3⟩

/-- C103 for the sources that C58 covers, without directives, macros and character constants, with strings of plain characters, and no
token longer than 98 bytes. -/
theorem source_kept_partial : SourceKept Supported NoCrlf Ordinary := by
  intro contents l hz hcr hlex ⟨hp, hsp⟩ env he f hf
  obtain ⟨toks, e, ha, hl⟩ := Tokenizer.tokens_partial contents l hz hcr hlex f hf
  have hk := lexes_kind hlex
  have hk' : ∀ i ∈ l, kind i.text = some i.kind ∧ i.text ∉ digraphs := fun i hi =>
    hk i hi (hp i hi).kind.2.2.2.2 (hp i hi).kind.2.2.2.1
  have hj := lexes_joined hlex (fun i hi => (hp i hi).kind.2.2.2.2)
  obtain ⟨us, h1, h2⟩ := concat_ok toks.length toks l (Nat.le_refl _) ha (fun i hi => ⟨hp i hi, hk' i hi⟩) hsp
  obtain ⟨ps, g1, g2, g3, g4⟩ := become_pairs h2 ha hl hj
  have hshort : ∀ p ∈ ps, Short p.2 := by
    intro p hpm
    have : p.2 ∈ ps.map (·.2) := List.mem_map_of_mem hpm
    rw [g2] at this
    obtain ⟨i, hi, ei⟩ := List.mem_map.1 this
    rw [← ei]; exact (hp i hi).short
  obtain ⟨is, h3, -, h5⟩ := printed (size := initialSize) (by decide) (fun p hpm => ⟨g3 p hpm, hshort p hpm⟩) g4
  refine ⟨toks, printAll initialSize us, is, e, ?_, ?_, ?_⟩
  · intro n hn
    obtain ⟨n, rfl⟩ : ∃ m, n = m + 1 := ⟨n - 1, by omega⟩
    have hin : ∀ t ∈ toks, Inert env t := by
      intro t ht
      obtain ⟨i, hi, hs⟩ := agrees_mem ha t ht
      refine ⟨?_, ?_⟩
      · rw [hs.kind]
        intro e2
        have := (hk' i hi).1
        rw [e2] at this
        rcases Tokenizer.kind_cases this with ⟨-, e⟩ | ⟨-, -, e⟩ | ⟨-, e⟩ | ⟨-, e⟩ | ⟨-, -, h⟩
        · cases e
        · cases e
        · cases e
        · cases e
        · have ht : punctuators.all (fun p => decide (p.2 ≠ .T_EOI)) = true := by decide +kernel
          exact absurd rfl (of_decide_eq_true (List.all_eq_true.1 ht _ (Tokenizer.lookup_mem h)))
      · rw [hs.kind, hs.text]
        exact he i hi
    unfold preprocess translated
    rw [expanded_inert toks hin (n + 1) hn]
    simp only [Run.bind_ok]
    rw [h1]
    rfl
  · rw [← g1]; exact h3
  · apply map_kinds (fun i hi => (hk' i hi).1)
    rw [h5, ← g2, List.map_map]
    rfl

/-- `if x- -1;`, then `"é"` on a line of its own. -/
def sampleText : List Byte := str "if x- -1;\n\"" ++ [195, 169, ch '"']

def sampleItems : List Item := [
  ⟨.T_IDENT, str "if", true, true, 1⟩, ⟨.T_IDENT, str "x", false, true, 1⟩, ⟨.T_SUB, str "-", false, false, 1⟩,
  ⟨.T_SUB, str "-", false, true, 1⟩, ⟨.T_NUM, str "1", false, false, 1⟩, ⟨.T_SEMI_COLON, str ";", false, false, 1⟩,
  ⟨.T_STRING, str "\"" ++ [195, 169, ch '"'], true, true, 2⟩]

theorem sampleText_chars : spliced 1 (withoutMark sampleText) =
    [(ch 'i', 1), (ch 'f', 1), (ch ' ', 1), (ch 'x', 1), (ch '-', 1), (ch ' ', 1), (ch '-', 1), (ch '1', 1), (ch ';', 1), (ch '\n', 1),
      (ch '"', 2), (195, 2), (169, 2), (ch '"', 2)] := by decide +kernel

theorem sampleText_lexes : Lexes Supported lineStart (spliced 1 (withoutMark sampleText)) sampleItems := by
  rw [sampleText_chars]
  open Tokenizer in
  refine lex_token (w := [(ch 'f', 1)]) (k := .T_IDENT) ?_ (plain_sound (by decide +kernel)) (by decide +kernel)
  refine .blank (by decide) (Tokenizer.plain_sound (by decide +kernel)) ?_
  refine Tokenizer.lex_token (w := []) (k := .T_IDENT) ?_ (Tokenizer.plain_sound (by decide +kernel)) (by decide +kernel)
  refine Tokenizer.lex_token (w := []) (k := .T_SUB) ?_ (Tokenizer.plain_sound (by decide +kernel)) (by decide +kernel)
  refine .blank (by decide) (Tokenizer.plain_sound (by decide +kernel)) ?_
  refine Tokenizer.lex_token (w := []) (k := .T_SUB) ?_ (Tokenizer.plain_sound (by decide +kernel)) (by decide +kernel)
  refine Tokenizer.lex_token (w := []) (k := .T_NUM) ?_ (Tokenizer.plain_sound (by decide +kernel)) (by decide +kernel)
  refine Tokenizer.lex_token (w := []) (k := .T_SEMI_COLON) ?_ (Tokenizer.plain_sound (by decide +kernel)) (by decide +kernel)
  refine .newline ?_
  refine Tokenizer.lex_token (w := [(195, 2), (169, 2), (ch '"', 2)]) (r := []) (k := .T_STRING) (.done _) (Tokenizer.plain_sound (by decide +kernel))
    (by decide +kernel)

/-- The sample meets the hypotheses of `source_kept_partial`. -/
theorem sampleItems_ordinary : Ordinary sampleItems := by
  have hb : sampleItems.all (fun i => decide (i.text.length ≤ 98 ∧ ch '\\' ∉ i.text) && decide (i.kind ≠ .T_CHARACTER_CONSTANT ∧ i.kind ≠ .PP_HASH ∧
      i.kind ≠ .PP_HHASH ∧ i.kind ≠ .PP_DIRECTIVE ∧ i.kind ≠ .PP_HEADER_NAME_H) &&
      decide (i.kind = .T_STRING → i.text = str "\"" ++ [195, 169, ch '"'])) = true := by decide +kernel
  refine ⟨fun i hi => ?_, ?_⟩
  · have := List.all_eq_true.1 hb i hi
    simp only [Bool.and_eq_true, decide_eq_true_eq] at this
    refine ⟨this.1.1, this.1.2, fun h => ⟨[0xe9], ?_, ?_⟩⟩
    · intro c hc
      obtain rfl : c = 0xe9 := by simpa using hc
      unfold Harmless
      decide
    · rw [this.2 h]; decide +kernel
  · unfold sampleItems
    repeat (first | exact .last | refine .cons (fun h => absurd h (by decide)) ?_)

example : ∃ toks out l', tokenizeInput 100 (sampleText ++ [0]) = .ok toks ∧ (∀ n, toks.length < n → preprocess (fun _ => none) n toks = .ok out) ∧
    Lexes Everything lineStart (spliced 1 out) l' ∧ l'.map (fun i => (i.kind, i.text)) = sampleItems.map fun i => (i.kind, i.text) := by
  refine source_kept_partial sampleText sampleItems (by decide) ?_ sampleText_lexes sampleItems_ordinary _ ?_ 100 (by decide)
  · intro a b e
    have this : sampleText.contains (ch '\r') = List.contains _ _ := congrArg (List.contains · (ch '\r')) e
    rw [show sampleText.contains (ch '\r') = false by decide] at this
    simp at this
  · intro i hi hk
    have hb : sampleItems.all (fun i => decide (i.text ≠ str "__LINE__" ∧ i.text ≠ str "__FILE__")) = true := by decide +kernel
    exact ⟨rfl, of_decide_eq_true (List.all_eq_true.1 hb i hi)⟩

/-! ### What is lost -/

theorem lexes_sublist {P : Ctx → List Byte → List Byte → Prop} {c : Ctx} {t : List Char'} {l : List Item} (h : Lexes P c t l) :
    (l.flatMap (·.text)).Sublist (bytes t) := by
  induction h with
  | done c => exact .slnil
  | newline h ih => exact ih.cons _
  | blank h1 h2 h ih => exact ih.cons _
  | lineComment h1 h2 h3 h ih =>
    rw [show bytes (_ ++ _) = bytes _ ++ bytes _ from List.map_append]
    exact ih.trans (List.sublist_append_right _ _)
  | blockComment h1 h2 h3 h ih =>
    rw [show bytes (_ ++ _) = bytes _ ++ bytes _ from List.map_append]
    exact ih.trans (List.sublist_append_right _ _)
  | header h1 h2 h3 h ih =>
    rw [show bytes (_ ++ _) = bytes _ ++ bytes _ from List.map_append, List.flatMap_cons]
    exact (List.Sublist.refl _).append ih
  | token h1 h2 h3 h4 h ih =>
    rw [show bytes (_ ++ _) = bytes _ ++ bytes _ from List.map_append, List.flatMap_cons]
    exact (List.Sublist.refl _).append ih

/-- A token that begins the text. -/
theorem lexes_first {P : Ctx → List Byte → List Byte → Prop} {c : Ctx} {b : Byte} {n : Nat} {t : List Char'} {l : List Item}
    (h : Lexes P c ((b, n) :: t) l) (hb : b ≠ ch '\n' ∧ b ∉ blanks ∧ b ≠ ch '/' ∧ b ≠ ch '<') :
    ∃ w r k i l', (b, n) :: t = (b, n) :: w ++ r ∧ Longest (bytes ((b, n) :: w)) (bytes r) k ∧ l = i :: l' ∧ i.text = bytes ((b, n) :: w) ∧
      ∃ c', Lexes P c' r l' := by
  generalize e : (b, n) :: t = u at h
  cases h with
  | done c => cases e
  | newline h => cases e; exact absurd rfl hb.1
  | blank h1 h2 h => cases e; exact absurd h1 hb.2.1
  | @lineComment _ w r _ h1 h2 h3 h =>
    exfalso
    cases w with
    | nil => simp [bytes, str] at h1
    | cons x w =>
      cases e
      exact hb.2.2.1 (List.cons.inj (show b :: _ = ch '/' :: _ from h1)).1
  | @blockComment _ w r body _ h1 h2 h3 h =>
    exfalso
    cases w with
    | nil => simp [bytes, str] at h1
    | cons x w =>
      cases e
      exact hb.2.2.1 (List.cons.inj (show b :: _ = ch '/' :: _ from h1)).1
  | header h1 => cases e; exact absurd rfl hb.2.2.2
  | @token _ b' n' w r k l h1 h2 h3 h4 h =>
    cases e
    exact ⟨w, r, k, _, l, rfl, h3, rfl, rfl, _, h⟩

theorem stand_one {l : List Item} {t : Tok} (h : AllStand l [t]) : ∃ i, l = [i] ∧ Stands i t.type t.str := by
  cases h with
  | cons h1 h2 => cases h2; exact ⟨_, rfl, h1⟩

theorem reads_item {text : List Byte} {t : Tok} (hs : ch '\\' ∉ text) (h : Reads text [t]) :
    ∃ i : Item, Stands i t.type t.str ∧ i.text.Sublist text := by
  obtain ⟨l, h1, h2⟩ := h
  obtain ⟨i, rfl, h3⟩ := stand_one h2
  refine ⟨i, h3, ?_⟩
  have := lexes_sublist h1
  rw [spliced_label _ _ hs, bytes_label] at this
  simpa using this

/-- Character constants, and strings with the prefix `L`, `u` or `U`. -/
def lost : List TType := [.T_CHARACTER_CONSTANT, .T_CHARACTER_CONSTANT_CHAR16, .T_CHARACTER_CONSTANT_CHAR32, .T_CHARACTER_CONSTANT_WCHAR,
  .T_STRING_CHAR16, .T_STRING_CHAR32, .T_STRING_WCHAR]

theorem lost_names : lost.all (fun t => decide (t ≠ .T_IDENT ∧ t ≠ .T_NUM ∧ t ≠ .T_STRING ∧ (typeName t).length ≤ 98) && (typeName t).all (fun b =>
    decide (b ≠ ch '\\' ∧ b ≠ ch '\'' ∧ b ≠ ch '"'))) = true := by decide +kernel

theorem stands_quote {i : Item} {t : TType} {s : Str} (ht : t ∈ lost) (h : Stands i t s) : ch '\'' ∈ i.text ∨ ch '"' ∈ i.text := by
  have hl : ∀ {pre q is w}, Literal pre q is w → q ∈ w := by
    intro pre q is w h
    rw [h.2]
    simp
  simp only [lost, List.mem_cons, List.not_mem_nil, or_false] at ht
  rcases ht with rfl | rfl | rfl | rfl | rfl | rfl | rfl
  · obtain ⟨-, is, h, -⟩ := h; exact .inl (hl h)
  · obtain ⟨-, is, h, -⟩ := h; exact .inl (hl h)
  · obtain ⟨-, is, h, -⟩ := h; exact .inl (hl h)
  · obtain ⟨-, is, h, -⟩ := h; exact .inl (hl h)
  · obtain ⟨-, is, h, -⟩ := h; exact .inr (hl h)
  · obtain ⟨-, is, h, -⟩ := h; exact .inr (hl h)
  · obtain ⟨-, is, h, -⟩ := h; exact .inr (hl h)

/-- No character constant and no wide string is printed so that it can be read back: the words `Character constant`, `wchar_t String` … are
printed in its place. -/
theorem literals_violated (t : Tok) (ht : t.type ∈ lost) : ¬ Reads (printAll initialSize [t]) [t] := by
  have hn := List.all_eq_true.1 lost_names _ ht
  simp only [Bool.and_eq_true, decide_eq_true_eq, List.all_eq_true] at hn
  have e : printAll initialSize [t] = before t ++ typeName t.type ++ behind t := by
    have := printAll_text (size := initialSize) (by decide) [(t, typeName t.type)] (by
      intro p hp
      obtain rfl : p = (t, typeName t.type) := by simpa using hp
      exact ⟨wanted_type hn.1.1 hn.1.2.1 hn.1.2.2.1, hn.1.2.2.2⟩)
    simpa [text] using this
  have hb : ∀ b ∈ printAll initialSize [t], b ≠ ch '\\' ∧ b ≠ ch '\'' ∧ b ≠ ch '"' := by
    intro b hb
    rw [e] at hb
    simp only [List.mem_append] at hb
    rcases hb with (hb | hb) | hb
    · rcases before_cases t with e | e | ⟨e, -⟩ <;> rw [e] at hb <;> simp at hb <;> rw [hb] <;> decide
    · exact hn.2 b hb
    · rcases behind_cases t with e | ⟨e, -⟩ <;> rw [e] at hb <;> simp at hb
      rw [hb]; decide
  intro h
  obtain ⟨i, h1, h2⟩ := reads_item (fun hm => (hb _ hm).1 rfl) h
  rcases stands_quote ht h1 with hq | hq
  · exact (hb _ (h2.subset hq)).2.1 rfl
  · exact (hb _ (h2.subset hq)).2.2 rfl

/-- Such a token comes from the source `'a'`. -/
example : translated (fun _ => none) 5 [{ type := .T_CHARACTER_CONSTANT, str := str "'a'" }] =
      .ok [{ type := .T_CHARACTER_CONSTANT, str := str "a" }] ∧
    preprocess (fun _ => none) 5 [{ type := .T_CHARACTER_CONSTANT, str := str "'a'" }] = .ok (str "Character constant") ∧
    IsToken { type := .T_CHARACTER_CONSTANT, str := str "a" } := by
  refine ⟨by decide +kernel, by decide +kernel, ⟨.T_CHARACTER_CONSTANT, str "'a'", true, true, 1⟩, by decide +kernel, rfl, [.plain 97], ⟨?_, ?_⟩, ?_⟩
  · exact ⟨by unfold EscapeSpec.ItemWF; decide, trivial⟩
  · decide +kernel
  · decide +kernel

/-- An identifier of 99 characters or more loses its last character, whatever it is. -/
theorem long_names_violated (t : Tok) (ht : t.type = .T_IDENT) (hi : isIdent t.str = true) (hs : ch '\\' ∉ t.str) (hl : 99 ≤ t.str.length) :
    ¬ Reads (printAll initialSize [t]) [t] := by
  have hz := ident_no_nul hs hi
  have hw : wanted t = t.str := by unfold wanted; rw [if_pos ht, formatted_id hz]
  have hd : (dbgToken initialSize t).1 = t.str.take (t.str.length - 1) ∨ (dbgToken initialSize t).1 = t.str.take 98 ∧ t.str.length = 99 := by
    unfold dbgToken snprintf
    simp only [hw]
    split
    · left; rfl
    · rename_i h
      right
      unfold initialSize at h ⊢
      exact ⟨rfl, by omega⟩
  have hd' : (dbgToken initialSize t).1 = t.str.take (t.str.length - 1) := by
    rcases hd with h | ⟨h, h2⟩
    · exact h
    · rw [h, h2]
  have e : printAll initialSize [t] = before t ++ t.str.take (t.str.length - 1) ++ behind t := by
    simp [printAll, hd', before, behind]
  have hws : ∀ b ∈ t.str, b ≠ ch ' ' ∧ b ≠ ch '\n' := by
    have hall : ∀ b ∈ t.str, (isNondigit b || isDigit b) = true := by
      intro b hb
      cases he : t.str with
      | nil => rw [he] at hb; cases hb
      | cons x w =>
        rw [he] at hb hi hs
        rw [isIdent, Bool.and_eq_true] at hi
        exact identTail_bytes _ hs hi.2 b hb
    intro b hb
    have := hall b hb
    refine ⟨?_, ?_⟩ <;> rintro rfl <;> exact absurd this (by decide)
  have hns : ch '\\' ∉ printAll initialSize [t] := by
    rw [e]
    simp only [List.mem_append, not_or]
    refine ⟨⟨?_, fun h => hs (List.mem_of_mem_take h)⟩, ?_⟩
    · rcases before_cases t with e | e | ⟨e, -⟩ <;> rw [e] <;> decide
    · rcases behind_cases t with e | ⟨e, -⟩ <;> rw [e] <;> decide
  intro h
  obtain ⟨i, h1, h2⟩ := reads_item hns h
  rw [ht] at h1
  have hit : i.text = t.str := h1.2.1
  rw [hit, e] at h2
  have h3 := (h2.filter (fun b => decide (b ≠ ch ' ' ∧ b ≠ ch '\n'))).length_le
  have f1 : (before t).filter (fun b => decide (b ≠ ch ' ' ∧ b ≠ ch '\n')) = [] := by
    rcases before_cases t with e | e | ⟨e, -⟩ <;> rw [e] <;> decide
  have f2 : (behind t).filter (fun b => decide (b ≠ ch ' ' ∧ b ≠ ch '\n')) = [] := by
    rcases behind_cases t with e | ⟨e, -⟩ <;> rw [e] <;> decide
  have f3 : t.str.filter (fun b => decide (b ≠ ch ' ' ∧ b ≠ ch '\n')) = t.str :=
    List.filter_eq_self.2 fun b hb => decide_eq_true (hws b hb)
  rw [List.filter_append, List.filter_append, f1, f2, f3] at h3
  have h4 := List.length_filter_le (fun b => decide (b ≠ ch ' ' ∧ b ≠ ch '\n')) (t.str.take (t.str.length - 1))
  simp only [List.nil_append, List.append_nil, List.length_take] at h3 h4
  omega

example : let t : Tok := { type := .T_IDENT, str := List.replicate 99 (ch 'a') }
    t.type = .T_IDENT ∧ isIdent t.str = true ∧ ch '\\' ∉ t.str ∧ 99 ≤ t.str.length ∧ printAll initialSize [t] = List.replicate 98 (ch 'a') := by
  decide +kernel

/-- The string `"\""` is printed as `"""`. -/
theorem quoted_violated : let t : Tok := { type := .T_STRING, str := [ch '"', 0] }
    translated (fun _ => none) 5 [{ t with str := str "\"\\\"\"" }] = .ok [t] ∧ printAll initialSize [t] = str "\"\"\"" ∧
    ¬ Reads (printAll initialSize [t]) [t] := by
  refine ⟨by decide +kernel, by decide +kernel, ?_⟩
  rw [show printAll initialSize [({ type := .T_STRING, str := [ch '"', 0] } : Tok)] = str "\"\"\"" by decide +kernel]
  rintro ⟨l, h1, h2⟩
  obtain ⟨i, rfl, -⟩ := stand_one h2
  rw [show spliced 1 (str "\"\"\"") = [(ch '"', 1), (ch '"', 1), (ch '"', 1)] by decide +kernel] at h1
  obtain ⟨w, r, k, j, l', e, hl, el, ej, c', hr⟩ := lexes_first h1 (by decide)
  cases el
  rw [List.cons_append, List.cons.injEq] at e
  have e := e.2
  match w, e with
  | [], e => exact absurd hl.1 (by rw [show kind (bytes [(ch '"', 1)]) = none by decide +kernel]; simp)
  | [x], e =>
    simp only [List.cons_append, List.nil_append, List.cons.injEq] at e
    rw [← e.2] at hr
    obtain ⟨_, _, _, _, _, _, _, h, _⟩ := lexes_first hr (by decide)
    cases h
  | [x, y], e =>
    simp only [List.cons_append, List.nil_append, List.cons.injEq] at e
    rw [← e.1, ← e.2.1] at hl
    exact absurd hl.1 (by rw [show kind (bytes [(ch '"', 1), (ch '"', 1), (ch '"', 1)]) = none by decide +kernel]; simp)
  | _ :: _ :: _ :: _, e => simp at e

/-- `#define NEG -x` -/
def negTable : Table := add bucketOf init { name := str "NEG", body := [{ type := .T_SUB, str := str "-", whitespace := true },
  { type := .T_IDENT, str := str "x" }] }

/-- The tokens of `-NEG`. -/
def negSource : List Tok := [{ type := .T_SUB, str := str "-", firstOfLine := true, whitespace := true }, { type := .T_IDENT, str := str "NEG" }]

/-- What they become: `-`, `-` and `x`. -/
def negTokens : List Tok := [{ type := .T_SUB, str := str "-", firstOfLine := true, whitespace := true },
  { type := .T_SUB, str := str "-", hs := [str "NEG"] }, { type := .T_IDENT, str := str "x", hs := [str "NEG"] }]

/-- C103 fails after macro replacement: with `#define NEG -x`, the source `-NEG` is printed as `--x`. -/
theorem output_violated : ¬ OutputRight (fun _ => True) := by
  intro h
  obtain ⟨out, h1, l, h2, h3⟩ := h (get bucketOf negTable) 10 negSource negTokens (by decide +kernel) (by
    intro t ht
    simp only [negTokens, List.mem_cons, List.not_mem_nil, or_false] at ht
    rcases ht with rfl | rfl | rfl
    · exact ⟨⟨.T_SUB, str "-", true, true, 1⟩, by decide +kernel, .inl (by decide +kernel)⟩
    · exact ⟨⟨.T_SUB, str "-", true, true, 1⟩, by decide +kernel, .inl (by decide +kernel)⟩
    · exact ⟨⟨.T_IDENT, str "x", true, true, 1⟩, by decide +kernel, rfl, rfl, by decide +kernel⟩) trivial
  have e : preprocess (get bucketOf negTable) 10 negSource = .ok (str "\n--x") := by decide +kernel
  rw [h1] at e
  obtain rfl : out = str "\n--x" := by injection e
  rw [show spliced 1 (str "\n--x") = [(ch '\n', 1), (ch '-', 2), (ch '-', 2), (ch 'x', 2)] by decide +kernel] at h2
  have h2 : Lexes Everything lineStart [(ch '-', 2), (ch '-', 2), (ch 'x', 2)] l := by
    generalize e : [(ch '\n', 1), (ch '-', 2), (ch '-', 2), (ch 'x', 2)] = u at h2
    cases h2 with
    | done => cases e
    | newline h => cases e; exact h
    | blank h1 => cases e; exact absurd h1 (by decide)
    | @lineComment _ w _ _ h1 =>
      cases w with
      | nil => simp [bytes, str] at h1
      | cons x w =>
        obtain ⟨rfl, -⟩ := List.cons.inj e
        exact absurd (List.cons.inj (show ch '\n' :: _ = ch '/' :: _ from h1)).1 (by decide)
    | @blockComment _ w _ _ _ h1 =>
      cases w with
      | nil => simp [bytes, str] at h1
      | cons x w =>
        obtain ⟨rfl, -⟩ := List.cons.inj e
        exact absurd (List.cons.inj (show ch '\n' :: _ = ch '/' :: _ from h1)).1 (by decide)
    | header h1 => cases e
    | @token _ b n w r k _ g1 g2 g3 =>
      exfalso
      obtain ⟨eb, e⟩ := List.cons.inj e
      rw [← eb] at g3
      have hk : w ∈ [[], [(ch '-', 2)], [(ch '-', 2), (ch '-', 2)], [(ch '-', 2), (ch '-', 2), (ch 'x', 2)]] := by
        match w, e with
        | [], _ => simp
        | [a], e => cases e; simp
        | [a, b], e => cases e; simp
        | [a, b, c], e => cases e; simp
        | _ :: _ :: _ :: _ :: _, e => simp at e
      have hn : [[], [(ch '-', 2)], [(ch '-', 2), (ch '-', 2)], [(ch '-', 2), (ch '-', 2), (ch 'x', 2)]].all
        (fun w => (kind (bytes ((ch '\n', 1) :: w))).isNone) = true := by decide +kernel
      have := List.all_eq_true.1 hn w hk
      rw [g3.1] at this
      cases this
  obtain ⟨w, r, k, i, l', e, hl, rfl, ei, -⟩ := lexes_first h2 (by decide)
  have hi : i.text = str "-" := by
    cases h3 with
    | cons h3 _ =>
      rcases h3 with ⟨-, h3, -⟩ | ⟨-, k, hk, hk2, -⟩
      · have ht : punctuators.all (fun p => decide (p.2 = .T_SUB → p.1 = str "-")) = true := by decide +kernel
        exact of_decide_eq_true (List.all_eq_true.1 ht _ h3) rfl
      · have ht : keywords.all (fun k => decide (k.2 ≠ .T_SUB)) = true := by decide +kernel
        exact absurd hk2 (of_decide_eq_true (List.all_eq_true.1 ht k hk))
  rw [ei] at hi
  have hw : w = [] := by
    have := congrArg List.length hi
    cases w with
    | nil => rfl
    | cons => simp [bytes, str] at this
  rw [hw] at hl e
  simp only [List.cons_append, List.nil_append, List.cons.injEq, true_and] at e
  have := hl.2 2 (by decide) (by rw [← e]; decide)
  rw [← e] at this
  exact absurd this (by decide +kernel)

end Verif.Preprocessed
