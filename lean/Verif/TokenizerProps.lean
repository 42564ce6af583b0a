import Verif.TokenizerRunLemmas
/-!
The tokens of a source file (C58, C59).
-/
namespace Verif.Tokenizer
open Verif TokenizerSpec

set_option maxRecDepth 4000

/-- The whole of C58 and C59: the compiler splits every text into the tokens that C17 5.1.1.2 and 6.4 prescribe – the longest token at each
position, comments and spliced lines removed, each token with its text, its line, and the information whether white space or the
beginning of a line comes before it. -/
def TokensRight (P : Ctx → List Byte → List Byte → Prop) (texts : List Byte → Prop) : Prop :=
  ∀ (contents : List Byte) (l : List Item), 0 ∉ contents → texts contents → Lexes P lineStart (spliced 1 (withoutMark contents)) l →
    ∀ f, contents.length + 5 ≤ f → ∃ toks, tokenizeInput f (contents ++ [0]) = .ok toks ∧ Agrees toks l ∧ Linked toks

theorem skipBom_eq {contents : List Byte} (hz : 0 ∉ contents) : skipBom (contents ++ [0]) = withoutMark contents ++ [0] := by
  unfold skipBom withoutMark
  match contents with
  | [] => rfl
  | [a] => simp
  | [a, b] => simp
  | a :: b :: c :: r =>
    simp only [List.cons_append, List.take_succ_cons, List.take_zero, List.drop_succ_cons, List.drop_zero]
    split <;> rfl

theorem withoutMark_suffix (l : List Byte) : ∃ a, l = a ++ withoutMark l := by
  unfold withoutMark
  split
  · exact ⟨l.take 3, (List.take_append_drop 3 l).symm⟩
  · exact ⟨[], rfl⟩

/-- C58, C59. Every text whose pieces are `Supported` is split as C prescribes. Missing: the pieces that `Supported` excludes – vertical tab and
form feed, comments that end in an even number of asterisks and a slash, digraphs, two periods in a row, universal character names, numbers
followed by a quote or with bytes from 128, an identifier followed by a stray backslash, `#` at the beginning of a line followed by something
else than an identifier – and a backslash before a carriage return and a line feed. -/
theorem tokens_partial : TokensRight Supported NoCrlf := by
  intro contents l hz hcr hlex f hf
  obtain ⟨a, ha⟩ := withoutMark_suffix contents
  have hcr' : NoCrlf (withoutMark contents) := by
    rw [ha] at hcr
    exact hcr.right
  have hz' : 0 ∉ withoutMark contents := by
    intro h
    rw [ha] at hz
    exact hz (List.mem_append_right _ h)
  have hlen : (withoutMark contents).length ≤ contents.length := by
    have := congrArg List.length ha
    simp at this
    omega
  obtain ⟨toks, e, h1, h2⟩ := tokenizeInput_ok hz' hcr' hlex f (by omega)
  refine ⟨toks, ?_, h1, h2⟩
  unfold tokenizeInput
  rw [skipBom_eq hz]
  exact e

/-- A word is the longest token. -/
def longest (w r : List Byte) (k : TType) : Bool :=
  decide (kind w = some k) && (List.range (r.length + 1)).all fun i => i == 0 || (kind ((w ++ r).take (w.length + i))).isNone

theorem longest_sound {w r : List Byte} {k : TType} (h : longest w r k = true) : Longest w r k := by
  simp only [longest, Bool.and_eq_true, decide_eq_true_eq, List.all_eq_true, List.mem_range] at h
  refine ⟨h.1, fun n h1 h2 => ?_⟩
  have := h.2 (n - w.length) (by simp at h2; omega)
  have hn : w.length + (n - w.length) = n := by omega
  simp only [hn, Bool.or_eq_true, beq_iff_eq, Option.isNone_iff_eq_none] at this
  rcases this with e | e
  · omega
  · exact e

/-- A sufficient condition for `Supported`. -/
def plain (c : Ctx) (w r : List Byte) : Bool :=
  decide (w ≠ [11] ∧ w ≠ [12]) && decide (w.take 2 ≠ str "/*") && decide (w ∉ digraphs) && decide (w = str "." → r.head? ≠ some (ch '.')) &&
  decide (ch '\\' ∉ w) && decide (isNumber w = true → r.head? ≠ some (ch '\'') ∧ ∀ b ∈ w, b < 128) &&
  decide (isIdent w = true → r.head? ≠ some (ch '\\')) && decide (c.hash = true → kind w ≠ none → isIdent w = true)

theorem plain_sound {c : Ctx} {w r : List Byte} (h : plain c w r = true) : Supported c w r := by
  simp only [plain, Bool.and_eq_true, decide_eq_true_eq] at h
  obtain ⟨⟨⟨⟨⟨⟨⟨h1, h2⟩, h3⟩, h4⟩, h5⟩, h6⟩, h7⟩, h8⟩ := h
  refine ⟨h1, ?_, h3, h4, ?_, h6, h7, h8⟩
  · intro body e
    exfalso
    apply h2
    rw [e]
    rfl
  · intro _ a b d e
    exact absurd (by rw [e]; simp) h5

instance (t : List Byte) : Decidable (commentStart t) := by unfold commentStart; infer_instance

/-- A step of a derivation for a token. -/
theorem lex_token {P : Ctx → List Byte → List Byte → Prop} {c : Ctx} {b : Byte} {n : Nat} {w r : List Char'} {k : TType} {l : List Item}
    (hlex : Lexes P (c.after (inContext c k) (bytes ((b, n) :: w))) r l) (hP : P c (bytes ((b, n) :: w)) (bytes r))
    (h : (decide (¬ commentStart (bytes ((b, n) :: w ++ r))) && decide (¬ (c.incl = true ∧ b = ch '<')) &&
      longest (bytes ((b, n) :: w)) (bytes r) k) = true) :
    Lexes P c ((b, n) :: w ++ r) (⟨inContext c k, bytes ((b, n) :: w), c.first, c.white, n⟩ :: l) := by
  simp only [Bool.and_eq_true, decide_eq_true_eq] at h
  exact .token h.1.1 h.1.2 (longest_sound h.2) hP hlex

/-- `#if a/* * */`, then `>>=.5` with the line continued before another `6`. -/
def sample : List Byte := str "#if a/* * */\n>>=.5\\\n6"

/-- Its tokens. -/
def sampleItems : List Item := [
  ⟨.PP_DIRECTIVE, str "#", true, true, 1⟩, ⟨.T_IDENT, str "if", false, false, 1⟩, ⟨.T_IDENT, str "a", false, true, 1⟩,
  ⟨.T_RSHIFTA, str ">>=", true, true, 2⟩, ⟨.T_NUM, str ".56", false, false, 2⟩]

theorem sample_text : spliced 1 (withoutMark sample) =
    [(ch '#', 1), (ch 'i', 1), (ch 'f', 1), (ch ' ', 1), (ch 'a', 1), (ch '/', 1), (ch '*', 1), (ch ' ', 1), (ch '*', 1), (ch ' ', 1), (ch '*', 1),
      (ch '/', 1), (ch '\n', 1), (ch '>', 2), (ch '>', 2), (ch '=', 2), (ch '.', 2), (ch '5', 2), (ch '6', 3)] := by decide +kernel

/-- The sample meets the hypotheses of `tokens_partial`. -/
theorem sample_lexes : Lexes Supported lineStart (spliced 1 (withoutMark sample)) sampleItems := by
  rw [sample_text]
  refine lex_token (w := []) (k := .PP_HASH) ?_ (plain_sound (by decide +kernel)) (by decide +kernel)
  refine lex_token (w := [(ch 'f', 1)]) (k := .T_IDENT) ?_ (plain_sound (by decide +kernel)) (by decide +kernel)
  refine .blank (by decide) (plain_sound (by decide +kernel)) ?_
  refine lex_token (w := []) (k := .T_IDENT) ?_ (plain_sound (by decide +kernel)) (by decide +kernel)
  refine .blockComment (w := [(ch '/', 1), (ch '*', 1), (ch ' ', 1), (ch '*', 1), (ch ' ', 1), (ch '*', 1), (ch '/', 1)]) (body := str " * ") rfl ?_ ?_ ?_
  · intro a b e
    have this : (str " * " ++ [ch '*']).contains (ch '/') = List.contains _ _ := congrArg (List.contains · (ch '/')) e
    rw [show (str " * " ++ [ch '*']).contains (ch '/') = false by decide] at this
    simp [str] at this
  · refine ⟨by decide, ?_, by decide, by decide, fun h => absurd (by decide +kernel) h, fun h => absurd h (by decide +kernel),
      fun h => absurd h (by decide +kernel), fun h => absurd h (by decide)⟩
    intro body e
    have e' : str "/*" ++ str " * " ++ str "*/" = str "/*" ++ body ++ str "*/" := e
    rw [List.append_assoc, List.append_assoc] at e'
    have := List.append_cancel_right (List.append_cancel_left e')
    rw [← this]
    decide
  refine .newline ?_
  refine lex_token (w := [(ch '>', 2), (ch '=', 2)]) (k := .T_RSHIFTA) ?_ (plain_sound (by decide +kernel)) (by decide +kernel)
  refine lex_token (w := [(ch '5', 2), (ch '6', 3)]) (r := []) (k := .T_NUM) ?_ (plain_sound (by decide +kernel)) (by decide +kernel)
  exact .done _

example : 0 ∉ sample ∧ NoCrlf sample := by
  refine ⟨by decide, ?_⟩
  intro a b e
  have this : sample.contains (ch '\r') = List.contains _ _ := congrArg (List.contains · (ch '\r')) e
  rw [show sample.contains (ch '\r') = false by decide] at this
  simp at this

/-- What the theorem says about the sample. -/
example : ∃ toks, tokenizeInput 100 (sample ++ [0]) = .ok toks ∧ Agrees toks sampleItems := by
  obtain ⟨toks, h1, h2, -⟩ := tokens_partial sample sampleItems (by decide) (by
    intro a b e
    have this : sample.contains (ch '\r') = List.contains _ _ := congrArg (List.contains · (ch '\r')) e
    rw [show sample.contains (ch '\r') = false by decide] at this
    simp at this) sample_lexes 100 (by decide)
  exact ⟨toks, h1, h2⟩

/-- C58 fails for digraphs: `<:` is split into `<` and `:`. -/
theorem munch_violated : ¬ TokensRight Everything (fun _ => True) := by
  intro h
  have hlex : Lexes Everything lineStart (spliced 1 (withoutMark (str "<:"))) [⟨.T_LBRACK, str "<:", true, true, 1⟩] := by
    rw [show spliced 1 (withoutMark (str "<:")) = [(ch '<', 1), (ch ':', 1)] by decide +kernel]
    exact lex_token (w := [(ch ':', 1)]) (r := []) (k := .T_LBRACK) (.done _) trivial (by decide +kernel)
  obtain ⟨toks, e, h1, -⟩ := h _ _ (by decide) trivial hlex 20 (by decide)
  have : tokenizeInput 20 (str "<:" ++ [0]) = .ok [
      { type := .T_L, str := str "<", firstOfLine := true, whitespace := true, line := 1 },
      { type := .T_COLON, str := str ":", firstOfLineAfter := true, line := 1 }] := by decide +kernel
  rw [this] at e
  cases e
  exact h1.2

/-- C58 fails for two periods that are not part of an ellipsis, for example in a macro argument: C has two tokens, the compiler stops. -/
theorem dots_violated : Lexes Everything lineStart (spliced 1 (withoutMark (str "..")))
      [⟨.T_DOT, str ".", true, true, 1⟩, ⟨.T_DOT, str ".", false, false, 1⟩] ∧
    tokenizeInput 20 (str ".." ++ [0]) = .fail := by
  refine ⟨?_, by decide +kernel⟩
  rw [show spliced 1 (withoutMark (str "..")) = [(ch '.', 1), (ch '.', 1)] by decide +kernel]
  refine lex_token (w := []) (k := .T_DOT) ?_ trivial (by decide +kernel)
  exact lex_token (w := []) (r := []) (k := .T_DOT) (.done _) trivial (by decide +kernel)

/-- An identifier that begins with a universal character name is not recognised. -/
theorem name_violated : kind (str "\\u00e9") = some .T_IDENT ∧ tokenizeInput 20 (str "\\u00e9" ++ [0]) = .fail := by decide +kernel

/-- C59 fails for comments that end in an even number of asterisks before the slash: the text `/***/x` is a comment and an identifier, but the
compiler finds no end of the comment. -/
theorem comment_violated : Lexes Everything lineStart (spliced 1 (withoutMark (str "/***/x"))) [⟨.T_IDENT, str "x", true, true, 1⟩] ∧
    tokenizeInput 20 (str "/***/x" ++ [0]) = .fail := by
  refine ⟨?_, by decide +kernel⟩
  rw [show spliced 1 (withoutMark (str "/***/x")) =
    [(ch '/', 1), (ch '*', 1), (ch '*', 1), (ch '*', 1), (ch '/', 1), (ch 'x', 1)] by decide +kernel]
  refine .blockComment (w := [(ch '/', 1), (ch '*', 1), (ch '*', 1), (ch '*', 1), (ch '/', 1)]) (body := str "*") rfl ?_ trivial ?_
  · intro a b e
    have this : (str "*" ++ [ch '*']).contains (ch '/') = List.contains _ _ := congrArg (List.contains · (ch '/')) e
    rw [show (str "*" ++ [ch '*']).contains (ch '/') = false by decide] at this
    simp [str] at this
  · exact lex_token (w := []) (r := []) (k := .T_IDENT) (.done _) trivial (by decide +kernel)

/-- The texts of the tokens. -/
def texts (r : Run (List Tok)) : Option (List Str) := match r with
  | .ok l => some (l.map (·.str))
  | _ => none

/-- The same comment swallows the text up to the end of the next comment. -/
theorem comment_swallows : texts (tokenizeInput 40 (str "/***/x/* */y" ++ [0])) = some [str "y"] := by decide +kernel

/-- C59: a comment that is cut off after an asterisk makes the tokenizer read beyond the end of the file. -/
theorem comment_end_violated : tokenizeInput 20 (str "/* *" ++ [0]) = .ub := by decide +kernel

/-- C59 fails for lines spliced with a carriage return: the splice stays in the text of the identifier. -/
theorem splice_violated : Lexes Everything lineStart (spliced 1 (withoutMark (str "a\\\r\nb"))) [⟨.T_IDENT, str "ab", true, true, 1⟩] ∧
    texts (tokenizeInput 20 (str "a\\\r\nb" ++ [0])) = some [str "a\\\r\nb"] := by
  refine ⟨?_, by decide +kernel⟩
  rw [show spliced 1 (withoutMark (str "a\\\r\nb")) = [(ch 'a', 1), (ch 'b', 2)] by decide +kernel]
  exact lex_token (w := [(ch 'b', 2)]) (r := []) (k := .T_IDENT) (.done _) trivial (by decide +kernel)

end Verif.Tokenizer
