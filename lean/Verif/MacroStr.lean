import Verif.Macro
import Verif.MacroSpec
import Verif.EscapeProps
/-!
Lemmas about stringification.
-/
namespace Verif.Macro
open Verif MacroSpec Escape

/-- Inside a narrow string literal `txt` stands for the bytes `bs`. -/
def Reads (txt bs : List Byte) : Prop :=
  ∀ (tl : List Byte), ∃ j, j ≤ txt.length ∧ ∀ (fuel k : Nat) (buf : List Byte),
    escapeLoop (fuel + j) (txt ++ tl) (txt.length + k) (ch '"') .default buf
      = escapeLoop fuel tl k (ch '"') .default (buf ++ bs)

theorem Reads.nil : Reads [] [] := fun tl => ⟨0, by simp, fun fuel k buf => by simp⟩

theorem Reads.append {a x b y : List Byte} (h1 : Reads a x) (h2 : Reads b y) : Reads (a ++ b) (x ++ y) := by
  intro tl
  obtain ⟨j2, l2, e2⟩ := h2 tl
  obtain ⟨j1, l1, e1⟩ := h1 (b ++ tl)
  refine ⟨j2 + j1, by simp; omega, fun fuel k buf => ?_⟩
  rw [← Nat.add_assoc, List.append_assoc, List.length_append, Nat.add_assoc a.length, e1, e2, List.append_assoc]

theorem Reads.raw {bs : List Byte} (h : ∀ b ∈ bs, b ≠ ch '\\' ∧ b ≠ ch '"') : Reads bs bs := by
  induction bs with
  | nil => exact .nil
  | cons b bs ih =>
    have hb := h b (by simp)
    refine Reads.append (a := [b]) (x := [b]) ?_ (ih (fun c hc => h c (by simp [hc])))
    intro tl
    refine ⟨1, by simp, fun fuel k buf => ?_⟩
    have := escapeChar_raw .default (ch '"') b tl k rfl hb.1 hb.2
    rw [show [b].length + k = k + 1 by simp [Nat.add_comm]]
    exact escapeLoop_some _ _ _ _ _ _ _ _ _ this

theorem Reads.escaped {bs : List Byte} (h : ∀ b ∈ bs, b.toNat ≠ 127) :
    ∃ txt, escapedChars bs = .ok txt ∧ Reads txt bs := by
  induction bs with
  | nil => exact ⟨[], rfl, .nil⟩
  | cons b bs ih =>
    obtain ⟨t2, h2, r2⟩ := ih (fun c hc => h c (by simp [hc]))
    obtain ⟨t1, h1, _⟩ := read_print_char b true [] 0 (h b (by simp))
    refine ⟨t1 ++ t2, by simp [escapedChars, h1, h2], Reads.append (x := [b]) ?_ r2⟩
    intro tl
    refine ⟨1, ?_, fun fuel k buf => ?_⟩
    · cases t1 with
      | nil =>
        have hfalse : ∀ (comp : Bool) (c : Byte), printChar c comp ≠ .ok [] := by decide +kernel
        exact absurd h1 (hfalse true b)
      | cons => simp
    · obtain ⟨t1', h1', hr⟩ := read_print_char b true tl k (h b (by simp))
      have : t1' = t1 := by rw [h1] at h1'; injection h1' with h; exact h.symm
      subst this
      exact escapeLoop_some _ _ _ _ _ _ _ _ _ hr

theorem Reads.literal {txt bs : List Byte} (h : Reads txt bs) (rest : List Byte) :
    escapeString (([ch '"'] ++ txt ++ [ch '"']) ++ rest) ([ch '"'] ++ txt ++ [ch '"']).length .default [] = .ok bs := by
  obtain ⟨j, hj, e⟩ := h (ch '"' :: rest)
  have hl : ([ch '"'] ++ txt ++ [ch '"']).length = txt.length + 2 := by simp
  rw [hl]
  simp only [List.cons_append, List.nil_append, List.append_assoc, escapeString]
  rw [if_neg (by omega)]
  have hne : ch '"' ≠ ch '<' := by decide
  simp only [hne, if_false]
  have hfuel : (txt ++ ch '"' :: rest).length + 1 = ((txt.length - j) + rest.length + 1) + 1 + j := by simp; omega
  rw [hfuel, show txt.length + 2 - 1 = txt.length + 1 by omega, e]
  simp [escapeLoop, escapeChar]

/-- Tokens whose spelling the stringification operator can reproduce: literals without
the byte 127, other tokens without quotes and backslashes. -/
def Spellable (t : Tok) : Prop :=
  if t.type = .T_STRING ∨ t.type = .T_CHARACTER_CONSTANT then ∀ b ∈ t.str, b.toNat ≠ 127
  else ∀ b ∈ spelling t, b ≠ ch '\\' ∧ b ≠ ch '"'

theorem tokenChars_reads {t : Tok} (h : Spellable t) : ∃ txt, tokenChars t = .ok txt ∧ Reads txt (spelling t) := by
  unfold Spellable at h
  by_cases hl : t.type = .T_STRING ∨ t.type = .T_CHARACTER_CONSTANT
  · rw [if_pos hl] at h
    have hs : spelling t = t.str := by
      rcases hl with e | e <;> (simp only [spelling, e]; rfl)
    obtain ⟨txt, h1, h2⟩ := Reads.escaped h
    exact ⟨txt, by simp [tokenChars, hl, h1], hs ▸ h2⟩
  · rw [if_neg hl] at h
    refine ⟨spelling t, ?_, Reads.raw h⟩
    unfold tokenChars spelling
    rw [if_neg hl]
    split
    · rfl
    · split
      · rfl
      · cases symTable.find? (fun p => p.1 = t.type) <;> rfl

/-- The text after a first token followed by white space `ws`. -/
def textFrom (ws : Bool) (ts : List Tok) : Str :=
  match ts with
  | [] => []
  | u :: _ => (if ws || u.whitespace then [ch ' '] else []) ++ text ts

theorem text_cons (t : Tok) (ts : List Tok) : text (t :: ts) = spelling t ++ textFrom t.whitespaceAfter ts := by
  cases ts with
  | nil => simp [text, textFrom]
  | cons u us => simp [text, textFrom]

theorem stringifyLoop_reads (ts : List Tok) (h : ∀ t ∈ ts, Spellable t) :
    ∀ (start ws : Bool) (buf : List Byte), ∃ txt, stringifyLoop start ws ts buf = .ok (buf ++ txt) ∧
      Reads txt (if start then text ts else textFrom ws ts) := by
  induction ts with
  | nil =>
    intro start ws buf
    refine ⟨[], by simp [stringifyLoop], ?_⟩
    cases start <;> exact .nil
  | cons t ts ih =>
    intro start ws buf
    obtain ⟨c, hc, rc⟩ := tokenChars_reads (h t (by simp))
    have sp : Reads [ch ' '] [ch ' '] := .raw (by decide)
    cases start with
    | true =>
      obtain ⟨txt, e, r⟩ := ih (fun u hu => h u (by simp [hu])) false t.whitespaceAfter (buf ++ c)
      refine ⟨c ++ txt, by simp [stringifyLoop, hc, e], ?_⟩
      simp only [if_true, text_cons]
      exact rc.append r
    | false =>
      cases hw : (t.whitespace || ws) with
      | true =>
        obtain ⟨txt, e, r⟩ := ih (fun u hu => h u (by simp [hu])) false t.whitespaceAfter (buf ++ [ch ' '] ++ c)
        refine ⟨[ch ' '] ++ (c ++ txt), ?_, ?_⟩
        · have : (if (!false && (t.whitespace || ws)) = true then buf ++ [ch ' '] else buf) = buf ++ [ch ' '] := by simp [hw]
          simp only [stringifyLoop, this, hc, Res.bind_ok, e]
          simp
        · simp only [Bool.false_eq_true, if_false, textFrom, text_cons, Bool.or_comm ws, hw, if_true]
          exact sp.append (rc.append r)
      | false =>
        obtain ⟨txt, e, r⟩ := ih (fun u hu => h u (by simp [hu])) false t.whitespaceAfter (buf ++ c)
        refine ⟨c ++ txt, ?_, ?_⟩
        · have : (if (!false && (t.whitespace || ws)) = true then buf ++ [ch ' '] else buf) = buf := by simp [hw]
          simp only [stringifyLoop, this, hc, Res.bind_ok, e]
          simp
        · simp only [Bool.false_eq_true, if_false, textFrom, text_cons, Bool.or_comm ws, hw, List.nil_append]
          exact rc.append r

end Verif.Macro
