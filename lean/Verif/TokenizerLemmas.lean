import Verif.Tokenizer
import Verif.TokenizerSpec
/-!
Helper lemmas: the tokenizer reads the spliced text character by character.
-/
namespace Verif.Tokenizer
open Verif TokenizerSpec

/-- A sequence of line splices. -/
inductive Splices : List Byte → Prop
  | nil : Splices []
  | lf {q} : Splices q → Splices (ch '\\' :: ch '\n' :: q)
  | crlf {q} : Splices q → Splices (ch '\\' :: ch '\r' :: ch '\n' :: q)

/-- No backslash stands before a carriage return and a line feed. -/
def NoCrlf (l : List Byte) : Prop := ∀ a b, l ≠ a ++ ch '\\' :: ch '\r' :: ch '\n' :: b

theorem NoCrlf.right {a b : List Byte} (h : NoCrlf (a ++ b)) : NoCrlf b := by
  intro x y e
  exact h (a ++ x) y (by rw [e, List.append_assoc])

theorem NoCrlf.left {a b : List Byte} (h : NoCrlf (a ++ b)) : NoCrlf a := by
  intro x y e
  exact h x (y ++ b) (by rw [e]; simp)

/-- What one step of the tokenizer does. -/
structure Stepped (s : St) (l : List Byte) (y : Char') (T : List Char') (s' : St) (q : List Byte) : Prop where
  rest : l = q ++ s'.prev :: s'.rest
  splices : Splices q
  prev : s'.prev = y.1
  cls : s'.c = eq s'.prev
  line : y.1 ≠ ch '\n' → s'.line = y.2
  text : spliced s'.line s'.rest = T
  esc : s'.esc = (s.esc || !q.isEmpty)
  sep : s'.sep = s.sep
  slash : s'.prev = ch '\\' → s'.rest.head? ≠ some (ch '\n')

theorem advance_stepped : ∀ (l : List Byte) (s : St) (y : Char') (T : List Char'), l.getLast? = some 0 → spliced s.line l = y :: T →
    ∃ s' q, advance s l = .ok s' ∧ Stepped s l y T s' q := by
  intro l
  induction hn : l.length using Nat.strongRecOn generalizing l with
  | ind n ih =>
  intro s y T hl ht
  subst hn
  match l with
  | [] => cases hl
  | [b] =>
    simp only [List.getLast?_singleton, Option.some.injEq] at hl
    subst hl
    simp only [spliced, List.cons.injEq] at ht
    obtain ⟨rfl, rfl⟩ := ht
    refine ⟨arrive s 0 [], [], rfl, by simp [arrive], .nil, rfl, rfl, ?_, ?_, ?_, rfl, by simp [arrive]⟩
    · intro _; simp [arrive]; intro h; exact absurd h (by decide)
    · simp [arrive, spliced]
    · simp [arrive]
  | b :: n :: r =>
    rw [advance.eq_def]
    simp only
    rw [spliced.eq_def] at ht
    simp only at ht
    by_cases h1 : b = ch '\\' ∧ n = ch '\n'
    · rw [if_pos h1] at ht ⊢
      obtain ⟨rfl, rfl⟩ := h1
      have hr : r.getLast? = some 0 := by
        cases r with
        | nil => revert hl; decide
        | cons => simpa using hl
      obtain ⟨s', q, e, h⟩ := ih r.length (by simp; omega) r rfl (passSplice s) y T hr ht
      refine ⟨s', _, e, ?_, .lf h.splices, h.prev, h.cls, h.line, h.text, ?_, ?_, h.slash⟩
      · rw [h.rest]; rfl
      · rw [h.esc]; simp [passSplice]
      · rw [h.sep]; rfl
    · rw [if_neg h1] at ht ⊢
      match r with
      | [] =>
        simp only at ht ⊢
        have h2 : ¬ (b = ch '\\' ∧ n = ch '\r') := by
          rintro ⟨rfl, rfl⟩
          revert hl; decide
        rw [if_neg h2]
        simp only [List.cons.injEq] at ht
        obtain ⟨rfl, rfl⟩ := ht
        refine ⟨_, [], rfl, by simp [arrive], .nil, rfl, rfl, ?_, ?_, ?_, rfl, ?_⟩
        · intro h
          simp only [arrive]
          rw [if_neg h]
        · rfl
        · simp [arrive]
        · simp only [arrive, List.head?_cons, ne_eq, Option.some.injEq]
          exact fun hb hn => h1 ⟨hb, hn⟩
      | m :: r' =>
        simp only at ht ⊢
        by_cases h2 : b = ch '\\' ∧ n = ch '\r' ∧ m = ch '\n'
        · rw [if_pos h2] at ht ⊢
          obtain ⟨rfl, rfl, rfl⟩ := h2
          have hr : r'.getLast? = some 0 := by
            cases r' with
            | nil => revert hl; decide
            | cons => simpa using hl
          obtain ⟨s', q, e, h⟩ := ih r'.length (by simp; omega) r' rfl (passSplice s) y T hr ht
          refine ⟨s', _, e, ?_, .crlf h.splices, h.prev, h.cls, h.line, h.text, ?_, ?_, h.slash⟩
          · rw [h.rest]; rfl
          · rw [h.esc]; simp [passSplice]
          · rw [h.sep]; rfl
        · rw [if_neg h2] at ht ⊢
          simp only [List.cons.injEq] at ht
          obtain ⟨rfl, rfl⟩ := ht
          refine ⟨_, [], rfl, by simp [arrive], .nil, rfl, rfl, ?_, ?_, ?_, rfl, ?_⟩
          · intro h
            simp only [arrive]
            rw [if_neg h]
          · rfl
          · simp [arrive]
          · simp only [arrive, List.head?_cons, ne_eq, Option.some.injEq]
            exact fun hb hn => h1 ⟨hb, hn⟩

/-- The state stands at the beginning of the text `t`, after which the input ends (on line `m`). -/
structure At (m : Nat) (s : St) (t : List Char') : Prop where
  cls : s.c = eq s.prev
  last : (s.prev :: s.rest).getLast? = some 0
  text : ∃ l, (s.prev, l) :: spliced s.line s.rest = t ++ [(0, m)] ∧ (s.prev ≠ ch '\n' → s.line = l)
  slash : s.prev = ch '\\' → s.rest.head? ≠ some (ch '\n')
  crlf : NoCrlf s.rest

/-- The characters of `w` are read, from state to state. -/
inductive Reads : St → List Byte → St → Prop
  | refl (s : St) : Reads s [] s
  | step {s s' s'' : St} {w : List Byte} : nextChar s = .ok s' → Reads s' w s'' → Reads s (s.prev :: w) s''

theorem Reads.trans {s s' s'' : St} {w w' : List Byte} (h : Reads s w s') (h' : Reads s' w' s'') : Reads s (w ++ w') s'' := by
  induction h with
  | refl => exact h'
  | step e _ ih => exact .step e (ih h')

theorem At.prev {m : Nat} {s : St} {x : Char'} {t : List Char'} (h : At m s (x :: t)) : s.prev = x.1 := by
  obtain ⟨l, e, -⟩ := h.text
  simp only [List.cons_append, List.cons.injEq] at e
  rw [← e.1]

theorem At.line {m : Nat} {s : St} {x : Char'} {t : List Char'} (h : At m s (x :: t)) (hx : x.1 ≠ ch '\n') : s.line = x.2 := by
  obtain ⟨l, e, hl⟩ := h.text
  simp only [List.cons_append, List.cons.injEq] at e
  rw [← e.1] at hx ⊢
  exact hl hx

/-- The character at which the state stands. -/
def headByte (t : List Char') : Byte := match t with
  | [] => 0
  | x :: _ => x.1

theorem At.prev' {m : Nat} {s : St} {t : List Char'} (h : At m s t) : s.prev = headByte t := by
  cases t with
  | cons x t => exact h.prev
  | nil =>
    obtain ⟨l, e, -⟩ := h.text
    simp only [List.nil_append, List.cons.injEq, Prod.mk.injEq] at e
    exact e.1.1

theorem At.c {m : Nat} {s : St} {t : List Char'} (h : At m s t) : s.c = eq (headByte t) := by rw [h.cls, h.prev']

/-- One character is read. -/
theorem At.step {m : Nat} {s : St} {x : Char'} {t : List Char'} (h : At m s (x :: t)) :
    ∃ s', nextChar s = .ok s' ∧ At m s' t ∧ ∃ q, s.rest = q ++ s'.prev :: s'.rest ∧ Splices q ∧ s'.esc = (s.esc || !q.isEmpty) ∧ s'.sep = s.sep := by
  obtain ⟨l, e, -⟩ := h.text
  simp only [List.cons_append, List.cons.injEq] at e
  obtain ⟨y, T, hy⟩ : ∃ y T, t ++ [((0 : Byte), m)] = y :: T := by
    cases t with
    | nil => exact ⟨_, _, rfl⟩
    | cons a t => exact ⟨_, _, rfl⟩
  have hr : s.rest.getLast? = some 0 := by
    have := h.last
    cases hc : s.rest with
    | nil => rw [hc] at e; simp [spliced] at e
    | cons a r => rw [hc] at this; simpa using this
  obtain ⟨s', q, ea, hs⟩ := advance_stepped s.rest s y T hr (by rw [e.2, hy])
  refine ⟨s', ea, ⟨hs.cls, ?_, ⟨y.2, ?_, ?_⟩, hs.slash, ?_⟩, q, hs.rest, hs.splices, hs.esc, hs.sep⟩
  · rw [hs.rest] at hr
    rw [List.getLast?_append] at hr
    cases hg : (s'.prev :: s'.rest).getLast? with
    | none => simp at hg
    | some v => rw [hg] at hr; simpa using hr
  · rw [hs.text, hs.prev, ← hy.symm]
  · rw [hs.prev]; exact hs.line
  · have := h.crlf
    rw [hs.rest] at this
    exact NoCrlf.right (a := q ++ [s'.prev]) (by rw [List.append_assoc]; exact this)

theorem At.flags {m : Nat} {s : St} {t : List Char'} (h : At m s t) (a b : Bool) : At m { s with esc := a, sep := b } t :=
  ⟨h.cls, h.last, h.text, h.slash, h.crlf⟩

/-- A word is read. -/
theorem At.reads {m : Nat} : ∀ {w r : List Char'} {s : St}, At m s (w ++ r) → ∃ s', Reads s (bytes w) s' ∧ At m s' r := by
  intro w
  induction w with
  | nil => intro r s h; exact ⟨s, .refl s, h⟩
  | cons x w ih =>
    intro r s h
    obtain ⟨s1, e1, h1, -⟩ := h.step
    obtain ⟨s2, hr, h2⟩ := ih h1
    refine ⟨s2, ?_, h2⟩
    have := Reads.step e1 hr
    rwa [At.prev h] at this

theorem Splices.strip {q : List Byte} (h : Splices q) : ∀ {p : List Byte}, NoCrlf (q ++ p) → stripSplices (q ++ p) = stripSplices p := by
  induction h with
  | nil => intros; rfl
  | lf _ ih =>
    intro p hp
    rw [List.cons_append, List.cons_append, stripSplices, if_pos ⟨rfl, rfl⟩]
    exact ih (NoCrlf.right (a := [_, _]) hp)
  | crlf _ _ => intro p hp; exact absurd rfl (hp [] _)

/-- The text between two states. -/
theorem reads_text {m : Nat} : ∀ {w : List Byte} {s s' : St} {t : List Char'}, At m s t → Reads s w s' → w.length ≤ t.length → NoCrlf s.rest →
    ∃ p, s.prev :: s.rest = p ++ s'.prev :: s'.rest ∧ stripSplices p = w ∧ (s'.esc = false → s.esc = false ∧ p = w) ∧ s'.sep = s.sep := by
  intro w
  induction w with
  | nil =>
    intro s s' t _ h _ _
    cases h
    exact ⟨[], rfl, rfl, fun h => ⟨h, rfl⟩, rfl⟩
  | cons b w ih =>
    intro s s'' t ha h hl hc
    cases h with
    | @step _ s' _ _ e h =>
    cases t with
    | nil => simp at hl
    | cons x t =>
    obtain ⟨s1, e1, h1, q, hq, hqs, hesc, hsep⟩ := ha.step
    rw [e] at e1
    cases e1
    have hc' : NoCrlf s'.rest := by
      rw [hq] at hc
      exact NoCrlf.right (a := q ++ [s'.prev]) (by rw [List.append_assoc]; exact hc)
    obtain ⟨p, hp, hstrip, hesc', hsep'⟩ := ih h1 h (by simpa using hl) hc'
    have hcp : NoCrlf (q ++ p) := by
      rw [hq, hp, ← List.append_assoc] at hc
      exact hc.left
    have hrest : s.rest = q ++ p ++ s''.prev :: s''.rest := by rw [hq, hp, List.append_assoc]
    refine ⟨s.prev :: (q ++ p), ?_, ?_, ?_, by rw [hsep', hsep]⟩
    · rw [hrest]; rfl
    · have hh : stripSplices (s.prev :: (q ++ p)) = s.prev :: stripSplices (q ++ p) := by
        cases hqp : q ++ p with
        | nil => rfl
        | cons n r =>
          rw [stripSplices, if_neg]
          rintro ⟨h5, h6⟩
          refine ha.slash h5 ?_
          rw [hrest, hqp, h6]
          rfl
      rw [hh, hqs.strip hcp, hstrip]
    · intro h5
      obtain ⟨h6, h7⟩ := hesc' h5
      rw [hesc] at h6
      simp only [Bool.or_eq_false_iff, Bool.not_eq_false'] at h6
      have : q = [] := List.isEmpty_iff.1 h6.2
      exact ⟨h6.1, by rw [this, h7]; rfl⟩

theorem decodeNames_eq : ∀ {w : List Byte} {f : Nat}, w.length ≤ f → NoNames w → decodeNames f w = .ok w := by
  intro w
  induction w with
  | nil => intro f _ _; cases f <;> rfl
  | cons b w ih =>
    intro f hf hn
    match f with
    | 0 => simp at hf
    | f + 1 =>
    match w with
    | [] => rfl
    | n :: r =>
      rw [decodeNames, if_neg, ih (by simpa using hf) (fun x y c e => hn (b :: x) y c (by rw [e]; rfl))]
      · rfl
      · rintro ⟨rfl, h | h⟩
        · exact (hn [] r n rfl).1 h
        · exact (hn [] r n rfl).2 h

/-- The text of a token is the word that was read. -/
theorem tokenText_eq {m : Nat} {w : List Byte} {s s' : St} {t : List Char'} (ha : At m s t) (h : Reads s w s') (hl : w.length ≤ t.length)
    (hc : NoCrlf s.rest) (hsep : s.sep = false) (hn : NoNames w) : tokenText s s' = .ok w := by
  obtain ⟨p, hp, hstrip, hesc, hs⟩ := reads_text ha h hl hc
  have hraw : (s.prev :: s.rest).take (s.rest.length - s'.rest.length) = p := by
    have : s.rest.length - s'.rest.length = p.length := by
      have := congrArg List.length hp
      simp at this
      omega
    rw [hp, this, List.take_left]
  unfold tokenText
  rw [hraw, hs, hsep]
  cases he : s'.esc with
  | false =>
    simp [(hesc he).2]
  | true =>
    simp only [if_true, removeEscapeSequences, hstrip, decodeNames_eq (Nat.le_refl _) hn]
    rfl

end Verif.Tokenizer
