import Verif.WindowSpec
/-!
Token push-back (C60).
-/
namespace Verif.Window
open Verif WindowSpec

variable {σ : Type}

/-- The window and what comes after it are the list. -/
def Holds (get : σ → Run (Tok × σ)) (p : Bool) (w : Win σ) (l : List Tok) : Prop :=
  ∃ r, Delivers get w.src r ∧ (p = true ↔ w.pushed.type ≠ .T_NONE) ∧
    l = w.b0 :: w.b1 :: w.b2 :: (if p then w.pushed :: r else r)

theorem next_holds {get : σ → Run (Tok × σ)} {p : Bool} {w : Win σ} {a b c d : Tok} {l : List Tok} (h : Holds get p w (a :: b :: c :: d :: l)) :
    ∃ w', tNext get w = .ok w' ∧ Holds get false w' (b :: c :: d :: l) := by
  obtain ⟨r, h1, h2, h3⟩ := h
  unfold tNext
  cases p with
  | true =>
    rw [if_pos (h2.1 rfl)]
    simp only [if_true, List.cons.injEq] at h3
    obtain ⟨-, rfl, rfl, rfl, rfl⟩ := h3
    exact ⟨_, rfl, _, h1, by simp, rfl⟩
  | false =>
    have hn : ¬ w.pushed.type ≠ .T_NONE := fun hc => absurd (h2.2 hc) (by simp)
    rw [if_neg hn]
    simp only [Bool.false_eq_true, if_false, List.cons.injEq] at h3
    obtain ⟨-, rfl, rfl, rfl⟩ := h3
    cases h1 with
    | cons hg hd =>
      rw [hg]
      exact ⟨_, rfl, _, hd, by simp, rfl⟩

theorem push_holds {get : σ → Run (Tok × σ)} {w : Win σ} {l : List Tok} (t : Tok) (h : Holds get false w l)
    (hl : ∀ u ∈ l, u.type ≠ .T_NONE) : ∃ w', tPush t w = .ok w' ∧ Holds get true w' (t :: l) := by
  obtain ⟨r, h1, h2, h3⟩ := h
  have hn : ¬ w.pushed.type ≠ .T_NONE := fun hc => absurd (h2.2 hc) (by simp)
  unfold tPush
  rw [if_neg hn]
  refine ⟨_, rfl, _, h1, ?_, ?_⟩
  · simp only [true_iff]
    exact hl _ (by simp [h3])
  · simp [h3]

theorem run_holds {get : σ → Run (Tok × σ)} : ∀ (os : List Op) (p : Bool) (w : Win σ) (l : List Tok), Holds get p w l → Alternating p os →
    (∀ u ∈ l, u.type ≠ .T_NONE) → Real os → reads os + 3 ≤ l.length →
    ∃ w' p', run get os w = .ok w' ∧ Holds get p' w' (ideal os l)
  | [], p, w, l, h, _, _, _, _ => ⟨w, p, rfl, h⟩
  | .next :: os, p, w, l, h, ha, hl, hr, hc => by
    have hc' : reads os + 1 + 3 ≤ l.length := by simpa [reads, List.countP_cons] using hc
    match l, hc' with
    | a :: b :: c :: d :: l, hc' =>
      obtain ⟨w', e, h'⟩ := next_holds h
      obtain ⟨w'', p', e', h''⟩ := run_holds os false w' _ h' ha (fun u hu => hl u (List.mem_cons_of_mem _ hu))
        (fun t ht => hr t (List.mem_cons_of_mem _ ht)) (by simp at hc' ⊢; omega)
      refine ⟨w'', p', ?_, h''⟩
      show (tNext get w >>= run get os) = _
      rw [e]
      exact e'
  | .push t :: os, p, w, l, h, ha, hl, hr, hc => by
    obtain ⟨rfl, ha⟩ := ha
    obtain ⟨w', e, h'⟩ := push_holds t h hl
    obtain ⟨w'', p', e', h''⟩ := run_holds os true w' _ h' ha
      (fun u hu => by
        rcases List.mem_cons.1 hu with rfl | hu
        · exact hr _ List.mem_cons_self
        · exact hl u hu)
      (fun t ht => hr t (List.mem_cons_of_mem _ ht))
      (by
        have : reads (.push t :: os) = reads os := by simp [reads, List.countP_cons]
        rw [this] at hc
        simp
        omega)
    refine ⟨w'', p', ?_, h''⟩
    show (tPush t w >>= run get os) = _
    rw [e]
    exact e'

theorem init_holds {get : σ → Run (Tok × σ)} {s : σ} {a b c : Tok} {l : List Tok} (h : Delivers get s (a :: b :: c :: l)) :
    ∃ w, init get s = .ok w ∧ Holds get false w (a :: b :: c :: l) := by
  cases h with
  | cons h1 h => cases h with
    | cons h2 h => cases h with
      | cons h3 h =>
        refine ⟨⟨a, b, c, {}, _⟩, ?_, _, h, by simp, rfl⟩
        simp [init, tNext, h1, h2, h3]

/-- C60. Whatever tokens the source delivers and whatever the parser does with the window, as long as it never pushes two tokens without
reading in between: after any sequence of operations the three tokens that the parser sees are the first three of the list from which each
read has taken the first token and in front of which each push has put its token. -/
theorem push_back_transparent {get : σ → Run (Tok × σ)} {s : σ} {l : List Tok} {os : List Op} (hl : Delivers get s l)
    (ht : ∀ u ∈ l, u.type ≠ .T_NONE) (hr : Real os) (ha : Alternating false os) (hc : reads os + 3 ≤ l.length) :
    ∃ w, (init get s >>= run get os) = .ok w ∧
      ∀ n : Nat, n ≤ 2 → ∃ t, tPeek n w = .ok t ∧ (ideal os l)[n]? = some t := by
  match l, hc with
  | a :: b :: c :: l, hc =>
    obtain ⟨w, e, h⟩ := init_holds hl
    obtain ⟨w', p', e', r, -, -, h'⟩ := run_holds os false w _ h ha ht hr hc
    refine ⟨w', by rw [e]; exact e', fun n hn => ?_⟩
    rw [h']
    rcases (by omega : n = 0 ∨ n = 1 ∨ n = 2) with rfl | rfl | rfl
    · exact ⟨w'.b0, rfl, rfl⟩
    · exact ⟨w'.b1, rfl, rfl⟩
    · exact ⟨w'.b2, rfl, rfl⟩

/-- Two pushes without a read in between stop the compiler: no token is lost silently. -/
theorem push_back_overfull {get : σ → Run (Tok × σ)} {w : Win σ} {l : List Tok} (t u : Tok) (h : Holds get false w l)
    (hl : ∀ u ∈ l, u.type ≠ .T_NONE) : run get [.push t, .push u] w = .fail := by
  obtain ⟨w', e, r, h1, h2, h3⟩ := push_holds t h hl
  show (tPush t w >>= fun w => tPush u w >>= fun w => .ok w) = .fail
  rw [e, Run.bind_ok]
  unfold tPush
  rw [if_pos (h2.1 rfl)]
  rfl

theorem alternating_replicate : ∀ (n : Nat) (p : Bool) (os : List Op), Alternating false os → Alternating p (List.replicate (n + 1) .next ++ os)
  | 0, _, _, h => h
  | n + 1, _, os, h => alternating_replicate n false os h

/-- The parser's own use of push-back is of that kind. -/
theorem parser_alternates : ∀ (l : List (Nat × Tok)) (p : Bool), Alternating p (parserOps l)
  | [], p => by cases p <;> trivial
  | (n, t) :: l, p => alternating_replicate n p _ ⟨rfl, parser_alternates l true⟩

/-- Reading a token and pushing it back changes nothing. -/
theorem push_back_undoes (os : List Op) (t : Tok) (l : List Tok) : ideal (.next :: .push t :: os) (t :: l) = ideal os (t :: l) := rfl

/-- A list as a source. -/
def fromList : List Tok → Run (Tok × List Tok)
  | [] => .fail
  | t :: l => .ok (t, l)

/-- `sizeof (x)`: a case that meets the hypotheses. -/
example : ∃ w, (init fromList ([.T_KSIZEOF, .T_LPAR, .T_IDENT, .T_RPAR, .T_SEMI_COLON, .T_EOI].map fun ty => { type := ty }) >>=
      run fromList [.next, .next, .push { type := .T_LPAR }]) = .ok w ∧
    w.b0.type = .T_LPAR ∧ w.b1.type = .T_IDENT ∧ w.b2.type = .T_RPAR :=
  ⟨_, rfl, rfl, rfl, rfl⟩

example : Alternating false [.next, .next, .push { type := .T_LPAR }] ∧ Real [.next, .next, .push { type := .T_LPAR }] ∧
    reads [.next, .next, .push { type := .T_LPAR }] + 3 ≤ 6 := by
  refine ⟨⟨rfl, trivial⟩, ?_, by decide⟩
  intro t ht
  simp at ht
  subst ht
  decide

end Verif.Window
