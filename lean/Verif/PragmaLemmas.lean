import Verif.PragmaSpec
/-!
Helper lemmas for C116.
-/
namespace Verif.Pragma
open Verif PragmaSpec

theorem skip_line : ∀ (l r : List Tok), (∀ t ∈ l, t.type ≠ .T_EOI ∧ t.firstOfLine = false) → NewLine r → skipLine (l ++ r) = r
  | [], [], _, _ => rfl
  | [], t :: r, _, h => by
    have h : t.firstOfLine = true := h
    rw [List.nil_append, skipLine, if_pos (.inr h)]
  | t :: l, r, hl, h => by
    have := hl t List.mem_cons_self
    rw [List.cons_append, skipLine, if_neg (by simp [this.1, this.2])]
    exact skip_line l r (fun t ht => hl t (List.mem_cons_of_mem _ ht)) h

/-- The first token of the line of a pragma. -/
theorem line_head {n : Tok} {r ls : List Tok} (h : Line n r ls) : ∃ t l, ls = t :: l ∧ t.type = .PP_DIRECTIVE := by
  obtain ⟨-, -, t, p, h1, -, rfl⟩ := h
  exact ⟨t, _, rfl, h1⟩

theorem handle_other {num : Str → Option Int} {s : Packs} {ls r : List Tok} (h : Other ls) (hr : NewLine r) :
    handle num s (ls ++ r) = .ok (some (s, r)) := by
  obtain ⟨n, l, ⟨h1, h2, t, p, h3, h4, rfl⟩, h5⟩ := h
  have := skip_line (n :: l) r h2 hr
  rw [List.cons_append] at this
  simp [handle, h1, h3, h4, h5, this]

theorem int_of {v : Int} (h1 : -2 ^ 31 ≤ v) (h2 : v < 2 ^ 31) : (BitVec.ofInt 32 v).toInt = v := by
  rw [BitVec.toInt_ofInt]
  apply Int.bmod_eq_of_le <;> omega

theorem handle_pack {num : Str → Option Int} {st : List Int} {c : Int} {d : Dir} {ls r : List Tok} (h : PackLine num d ls) (hd : d ≠ .pop) :
    handle num ⟨st, c⟩ (ls ++ r) = .ok (some (⟨(d.after st c).1, (d.after st c).2⟩, r)) := by
  obtain ⟨n, o, q, ts, h1, h2, h3, h4, h5, -, t, p, h6, h7, rfl⟩ := h
  have key : packArgs num ⟨st, c⟩ (ts ++ q :: r) = .ok (⟨(d.after st c).1, (d.after st c).2⟩, r) := by
    have np : str "push" ≠ str "pop" := by decide
    cases d with
    | set v =>
      obtain ⟨t, a, b, x, y, rfl⟩ := h4
      simp [packArgs, finish, expect, a, b, h3, Res.bind, int_of x y, Dir.after]
    | reset =>
      cases h4
      simp [packArgs, finish, expect, h3, Res.bind, Dir.after]
    | push =>
      obtain ⟨t, a, b, rfl⟩ := h4
      simp [packArgs, afterPush, expect, a, b, np, h3, Res.bind, Dir.after]
    | pushSet v =>
      obtain ⟨t, k, u, a, b, e, f, g, x, y, rfl⟩ := h4
      simp [packArgs, afterPush, finish, expect, a, b, np, e, f, g, h3, Res.bind, int_of x y, Dir.after]
    | pop => exact absurd rfl hd
  simp [handle, h6, h7, h5, h1, expect, h2, Res.bind, key]

/-- The parser of declarations takes no `;` and no pragma. -/
structure Declares {σ : Type} (decl : Int → σ → List Tok → Res (Option (σ × List Tok))) : Prop where
  nil : ∀ c s, decl c s [] = .ok none
  other : ∀ c s t ts, t.type = .T_SEMI_COLON ∨ t.type = .PP_DIRECTIVE → decl c s (t :: ts) = .ok none

theorem unit_means {σ : Type} {decl : Int → σ → List Tok → Res (Option (σ × List Tok))} {num : Str → Option Int} (hd : Declares decl) {st : List Int} {c : Int}
    {s s' : σ} {ts : List Tok} (h : Means decl num false st c s ts s') : ∃ n, ∀ m, n ≤ m → unit decl num m ⟨st, c⟩ s ts = .ok s' := by
  induction h with
  | done => exact ⟨1, fun m hm => by obtain ⟨m, rfl⟩ : ∃ k, m = k + 1 := ⟨m - 1, by omega⟩; simp [unit, hd.nil, Run.bind]⟩
  | decl h _ ih =>
    obtain ⟨n, ih⟩ := ih
    exact ⟨n + 1, fun m hm => by obtain ⟨m, rfl⟩ : ∃ k, m = k + 1 := ⟨m - 1, by omega⟩; simp [unit, h, Run.bind, ih m (by omega)]⟩
  | semi h _ ih =>
    obtain ⟨n, ih⟩ := ih
    exact ⟨n + 1, fun m hm => by
      obtain ⟨m, rfl⟩ : ∃ k, m = k + 1 := ⟨m - 1, by omega⟩
      simp [unit, hd.other _ _ _ _ (.inl h), h, Run.bind, ih m (by omega)]⟩
  | @other st c s s1 ls r h hr _ ih =>
    obtain ⟨n, ih⟩ := ih
    have ho := handle_other (num := num) (s := ⟨st, c⟩) h hr
    obtain ⟨_, _, hl, _⟩ := h
    obtain ⟨t, l, rfl, ht⟩ := line_head hl
    refine ⟨n + 1, fun m hm => ?_⟩
    obtain ⟨m, rfl⟩ : ∃ k, m = k + 1 := ⟨m - 1, by omega⟩
    rw [List.cons_append] at ho ⊢
    simp [unit, hd.other _ _ _ _ (.inr ht), ht, Run.bind, ho, ih m (by omega)]
  | @pack st c s s1 ls r d h hp hr _ ih =>
    obtain ⟨n, ih⟩ := ih
    have ho := handle_pack (st := st) (c := c) (r := r) h (fun e => by simpa using hp e)
    obtain ⟨_, _, _, _, _, _, _, _, hl⟩ := h
    obtain ⟨t, l, rfl, ht⟩ := line_head hl
    refine ⟨n + 1, fun m hm => ?_⟩
    obtain ⟨m, rfl⟩ : ∃ k, m = k + 1 := ⟨m - 1, by omega⟩
    rw [List.cons_append] at ho ⊢
    simp [unit, hd.other _ _ _ _ (.inr ht), ht, Run.bind, ho, ih m (by omega)]

/-- No expression begins with such a token. -/
def Expressions {α : Type} (ex : List Tok → Option (α × List Tok)) : Prop := ex [] = none ∧
  ∀ t ts, t.type ∈ [TType.T_SEMI_COLON, .T_LBRACE, .T_RBRACE, .T_KIF, .T_KELSE, .T_KWHILE, .PP_DIRECTIVE] → ex (t :: ts) = none

theorem stmt_reads {α : Type} {ex : List Tok → Option (α × List Tok)} {num : Str → Option Int} (hx : Expressions ex) {b : Bool} {ts r : List Tok}
    {l : List (S α)} (h : Reads ex false b ts l r) : ∃ n, ∀ m, n ≤ m → ∀ p, stmt ex num m b p ts = .ok (some (l, p, r)) := by
  have no : ∀ t ts, t.type ∈ [TType.T_SEMI_COLON, .T_LBRACE, .T_RBRACE, .T_KIF, .T_KELSE, .T_KWHILE, .PP_DIRECTIVE] → ex (t :: ts) = none := hx.2
  induction h with
  | @semi t r h =>
    refine ⟨1, fun m hm p => ?_⟩
    obtain ⟨m, rfl⟩ : ∃ k, m = k + 1 := ⟨m - 1, by omega⟩
    simp [stmt, h, no t r (by simp [h]), handle, Run.bind]
  | @expr ts e t r h ht =>
    refine ⟨1, fun m hm p => ?_⟩
    obtain ⟨m, rfl⟩ : ∃ k, m = k + 1 := ⟨m - 1, by omega⟩
    cases ts with
    | nil => rw [hx.1] at h; cases h
    | cons u us =>
      have : u.type ≠ .T_LBRACE := fun hu => by rw [no u us (by simp [hu])] at h; cases h
      simp [stmt, this, h, expect, ht, Run.bind]
  | block h _ ih =>
    obtain ⟨n, ih⟩ := ih
    refine ⟨n + 1, fun m hm p => ?_⟩
    obtain ⟨m, rfl⟩ : ∃ k, m = k + 1 := ⟨m - 1, by omega⟩
    simp [stmt, h, ih m (by omega)]
  | @ite t o p e ts c r l1 r1 l2 r2 h1 h2 h3 h4 _ h5 _ ih1 ih2 =>
    obtain ⟨n1, ih1⟩ := ih1
    obtain ⟨n2, ih2⟩ := ih2
    refine ⟨max n1 n2 + 1, fun m hm p => ?_⟩
    obtain ⟨m, rfl⟩ : ∃ k, m = k + 1 := ⟨m - 1, by omega⟩
    simp [stmt, h1, no t _ (by simp [h1]), cond, expect, h2, h3, h4, Res.bind, Run.bind, ih1 m (by omega), ih2 m (by omega), h5]
  | @onlyIf t o p ts c r l1 r1 h1 h2 h3 h4 _ h5 ih1 =>
    obtain ⟨n1, ih1⟩ := ih1
    refine ⟨n1 + 1, fun m hm p => ?_⟩
    obtain ⟨m, rfl⟩ : ∃ k, m = k + 1 := ⟨m - 1, by omega⟩
    cases r1 with
    | nil => simp [stmt, h1, no t _ (by simp [h1]), cond, expect, h2, h3, h4, Res.bind, Run.bind, ih1 m (by omega)]
    | cons e r2 => simp [stmt, h1, no t _ (by simp [h1]), cond, expect, h2, h3, h4, Res.bind, Run.bind, ih1 m (by omega), h5 e r2 rfl]
  | @loop t o p ts c r l r1 h1 h2 h3 h4 _ ih1 =>
    obtain ⟨n1, ih1⟩ := ih1
    refine ⟨n1 + 1, fun m hm p => ?_⟩
    obtain ⟨m, rfl⟩ : ∃ k, m = k + 1 := ⟨m - 1, by omega⟩
    simp [stmt, h1, no t _ (by simp [h1]), cond, expect, h2, h3, h4, Res.bind, Run.bind, ih1 m (by omega)]
  | @close t r h =>
    refine ⟨2, fun m hm p => ?_⟩
    obtain ⟨m, rfl⟩ : ∃ k, m = k + 2 := ⟨m - 2, by omega⟩
    simp [stmt, h, no t r (by simp [h]), handle, Run.bind, expect]
  | item _ _ ih1 ih2 =>
    obtain ⟨n1, ih1⟩ := ih1
    obtain ⟨n2, ih2⟩ := ih2
    refine ⟨max n1 n2 + 1, fun m hm p => ?_⟩
    obtain ⟨m, rfl⟩ : ∃ k, m = k + 1 := ⟨m - 1, by omega⟩
    simp [stmt, Run.bind, ih1 m (by omega), ih2 m (by omega)]
  | @line ls r l r' h hr _ ih =>
    obtain ⟨n, ih⟩ := ih
    refine ⟨n + 2, fun m hm p => ?_⟩
    have ho := handle_other (num := num) (s := p) h hr
    obtain ⟨_, _, hl, _⟩ := h
    obtain ⟨t, l, rfl, ht⟩ := line_head hl
    obtain ⟨m, rfl⟩ : ∃ k, m = k + 2 := ⟨m - 2, by omega⟩
    rw [List.cons_append] at ho ⊢
    have e : stmt ex num (m + 1) false p (t :: (l ++ r)) = .ok (some ([], p, r)) := by
      simp [stmt, ht, no t _ (by simp [ht]), Run.bind, ho]
    rw [stmt, e]
    simp [Run.bind, ih (m + 1) (by omega)]
  | ahead h => cases h

end Verif.Pragma
