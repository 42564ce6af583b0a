import Verif.GuardSpec
import Verif.IncludeLemmas
/-! Lemmas for `GuardProps`. -/
namespace Verif.Guard
open InputSpec IncludeSpec GuardSpec
open Include (Good Env St next push readLine pushInput once directive next_good push_good next_end next_eoi pushInput_good pushInput_marked once_good
  readLine_good readLine_mono include_header bind_ok_inv)

variable {paths : List Str} {k : Nat} {D ds : List Str} {st : St} {p : Str} {ts : List Tok} {t d : Tok} {r : List (Str × List Tok)} {e : Env}
variable {v : Ev} {top : Int} {cs : List Int} {M : Macros} {y : Run (List Tok × List Str)}

theorem isIf_iff : isIf d.str = true ↔ Opens d := by
  unfold isIf Opens
  simp only [Bool.or_eq_true, decide_eq_true_eq]
  constructor
  · rintro ((h | h) | h) <;> simp [h]
  · rintro (h | h | h) <;> simp [h]

theorem isElif_iff : isElif d.str = true ↔ Further d := by
  unfold isElif Further
  simp only [Bool.or_eq_true, decide_eq_true_eq]
  constructor
  · rintro (((h | h) | h) | h) <;> simp [h]
  · rintro (h | h | h | h) <;> simp [h]

theorem further_not_opens (h : Further d) : ¬Opens d := by
  unfold Opens
  rcases h with h | h | h | h <;> rw [h] <;> decide

theorem endif_not_opens (h : d.str = str "endif") : ¬Opens d := by
  unfold Opens; rw [h]; decide

theorem endif_not_further (h : d.str = str "endif") : ¬Further d := by
  unfold Further; rw [h]; decide

/-- A directive that passes nothing on. -/
theorem rest_dir {n : Nat} (hd : Directive t d) (h : Good paths 2 ((p, t :: d :: ts) :: r) D ds st)
    (ih : ∀ st1, Good paths 0 ((p, ts) :: r) D ds st1 → ∃ c st2, handle e v n t d top cs M st1 = .ok (false, c, st2) ∧ rest e v n c st2 = y) :
    rest e v (n + 1) ⟨top :: cs, M⟩ st = y := by
  obtain ⟨h1, h2, h3⟩ := hd
  obtain ⟨st1, e1, g1⟩ := next_good h
  obtain ⟨st2, e2, g2⟩ := next_good g1
  obtain ⟨c, st3, e3, e4⟩ := ih st2 g2
  unfold rest at e4 ⊢
  rw [e1]
  show stream e v (n + 1) false t ⟨top :: cs, M⟩ st1 = y
  rw [stream]
  dsimp only
  rw [if_neg (by simp [h1]), if_neg (by simp [h1]), e2]
  show (if d.firstOfLine = true ∨ (d.type ≠ .T_IDENT ∧ top ≠ 1) then _ else _) = y
  rw [if_neg (by simp [h2, h3]), if_neg (by simp [h3]), e3]
  exact e4

/-- A group that is skipped has no effect. -/
theorem rest_skipped {z : List Tok} (ht : top ≠ 1) {k : Nat} {ts : List Tok} (hs : Skipped k ts) (N : Nat)
    (hk : ∀ m, N ≤ m → ∀ st', Good paths 2 ((p, z) :: r) D ds st' → rest e v m ⟨top :: cs, M⟩ st' = y) :
    ∃ n, ∀ m, n ≤ m → ∀ st, Good paths 2 ((p, ts ++ z) :: r) D ds st → rest e v m ⟨List.replicate k (-1) ++ top :: cs, M⟩ st = y := by
  have hst : ∀ k, ∃ a l, List.replicate k (-1) ++ top :: cs = a :: l ∧ a ≠ (1 : Int) := by
    intro k
    cases k with
    | zero => exact ⟨top, cs, rfl, ht⟩
    | succ k => exact ⟨-1, List.replicate k (-1) ++ top :: cs, by simp [List.replicate_succ], by decide⟩
  induction hs with
  | nil => exact ⟨N, fun m hm st g => hk m hm st g⟩
  | @text k t ts h1 _ ih =>
    obtain ⟨n, ih⟩ := ih
    refine ⟨n + 1, fun m hm st g => ?_⟩
    obtain ⟨m, rfl⟩ : ∃ j, m = j + 1 := ⟨m - 1, by omega⟩
    obtain ⟨st1, e1, g1⟩ := next_good g
    have h2 := ih m (by omega) st1 (g1.mono (by omega))
    obtain ⟨a, l, ha, hne⟩ := hst k
    rw [ha] at h2 ⊢
    unfold rest at h2 ⊢
    rw [e1]
    show stream e v (m + 1) false t ⟨a :: l, M⟩ st1 = y
    rw [stream]
    dsimp only
    rw [if_neg (by simp [hne]), if_pos h1]
    exact h2
  | @other k t d ts h1 h2 h3 h4 _ ih =>
    obtain ⟨n, ih⟩ := ih
    refine ⟨n + 1, fun m hm st g => ?_⟩
    obtain ⟨m, rfl⟩ : ∃ j, m = j + 1 := ⟨m - 1, by omega⟩
    obtain ⟨a, l, ha, hne⟩ := hst k
    have ih := ih m (by omega)
    rw [ha] at ih ⊢
    refine rest_dir h1 g fun st1 g1 => ⟨⟨a :: l, M⟩, st1, ?_, ih st1 (g1.mono (by omega))⟩
    unfold handle
    rw [if_neg (by rw [isIf_iff]; exact h2), if_neg (by rw [isElif_iff]; exact h3), if_neg h4, if_neg hne]
  | @null k t d ts h1 h2 _ ih =>
    obtain ⟨n, ih⟩ := ih
    refine ⟨n + 1, fun m hm st g => ?_⟩
    obtain ⟨m, rfl⟩ : ∃ j, m = j + 1 := ⟨m - 1, by omega⟩
    obtain ⟨st1, e1, g1⟩ := next_good g
    obtain ⟨st2, e2, g2⟩ := next_good g1
    obtain ⟨st3, -, g3, e3⟩ := push_good g2 (by omega) d
    have h3 := ih m (by omega) st3 (g3.mono (by omega))
    obtain ⟨a, l, ha, hne⟩ := hst k
    rw [ha] at h3 ⊢
    unfold rest at h3 ⊢
    rw [e3] at h3
    rw [e1]
    show stream e v (m + 1) false t ⟨a :: l, M⟩ st1 = y
    rw [stream]
    dsimp only
    rw [if_neg (by simp [h1]), if_neg (by simp [h1]), e2]
    show (if d.firstOfLine = true ∨ (d.type ≠ .T_IDENT ∧ a ≠ 1) then _ else _) = y
    rw [if_pos (h2.imp id fun h => ⟨h, hne⟩)]
    exact h3
  | @opens k t d ts h1 h2 _ ih =>
    obtain ⟨n, ih⟩ := ih
    refine ⟨n + 1, fun m hm st g => ?_⟩
    obtain ⟨m, rfl⟩ : ∃ j, m = j + 1 := ⟨m - 1, by omega⟩
    obtain ⟨a, l, ha, hne⟩ := hst k
    have ih := ih m (by omega)
    rw [List.replicate_succ, List.cons_append, ha] at ih
    rw [ha]
    refine rest_dir h1 g fun st1 g1 => ⟨⟨-1 :: a :: l, M⟩, st1, ?_, ih st1 (g1.mono (by omega))⟩
    unfold handle
    rw [if_pos (isIf_iff.2 h2), if_neg hne]
  | @further k t d ts h1 h2 _ ih =>
    obtain ⟨n, ih⟩ := ih
    refine ⟨n + 1, fun m hm st g => ?_⟩
    obtain ⟨m, rfl⟩ : ∃ j, m = j + 1 := ⟨m - 1, by omega⟩
    have ih := ih m (by omega)
    rw [List.replicate_succ, List.cons_append] at ih ⊢
    refine rest_dir h1 g fun st1 g1 => ⟨⟨-1 :: (List.replicate k (-1) ++ top :: cs), M⟩, st1, ?_, ih st1 (g1.mono (by omega))⟩
    unfold handle
    rw [if_neg (by rw [isIf_iff]; exact further_not_opens h2), if_pos (isElif_iff.2 h2), if_neg (by decide)]
  | @closes k t d ts h1 h2 _ ih =>
    obtain ⟨n, ih⟩ := ih
    refine ⟨n + 1, fun m hm st g => ?_⟩
    obtain ⟨m, rfl⟩ : ∃ j, m = j + 1 := ⟨m - 1, by omega⟩
    have ih := ih m (by omega)
    rw [List.replicate_succ, List.cons_append]
    refine rest_dir h1 g fun st1 g1 => ⟨⟨List.replicate k (-1) ++ top :: cs, M⟩, st1, ?_, ih st1 (g1.mono (by omega))⟩
    unfold handle
    rw [if_neg (by rw [isIf_iff]; exact endif_not_opens h2), if_neg (by rw [isElif_iff]; exact endif_not_further h2), if_pos h2]

/-- `#endif` of a section. -/
theorem rest_endif {n : Nat} {a : Int} (hs : Starts "endif" t d) (h : Good paths 2 ((p, t :: d :: ts) :: r) D ds st)
    (ih : ∀ st1, Good paths 2 ((p, ts) :: r) D ds st1 → rest e v n ⟨cs, M⟩ st1 = y) : rest e v (n + 1) ⟨a :: cs, M⟩ st = y := by
  obtain ⟨h1, h2, h3, h4⟩ := hs
  refine rest_dir ⟨h1, h2, h3⟩ h fun st1 g1 => ⟨⟨cs, M⟩, st1, ?_, ih st1 (g1.mono (by omega))⟩
  unfold handle
  rw [if_neg (by rw [isIf_iff]; exact endif_not_opens h4), if_neg (by rw [isElif_iff]; exact endif_not_further h4), if_pos h4]

/-- The groups after the selected one. -/
theorem rest_tail {z tl : List Tok} (hs : Tail tl) : ∀ (a : Int), a ≠ 0 → ∀ (N : Nat),
    (∀ m, N ≤ m → ∀ st', Good paths 2 ((p, z) :: r) D ds st' → rest e v m ⟨cs, M⟩ st' = y) →
    ∃ n, ∀ m, n ≤ m → ∀ st, Good paths 2 ((p, tl ++ z) :: r) D ds st → rest e v m ⟨a :: cs, M⟩ st = y := by
  induction hs with
  | @close t d hs =>
    intro a ha N hk
    refine ⟨N + 1, fun m hm st g => ?_⟩
    obtain ⟨m, rfl⟩ : ∃ j, m = j + 1 := ⟨m - 1, by omega⟩
    exact rest_endif hs g (hk m (by omega))
  | @more t d b tl hd hf hb _ ih =>
    intro a ha N hk
    obtain ⟨n1, h1⟩ := ih (-1) (by decide) N hk
    obtain ⟨n2, h2⟩ := rest_skipped (top := -1) (by decide) hb n1 h1
    refine ⟨n2 + 1, fun m hm st g => ?_⟩
    obtain ⟨m, rfl⟩ : ∃ j, m = j + 1 := ⟨m - 1, by omega⟩
    refine rest_dir (ts := b ++ (tl ++ z)) hd (by simpa using g) fun st1 g1 => ⟨⟨-1 :: cs, M⟩, st1, ?_, h2 m (by omega) st1 (g1.mono (by omega))⟩
    unfold handle
    rw [if_neg (by rw [isIf_iff]; exact further_not_opens hf), if_pos (isElif_iff.2 hf), if_neg ha]

theorem defined_iff {x : Str} : defined M x = true ↔ IsDefined M x := by
  unfold defined IsDefined
  rw [List.any_eq_true]
  constructor
  · rintro ⟨⟨a, b⟩, h1, h2⟩
    have : a = x := by simpa using h2
    subst this
    exact ⟨b, h1⟩
  · rintro ⟨b, h⟩
    exact ⟨_, h, by simp⟩

theorem operand_good {ops : List Tok} {x : Tok} (h : Operand ops x) (g : Good paths 0 ((p, ops ++ ts) :: r) D ds st) :
    ∃ st1, operand st = .ok (x, st1) ∧ Good paths 0 ((p, ts) :: r) D ds st1 := by
  rcases h with ⟨rfl, h⟩ | ⟨o, c, h1, h2, rfl⟩
  · obtain ⟨st1, e1, g1⟩ := next_good g
    refine ⟨st1, ?_, g1⟩
    unfold operand
    rw [e1]
    show (if x.type = .T_LPAR then _ else _) = _
    rw [if_neg h]
  · obtain ⟨st1, e1, g1⟩ := next_good g
    obtain ⟨st2, e2, g2⟩ := next_good g1
    obtain ⟨st3, e3, g3⟩ := next_good g2
    refine ⟨st3, ?_, g3⟩
    unfold operand
    rw [e1]
    show (if o.type = .T_LPAR then (next st1).bind _ else _) = _
    rw [if_pos h1, e2]
    show (next st2).bind _ = _
    rw [e3]
    show (if c.type = .T_RPAR then _ else _) = _
    rw [if_pos h2]

theorem gather_good {l l' : List Tok} {u : Tok} (hr : Resolved M l l') (hu : u.firstOfLine = true) : ∀ (n : Nat) (st : St), l.length + 1 ≤ n →
    (∀ t ∈ l, t.firstOfLine = false) → Good paths 0 ((p, l ++ u :: ts) :: r) D ds st →
    ∃ st1, ((next st).bind fun q => gather n M q.1 q.2) = .ok (l', st1) ∧ Good paths 1 ((p, u :: ts) :: r) D ds st1 := by
  have digit : ∀ {t x : Tok} {ops ts' us : List Tok} {b : Bool}, t.str = str "defined" → Operand ops x → defined M x.str = b →
      (∀ (n : Nat) (st : St), ts'.length + 1 ≤ n → (∀ t ∈ ts', t.firstOfLine = false) → Good paths 0 ((p, ts' ++ u :: ts) :: r) D ds st →
        ∃ st1, ((next st).bind fun q => gather n M q.1 q.2) = .ok (us, st1) ∧ Good paths 1 ((p, u :: ts) :: r) D ds st1) →
      ∀ (n : Nat) (st : St), (t :: (ops ++ ts')).length + 1 ≤ n → (∀ y ∈ t :: (ops ++ ts'), y.firstOfLine = false) →
        Good paths 0 ((p, t :: (ops ++ ts') ++ u :: ts) :: r) D ds st →
        ∃ st1, ((next st).bind fun q => gather n M q.1 q.2) = .ok (number b :: us, st1) ∧ Good paths 1 ((p, u :: ts) :: r) D ds st1 := by
    intro t x ops ts' us b h1 h2 h3 ih n st hn hl g
    obtain ⟨n, rfl⟩ : ∃ j, n = j + 1 := ⟨n - 1, by omega⟩
    obtain ⟨st1, e1, g1⟩ := next_good g
    rw [List.append_eq, List.append_assoc] at g1
    obtain ⟨st2, e2, g2⟩ := operand_good h2 g1
    obtain ⟨st3, e3, g3⟩ := ih n st2 (by simp at hn; omega) (fun y hy => hl y (by simp [hy])) g2
    obtain ⟨q, a1, a2⟩ := bind_ok_inv e3
    refine ⟨st3, ?_, g3⟩
    rw [e1]
    show gather (n + 1) M t st1 = _
    rw [gather, if_neg (by simp [hl t (by simp)]), if_pos h1, e2]
    show (next st2).bind _ = _
    rw [a1]
    show (gather n M q.1 q.2).mapOk _ = _
    rw [a2, ← h3]
    rfl
  induction hr with
  | nil =>
    intro n st hn hl g
    obtain ⟨n, rfl⟩ : ∃ j, n = j + 1 := ⟨n - 1, by simp at hn; omega⟩
    obtain ⟨st1, e1, g1⟩ := next_good g
    obtain ⟨st2, e2, g2, -⟩ := push_good g1 (by omega) u
    refine ⟨st2, ?_, g2.mono (by omega)⟩
    rw [e1]
    show gather (n + 1) M u st1 = _
    rw [gather, if_pos hu, e2]
    rfl
  | @other t ts' us h1 _ ih =>
    intro n st hn hl g
    obtain ⟨n, rfl⟩ : ∃ j, n = j + 1 := ⟨n - 1, by omega⟩
    obtain ⟨st1, e1, g1⟩ := next_good g
    obtain ⟨st3, e3, g3⟩ := ih n st1 (by simp at hn; omega) (fun y hy => hl y (by simp [hy])) g1
    obtain ⟨q, a1, a2⟩ := bind_ok_inv e3
    refine ⟨st3, ?_, g3⟩
    rw [e1]
    show gather (n + 1) M t st1 = _
    rw [gather, if_neg (by simp [hl t (by simp)]), if_neg h1, a1]
    show (gather n M q.1 q.2).mapOk _ = _
    rw [a2]
    rfl
  | yes h1 h2 h3 _ ih => exact digit h1 h2 (defined_iff.2 h3) ih
  | no h1 h2 h3 _ ih => exact digit h1 h2 (by rw [← Bool.not_eq_true, defined_iff]; exact h3) ih

/-- A condition is evaluated. -/
theorem cond_good {el : String} {l z : List Tok} {b : Bool} (hel : el = "" ∨ el = "el") (hc : Cond v M el d l z b) {n : Nat} (hn : l.length + 1 ≤ n)
    (g : Good paths 0 ((p, l ++ z) :: r) D ds st) :
    ∃ st1, evalCond v n d.str M st = .ok (b, st1) ∧ Good paths 2 ((p, z) :: r) D ds st1 := by
  have one : ∀ {x : Tok}, l = [x] → ∃ st1, next st = .ok (x, st1) ∧ Good paths 2 ((p, z) :: r) D ds st1 := by
    rintro x rfl
    obtain ⟨st1, e1, g1⟩ := next_good g
    exact ⟨st1, e1, g1.mono (by omega)⟩
  have n1 : d.str = str (el ++ "ifdef") → d.str = str "ifdef" ∨ d.str = str "elifdef" := by
    rintro h; rcases hel with rfl | rfl
    · exact .inl h
    · exact .inr h
  have n2 : d.str = str (el ++ "ifndef") → ¬(d.str = str "ifdef" ∨ d.str = str "elifdef") ∧ (d.str = str "ifndef" ∨ d.str = str "elifndef") := by
    rintro h; rw [h]; rcases hel with rfl | rfl <;> decide
  have n3 : d.str = str (el ++ "if") → ¬(d.str = str "ifdef" ∨ d.str = str "elifdef") ∧ ¬(d.str = str "ifndef" ∨ d.str = str "elifndef") ∧
      (d.str = str "if" ∨ d.str = str "elif") := by
    rintro h; rw [h]; rcases hel with rfl | rfl <;> decide
  cases hc with
  | @ifdef x _ h1 h2 =>
    obtain ⟨st1, e1, g1⟩ := one rfl
    exact ⟨st1, by unfold evalCond; rw [if_pos (n1 h1), e1]; simp [defined_iff.2 h2], g1⟩
  | @ifdefNot x _ h1 h2 =>
    obtain ⟨st1, e1, g1⟩ := one rfl
    have : defined M x.str = false := by rw [← Bool.not_eq_true, defined_iff]; exact h2
    exact ⟨st1, by unfold evalCond; rw [if_pos (n1 h1), e1]; simp [this], g1⟩
  | @ifndef x _ h1 h2 =>
    obtain ⟨st1, e1, g1⟩ := one rfl
    have : defined M x.str = false := by rw [← Bool.not_eq_true, defined_iff]; exact h2
    exact ⟨st1, by unfold evalCond; rw [if_neg (n2 h1).1, if_pos (n2 h1).2, e1]; simp [this], g1⟩
  | @ifndefNot x _ h1 h2 =>
    obtain ⟨st1, e1, g1⟩ := one rfl
    exact ⟨st1, by unfold evalCond; rw [if_neg (n2 h1).1, if_pos (n2 h1).2, e1]; simp [defined_iff.2 h2], g1⟩
  | @expr _ l' u z _ h1 h2 h3 h4 h5 =>
    obtain ⟨st1, e1, g1⟩ := gather_good h3 h5 n st hn h2 g
    refine ⟨st1, ?_, g1.mono (by omega)⟩
    unfold evalCond
    rw [if_neg (n3 h1).1, if_neg (n3 h1).2.1, if_pos (n3 h1).2.2]
    unfold untilNewline
    rw [e1]
    show (v M l').mapOk _ = _
    rw [h4]
    rfl

theorem cond_append {el : String} {l z w : List Tok} {b : Bool} (h : Cond v M el d l z b) : Cond v M el d l (z ++ w) b := by
  cases h with
  | ifdef h1 h2 => exact .ifdef h1 h2
  | ifdefNot h1 h2 => exact .ifdefNot h1 h2
  | ifndef h1 h2 => exact .ifndef h1 h2
  | ifndefNot h1 h2 => exact .ifndefNot h1 h2
  | expr h1 h2 h3 h4 h5 => exact .expr h1 h2 h3 h4 h5

theorem cond_opens {l z : List Tok} {b : Bool} (h : Cond v M "" d l z b) : Opens d := by
  cases h with
  | ifdef h1 => exact .inr (.inl h1)
  | ifdefNot h1 => exact .inr (.inl h1)
  | ifndef h1 => exact .inr (.inr h1)
  | ifndefNot h1 => exact .inr (.inr h1)
  | expr h1 => exact .inl h1

theorem cond_further {l z : List Tok} {b : Bool} (h : Cond v M "el" d l z b) : Further d := by
  cases h with
  | ifdef h1 => exact .inr (.inr (.inl h1))
  | ifdefNot h1 => exact .inr (.inr (.inl h1))
  | ifndef h1 => exact .inr (.inr (.inr h1))
  | ifndefNot h1 => exact .inr (.inr (.inr h1))
  | expr h1 => exact .inl h1

/-- The first condition of a section where text is not skipped. -/
theorem handle_if {n : Nat} {l z : List Tok} {b : Bool} (hc : Cond v M "" d l z b) (hn : l.length + 1 ≤ n)
    (g : Good paths 0 ((p, l ++ z) :: r) D ds st) :
    ∃ st1, handle e v n t d 1 cs M st = .ok (false, ⟨(if b then 1 else 0) :: 1 :: cs, M⟩, st1) ∧ Good paths 2 ((p, z) :: r) D ds st1 := by
  obtain ⟨st1, e1, g1⟩ := cond_good (.inl rfl) hc hn g
  refine ⟨st1, ?_, g1⟩
  unfold handle
  rw [if_pos (isIf_iff.2 (cond_opens hc)), if_pos rfl, e1]
  rfl

/-- A further condition of a section. -/
theorem handle_elif {n : Nat} {l z : List Tok} {b : Bool} (hc : Cond v M "el" d l z b) (hn : l.length + 1 ≤ n)
    (g : Good paths 0 ((p, l ++ z) :: r) D ds st) :
    ∃ st1, handle e v n t d 0 cs M st = .ok (false, ⟨(if b then 1 else 0) :: cs, M⟩, st1) ∧ Good paths 2 ((p, z) :: r) D ds st1 := by
  obtain ⟨st1, e1, g1⟩ := cond_good (.inr rfl) hc hn g
  refine ⟨st1, ?_, g1⟩
  unfold handle
  rw [if_neg (by rw [isIf_iff]; exact further_not_opens (cond_further hc)), if_pos (isElif_iff.2 (cond_further hc)), if_pos rfl, e1]
  rfl

/-- A directive of `Include.lean` where text is not skipped. -/
theorem handle_other {n : Nat} {st1 : St} (h1 : ¬Opens d) (h2 : ¬Further d) (h3 : d.str ≠ str "endif") (h4 : d.str ≠ str "define")
    (h5 : d.str ≠ str "undef") (h : directive e n t d st = .ok (false, st1)) : handle e v n t d 1 cs M st = .ok (false, ⟨1 :: cs, M⟩, st1) := by
  unfold handle
  rw [if_neg (by rw [isIf_iff]; exact h1), if_neg (by rw [isElif_iff]; exact h2), if_neg h3, if_pos rfl, if_neg h4, if_neg h5, h]
  rfl

/-- `#define` of an object-like macro. -/
theorem define_good {n : Nat} {x u : Tok} {body : List Tok} (hb : ∀ b ∈ body, b.firstOfLine = false) (hu : u.firstOfLine = true) (hw : u.whitespace = true)
    (hp : ∀ b bs, body = b :: bs → b.type = .T_LPAR → b.whitespace = true) (hn : body.length + 1 ≤ n)
    (g : Good paths 0 ((p, x :: (body ++ u :: ts)) :: r) D ds st) :
    ∃ st1, defineDir n M st = .ok ((x.str, ⟨none, body⟩) :: M, st1) ∧ Good paths 2 ((p, u :: ts) :: r) D ds st1 := by
  obtain ⟨st1, e1, g1⟩ := next_good g
  unfold defineDir
  rw [e1]
  cases body with
  | nil =>
    obtain ⟨st2, e2, g2⟩ := next_good g1
    obtain ⟨st3, e3, g3, -⟩ := push_good g2 (by omega) u
    obtain ⟨n, rfl⟩ : ∃ j, n = j + 1 := ⟨n - 1, by simp at hn; omega⟩
    refine ⟨st3, ?_, g3.mono (by omega)⟩
    show (next st1).bind _ = _
    rw [e2]
    show (if u.type = .T_LPAR ∧ u.whitespace = false then _ else _) = _
    rw [if_neg (by simp [hw])]
    simp only [readLine, hu, if_true, e3, Run.mapOk_ok]
  | cons b bs =>
    obtain ⟨st2, e2, g2⟩ := next_good g1
    obtain ⟨st3, e3, g3⟩ := readLine_good hu bs b st2 hb g2
    refine ⟨st3, ?_, g3.mono (by omega)⟩
    show (next st1).bind _ = _
    rw [e2]
    show (if b.type = .T_LPAR ∧ b.whitespace = false then _ else _) = _
    rw [if_neg (by intro h; have := hp b bs rfl h.1; rw [h.2] at this; cases this), readLine_mono (by simp at hn; omega) e3]
    rfl

theorem names_good {n : Nat} {ps is : List Tok} {va : Bool} (h : Names1 ps is va) : ∀ (n : Nat) (first : Bool) (st : St), ps.length + 1 ≤ n →
    Good paths 0 ((p, ps ++ ts) :: r) D ds st → ∃ st1, params n first st = .ok ((is, va), st1) ∧ Good paths 0 ((p, ts) :: r) D ds st1 := by
  have n1 : TType.T_IDENT ≠ .T_RPAR := by decide
  have n2 : TType.T_IDENT ≠ .T_ELLIPSIS := by decide
  have n3 : TType.T_ELLIPSIS ≠ .T_RPAR := by decide
  have n4 : TType.T_COMMA ≠ .T_RPAR := by decide
  induction h with
  | @last i c h1 h2 =>
    intro n first st hn g
    obtain ⟨n, rfl⟩ : ∃ j, n = j + 1 := ⟨n - 1, by omega⟩
    obtain ⟨st1, e1, g1⟩ := next_good g
    obtain ⟨st2, e2, g2⟩ := next_good g1
    exact ⟨st2, by simp [params, e1, Run.bind, h1, e2, h2], g2⟩
  | @dots i c h1 h2 =>
    intro n first st hn g
    obtain ⟨n, rfl⟩ : ∃ j, n = j + 1 := ⟨n - 1, by omega⟩
    obtain ⟨st1, e1, g1⟩ := next_good g
    obtain ⟨st2, e2, g2⟩ := next_good g1
    exact ⟨st2, by simp [params, e1, Run.bind, h1, e2, h2], g2⟩
  | @more i c ps is va h1 h2 _ ih =>
    intro n first st hn g
    obtain ⟨n, rfl⟩ : ∃ j, n = j + 1 := ⟨n - 1, by omega⟩
    obtain ⟨st1, e1, g1⟩ := next_good g
    obtain ⟨st2, e2, g2⟩ := next_good g1
    obtain ⟨st3, e3, g3⟩ := ih n false st2 (by simp at hn; omega) g2
    exact ⟨st3, by simp [params, e1, Run.bind, h1, e2, h2, e3], g3⟩

theorem params_good {n : Nat} {ps is : List Tok} {va : Bool} (h : Parameters ps is va) (hn : ps.length + 1 ≤ n)
    (g : Good paths 0 ((p, ps ++ ts) :: r) D ds st) : ∃ st1, params n true st = .ok ((is, va), st1) ∧ Good paths 0 ((p, ts) :: r) D ds st1 := by
  rcases h with h | ⟨c, h1, rfl, rfl, rfl⟩
  · exact names_good (n := n) h n true st hn g
  · obtain ⟨n, rfl⟩ : ∃ j, n = j + 1 := ⟨n - 1, by omega⟩
    obtain ⟨st1, e1, g1⟩ := next_good g
    exact ⟨st1, by simp [params, e1, Run.bind, h1], g1⟩

/-- `#define` of a function-like macro. -/
theorem define_fun_good {n : Nat} {x o u : Tok} {ps is body : List Tok} {va : Bool} (ho : o.type = .T_LPAR) (how : o.whitespace = false)
    (hps : Parameters ps is va) (hb : ∀ b ∈ body, b.firstOfLine = false) (hu : u.firstOfLine = true) (hn : ps.length + body.length + 1 ≤ n)
    (g : Good paths 0 ((p, x :: o :: (ps ++ (body ++ u :: ts))) :: r) D ds st) :
    ∃ st1, defineDir n M st = .ok ((x.str, ⟨some (is, va), body⟩) :: M, st1) ∧ Good paths 2 ((p, u :: ts) :: r) D ds st1 := by
  obtain ⟨st1, e1, g1⟩ := next_good g
  obtain ⟨st2, e2, g2⟩ := next_good g1
  obtain ⟨st3, e3, g3⟩ := params_good (n := n) hps (by omega) g2
  have key : ∃ t st4 st5, next st3 = .ok (t, st4) ∧ readLine n t st4 = .ok (body, st5) ∧ Good paths 2 ((p, u :: ts) :: r) D ds st5 := by
    cases body with
    | nil =>
      obtain ⟨st4, e4, g4⟩ := next_good g3
      obtain ⟨st5, e5, g5, -⟩ := push_good g4 (by omega) u
      obtain ⟨n, rfl⟩ : ∃ j, n = j + 1 := ⟨n - 1, by omega⟩
      exact ⟨u, st4, st5, e4, by simp only [readLine, hu, if_true, e5, Run.mapOk_ok], g5.mono (by omega)⟩
    | cons b bs =>
      obtain ⟨st4, e4, g4⟩ := next_good g3
      obtain ⟨st5, e5, g5⟩ := readLine_good hu bs b st4 hb g4
      have : ps.length ≥ 1 := by
        rcases hps with h | ⟨c, -, rfl, -⟩
        · cases h <;> simp
        · simp
      exact ⟨b, st4, st5, e4, readLine_mono (by simp at hn; omega) e5, g5.mono (by omega)⟩
  obtain ⟨t, st4, st5, e4, e5, g5⟩ := key
  refine ⟨st5, ?_, g5⟩
  unfold defineDir
  rw [e1]
  show (next st1).bind _ = _
  rw [e2]
  show (if o.type = .T_LPAR ∧ o.whitespace = false then (params n true st2).bind _ else _) = _
  rw [if_pos ⟨ho, how⟩, e3]
  show (next st3).bind _ = _
  rw [e4]
  show (readLine n t st4).mapOk _ = _
  rw [e5]
  rfl

/-- The rest of a line that is the last one of a file: the first token of the next line of the including file ends it. -/
theorem readLine_end {q : Str} {u : Tok} (hu : u.firstOfLine = true) : ∀ (body : List Tok) (n : Nat) (st : St), body.length + 1 ≤ n →
    (∀ b ∈ body, b.firstOfLine = false) → Good paths 0 ((q, body) :: (p, u :: ts) :: r) D ds st →
    ∃ t st1 st2, next st = .ok (t, st1) ∧ readLine n t st1 = .ok (body, st2) ∧ Good paths 2 ((p, u :: ts) :: r) D ds st2 ∧
      (body.head?.getD u = t)
  | [], n, st, hn, hb, g => by
    obtain ⟨n, rfl⟩ : ∃ j, n = j + 1 := ⟨n - 1, by simp at hn; omega⟩
    obtain ⟨st0, g0, e0⟩ := next_end g
    obtain ⟨st1, e1, g1⟩ := next_good g0
    obtain ⟨st2, e2, g2, -⟩ := push_good g1 (by omega) u
    refine ⟨u, st1, st2, e0.trans e1, ?_, g2.mono (by omega), rfl⟩
    simp only [readLine, hu, if_true, e2, Run.mapOk_ok]
  | b :: bs, n, st, hn, hb, g => by
    obtain ⟨n, rfl⟩ : ∃ j, n = j + 1 := ⟨n - 1, by simp at hn; omega⟩
    obtain ⟨st1, e1, g1⟩ := next_good g
    obtain ⟨t, st2, st3, e2, e3, g3, -⟩ := readLine_end hu bs n st1 (by simp at hn; omega) (fun y hy => hb y (by simp [hy])) g1
    refine ⟨b, st1, st3, e1, ?_, g3, rfl⟩
    have hf : b.firstOfLine = false := hb b (by simp)
    simp only [readLine, hf, Bool.false_eq_true, if_false, e2, Run.bind, e3, Run.mapOk_ok]

/-- `#define` in the last line of a header. -/
theorem define_end {n : Nat} {q : Str} {x u : Tok} {body : List Tok} (hb : ∀ b ∈ body, b.firstOfLine = false) (hu : u.firstOfLine = true)
    (hw : u.whitespace = true) (hp : ∀ b bs, body = b :: bs → b.type = .T_LPAR → b.whitespace = true) (hn : body.length + 1 ≤ n)
    (g : Good paths 0 ((q, x :: body) :: (p, u :: ts) :: r) D ds st) :
    ∃ st1, defineDir n M st = .ok ((x.str, ⟨none, body⟩) :: M, st1) ∧ Good paths 2 ((p, u :: ts) :: r) D ds st1 := by
  obtain ⟨st1, e1, g1⟩ := next_good g
  obtain ⟨t, st2, st3, e2, e3, g3, e4⟩ := readLine_end hu body n st1 hn hb g1
  refine ⟨st3, ?_, g3⟩
  unfold defineDir
  rw [e1]
  show (next st1).bind _ = _
  rw [e2]
  show (if t.type = .T_LPAR ∧ t.whitespace = false then _ else _) = _
  rw [if_neg, e3]
  · rfl
  · rintro ⟨a, b⟩
    cases body with
    | nil => simp only [List.head?_nil, Option.getD_none] at e4; rw [← e4, hw] at b; cases b
    | cons y ys => simp only [List.head?_cons, Option.getD_some] at e4; subst e4; rw [hp y ys rfl a] at b; cases b

/-- A token that is no directive. -/
theorem rest_plain {n : Nat} {out : List Tok} {x : List Str} (ht : Plain t) (h : Good paths 2 ((p, t :: ts) :: r) D ds st)
    (ih : ∀ st1, Good paths 2 ((p, ts) :: r) D ds st1 → rest e v n ⟨1 :: cs, M⟩ st1 = .ok (out, x)) :
    rest e v (n + 1) ⟨1 :: cs, M⟩ st = .ok (t :: out, x) := by
  obtain ⟨st1, e1, g1⟩ := next_good h
  have h2 := ih st1 (g1.mono (by omega))
  unfold rest at h2 ⊢
  obtain ⟨q, a1, a2⟩ := bind_ok_inv h2
  rw [e1]
  show stream e v (n + 1) false t ⟨1 :: cs, M⟩ st1 = _
  rw [stream]
  dsimp only
  rw [if_pos (Or.inl ⟨ht.1, rfl⟩), if_neg ht.2, a1]
  show (stream e v n false q.1 _ q.2).mapOk _ = _
  rw [a2]
  rfl

/-- The tokens of a part of a file with complete sections. -/
theorem rest_yields {sec : Bool} {ts : List Tok} {out : List Tok} {os D' : List Str} {M' : Macros}
    (hy : Yields e.fs e.tokenize v paths D M p sec ts out os D' M') :
    ∀ (z : List Tok) (r : List (Str × List Tok)) (ds : List Str) (cs : List Int) (N : Nat) (out' : List Tok) (x : List Str),
      (∀ m, N ≤ m → ∀ st', Good paths 2 ((p, z) :: r) D' (ds ++ os) st' → rest e v m ⟨1 :: cs, M'⟩ st' = .ok (out', x)) →
      ∃ n, ∀ m, n ≤ m → ∀ st, Good paths 2 ((p, ts ++ z) :: r) D ds st →
        rest e v m ⟨if sec then 0 :: 1 :: cs else 1 :: cs, M⟩ st = .ok (out ++ out', x) := by
  induction hy with
  | nil =>
    intro z r ds cs N out' x h
    exact ⟨N, fun m hm st g => h m hm st (by simpa using g)⟩
  | @plain D M p t ts out os D' M' ht _ ih =>
    intro z r ds cs N out' x h
    obtain ⟨n, ih⟩ := ih z r ds cs N out' x h
    refine ⟨n + 1, fun m hm st g => ?_⟩
    obtain ⟨m, rfl⟩ : ∃ j, m = j + 1 := ⟨m - 1, by omega⟩
    exact rest_plain ht g (ih m (by omega))
  | @null D M p t u ts out os D' M' ht hu _ ih =>
    intro z r ds cs N out' x h
    obtain ⟨n, ih⟩ := ih z r ds cs N out' x h
    refine ⟨n + 1, fun m hm st g => ?_⟩
    obtain ⟨m, rfl⟩ : ∃ j, m = j + 1 := ⟨m - 1, by omega⟩
    obtain ⟨st1, e1, g1⟩ := next_good g
    obtain ⟨st2, e2, g2⟩ := next_good g1
    obtain ⟨st3, -, g3, e3⟩ := push_good g2 (by omega) u
    have h3 := ih m (by omega) st3 (g3.mono (by omega))
    unfold rest at h3 ⊢
    rw [e3] at h3
    rw [e1]
    show stream e v (m + 1) false t ⟨1 :: cs, M⟩ st1 = _
    rw [stream]
    dsimp only
    rw [if_neg (by simp [ht]), if_neg (by simp [ht]), e2]
    show (if u.firstOfLine = true ∨ _ then _ else _) = _
    rw [if_pos (Or.inl hu)]
    exact h3
  | @file D M p t d h ts name sys q c out1 os1 D1 M1 out2 os2 D2 M2 hs hh hn hq _ _ ih1 ih2 =>
    intro z r ds cs N out' x hk
    obtain ⟨n2, ih2⟩ := ih2 z r (ds ++ [q] ++ os1) cs N out' x (by simpa using hk)
    obtain ⟨n1, ih1⟩ := ih1 [] ((p, ts ++ z) :: r) (ds ++ [q]) cs n2 (out2 ++ out') x (by
      intro m hm st' g
      obtain ⟨st1, g1, e1⟩ := next_end g
      have := ih2 m hm st1 g1
      unfold rest at this ⊢
      rw [e1]
      exact this)
    refine ⟨n1 + 1, fun m hm st g => ?_⟩
    obtain ⟨m, rfl⟩ : ∃ j, m = j + 1 := ⟨m - 1, by omega⟩
    refine rest_dir ⟨hs.1, hs.2.1, hs.2.2.1⟩ g fun st1 g1 => ?_
    obtain ⟨st2, g2, e2⟩ := include_header (e := e) (n := m) hs hh g1
    obtain ⟨st3, e3, g3⟩ := pushInput_good (g2.mono (by omega)) hn hq
    have h4 := hs.2.2.2
    refine ⟨⟨1 :: cs, M⟩, st3, ?_, (ih1 m (by omega) st3 (by simpa using g3)).trans (by rw [List.append_assoc])⟩
    exact handle_other (by unfold Opens; rw [h4]; decide) (by unfold Further; rw [h4]; decide) (by rw [h4]; decide) (by rw [h4]; decide)
      (by rw [h4]; decide) (by rw [e2, e3]; rfl)
  | @fileDefine D M p t d h ts name sys q c a t1 d1 y body u out1 os1 D1 M1 out2 os2 D2 M2 hs hh hn hq htok _ hs1 hb hu hw hp _ ih1 ih2 =>
    intro z r ds cs N out' x hk
    obtain ⟨n2, ih2⟩ := ih2 z r (ds ++ [q] ++ os1) cs N out' x (by simpa using hk)
    obtain ⟨n1, ih1⟩ := ih1 (t1 :: d1 :: y :: body) ((p, u :: ts ++ z) :: r) (ds ++ [q]) cs (n2 + body.length + 2) (out2 ++ out') x (by
      intro m hm st' g
      obtain ⟨m, rfl⟩ : ∃ j, m = j + 1 := ⟨m - 1, by omega⟩
      obtain ⟨h1, h2, h3, h4⟩ := hs1
      refine rest_dir ⟨h1, h2, h3⟩ g fun st1 g1 => ?_
      obtain ⟨st2, e2, g2⟩ := define_end (n := m) (M := M1) hb hu hw hp (by omega) g1
      refine ⟨⟨1 :: cs, (y.str, ⟨none, body⟩) :: M1⟩, st2, ?_, ih2 m (by omega) st2 g2⟩
      unfold handle
      rw [if_neg (by rw [h4]; decide), if_neg (by rw [h4]; decide), if_neg (by rw [h4]; decide), if_pos rfl, if_pos h4, e2]
      rfl)
    refine ⟨n1 + 1, fun m hm st g => ?_⟩
    obtain ⟨m, rfl⟩ : ∃ j, m = j + 1 := ⟨m - 1, by omega⟩
    refine rest_dir ⟨hs.1, hs.2.1, hs.2.2.1⟩ g fun st1 g1 => ?_
    obtain ⟨st2, g2, e2⟩ := include_header (e := e) (n := m) hs hh g1
    obtain ⟨st3, e3, g3⟩ := pushInput_good (g2.mono (by omega)) hn hq
    have h4 := hs.2.2.2
    refine ⟨⟨1 :: cs, M⟩, st3, ?_, (ih1 m (by omega) st3 (by rw [htok] at g3; simpa using g3)).trans (by rw [List.append_assoc])⟩
    exact handle_other (by unfold Opens; rw [h4]; decide) (by unfold Further; rw [h4]; decide) (by rw [h4]; decide) (by rw [h4]; decide)
      (by rw [h4]; decide) (by rw [e2, e3]; rfl)
  | @marked D M p t d h ts name sys q c out os D' M' hs hh hn hq _ ih =>
    intro z r ds cs N out' x hk
    obtain ⟨n, ih⟩ := ih z r ds cs N out' x hk
    refine ⟨n + 1, fun m hm st g => ?_⟩
    obtain ⟨m, rfl⟩ : ∃ j, m = j + 1 := ⟨m - 1, by omega⟩
    refine rest_dir ⟨hs.1, hs.2.1, hs.2.2.1⟩ g fun st1 g1 => ?_
    obtain ⟨st2, g2, e2⟩ := include_header (e := e) (n := m) hs hh g1
    have h4 := hs.2.2.2
    refine ⟨⟨1 :: cs, M⟩, st2, ?_, ih m (by omega) st2 (g2.mono (by omega))⟩
    exact handle_other (by unfold Opens; rw [h4]; decide) (by unfold Further; rw [h4]; decide) (by rw [h4]; decide) (by rw [h4]; decide)
      (by rw [h4]; decide) (by rw [e2, pushInput_marked g2 hn hq]; rfl)
  | @once D M p t d o ts out os D' M' hs ho _ ih =>
    intro z r ds cs N out' x hk
    obtain ⟨n, ih⟩ := ih z r ds cs N out' x hk
    refine ⟨n + 1, fun m hm st g => ?_⟩
    obtain ⟨m, rfl⟩ : ∃ j, m = j + 1 := ⟨m - 1, by omega⟩
    obtain ⟨h1, h2, h3, h4⟩ := hs
    refine rest_dir ⟨h1, h2, h3⟩ g fun st1 g1 => ?_
    obtain ⟨st2, e2, g2⟩ := next_good g1
    obtain ⟨st3, e3, g3⟩ := once_good g2
    have n1 : str "pragma" ≠ str "include" := by decide
    refine ⟨⟨1 :: cs, M⟩, st3, ?_, ih m (by omega) st3 (g3.mono (by omega))⟩
    refine handle_other (by unfold Opens; rw [h4]; decide) (by unfold Further; rw [h4]; decide) (by rw [h4]; decide) (by rw [h4]; decide)
      (by rw [h4]; decide) ?_
    simp only [directive, h3, ne_eq, not_true_eq_false, if_false, h4, n1, if_true, Include.pragmaDir, e2, Run.bind, ho, e3, Run.mapOk_ok]
  | @pragma D M p t d o ts out os D' M' hs hp h5 h6 h7 _ ih =>
    intro z r ds cs N out' x hk
    obtain ⟨n, ih⟩ := ih z r ds cs N out' x hk
    obtain ⟨h1, h2, h3, h4⟩ := hs
    refine ⟨n + 4, fun m hm st g => ?_⟩
    obtain ⟨m, rfl⟩ : ∃ j, m = j + 4 := ⟨m - 4, by omega⟩
    obtain ⟨st1, e1, g1⟩ := next_good g
    obtain ⟨st2, e2, g2⟩ := next_good g1
    obtain ⟨st3, e3, g3⟩ := next_good g2
    obtain ⟨st4, e4, g4, -⟩ := push_good g3 (by omega) o
    obtain ⟨st5, e5, g5, -⟩ := push_good g4 (by omega) d
    obtain ⟨st6, e6, g6, e7⟩ := push_good g5 (by omega) t
    have hd : Plain d := ⟨by rw [h3]; decide, by rw [h3]; decide⟩
    have n1 : str "pragma" ≠ str "include" := by decide
    have h8 := rest_plain hd (g5.mono (by omega)) fun st1 g1 => rest_plain hp g1 (ih m (by omega))
    have hdir : directive e (m + 3) t d st2 = .ok (true, st6) := by
      simp only [directive, h3, ne_eq, not_true_eq_false, if_false, h4, n1, if_true, Include.pragmaDir, e3, Run.bind, h5, h6, h7, or_self, e4, e5, e6,
        Run.mapOk_ok]
    have hh : handle e v (m + 3) t d 1 cs M st2 = .ok (true, ⟨1 :: cs, M⟩, st6) := by
      unfold handle
      rw [if_neg (by rw [h4]; decide), if_neg (by rw [h4]; decide), if_neg (by rw [h4]; decide), if_pos rfl, if_neg (by rw [h4]; decide),
        if_neg (by rw [h4]; decide), hdir]
      rfl
    have n2 : TType.PP_DIRECTIVE ≠ .T_EOI := by decide
    have hpass : stream e v (m + 3) true t ⟨1 :: cs, M⟩ st5 = .ok (t :: d :: o :: (out ++ out'), x) := by
      unfold rest at h8
      obtain ⟨q, a1, a2⟩ := bind_ok_inv h8
      rw [stream]
      dsimp only
      rw [if_pos (Or.inr rfl), if_neg (by rw [h1]; exact n2), a1]
      show (stream e v (m + 2) false q.1 _ q.2).mapOk _ = _
      rw [a2]
      rfl
    unfold rest
    rw [e1]
    show stream e v (m + 3 + 1) false t ⟨1 :: cs, M⟩ st1 = _
    rw [stream]
    dsimp only
    rw [if_neg (by simp [h1]), if_neg (by simp [h1]), e2]
    show (if d.firstOfLine = true ∨ (d.type ≠ .T_IDENT ∧ (1 : Int) ≠ 1) then _ else _) = _
    rw [if_neg (by simp [h2]), if_neg (by simp [h3]), hh]
    show (next st6).bind _ = _
    rw [e7]
    exact hpass
  | @define D M p t d y body u ts out os D' M' hs hb hu hw hp _ ih =>
    intro z r ds cs N out' x hk
    obtain ⟨n, ih⟩ := ih z r ds cs N out' x hk
    refine ⟨n + body.length + 2, fun m hm st g => ?_⟩
    obtain ⟨m, rfl⟩ : ∃ j, m = j + 1 := ⟨m - 1, by omega⟩
    obtain ⟨h1, h2, h3, h4⟩ := hs
    refine rest_dir (ts := y :: (body ++ u :: (ts ++ z))) ⟨h1, h2, h3⟩ (by simpa using g) fun st1 g1 => ?_
    obtain ⟨st2, e2, g2⟩ := define_good (n := m) (M := M) hb hu hw hp (by omega) g1
    refine ⟨⟨1 :: cs, (y.str, ⟨none, body⟩) :: M⟩, st2, ?_, ih m (by omega) st2 g2⟩
    unfold handle
    rw [if_neg (by rw [h4]; decide), if_neg (by rw [h4]; decide), if_neg (by rw [h4]; decide), if_pos rfl, if_pos h4, e2]
    rfl
  | @defineFun D M p t d y o ps is va body u ts out os D' M' hs ho how hps hb hu _ ih =>
    intro z r ds cs N out' x hk
    obtain ⟨n, ih⟩ := ih z r ds cs N out' x hk
    refine ⟨n + ps.length + body.length + 2, fun m hm st g => ?_⟩
    obtain ⟨m, rfl⟩ : ∃ j, m = j + 1 := ⟨m - 1, by omega⟩
    obtain ⟨h1, h2, h3, h4⟩ := hs
    refine rest_dir (ts := y :: o :: (ps ++ (body ++ u :: (ts ++ z)))) ⟨h1, h2, h3⟩ (by simpa using g) fun st1 g1 => ?_
    obtain ⟨st2, e2, g2⟩ := define_fun_good (n := m) (M := M) ho how hps hb hu (by omega) g1
    refine ⟨⟨1 :: cs, (y.str, ⟨some (is, va), body⟩) :: M⟩, st2, ?_, ih m (by omega) st2 g2⟩
    unfold handle
    rw [if_neg (by rw [h4]; decide), if_neg (by rw [h4]; decide), if_neg (by rw [h4]; decide), if_pos rfl, if_pos h4, e2]
    rfl
  | @undef D M M1 p t d y ts out os D' M' hs hM _ ih =>
    intro z r ds cs N out' x hk
    obtain ⟨n, ih⟩ := ih z r ds cs N out' x hk
    refine ⟨n + 1, fun m hm st g => ?_⟩
    obtain ⟨m, rfl⟩ : ∃ j, m = j + 1 := ⟨m - 1, by omega⟩
    obtain ⟨h1, h2, h3, h4⟩ := hs
    refine rest_dir ⟨h1, h2, h3⟩ g fun st1 g1 => ?_
    obtain ⟨st2, e2, g2⟩ := next_good g1
    refine ⟨⟨1 :: cs, M1⟩, st2, ?_, ih m (by omega) st2 (g2.mono (by omega))⟩
    unfold handle
    rw [if_neg (by rw [h4]; decide), if_neg (by rw [h4]; decide), if_neg (by rw [h4]; decide), if_pos rfl, if_neg (by rw [h4]; decide), if_pos h4, e2, hM]
    rfl
  | @yes D M p t d l a tl ts out1 os1 D1 M1 out2 os2 D2 M2 hd hc _ htl _ ih1 ih2 =>
    intro z r ds cs N out' x hk
    obtain ⟨n3, h3⟩ := ih2 z r (ds ++ os1) cs N out' x (by simpa using hk)
    obtain ⟨n2, h2⟩ := rest_tail htl 1 (by decide) n3 h3
    obtain ⟨n1, h1⟩ := ih1 (tl ++ (ts ++ z)) r ds (1 :: cs) n2 (out2 ++ out') x h2
    refine ⟨n1 + l.length + 2, fun m hm st g => ?_⟩
    obtain ⟨m, rfl⟩ : ∃ j, m = j + 1 := ⟨m - 1, by omega⟩
    refine rest_dir (ts := l ++ (a ++ (tl ++ ts) ++ z)) hd (by simpa using g) fun st1 g1 => ?_
    obtain ⟨st2, e2, g2⟩ := handle_if (e := e) (n := m) (t := t) (cs := cs) (cond_append hc) (by omega) g1
    exact ⟨_, st2, e2, (h1 m (by omega) st2 (by simpa using g2)).trans (by rw [List.append_assoc])⟩
  | @no D M p t d l a ts out os D' M' hd hc ha _ ih =>
    intro z r ds cs N out' x hk
    obtain ⟨n2, h2⟩ := ih z r ds cs N out' x hk
    obtain ⟨n1, h1⟩ := rest_skipped (top := 0) (z := ts ++ z) (by decide) ha n2 h2
    refine ⟨n1 + l.length + 2, fun m hm st g => ?_⟩
    obtain ⟨m, rfl⟩ : ∃ j, m = j + 1 := ⟨m - 1, by omega⟩
    refine rest_dir (ts := l ++ (a ++ ts ++ z)) hd (by simpa using g) fun st1 g1 => ?_
    obtain ⟨st2, e2, g2⟩ := handle_if (e := e) (n := m) (t := t) (cs := cs) (cond_append hc) (by omega) g1
    exact ⟨_, st2, e2, h1 m (by omega) st2 (by simpa using g2)⟩
  | @close D M p t d ts out os D' M' hs _ ih =>
    intro z r ds cs N out' x hk
    obtain ⟨n, ih⟩ := ih z r ds cs N out' x hk
    refine ⟨n + 1, fun m hm st g => ?_⟩
    obtain ⟨m, rfl⟩ : ∃ j, m = j + 1 := ⟨m - 1, by omega⟩
    exact rest_endif hs g (ih m (by omega))
  | @otherwise D M p t2 d2 b t3 d3 ts out1 os1 D1 M1 out2 os2 D2 M2 hs _ hs3 _ ih1 ih2 =>
    intro z r ds cs N out' x hk
    obtain ⟨n4, h4⟩ := ih2 z r (ds ++ os1) cs N out' x (by simpa using hk)
    obtain ⟨n3, h3⟩ := ih1 (t3 :: d3 :: (ts ++ z)) r ds (1 :: cs) (n4 + 1) (out2 ++ out') x (fun m hm st' g => by
      obtain ⟨m, rfl⟩ : ∃ j, m = j + 1 := ⟨m - 1, by omega⟩
      exact rest_endif hs3 g (h4 m (by omega)))
    refine ⟨n3 + 1, fun m hm st g => ?_⟩
    obtain ⟨m, rfl⟩ : ∃ j, m = j + 1 := ⟨m - 1, by omega⟩
    obtain ⟨k1, k2, k3, k4⟩ := hs
    refine rest_dir (ts := b ++ t3 :: d3 :: (ts ++ z)) ⟨k1, k2, k3⟩ (by simpa using g) fun st1 g1 =>
      ⟨⟨1 :: 1 :: cs, M⟩, st1, ?_, (h3 m (by omega) st1 (g1.mono (by omega))).trans (by rw [List.append_assoc])⟩
    unfold handle
    rw [if_neg (by rw [k4]; decide), if_pos (by rw [k4]; decide), if_pos rfl]
    unfold evalCond
    rw [if_neg (by rw [k4]; decide), if_neg (by rw [k4]; decide), if_neg (by rw [k4]; decide), if_pos k4]
    rfl
  | @elifYes D M p t d l a tl ts out1 os1 D1 M1 out2 os2 D2 M2 hd hc _ htl _ ih1 ih2 =>
    intro z r ds cs N out' x hk
    obtain ⟨n3, h3⟩ := ih2 z r (ds ++ os1) cs N out' x (by simpa using hk)
    obtain ⟨n2, h2⟩ := rest_tail htl 1 (by decide) n3 h3
    obtain ⟨n1, h1⟩ := ih1 (tl ++ (ts ++ z)) r ds (1 :: cs) n2 (out2 ++ out') x h2
    refine ⟨n1 + l.length + 2, fun m hm st g => ?_⟩
    obtain ⟨m, rfl⟩ : ∃ j, m = j + 1 := ⟨m - 1, by omega⟩
    refine rest_dir (ts := l ++ (a ++ (tl ++ ts) ++ z)) hd (by simpa using g) fun st1 g1 => ?_
    obtain ⟨st2, e2, g2⟩ := handle_elif (e := e) (n := m) (t := t) (cs := 1 :: cs) (cond_append hc) (by omega) g1
    exact ⟨_, st2, e2, (h1 m (by omega) st2 (by simpa using g2)).trans (by rw [List.append_assoc])⟩
  | @elifNo D M p t d l a ts out os D' M' hd hc ha _ ih =>
    intro z r ds cs N out' x hk
    obtain ⟨n2, h2⟩ := ih z r ds cs N out' x hk
    obtain ⟨n1, h1⟩ := rest_skipped (top := 0) (z := ts ++ z) (by decide) ha n2 h2
    refine ⟨n1 + l.length + 2, fun m hm st g => ?_⟩
    obtain ⟨m, rfl⟩ : ∃ j, m = j + 1 := ⟨m - 1, by omega⟩
    refine rest_dir (ts := l ++ (a ++ ts ++ z)) hd (by simpa using g) fun st1 g1 => ?_
    obtain ⟨st2, e2, g2⟩ := handle_elif (e := e) (n := m) (t := t) (cs := 1 :: cs) (cond_append hc) (by omega) g1
    exact ⟨_, st2, e2, h1 m (by omega) st2 (by simpa using g2)⟩

/-- Two parts of a file one after the other. -/
theorem yields_append {fs : Input.Fs} {tok : Str → List Byte → List Tok} {includes : List Str} {sec : Bool} {a o1 s1 D1 M1}
    (h : Yields fs tok v includes D M p sec a o1 s1 D1 M1) :
    ∀ {b o2 s2 D2 M2}, Yields fs tok v includes D1 M1 p false b o2 s2 D2 M2 → Yields fs tok v includes D M p sec (a ++ b) (o1 ++ o2) (s1 ++ s2) D2 M2 := by
  induction h with
  | nil => intro b o2 s2 D2 M2 h; exact h
  | plain h1 _ ih => intro b o2 s2 D2 M2 h; exact .plain h1 (ih h)
  | null h1 h2 _ ih => intro b o2 s2 D2 M2 h; exact .null h1 h2 (ih h)
  | file h1 h2 h3 h4 h5 _ _ ih => intro b o2 s2 D2 M2 h; simpa using Yields.file h1 h2 h3 h4 h5 (ih h)
  | fileDefine h1 h2 h3 h4 h5 h6 h7 h8 h9 h10 h11 _ _ ih =>
    intro b o2 s2 D2 M2 h; simpa using Yields.fileDefine h1 h2 h3 h4 h5 h6 h7 h8 h9 h10 h11 (ih h)
  | marked h1 h2 h3 h4 _ ih => intro b o2 s2 D2 M2 h; exact .marked h1 h2 h3 h4 (ih h)
  | once h1 h2 _ ih => intro b o2 s2 D2 M2 h; exact .once h1 h2 (ih h)
  | pragma h1 h2 h3 h4 h5 _ ih => intro b o2 s2 D2 M2 h; exact .pragma h1 h2 h3 h4 h5 (ih h)
  | define h1 h2 h3 h4 h5 _ ih => intro b o2 s2 D2 M2 h; simpa using Yields.define h1 h2 h3 h4 h5 (ih h)
  | defineFun h1 h2 h3 h4 h5 h6 _ ih => intro b o2 s2 D2 M2 h; simpa using Yields.defineFun h1 h2 h3 h4 h5 h6 (ih h)
  | undef h1 h2 _ ih => intro b o2 s2 D2 M2 h; exact .undef h1 h2 (ih h)
  | yes h1 h2 h3 h4 _ _ ih => intro b o2 s2 D2 M2 h; simpa using Yields.yes h1 (by simpa using cond_append h2) h3 h4 (ih h)
  | no h1 h2 h3 _ ih => intro b o2 s2 D2 M2 h; simpa using Yields.no h1 (by simpa using cond_append h2) h3 (ih h)
  | close h1 _ ih => intro b o2 s2 D2 M2 h; exact .close h1 (ih h)
  | otherwise h1 h2 h3 _ _ ih => intro b o2 s2 D2 M2 h; simpa using Yields.otherwise h1 h2 h3 (ih h)
  | elifYes h1 h2 h3 h4 _ _ ih => intro b o2 s2 D2 M2 h; simpa using Yields.elifYes h1 (by simpa using cond_append h2) h3 h4 (ih h)
  | elifNo h1 h2 h3 _ ih => intro b o2 s2 D2 M2 h; simpa using Yields.elifNo h1 (by simpa using cond_append h2) h3 (ih h)

/-- A guarded file yields nothing when the macro of its guard is defined. -/
theorem guarded_yields {fs : Input.Fs} {tok : Str → List Byte → List Tok} {includes : List Str} {h : Str} (hg : Guarded h ts) (hm : IsDefined M h) :
    Yields fs tok v includes D M p false ts [] [] D M := by
  obtain ⟨t, d, x, t1, d1, y, a, t2, d2, h1, rfl, hx, h2, hy, hy', ha, h3, rfl⟩ := hg
  have hs : Skipped 0 (t1 :: d1 :: y :: a) :=
    .other ⟨h2.1, h2.2.1, h2.2.2.1⟩ (by unfold Opens; rw [h2.2.2.2]; decide) (by unfold Further; rw [h2.2.2.2]; decide) (by rw [h2.2.2.2]; decide)
      (.text hy' ha)
  have := Yields.no (fs := fs) (tok := tok) (v := v) (includes := includes) (D := D) (M := M) (p := p) (t := t) (d := d) (l := [x]) (ts := [t2, d2])
    (out := []) (os := []) ⟨h1.1, h1.2.1, h1.2.2.1⟩ (.ifndefNot h1.2.2.2 hm) hs (.close h3 .nil)
  simpa using this

end Verif.Guard
