import Verif.EncodeSpec
/-!
Lemmas about the search of the encoding table (src/assembler/encode.c:444-624).
-/
namespace Verif.Encode
open Verif Verif.EncodeSpec

/-- The row matches the four operands by `does_match`. -/
def Matches (e : Encoding) (ops : List Operand) : Prop :=
  matchAll ops (pad4 .empty e.operandAccepts) = .ok true

instance (e : Encoding) (ops : List Operand) : Decidable (Matches e ops) := by
  unfold Matches; exact inferInstance

theorem search_spec (mn : String) (ops : List Operand) (es : List Encoding) :
    ∀ (best r : Option (List Byte × List Rel)), search mn ops es best = .ok r →
      (∀ b, best = some b → b.1.length ≤ 15) →
      (∀ e ∈ es, e.mnemonic = mn → ∃ m, matchAll ops (pad4 .empty e.operandAccepts) = .ok m) ∧
      (∀ e ∈ es, e.mnemonic = mn → Matches e ops →
        ∃ out o, assembleEncoding e ops = .ok out ∧ r = some o ∧ o.1.length ≤ out.1.length) ∧
      (∀ b, best = some b → ∃ o, r = some o ∧ o.1.length ≤ b.1.length) ∧
      (∀ o, r = some o → best = some o ∨
        ∃ e ∈ es, e.mnemonic = mn ∧ Matches e ops ∧ assembleEncoding e ops = .ok o) := by
  induction es with
  | nil =>
    intro best r h hb
    simp only [search, Res.ok.injEq] at h
    subst h
    refine ⟨by simp, by simp, fun b hb => ⟨b, hb, Nat.le_refl _⟩, fun o ho => .inl ho⟩
  | cons e es ih =>
    intro best r h hb
    rw [search] at h
    by_cases hm : e.mnemonic ≠ mn
    · rw [if_pos hm] at h
      obtain ⟨a, b, c, d⟩ := ih best r h hb
      refine ⟨?_, ?_, c, ?_⟩
      · intro e' he' hmn
        rcases List.mem_cons.1 he' with rfl | he'
        · exact absurd hmn hm
        · exact a e' he' hmn
      · intro e' he' hmn
        rcases List.mem_cons.1 he' with rfl | he'
        · exact absurd hmn hm
        · exact b e' he' hmn
      · intro o ho
        rcases d o ho with h | ⟨e', he', h⟩
        · exact .inl h
        · exact .inr ⟨e', List.mem_cons_of_mem _ he', h⟩
    · rw [if_neg hm] at h
      cases hma : matchAll ops (pad4 .empty e.operandAccepts) with
      | fail => rw [hma] at h; exact absurd h (by simp)
      | ub => rw [hma] at h; exact absurd h (by simp)
      | ok m =>
        rw [hma] at h
        cases m with
        | false =>
          simp only [Res.bind_ok, Bool.false_eq_true, if_false] at h
          obtain ⟨a, b, c, d⟩ := ih best r h hb
          refine ⟨?_, ?_, c, ?_⟩
          · intro e' he' hmn
            rcases List.mem_cons.1 he' with rfl | he'
            · exact ⟨_, hma⟩
            · exact a e' he' hmn
          · intro e' he' hmn
            rcases List.mem_cons.1 he' with rfl | he'
            · intro hM; rw [Matches, hma] at hM; cases hM
            · exact b e' he' hmn
          · intro o ho
            rcases d o ho with h | ⟨e', he', h⟩
            · exact .inl h
            · exact .inr ⟨e', List.mem_cons_of_mem _ he', h⟩
        | true =>
          simp only [Res.bind_ok, if_true] at h
          cases hc : assembleEncoding e ops with
          | fail => rw [hc] at h; exact absurd h (by simp)
          | ub => rw [hc] at h; exact absurd h (by simp)
          | ok cur =>
            rw [hc, Res.bind_ok] at h
            have hlen : cur.1.length ≤ 15 := by
              rw [assembleEncoding] at hc
              obtain ⟨p, _, hp⟩ := Res.bind_eq_ok.1 hc
              dsimp only at hp
              split at hp
              · next hl => injection hp with hp; subst hp; exact hl
              · cases hp
            suffices hn : ∃ best', (∀ b, best' = some b → b.1.length ≤ 15) ∧
                search mn ops es best' = .ok r ∧ ∃ n, best' = some n ∧ n.1.length ≤ cur.1.length ∧
                  (∀ b, best = some b → n.1.length ≤ b.1.length) ∧ (n = cur ∨ best = some n) by
              obtain ⟨best', hb', h', n, hn1, hn2, hn3, hn4⟩ := hn
              obtain ⟨a, b, c, d⟩ := ih best' r h' hb'
              obtain ⟨o, ho, hol⟩ := c n hn1
              refine ⟨?_, ?_, ?_, ?_⟩
              · intro e' he' hmn
                rcases List.mem_cons.1 he' with rfl | he'
                · exact ⟨_, hma⟩
                · exact a e' he' hmn
              · intro e' he' hmn hM
                rcases List.mem_cons.1 he' with rfl | he'
                · exact ⟨cur, o, hc, ho, by omega⟩
                · exact b e' he' hmn hM
              · intro b hb
                have := hn3 b hb
                exact ⟨o, ho, by omega⟩
              · intro o' ho'
                rcases d o' ho' with h | ⟨e', he', h⟩
                · rw [hn1] at h
                  injection h with h
                  subst h
                  rcases hn4 with h | h
                  · refine .inr ⟨e, List.mem_cons_self, Decidable.not_not.1 hm, hma, ?_⟩
                    rw [hc, h]
                  · exact .inl h
                · exact .inr ⟨e', List.mem_cons_of_mem _ he', h⟩
            cases best with
            | none =>
              rw [bestLen] at h
              rw [if_pos (show cur.1.length < 16 by omega)] at h
              exact ⟨some cur, fun b hb => by injection hb with hb; subst hb; exact hlen, h,
                cur, rfl, Nat.le_refl _, by simp, .inl rfl⟩
            | some b =>
              rw [bestLen] at h
              by_cases hlt : cur.1.length < b.1.length
              · rw [if_pos hlt] at h
                exact ⟨some cur, fun b hb => by injection hb with hb; subst hb; exact hlen, h,
                  cur, rfl, Nat.le_refl _, fun b' hb' => by injection hb' with hb'; subst hb'; omega,
                    .inl rfl⟩
              · rw [if_neg hlt] at h
                exact ⟨some b, fun b' hb' => hb b' hb', h,
                  b, rfl, by omega, fun b' hb' => by injection hb' with hb'; subst hb'; exact Nat.le_refl _,
                    .inr rfl⟩

/-- The encoder succeeds (with or without a result) if no matching row stops it. -/
theorem search_ok (mn : String) (ops : List Operand) (es : List Encoding) :
    ∀ (best : Option (List Byte × List Rel)),
      (∀ e ∈ es, e.mnemonic = mn → ∃ m, matchAll ops (pad4 .empty e.operandAccepts) = .ok m) →
      (∀ e ∈ es, e.mnemonic = mn → Matches e ops → ∃ out, assembleEncoding e ops = .ok out) →
      ∃ r, search mn ops es best = .ok r := by
  induction es with
  | nil => intro best _ _; exact ⟨best, rfl⟩
  | cons e es ih =>
    intro best h1 h2
    have h1' := fun e' he' => h1 e' (List.mem_cons_of_mem _ he')
    have h2' := fun e' he' => h2 e' (List.mem_cons_of_mem _ he')
    rw [search]
    by_cases hm : e.mnemonic ≠ mn
    · rw [if_pos hm]; exact ih best h1' h2'
    · rw [if_neg hm]
      have hm := Decidable.not_not.1 hm
      obtain ⟨m, hma⟩ := h1 e List.mem_cons_self hm
      rw [hma]
      cases m with
      | false =>
        simp only [Res.bind_ok, Bool.false_eq_true, if_false]
        exact ih best h1' h2'
      | true =>
        obtain ⟨cur, hc⟩ := h2 e List.mem_cons_self hm hma
        simp only [Res.bind_ok, if_true, hc]
        exact ih _ h1' h2'

/-- `does_match` never accepts less than the description. -/
theorem doesMatch_of_accepts {a : Acc} {o : Operand} (h : accepts a o) : doesMatch o a = .ok true := by
  cases a <;> cases o <;>
    simp only [accepts, doesMatch, Res.ok.injEq, Bool.and_eq_true, beq_iff_eq, decide_eq_true_eq] at h ⊢ <;>
    first
      | exact h
      | (obtain ⟨h1, h2⟩ := h; first | exact ⟨h2, h1⟩ | omega)
      | omega

/-- `does_match` accepts no more than the description, apart from `ACC_EMPTY` and the unsigned
immediates. -/
theorem accepts_of_doesMatch {a : Acc} {o : Operand} (h : doesMatch o a = .ok true)
    (hu : (a = .imm8u ∨ a = .imm16u) → ∀ l v, o = .imm l v → 0 ≤ v.toInt)
    (he : a = .empty → o = .empty) : accepts a o := by
  cases a <;> cases o <;>
    simp only [accepts, doesMatch, Res.ok.injEq, Bool.and_eq_true, beq_iff_eq, decide_eq_true_eq,
      Bool.false_eq_true, reduceCtorEq] at h ⊢ <;>
    first
      | exact h
      | (obtain ⟨h1, h2⟩ := h; first | exact ⟨h2, h1⟩ | omega)
      | omega
      | exact absurd (he rfl) (by simp)
      | exact ⟨hu (by simp) _ _ rfl, by omega⟩

theorem matchAll_of_accepts : ∀ {as : List Acc} {os : List Operand} {n : Nat}, Accepts as os →
    matchAll (os ++ List.replicate n .empty) (as ++ List.replicate n .empty) = .ok true := by
  intro as
  induction as with
  | nil =>
    intro os n h
    cases os with
    | nil =>
      simp only [List.nil_append]
      induction n with
      | zero => rfl
      | succ n ih => simp only [List.replicate_succ, matchAll, doesMatch, Res.bind_ok, if_true, ih]
    | cons o os => exact h.elim
  | cons a as ih =>
    intro os n h
    cases os with
    | nil => exact h.elim
    | cons o os =>
      simp only [List.cons_append, matchAll, doesMatch_of_accepts h.1, Res.bind_ok, if_true]
      exact ih h.2

theorem matchAll_length : ∀ {as : List Acc} {os : List Operand},
    matchAll os as = .ok true → ∀ (i : Nat) o a, os[i]? = some o → as[i]? = some a → doesMatch o a = .ok true := by
  intro as
  induction as with
  | nil => intro os _ i o a _ ha; simp at ha
  | cons a as ih =>
    intro os h
    cases os with
    | nil => intro i o a ho; simp at ho
    | cons o os =>
      simp only [matchAll] at h
      obtain ⟨m, hm, h⟩ := Res.bind_eq_ok.1 h
      cases m with
      | false => simp at h
      | true =>
        intro i o' a' ho ha
        cases i with
        | zero => simp only [List.getElem?_cons_zero, Option.some.injEq] at ho ha; subst ho ha; exact hm
        | succ i =>
          simp only [List.getElem?_cons_succ] at ho ha
          exact ih (by simpa using h) i o' a' ho ha

theorem pad4_eq {α : Type} (z : α) (l : List α) (h : l.length ≤ 4) :
    pad4 z l = l ++ List.replicate (4 - l.length) z := by
  match l, h with
  | [], _ => rfl
  | [_], _ => rfl
  | [_, _], _ => rfl
  | [_, _, _], _ => rfl
  | [_, _, _, _], _ => rfl
  | _ :: _ :: _ :: _ :: _ :: _, h => simp at h

end Verif.Encode
