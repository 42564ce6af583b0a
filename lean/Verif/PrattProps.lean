import Verif.PrattLemmas
/-!
C29: the expression parser builds the tree the C17 grammar prescribes.

`PrattSpec.Derives` is the grammar of C17 6.5; `lower` gives the compiler's tree for a tree
of the grammar.
-/
namespace Verif.Pratt
open Verif Simple
open Verif.PrattSpec (E Un Bin NT Lang Derives)
open Verif.Run

/-- The tokens that can follow a full expression, in a statement, a declaration or inside
brackets. -/
def enders : List TType :=
  [.T_RPAR, .T_SEMI_COLON, .T_RBRACK, .T_COLON, .T_RBRACE, .T_LBRACE, .T_EOI]

/-- C29: every expression of the grammar, of any length and depth, is parsed to its tree,
and the parser stops at the token after it.  Full statement: without `Plain`, of which
only the part about `&` of a register variable is demanded by the standard. -/
theorem expression_parsing_partial {env : Env} {L : Lang} (hF : Fits env L) {ts : List Tok} {e : E}
    (h : Derives L .expression ts e) (hp : Plain env e) (r : List Tok) (hr : head r ∈ enders) :
    Ends (fun n => parseExpression env n (ts ++ r)) (.ok (some (lower e), r)) := by
  have h0 : PPExpr.precTable (head r) = 0 := by
    generalize head r = t at hr
    have : ∀ t ∈ enders, PPExpr.precTable t = 0 := by decide
    exact this t hr
  exact ((climb hF h hp).1 (by simp)).close 0 r (by simp) (.inl (by decide)) ⟨by omega, by omega, by omega⟩ (by omega)

/-- C29: the same for assignment-expressions (arguments, initializers), which a comma can follow. -/
theorem assignment_parsing_partial {env : Env} {L : Lang} (hF : Fits env L) {ts : List Tok} {e : E}
    (h : Derives L .assignment ts e) (hp : Plain env e) (r : List Tok)
    (hr : head r ∈ TType.T_COMMA :: enders) :
    Ends (fun n => parseAssignment env n (ts ++ r)) (.ok (some (lower e), r)) := by
  have h0 : PPExpr.precTable (head r) ≤ 1 := by
    generalize head r = t at hr
    have : ∀ t ∈ TType.T_COMMA :: enders, PPExpr.precTable t ≤ 1 := by decide
    exact this t hr
  exact ((climb hF h hp).1 (by simp)).close 1 r (by simp) (.inl (by decide)) ⟨by simp [lvl]; omega, by omega, by omega⟩ h0

/-- C29: so the parser leaves no ambiguity: two derivations of the same tokens have the
same tree. -/
theorem expression_unambiguous {env : Env} {L : Lang} (hF : Fits env L) {ts : List Tok} {e₁ e₂ : E}
    (h₁ : Derives L .expression ts e₁) (h₂ : Derives L .expression ts e₂)
    (p₁ : Plain env e₁) (p₂ : Plain env e₂) : lower e₁ = lower e₂ := by
  obtain ⟨M, a⟩ := expression_parsing_partial hF h₁ p₁ [] (by decide)
  obtain ⟨N, b⟩ := expression_parsing_partial hF h₂ p₂ [] (by decide)
  have a := a (max M N) (by omega)
  have b := b (max M N) (by omega)
  simp only at a b
  rw [a] at b
  simpa using b

/-! ### A concrete language -/

/-- A token of a type, all that matters here. -/
def tk (ty : TType) : Tok := { type := ty }

/-- Type names: `int`, `int *`, `int **`, ...; braced lists: `{ 1 }`; every identifier is declared. -/
def exLang : Lang where
  TypeName ty := ∃ t s, ty = t :: s ∧ t.type = .T_KINT ∧ ∀ u ∈ s, u.type = .T_STAR
  Braced b := ∃ l x r : Tok, b = [l, x, r] ∧ l.type = .T_LBRACE ∧ x.type = .T_NUM ∧ r.type = .T_RBRACE
  Ordinary _ := True

/-- The matching environment. -/
def exEnv : Env where
  typeName
    | t :: r => if t.type = .T_KINT then
        some (t :: r.takeWhile (·.type == .T_STAR), r.dropWhile (·.type == .T_STAR)) else none
    | [] => none
  initializer
    | l :: x :: r :: rest => if l.type = .T_LBRACE ∧ x.type = .T_NUM ∧ r.type = .T_RBRACE then
        some ([l, x, r], rest) else none
    | _ => none
  known _ := true
  register _ := false

theorem exFits : Fits exEnv exLang where
  typeYes := by
    rintro ty r rest ⟨t, s, rfl, ht, hs⟩ hr
    have h1 : (s ++ r :: rest).takeWhile (·.type == .T_STAR) = s := by
      rw [List.takeWhile_append_of_pos (by simpa using hs)]
      simp [hr]
    have h2 : (s ++ r :: rest).dropWhile (·.type == .T_STAR) = r :: rest := by
      rw [List.dropWhile_append_of_pos (by simpa using hs)]
      simp [hr]
    simp [exEnv, ht, h1, h2]
  typeNo := by
    rintro t rest (h | h)
    · have : t.type ≠ .T_KINT := by
        intro h'; rw [h'] at h; revert h; decide
      simp [exEnv, this]
    · simp [exEnv, h.1]
  braced := by
    rintro b r ⟨l, x, rb, rfl, h1, h2, h3⟩
    simp [exEnv, h1, h2, h3]
  bracedHead := by
    rintro b ⟨l, x, rb, rfl, h1, _⟩
    exact ⟨l, _, rfl, h1⟩
  known _ _ := rfl

/-- C29 fails: `sizeof (int){1}` is an expression of the grammar, but the parser takes it
for `sizeof (int)` and stops at the brace. -/
theorem sizeof_compound_violated :
    ∃ (env : Env) (L : Lang) (ts : List Tok) (e : E), Fits env L ∧ Derives L .expression ts e ∧
      ∃ ce r, r ≠ [] ∧ Ends (fun n => parseExpression env n ts) (.ok (some ce, r)) := by
  refine ⟨exEnv, exLang, tk .T_KSIZEOF :: (tk .T_LPAR :: [tk .T_KINT] ++ tk .T_RPAR :: [tk .T_LBRACE, tk .T_NUM, tk .T_RBRACE]),
    .un .sizeof (.compound [tk .T_KINT] [tk .T_LBRACE, tk .T_NUM, tk .T_RBRACE]), exFits, ?_,
    .sizeofT [tk .T_KINT], [tk .T_LBRACE, tk .T_NUM, tk .T_RBRACE], by simp, ⟨4, fun n hn => ?_⟩⟩
  · have hu : Derives exLang .unary (tk .T_KSIZEOF :: (tk .T_LPAR :: [tk .T_KINT] ++ tk .T_RPAR :: [tk .T_LBRACE, tk .T_NUM, tk .T_RBRACE]))
        (.un .sizeof (.compound [tk .T_KINT] [tk .T_LBRACE, tk .T_NUM, tk .T_RBRACE])) :=
      .unU _ _ _ _ (by decide) (.up _ _ _ _ rfl (.compound _ _ _ _ rfl rfl ⟨_, _, rfl, rfl, by simp⟩ ⟨_, _, _, rfl, rfl, rfl, rfl⟩))
    iterate 14 refine .up _ _ _ _ rfl ?_
    exact hu
  · obtain ⟨n, rfl⟩ : ∃ m, n = m + 4 := ⟨n - 4, by omega⟩
    rfl

/-- Without brackets and parentheses there is no `?` and no `=` below the conditional level. -/
theorem no_cond_below {L : Lang} {n ts e} (h : Derives L n ts e) :
    3 ≤ lvl n → (∀ t ∈ ts, t.type ≠ .T_LPAR ∧ t.type ≠ .T_LBRACK) →
      ∀ t ∈ ts, t.type ≠ .T_QUEST ∧ t.type ≠ .T_A := by
  induction h with
  | const t ht =>
    intro _ _ u hu
    simp at hu; subst hu
    constructor <;> (intro h; rw [h] at ht; revert ht; decide)
  | ident t ht _ => intro _ _ u hu; simp at hu; subst hu; simp [ht]
  | par l r ts e hl => intro _ hn; exact absurd hl (hn l (by simp)).1
  | up n m ts e hm _ ih => intro hl hn; exact ih (by have := (lvl_tighter n m hm).1; omega) hn
  | index l r ts₁ ts₂ a i hl => intro _ hn; exact absurd hl (hn l (by simp)).2
  | call0 l r ts₁ f hl => intro _ hn; exact absurd hl (hn l (by simp)).1
  | call l r ts₁ ts₂ f as hl => intro _ hn; exact absurd hl (hn l (by simp)).1
  | arg ts a _ ih => intro hl; simp [lvl] at hl
  | args c ts₁ ts₂ a as _ _ _ ih => intro hl; simp [lvl] at hl
  | dot d m ts a h1 h2 _ ih =>
    intro hl hn t ht
    simp at ht
    rcases ht with ht | rfl | rfl
    · exact ih hl (fun t ht => hn t (by simp [ht])) t ht
    · simp [h1]
    · simp [h2]
  | arrow d m ts a h1 h2 _ ih =>
    intro hl hn t ht
    simp at ht
    rcases ht with ht | rfl | rfl
    · exact ih hl (fun t ht => hn t (by simp [ht])) t ht
    · simp [h1]
    · simp [h2]
  | postInc t ts a h1 _ ih =>
    intro hl hn u hu
    simp at hu
    rcases hu with hu | rfl
    · exact ih hl (fun t ht => hn t (by simp [ht])) u hu
    · simp [h1]
  | postDec t ts a h1 _ ih =>
    intro hl hn u hu
    simp at hu
    rcases hu with hu | rfl
    · exact ih hl (fun t ht => hn t (by simp [ht])) u hu
    · simp [h1]
  | compound l r ty b hl => intro _ hn; exact absurd hl (hn l (by simp)).1
  | unU t o ts a h _ ih =>
    intro hl hn u hu
    simp at hu
    rcases hu with rfl | hu
    · have : ∀ p ∈ PrattSpec.unaryOps, p.1 ≠ .T_QUEST ∧ p.1 ≠ .T_A := by decide
      exact this _ h
    · exact ih (by decide) (fun t ht => hn t (by simp [ht])) u hu
  | unC t o ts a h _ ih =>
    intro hl hn u hu
    simp at hu
    rcases hu with rfl | hu
    · have : ∀ p ∈ PrattSpec.castOps, p.1 ≠ .T_QUEST ∧ p.1 ≠ .T_A := by decide
      exact this _ h
    · exact ih (by decide) (fun t ht => hn t (by simp [ht])) u hu
  | sizeofT k l r ty _ hl => intro _ hn; exact absurd hl (hn l (by simp)).1
  | alignofT k l r ty _ hl => intro _ hn; exact absurd hl (hn l (by simp)).1
  | cast l r ty ts a hl => intro _ hn; exact absurd hl (hn l (by simp)).1
  | bin n m t o ts₁ ts₂ a b ho hm _ _ iha ihb =>
    intro hl hn u hu
    simp at hu
    rcases hu with hu | rfl | hu
    · exact iha hl (fun t ht => hn t (by simp [ht])) u hu
    · have : ∀ n, ∀ p ∈ PrattSpec.ops n, p.1 ≠ .T_QUEST ∧ p.1 ≠ .T_A := by intro n; cases n <;> decide
      exact this _ _ ho
    · exact ihb (by have := (lvl_tighter n m hm).1; omega) (fun t ht => hn t (by simp [ht])) u hu
  | cond => intro hl; simp [lvl] at hl
  | assign => intro hl; simp [lvl] at hl
  | assignOp => intro hl; simp [lvl] at hl
  | comma => intro hl; simp [lvl] at hl

/-- The tokens of `a ? b : c = d`. -/
def condAssign : List Tok :=
  [tk .T_IDENT, tk .T_QUEST, tk .T_IDENT, tk .T_COLON, tk .T_IDENT, tk .T_A, tk .T_IDENT]

/-- C29 fails the other way too: `a ? b : c = d`, which no rule of the grammar derives, is
accepted and read as `a ? b : (c = d)`. -/
theorem conditional_assignment_violated :
    ∃ (env : Env) (L : Lang), Fits env L ∧ (¬ ∃ e, Derives L .expression condAssign e) ∧
      Ends (fun n => parseExpression env n condAssign)
        (.ok (some (.cond (.ident (tk .T_IDENT)) (.ident (tk .T_IDENT))
          (.assign (.ident (tk .T_IDENT)) (.ident (tk .T_IDENT)))), [])) := by
  refine ⟨exEnv, exLang, exFits, ?_, ⟨12, fun n hn => ?_⟩⟩
  · rintro ⟨e, h⟩
    have below : ∀ {n ts e}, Derives exLang n ts e → 3 ≤ lvl n → (∀ t ∈ ts, t ∈ condAssign) →
        ∀ t ∈ ts, t.type ≠ .T_QUEST ∧ t.type ≠ .T_A := by
      intro n ts e h hl hs
      refine no_cond_below h hl fun t ht => ?_
      have := hs t ht
      simp [condAssign] at this
      rcases this with rfl | rfl | rfl | rfl | rfl | rfl | rfl <;> simp [tk]
    -- a conditional-expression has no `=` after its colon
    have cond : ∀ {ts e}, Derives exLang .conditional ts e → ts = condAssign → False := by
      intro ts e h he
      cases h with
      | up _ m _ _ hm h =>
        simp [PrattSpec.tighter] at hm
        subst hm
        exact (below h (by decide) (fun t ht => he ▸ ht) (tk .T_QUEST) (by rw [he]; simp [condAssign])).1 rfl
      | bin _ _ _ _ _ _ _ _ ho => simp [PrattSpec.ops] at ho
      | cond q k ts₁ ts₂ ts₃ c a b hq hk h1 h2 h3 =>
        generalize hpre : ts₁ ++ q :: ts₂ = pre at he
        have h3t : ts₃ = [tk .T_IDENT, tk .T_A, tk .T_IDENT] := by
          simp only [condAssign] at he
          match pre with
          | [] => simp at he; simp [he.1, tk] at hk
          | [_] => simp at he; simp [he.2.1, tk] at hk
          | [_, _] => simp at he; simp [he.2.2.1, tk] at hk
          | [_, _, _] => simp at he; exact he.2.2.2.2
          | [_, _, _, _] => simp at he; simp [he.2.2.2.2.1, tk] at hk
          | [_, _, _, _, _] => simp at he; simp [he.2.2.2.2.2.1, tk] at hk
          | [_, _, _, _, _, _] => simp at he; simp [he.2.2.2.2.2.2.1, tk] at hk
          | _ :: _ :: _ :: _ :: _ :: _ :: _ :: _ => simp at he
        clear he hpre
        generalize hs : ts₃ = us at h3
        cases h3 with
        | up _ m _ _ hm h =>
          simp [PrattSpec.tighter] at hm
          subst hm
          refine (below h (by decide) (fun t ht => ?_) (tk .T_A) (by rw [← hs, h3t]; simp)).2 rfl
          rw [← hs, h3t] at ht
          simp at ht
          simp [condAssign]
          rcases ht with rfl | rfl | rfl <;> simp
        | bin _ _ _ _ _ _ _ _ ho => simp [PrattSpec.ops] at ho
        | cond q' k' us₁ us₂ us₃ _ _ _ hq' _ _ _ _ =>
          rw [h3t] at hs
          have : q' ∈ [tk .T_IDENT, tk .T_A, tk .T_IDENT] := by rw [hs]; simp
          simp at this
          rcases this with rfl | rfl | rfl <;> simp [tk] at hq'
    generalize hts : condAssign = ts at h
    cases h with
    | up _ m _ _ hm h =>
      simp [PrattSpec.tighter] at hm
      subst hm
      cases h with
      | up _ m _ _ hm h =>
        simp [PrattSpec.tighter] at hm
        subst hm
        exact cond h hts.symm
      | bin _ _ _ _ _ _ _ _ ho => simp [PrattSpec.ops] at ho
      | assign t ts₁ ts₂ a b ht h1 h2 =>
        -- the left operand would contain the `?`
        have e1 : ts₁ = [tk .T_IDENT, tk .T_QUEST, tk .T_IDENT, tk .T_COLON, tk .T_IDENT] := by
          simp only [condAssign] at hts
          match ts₁ with
          | [] => simp at hts; simp [← hts.1, tk] at ht
          | [_] => simp at hts; simp [← hts.2.1, tk] at ht
          | [_, _] => simp at hts; simp [← hts.2.2.1, tk] at ht
          | [_, _, _] => simp at hts; simp [← hts.2.2.2.1, tk] at ht
          | [_, _, _, _] => simp at hts; simp [← hts.2.2.2.2.1, tk] at ht
          | [_, _, _, _, _] => simp at hts; obtain ⟨h1, h2, h3, h4, h5, _⟩ := hts; rw [← h1, ← h2, ← h3, ← h4, ← h5]
          | [_, _, _, _, _, _] => simp at hts; simp [← hts.2.2.2.2.2.2.1, tk] at ht
          | _ :: _ :: _ :: _ :: _ :: _ :: _ :: _ => simp at hts
        exact (below h1 (by decide) (fun t ht => by rw [hts]; simp [ht]) (tk .T_QUEST) (by rw [e1]; simp)).1 rfl
      | assignOp t o ts₁ ts₂ a b ho h1 h2 =>
        have : t ∈ condAssign := by rw [hts]; simp
        simp [condAssign] at this
        revert ho
        rcases this with rfl | rfl | rfl | rfl | rfl | rfl | rfl <;> simp [tk, PrattSpec.assignOps]
    | bin _ _ _ _ _ _ _ _ ho => simp [PrattSpec.ops] at ho
    | comma t ts₁ ts₂ a b ht h1 h2 =>
      have : t ∈ condAssign := by rw [hts]; simp
      simp [condAssign] at this
      rcases this with rfl | rfl | rfl | rfl | rfl | rfl | rfl <;> simp [tk] at ht
  · obtain ⟨n, rfl⟩ : ∃ m, n = m + 12 := ⟨n - 12, by omega⟩
    rfl

/-! ### The hypotheses hold for concrete expressions -/

/-- `a = - b , 1` is derived, and meets the hypotheses. -/
example : ∃ ts e, Derives exLang .expression ts e ∧ Plain exEnv e ∧ head [tk .T_SEMI_COLON] ∈ enders := by
  refine ⟨([tk .T_IDENT] ++ tk .T_A :: [tk .T_SUB, tk .T_IDENT]) ++ tk .T_COMMA :: [tk .T_NUM],
    .comma (.assign (.ident (tk .T_IDENT)) (.un .neg (.ident (tk .T_IDENT)))) (.const (tk .T_NUM)), ?_,
    by simp [Plain], by decide⟩
  refine .comma _ _ _ _ _ rfl (.up _ _ _ _ rfl (.assign _ _ _ _ _ rfl ?_ ?_)) ?_
  · exact .up _ _ _ _ rfl (.up _ _ _ _ rfl (.ident _ rfl trivial))
  · iterate 13 refine .up _ _ _ _ rfl ?_
    refine .unC _ _ _ _ (by decide) ?_
    iterate 3 refine .up _ _ _ _ rfl ?_
    exact .ident _ rfl trivial
  · iterate 15 refine .up _ _ _ _ rfl ?_
    exact .const _ (by decide)

end Verif.Pratt
