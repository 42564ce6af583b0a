import Verif.PPExpr
import Verif.PPExprSpec
import Verif.SimpleProps
/-!
Helper lemmas: the precedence-climbing loop computes the grammar's tree.
-/
namespace Verif.PPExpr
open Verif Simple SimpleSpec PPExprSpec

/-- The tree `e` evaluated with the compiler's own operator actions; `ev` is `evaluate`.
This is what "parsed as the grammar says" means for an evaluator without a tree. -/
def evalTree (abi : Abi) : Bool → E → Res V
  | _, .lit t => literal abi (next [t]).1
  | ev, .un o e => do
    let v ← evalTree abi ev e
    match o with
    | .plus => pure v
    | .neg => negV v
    | .not => pure (notV v)
    | .compl => .fail
  | ev, .bin o a b => do
    let x ← evalTree abi ev a
    match o with
    | .land => do
      let y ← evalTree abi (if !isZero x then ev else false) b
      pure (boolV (!isZero x && !isZero y))
    | .lor => do
      let y ← evalTree abi (if isZero x then ev else false) b
      pure (boolV (!isZero x || !isZero y))
    | .arith o => do
      let y ← evalTree abi ev b
      binAct ev (tokOf o) x y
  | ev, .cond c a b => do
    let x ← evalTree abi ev c
    let y ← evalTree abi (if !isZero x then ev else false) a
    let z ← evalTree abi (if isZero x then ev else false) b
    pure (if !isZero x then y else z)
where
  /-- The punctuator of an operator. -/
  tokOf : Op → TType
    | .add => .T_ADD | .sub => .T_SUB | .mul => .T_STAR | .div => .T_DIV | .mod => .T_MOD
    | .bxor => .T_XOR | .bor => .T_BOR | .band => .T_AMP | .lshift => .T_LSHIFT
    | .rshift => .T_RSHIFT | .less => .T_L | .greater => .T_G | .lessEq => .T_LEQ
    | .greaterEq => .T_GEQ | .equal => .T_EQ | .notEqual => .T_NEQ

/-- Does the tree contain `~`? -/
def NoCompl : E → Prop
  | .lit _ => True
  | .un o e => o ≠ .compl ∧ NoCompl e
  | .bin _ a b => NoCompl a ∧ NoCompl b
  | .cond c a b => NoCompl c ∧ NoCompl a ∧ NoCompl b

/-- `f` ends with `x` for all sufficient fuel. -/
def Fin {α : Type} (f : Nat → Run α) (x : Run α) : Prop := ∃ M, ∀ n, M ≤ n → f n = x

section fin
variable {α β : Type}

theorem Fin.const (x : Run α) : Fin (fun _ => x) x := ⟨0, fun _ _ => rfl⟩

theorem Fin.succ {f : Nat → Run α} {x} (h : Fin (fun n => f (n + 1)) x) : Fin f x := by
  obtain ⟨M, h⟩ := h
  refine ⟨M + 1, fun n hn => ?_⟩
  have : f (n - 1 + 1) = x := h (n - 1) (by omega)
  rwa [Nat.sub_add_cancel (by omega)] at this

theorem Fin.bind {f : Nat → Run α} {g : Nat → α → Run β} {y : Run α} {x : Run β} (h1 : Fin f y)
    (h2 : Fin (fun n => y >>= g n) x) : Fin (fun n => f n >>= g n) x := by
  obtain ⟨M, h1⟩ := h1
  obtain ⟨N, h2⟩ := h2
  exact ⟨max M N, fun n hn => by show f n >>= g n = x; rw [h1 n (by omega)]; exact h2 n (by omega)⟩

theorem Fin.congr {f g : Nat → Run α} {x} (h : ∀ n, f n = g n) (hg : Fin g x) : Fin f x := by
  rwa [funext h]

end fin

/-- Levels of the precedence table. -/
def lvl : NT → Nat
  | .primary => 14 | .unary => 13 | .multiplicative => 12 | .additive => 11 | .shift => 10
  | .relational => 9 | .equality => 8 | .and => 7 | .exclusiveOr => 6 | .inclusiveOr => 5
  | .logicalAnd => 4 | .logicalOr => 3 | .conditional => 2

theorem lvl_tighter (n : NT) : lvl n ≤ lvl (tighter n) ∧ lvl (tighter n) ≤ 14 ∧
    (n ≠ .primary → lvl (tighter n) = lvl n + 1) := by cases n <;> decide

/-- What may follow something derived from a nonterminal of level `k`. -/
def Follows (k : Nat) (r : List Tok) : Prop :=
  ∃ t r', r = t :: r' ∧ t.type ≠ .T_IDENT ∧ precTable t.type ≤ k ∧ precTable t.type ≤ 12 ∧
    (k ≤ 2 → precTable t.type ≤ 1)

theorem Follows.mono {k k' r} (h : Follows k r) (hk : k ≤ k') : Follows k' r := by
  obtain ⟨t, r', h1, h2, h3, h4, h5⟩ := h
  exact ⟨t, r', h1, h2, by omega, h4, fun h => h5 (by omega)⟩

theorem evalLoop_stop {abi ev v r n p} (h : ∃ t r', r = t :: r' ∧ t.type ≠ .T_IDENT ∧ precTable t.type ≤ p) :
    evalLoop abi (n + 1) p ev v r = .ok (v, r) := by
  obtain ⟨t, r', rfl, h2, h3⟩ := h
  simp [evalLoop, next, h2, precGet, Nat.not_lt.2 h3]

/-- How the loop recognises an operator. -/
def IsTok (t : TType) : Bin → Prop
  | .land => t = .T_AND
  | .lor => t = .T_OR
  | .arith o => t ≠ .T_AND ∧ t ≠ .T_OR ∧ t = evalTree.tokOf o

instance (t o) : Decidable (IsTok t o) := by unfold IsTok; cases o <;> infer_instance

/-- The grammar's operators in the precedence table. -/
theorem ops_table (n : NT) : ∀ p ∈ ops n,
    precTable p.1 = lvl n ∧ 3 ≤ lvl n ∧ lvl n ≤ 12 ∧ n ≠ .primary ∧ p.1 ≠ .T_IDENT ∧ p.1 ≠ .T_QUEST ∧
    IsTok p.1 p.2 := by
  cases n <;> decide

/-- The main invariant of precedence climbing. -/
theorem climb (abi : Abi) : ∀ {k : NT} {ts : List Tok} {e : E}, Derives k ts e → NoCompl e →
    ∀ (p : Nat) (ev : Bool) (r : List Tok) (x : Run (V × List Tok)),
      (p < lvl k ∨ 13 ≤ lvl k) → Follows (lvl k) r →
      Fin (fun n => Run.ofRes (evalTree abi ev e) >>= fun v => evalLoop abi n p ev v r) x →
      Fin (fun n => evalExpr abi n p ev (ts ++ r)) x := by
  intro k ts e h
  -- closing a sub-expression at a token that stops it
  have close : ∀ {k ts e}, (∀ (p : Nat) (ev : Bool) (r : List Tok) (x : Run (V × List Tok)),
      (p < lvl k ∨ 13 ≤ lvl k) → Follows (lvl k) r →
      Fin (fun n => Run.ofRes (evalTree abi ev e) >>= fun v => evalLoop abi n p ev v r) x →
      Fin (fun n => evalExpr abi n p ev (ts ++ r)) x) →
      ∀ (p : Nat) (ev : Bool) (r : List Tok), (p < lvl k ∨ 13 ≤ lvl k) → Follows (lvl k) r →
        (∃ t r', r = t :: r' ∧ t.type ≠ .T_IDENT ∧ precTable t.type ≤ p) →
        Fin (fun n => evalExpr abi n p ev (ts ++ r))
          (Run.ofRes (evalTree abi ev e) >>= fun v => .ok (v, r)) := by
    intro k ts e hB p ev r hp hf hs
    refine hB p ev r _ hp hf (Fin.succ ?_)
    exact Fin.congr (fun n => by simp only [evalLoop_stop hs]) (Fin.const _)
  induction h with
  | lit t ht =>
    intro _ p ev r x _ _ hx
    refine Fin.succ (Fin.congr (fun n => ?_) hx)
    obtain ⟨u, hu⟩ : ∃ u, u = (next [t]).1 := ⟨_, rfl⟩
    have hn : next ([t] ++ r) = (u, r) := by rw [hu]; rfl
    have h1 : u.type ≠ .T_ADD ∧ u.type ≠ .T_SUB ∧ u.type ≠ .T_NOT ∧ u.type ≠ .T_LPAR := by
      by_cases hi : t.type = .T_IDENT
      · simp only [next, if_pos hi] at hu; subst hu; decide
      · simp only [next, if_neg hi] at hu; subst hu
        rcases ht with h | h | h <;> rw [h] <;> decide
    simp only [evalExpr, evalTree, hn, if_neg h1.1, if_neg h1.2.1, if_neg h1.2.2.1, if_neg h1.2.2.2, ← hu]
    cases literal abi u <;> simp
  | par l rp ts e hl hr _ ih =>
    intro hc p ev r x _ _ hx
    have hf : Follows 2 (rp :: r) := ⟨rp, r, rfl, by simp [hr], by simp [hr, precTable],
      by simp [hr, precTable], by simp [hr, precTable]⟩
    have key := close (ih hc) 0 ev (rp :: r) (.inl (by decide)) hf ⟨rp, r, rfl, by simp [hr], by simp [hr, precTable]⟩
    refine Fin.succ ?_
    have e1 : ∀ n, evalExpr abi (n + 1) p ev (l :: ts ++ [rp] ++ r) =
        ((evalExpr abi n 0 ev (ts ++ rp :: r) >>= fun a =>
          if (next a.2).1.type ≠ .T_RPAR then .fail else pure (a.1, (next a.2).2)) >>= fun b =>
            evalLoop abi n p ev b.1 b.2) := by
      intro n
      have hn : next (l :: ts ++ [rp] ++ r) = (l, ts ++ rp :: r) := by simp [next, hl]
      simp only [evalExpr, hn, hl]
      cases evalExpr abi n 0 ev (ts ++ rp :: r) with
      | ok a => by_cases h : (next a.2).1.type = .T_RPAR <;> simp [h]
      | _ => simp
    refine Fin.congr e1 (Fin.bind (Fin.bind key (Fin.const _)) ?_)
    refine Fin.congr (fun n => ?_) hx
    cases evalTree abi ev e <;> simp [next, hr]
  | un t o ts e ho _ ih =>
    intro hc p ev r x hp hf hx
    have hf' := hf
    obtain ⟨t', r', e1, e2, e3, e4, e5⟩ := hf'
    have key := close (ih hc.2) 13 ev r (.inr (by decide)) hf ⟨t', r', e1, e2, by omega⟩
    refine Fin.succ ?_
    simp only [unOps, List.mem_cons, Prod.mk.injEq, List.not_mem_nil, or_false] at ho
    rcases ho with ⟨ht, rfl⟩ | ⟨ht, rfl⟩ | ⟨ht, rfl⟩ | ⟨ht, rfl⟩
    · have e1 : ∀ n, evalExpr abi (n + 1) p ev (t :: ts ++ r) =
          (evalExpr abi n 13 ev (ts ++ r) >>= fun b => evalLoop abi n p ev b.1 b.2) := by
        intro n
        have hn : next (t :: ts ++ r) = (t, ts ++ r) := by simp [next, ht]
        simp only [evalExpr, hn, ht, prefixPrec]
        cases evalExpr abi n 13 ev (ts ++ r) with
        | ok a => simp; try (cases negV a.1 <;> simp)
        | _ => simp
      refine Fin.congr e1 (Fin.bind key (Fin.congr (fun n => ?_) hx))
      simp only [evalTree]
      cases evalTree abi ev e <;> simp
    · have e1 : ∀ n, evalExpr abi (n + 1) p ev (t :: ts ++ r) =
          ((evalExpr abi n 13 ev (ts ++ r) >>= fun a => Run.ofRes (negV a.1) >>= fun v => pure (v, a.2)) >>=
            fun b => evalLoop abi n p ev b.1 b.2) := by
        intro n
        have hn : next (t :: ts ++ r) = (t, ts ++ r) := by simp [next, ht]
        simp only [evalExpr, hn, ht, prefixPrec]
        cases evalExpr abi n 13 ev (ts ++ r) with
        | ok a => simp; try (cases negV a.1 <;> simp)
        | _ => simp
      refine Fin.congr e1 (Fin.bind (Fin.bind key (Fin.const _)) (Fin.congr (fun n => ?_) hx))
      simp only [evalTree]
      cases h1 : evalTree abi ev e with
      | ok v => simp; cases negV v <;> simp
      | fail => simp
      | ub => simp
    · have e1 : ∀ n, evalExpr abi (n + 1) p ev (t :: ts ++ r) =
          ((evalExpr abi n 13 ev (ts ++ r) >>= fun a => pure (notV a.1, a.2)) >>=
            fun b => evalLoop abi n p ev b.1 b.2) := by
        intro n
        have hn : next (t :: ts ++ r) = (t, ts ++ r) := by simp [next, ht]
        simp only [evalExpr, hn, ht, prefixPrec]
        cases evalExpr abi n 13 ev (ts ++ r) with
        | ok a => simp; try (cases negV a.1 <;> simp)
        | _ => simp
      refine Fin.congr e1 (Fin.bind (Fin.bind key (Fin.const _)) (Fin.congr (fun n => ?_) hx))
      simp only [evalTree]
      cases h1 : evalTree abi ev e <;> simp
    · exact absurd rfl hc.1
  | up n ts e _ ih =>
    intro hc p ev r x hp hf hx
    have := lvl_tighter n
    exact ih hc p ev r x (by omega) (hf.mono this.1) hx
  | bin n t o ts₁ ts₂ a b ho _ _ iha ihb =>
    intro hc p ev r x hp hf hx
    obtain ⟨o1, o2, o3, o4, o5, o6, o7⟩ := ops_table n _ ho
    simp only at o1 o2 o3 o4 o5 o6 o7
    have hl := (lvl_tighter n).2.2 o4
    have hp' : p < lvl n := by omega
    rw [List.append_assoc]
    refine iha hc.1 p ev _ x hp ⟨t, ts₂ ++ r, rfl, o5, by omega, by omega, by omega⟩ ?_
    -- the loop sees the operator
    refine Fin.succ ?_
    obtain ⟨t', r', q1, q2, q3, q4, q5⟩ := id hf
    have key : ∀ ev', Fin (fun n' => evalExpr abi n' (lvl n) ev' (ts₂ ++ r))
        (Run.ofRes (evalTree abi ev' b) >>= fun v => .ok (v, r)) := fun ev' =>
      close (ihb hc.2) (lvl n) ev' r (by omega) (hf.mono (by omega)) ⟨t', r', q1, q2, q3⟩
    have np : precGet t.type false = lvl n := by
      simp only [precGet]; rw [if_neg (by omega), o1]
    have lp : p < precGet t.type true := by simp only [precGet]; simp; omega
    cases hxa : evalTree abi ev a with
    | fail => simp only [evalTree, hxa] at hx ⊢; simpa using hx
    | ub => simp only [evalTree, hxa] at hx ⊢; simpa using hx
    | ok va =>
      simp only [evalTree, hxa, Run.ofRes_ok, Run.bind_ok, Res.bind_ok] at hx ⊢
      cases o with
      | land =>
        replace o7 : t.type = .T_AND := o7
        have e1 : ∀ n', evalLoop abi (n' + 1) p ev va (t :: ts₂ ++ r) =
            (evalExpr abi n' (lvl n) (if !isZero va then ev else false) (ts₂ ++ r) >>= fun b =>
              evalLoop abi n' p ev (boolV (!isZero va && !isZero b.1)) b.2) := by
          intro n'
          simp only [evalLoop, next, List.cons_append, if_neg o5, if_pos lp, if_neg o6, if_pos o7, np]
        refine Fin.congr e1 (Fin.bind (key _) (Fin.congr (fun n' => ?_) hx))
        cases evalTree abi (if !isZero va then ev else false) b <;> simp
      | lor =>
        replace o7 : t.type = .T_OR := o7
        have e1 : ∀ n', evalLoop abi (n' + 1) p ev va (t :: ts₂ ++ r) =
            (evalExpr abi n' (lvl n) (if isZero va then ev else false) (ts₂ ++ r) >>= fun b =>
              evalLoop abi n' p ev (boolV (!isZero va || !isZero b.1)) b.2) := by
          intro n'
          have o8 : t.type ≠ .T_AND := by rw [o7]; decide
          simp only [evalLoop, next, List.cons_append, if_neg o5, if_pos lp, if_neg o6, if_neg o8, if_pos o7, np]
        refine Fin.congr e1 (Fin.bind (key _) (Fin.congr (fun n' => ?_) hx))
        cases evalTree abi (if isZero va then ev else false) b <;> simp
      | arith op =>
        obtain ⟨o7, o8, o9⟩ := o7
        have e1 : ∀ n', evalLoop abi (n' + 1) p ev va (t :: ts₂ ++ r) =
            (evalExpr abi n' (lvl n) ev (ts₂ ++ r) >>= fun b =>
              Run.ofRes (binAct ev t.type va b.1) >>= fun e => evalLoop abi n' p ev e b.2) := by
          intro n'
          simp only [evalLoop, next, List.cons_append, if_neg o5, if_pos lp, if_neg o6, if_neg o7, if_neg o8, np]
        refine Fin.congr e1 (Fin.bind (key _) (Fin.congr (fun n' => ?_) hx))
        rw [o9]
        cases evalTree abi ev b <;> simp
  | cond q kk ts₁ ts₂ ts₃ c a b hq hk _ _ _ ihc iha ihb =>
    intro hc p ev r x hp hf hx
    have hp' : p < 2 := by rcases hp with h | h <;> simp [lvl] at h; omega
    rw [List.append_assoc, List.append_assoc]
    refine ihc hc.1 p ev _ x (.inl (by simp [lvl]; omega)) ⟨q, ts₂ ++ (kk :: ts₃ ++ r), rfl, by simp [hq],
      by simp [hq, precTable, lvl], by simp [hq, precTable], by simp [lvl]⟩ ?_
    refine Fin.succ ?_
    obtain ⟨t', r', q1, q2, q3, q4, q5⟩ := id hf
    have keya : ∀ ev', Fin (fun n' => evalExpr abi n' 0 ev' (ts₂ ++ (kk :: ts₃ ++ r)))
        (Run.ofRes (evalTree abi ev' a) >>= fun v => .ok (v, kk :: ts₃ ++ r)) := fun ev' =>
      close (iha hc.2.1) 0 ev' _ (.inl (by decide))
        ⟨kk, ts₃ ++ r, rfl, by simp [hk], by simp [hk, precTable], by simp [hk, precTable], by simp [hk, precTable]⟩
        ⟨kk, ts₃ ++ r, rfl, by simp [hk], by simp [hk, precTable]⟩
    have keyb : ∀ ev', Fin (fun n' => evalExpr abi n' 1 ev' (ts₃ ++ r))
        (Run.ofRes (evalTree abi ev' b) >>= fun v => .ok (v, r)) := fun ev' =>
      close (ihb hc.2.2) 1 ev' _ (.inl (by decide)) hf ⟨t', r', q1, q2, q5 (by decide)⟩
    cases hxc : evalTree abi ev c with
    | fail => simp only [evalTree, hxc] at hx ⊢; simpa using hx
    | ub => simp only [evalTree, hxc] at hx ⊢; simpa using hx
    | ok vc =>
      simp only [evalTree, hxc, Run.ofRes_ok, Run.bind_ok, Res.bind_ok] at hx ⊢
      have e1 : ∀ n', evalLoop abi (n' + 1) p ev vc (q :: ts₂ ++ (kk :: ts₃ ++ r)) =
          (evalExpr abi n' 0 (if !isZero vc then ev else false) (ts₂ ++ (kk :: ts₃ ++ r)) >>= fun m =>
            if (next m.2).1.type ≠ .T_COLON then .fail else
            evalExpr abi n' 1 (if isZero vc then ev else false) (next m.2).2 >>= fun b =>
              evalLoop abi n' p ev (if !isZero vc then m.1 else b.1) b.2) := by
        intro n'
        have lp : p < precGet q.type true := by simp [precGet, hq, precTable]; omega
        simp only [evalLoop, next, List.cons_append]
        simp [hq, precGet, precTable]
        intro h; omega
      refine Fin.congr e1 (Fin.bind (keya _) ?_)
      cases hxa : evalTree abi (if !isZero vc then ev else false) a with
      | fail => simp only [hxa] at hx ⊢; simpa using hx
      | ub => simp only [hxa] at hx ⊢; simpa using hx
      | ok va =>
        simp only [hxa, Run.ofRes_ok, Run.bind_ok, Res.bind_ok] at hx ⊢
        have e2 : ∀ n', (if (next (kk :: ts₃ ++ r)).1.type ≠ .T_COLON then .fail else
            evalExpr abi n' 1 (if isZero vc then ev else false) (next (kk :: ts₃ ++ r)).2 >>= fun b =>
              evalLoop abi n' p ev (if !isZero vc then va else b.1) b.2) =
            (evalExpr abi n' 1 (if isZero vc then ev else false) (ts₃ ++ r) >>= fun b =>
              evalLoop abi n' p ev (if !isZero vc then va else b.1) b.2) := by
          intro n'; simp [next, hk]
        refine Fin.congr e2 (Fin.bind (keyb _) (Fin.congr (fun n' => ?_) hx))
        cases evalTree abi (if isZero vc then ev else false) b <;> simp

/-! ### Values -/

/-- The bits of `v` in the type `s`. -/
def Rep (s : Bool) (b : BitVec 64) (v : Int) : Prop := val ⟨ity s, b⟩ = v

theorem rep_true {b v} : Rep true b v ↔ b.toInt = v := by simp [Rep, val, ity, signed]
theorem rep_false {b v} : Rep false b v ↔ (b.toNat : Int) = v := by simp [Rep, val, ity, signed]

theorem valid64 (s : Bool) (b : BitVec 64) : Valid .sysv ⟨ity s, b⟩ := by
  cases s
  · refine ⟨show IsInt .ullong by decide, ?_⟩
    have := b.isLt
    simp [InRange, inBits, ity, signed, val, width]
    omega
  · refine ⟨show IsInt .llong by decide, ?_⟩
    have h1 := BitVec.le_two_mul_toInt (x := b)
    have h2 := BitVec.two_mul_toInt_lt (x := b)
    simp [InRange, inBits, ity, signed, val, width]
    omega

theorem rep_zero {s b v} (h : Rep s b v) : isZero ⟨s, b⟩ = decide (v = 0) := by
  simp only [isZero]
  congr 1
  cases s
  · rw [rep_false] at h
    rw [← h, ← BitVec.toNat_inj]; simp
  · rw [rep_true] at h
    rw [← h, ← BitVec.toInt_inj]; simp

theorem rep_convert {s₁ b v} (s : Bool) (h : Rep s₁ b v) (hs : s = true → s₁ = true) :
    Rep s b (convert s v) := by
  cases s
  · rw [rep_false]
    simp only [convert, Bool.false_eq_true, if_false]
    have := b.isLt
    cases s₁
    · rw [rep_false] at h; omega
    · rw [rep_true, BitVec.toInt_eq_toNat_cond] at h
      split at h <;> omega
  · rw [hs rfl] at h; simpa [convert] using h

/-- `RESULT_BINARY` on operands of one type. -/
theorem applyOp_ok (o : Op) (s : Bool) (b₁ b₂ : BitVec 64) (w : Int)
    (h : opVal .sysv (ity s) o (val ⟨ity s, b₁⟩) (val ⟨ity s, b₂⟩) = some w) :
    ∃ r, applyOp o ⟨s, b₁⟩ ⟨s, b₂⟩ = .ok ⟨s || isCompare o, r⟩ ∧ Rep (s || isCompare o) r w := by
  obtain ⟨c, h1, h2, h3, _⟩ := fold_correct .sysv o ⟨ity s, b₁⟩ ⟨ity s, b₂⟩ (valid64 _ _) (valid64 _ _)
    (show Promoted (ity s) by cases s <;> decide) rfl w h
  cases s with
  | true =>
    simp only [foldBinary, ity, if_true, ne_eq, not_true, if_false] at h1
    have e : isSigned .llong = .ok true := rfl
    simp only [e, Res.bind_ok, if_true] at h1
    split at h1
    · rename_i hh; cases hh
    split at h1
    · cases h1
    · cases hf : foldSigned o b₁ b₂ with
      | fail => rw [hf] at h1; cases h1
      | ub => rw [hf] at h1; cases h1
      | ok r =>
        rw [hf] at h1
        simp at h1
        refine ⟨r, by simp [applyOp, hf], ?_⟩
        rw [Bool.true_or, rep_true, ← h3, ← h1]
        cases o <;> simp [val, resultType, signed]
  | false =>
    simp only [foldBinary, ity, ne_eq, not_true, if_false, Bool.false_eq_true] at h1
    have e : isSigned .ullong = .ok false := rfl
    simp only [e, Res.bind_ok, Bool.false_eq_true, if_false] at h1
    split at h1
    · rename_i hh; cases hh
    cases hf : foldUnsigned o b₁ b₂ with
    | fail => rw [hf] at h1; cases h1
    | ub => rw [hf] at h1; cases h1
    | ok r =>
      rw [hf] at h1
      simp only [Res.bind_ok] at h1
      refine ⟨r, by simp [applyOp, hf], ?_⟩
      cases hc : isCompare o with
      | true =>
        rw [hc] at h1
        simp at h1
        rw [Bool.or_true, rep_true, ← h3, ← h1]
        cases o <;> simp [isCompare] at hc <;> simp [val, resultType, signed]
      | false =>
        rw [hc] at h1
        have hr : resultType o .ullong = .ullong := by cases o <;> first | rfl | (simp [isCompare] at hc)
        obtain ⟨b, n1, n2⟩ := normalize_unsigned (abi := .sysv) (c := ⟨.ullong, r⟩)
          (show Promoted .ullong by decide) rfl
        simp only [Bool.false_eq_true, if_false, hr] at h1
        rw [n1] at h1
        simp at h1
        rw [Bool.false_or, rep_false, ← h3, ← h1]
        have := r.isLt
        simp [val, signed]
        rw [n2]
        simp [width]
        omega

theorem yieldsInt_eq (o : Op) : yieldsInt o = isCompare o := by cases o <;> rfl

theorem binOp_tokOf (o : Op) : binOp (evalTree.tokOf o) = some o := by cases o <;> rfl

/-- A binary operator whose C value exists. -/
theorem binAct_ok (o : Op) (s₁ s₂ : Bool) (b₁ b₂ : BitVec 64) (v₁ v₂ w : Int)
    (h₁ : Rep s₁ b₁ v₁) (h₂ : Rep s₂ b₂ v₂)
    (hsh : isShift o = true → s₂ = true ∨ s₁ = false)
    (h : opVal .sysv (ity (computed o s₁ s₂)) o (convert (computed o s₁ s₂) v₁)
        (if isShift o then v₂ else convert (computed o s₁ s₂) v₂) = some w) :
    ∃ r, binAct true (evalTree.tokOf o) ⟨s₁, b₁⟩ ⟨s₂, b₂⟩ = .ok ⟨yieldsInt o || computed o s₁ s₂, r⟩ ∧
      Rep (yieldsInt o || computed o s₁ s₂) r w := by
  have hc : computed o s₁ s₂ = (s₁ && s₂) := by
    simp only [computed]
    split
    · rename_i hs
      rcases hsh hs with rfl | rfl <;> simp
    · rfl
  rw [hc] at h ⊢
  obtain ⟨s, hs⟩ : ∃ s, s = (s₁ && s₂) := ⟨_, rfl⟩
  rw [← hs] at h ⊢
  have hu : unify ⟨s₁, b₁⟩ ⟨s₂, b₂⟩ = (⟨s, b₁⟩, ⟨s, b₂⟩) := by
    subst hs; cases s₁ <;> cases s₂ <;> rfl
  have r₁ := rep_convert s h₁ (by rw [hs]; cases s₁ <;> simp)
  have r₂ := rep_convert s h₂ (by rw [hs]; cases s₁ <;> simp)
  have h' : opVal .sysv (ity s) o (convert s v₁) (convert s v₂) = some w := by
    cases hsf : isShift o with
    | false => simpa [hsf] using h
    | true =>
      rw [hsf] at h
      simp only [if_true] at h
      have : convert s v₂ = v₂ := by
        have hv : 0 ≤ v₂ ∧ v₂ < 64 := by
          have hw : width .sysv (ity s) = 64 := by cases s <;> rfl
          cases o <;> simp [isShift] at hsf <;> simp only [opVal] at h <;> split at h <;>
            first | (cases h; done) | omega
        cases s <;> simp [convert]; omega
      rw [this]; exact h
  rw [← r₁, ← r₂] at h'
  obtain ⟨r, a1, a2⟩ := applyOp_ok o s b₁ b₂ w h'
  rw [yieldsInt_eq, Bool.or_comm]
  refine ⟨r, ?_, a2⟩
  simp only [binAct, hu, if_true, binOp_tokOf]
  have hd : (o = .div ∨ o = .mod) → divOverflow ⟨s, b₁⟩ ⟨s, b₂⟩ = false := by
    intro ho
    have hnz : isZero ⟨s, b₂⟩ = false := by
      rw [rep_zero r₂, ← r₂]
      rcases ho with rfl | rfl <;> simp only [opVal] at h' <;> split at h' <;>
        first | (cases h'; done) | simpa
    simp only [divOverflow, hnz, Bool.false_or]
    cases s with
    | false => rfl
    | true =>
      rw [rep_true] at r₁ r₂
      by_cases hm : b₁.toInt = -2 ^ 63 ∧ b₂.toInt = -1
      · exfalso
        have e1 : val ⟨ity true, b₁⟩ = -2 ^ 63 := by rw [← hm.1]; simp [val, ity, signed]
        have e2 : val ⟨ity true, b₂⟩ = -1 := by rw [← hm.2]; simp [val, ity, signed]
        rw [e1, e2] at h'
        have : ∀ o, (o = Op.div ∨ o = Op.mod) → opVal .sysv (ity true) o (-2 ^ 63) (-1) = none := by
          rintro o (rfl | rfl) <;> decide
        rw [this o ho] at h'
        cases h'
      · simpa using hm
  cases o <;> simp only [] <;> first
    | exact a1
    | (rw [hd (by simp)]; exact a1)

theorem inRange_nat (abi : Abi) (t : ST) (n : Nat) :
    decide (InRange abi t n) = decide (n < 2 ^ (if signed t then width abi t - 1 else width abi t)) := by
  apply decide_eq_decide.2
  simp only [InRange, inBits]
  split
  · have : (0 : Int) < 2 ^ (width abi t - 1) := Int.pow_pos (by decide)
    constructor
    · rintro ⟨_, h⟩; exact_mod_cast h
    · intro h; exact ⟨by omega, by exact_mod_cast h⟩
  · constructor
    · rintro ⟨_, h⟩; exact_mod_cast h
    · intro h; exact ⟨by omega, by exact_mod_cast h⟩

theorem constant_sign (abi : Abi) (dec : Bool) (s : Suffix) (n : Nat) (hn : n < 2 ^ 64) :
    ((s = .u ∨ s = .ul ∨ s = .ull) → ∃ t, constantType abi dec s n = some t ∧ isSigned t = .ok false) ∧
    ((s = .none ∨ s = .l ∨ s = .ll) → n < 2 ^ 63 → ∃ t g, constantType abi dec s n = some t ∧ isSigned t = .ok g ∧
      ((dec = false → s = .none ∨ s = .l → ¬ (2 ^ 31 ≤ n ∧ n < 2 ^ 32)) → g = true)) ∧
    ((s = .none ∨ s = .l ∨ s = .ll) → dec = false → 2 ^ 63 ≤ n →
      ∃ t, constantType abi dec s n = some t ∧ isSigned t = .ok false) := by
  have key : ∀ (x y z w : Bool), (∀ k, k = 31 → decide (n < 2 ^ k) = x) → (∀ k, k = 32 → decide (n < 2 ^ k) = y) →
      (∀ k, k = 63 → decide (n < 2 ^ k) = z) → (∀ k, k = 64 → decide (n < 2 ^ k) = w) → 
      constantType abi dec s n = (candidates dec s).find? fun t => 
        match (if signed t then width abi t - 1 else width abi t) with
        | 31 => x | 32 => y | 63 => z | 64 => w | k => decide (n < 2 ^ k) := by
    intro x y z w h1 h2 h3 h4
    simp only [constantType]
    congr 1
    funext t
    rw [inRange_nat]
    generalize (if signed t then width abi t - 1 else width abi t) = k
    split
    · exact h1 _ rfl
    · exact h2 _ rfl
    · exact h3 _ rfl
    · exact h4 _ rfl
    · rfl
  rw [key _ _ _ _ (fun _ h => by rw [h]) (fun _ h => by rw [h]) (fun _ h => by rw [h]) (fun _ h => by rw [h])]
  clear key
  have e4 : decide (n < 2 ^ 64) = true := by simpa using hn
  rw [e4]
  by_cases c1 : n < 2 ^ 31
  · have e1 : decide (n < 2 ^ 31) = true := by simpa using c1
    have e2 : decide (n < 2 ^ 32) = true := decide_eq_true (by omega)
    have e3 : decide (n < 2 ^ 63) = true := decide_eq_true (by omega)
    rw [e1, e2, e3]
    refine ⟨fun h => ?_, fun h _ => ?_, fun _ _ h => ?_⟩
    · rcases h with rfl | rfl | rfl <;> cases abi <;> cases dec <;> exact ⟨_, rfl, rfl⟩
    · rcases h with rfl | rfl | rfl <;> cases abi <;> cases dec <;> exact ⟨_, _, rfl, rfl, fun _ => rfl⟩
    · omega
  have e1 : decide (n < 2 ^ 31) = false := decide_eq_false (by omega)
  by_cases c2 : n < 2 ^ 32
  · have e2 : decide (n < 2 ^ 32) = true := decide_eq_true (by omega)
    have e3 : decide (n < 2 ^ 63) = true := decide_eq_true (by omega)
    rw [e1, e2, e3]
    refine ⟨fun h => ?_, fun h _ => ?_, fun _ _ h => ?_⟩
    · rcases h with rfl | rfl | rfl <;> cases abi <;> cases dec <;> exact ⟨_, rfl, rfl⟩
    · rcases h with rfl | rfl | rfl <;> cases abi <;> cases dec <;>
        first
          | exact ⟨_, _, rfl, rfl, fun _ => rfl⟩
          | exact ⟨_, _, rfl, rfl, fun h => absurd ⟨by omega, c2⟩ (h rfl (by simp))⟩
    · omega
  have e2 : decide (n < 2 ^ 32) = false := decide_eq_false (by omega)
  by_cases c3 : n < 2 ^ 63
  · have e3 : decide (n < 2 ^ 63) = true := decide_eq_true (by omega)
    rw [e1, e2, e3]
    refine ⟨fun h => ?_, fun h _ => ?_, fun _ _ h => ?_⟩
    · rcases h with rfl | rfl | rfl <;> cases abi <;> cases dec <;> exact ⟨_, rfl, rfl⟩
    · rcases h with rfl | rfl | rfl <;> cases abi <;> cases dec <;> exact ⟨_, _, rfl, rfl, fun _ => rfl⟩
    · omega
  · have e3 : decide (n < 2 ^ 63) = false := decide_eq_false (by omega)
    rw [e1, e2, e3]
    refine ⟨fun h => ?_, fun h h2 => ?_, fun h hd _ => ?_⟩
    · rcases h with rfl | rfl | rfl <;> cases abi <;> cases dec <;> exact ⟨_, rfl, rfl⟩
    · exact absurd h2 c3
    · subst hd; rcases h with rfl | rfl | rfl <;> cases abi <;> exact ⟨_, rfl, rfl⟩

/-- Literals whose type the compiler gets right: not the hexadecimal, octal or binary
constants without `u` between 2^31 and 2^32, which are `intmax_t` in `#if`. -/
def PlainLit (t : Tok) : Prop :=
  ∀ (b : Base) (pre ds sp : Str) (s : Suffix), t.type = .T_NUM → IsConstant b pre ds → sp ∈ spellings s →
    t.str = pre ++ ds ++ sp → b ≠ .dec → s = .none ∨ s = .l → ¬ (2 ^ 31 ≤ number b ds ∧ number b ds < 2 ^ 32)

/-- Expressions without the constructs the compiler evaluates differently: `~`, `!` of an
unsigned operand, a signed operand shifted by an unsigned one, a conditional with branches
of different signedness, and literals that are not `PlainLit`. -/
def Plain : E → Prop
  | .lit t => PlainLit t
  | .un .compl _ => False
  | .un .not e => Plain e ∧ ∀ s, Ty e s → s = true
  | .un _ e => Plain e
  | .bin (.arith o) a b => Plain a ∧ Plain b ∧
      (isShift o = true → ∀ s₁ s₂, Ty a s₁ → Ty b s₂ → s₂ = true ∨ s₁ = false)
  | .bin _ a b => Plain a ∧ Plain b
  | .cond c a b => Plain c ∧ Plain a ∧ Plain b ∧ ∀ s₁ s₂, Ty a s₁ → Ty b s₂ → s₁ = s₂

theorem Plain.noCompl : ∀ {e}, Plain e → NoCompl e
  | .lit _, _ => trivial
  | .un .plus e, h => ⟨by decide, Plain.noCompl (e := e) h⟩
  | .un .neg e, h => ⟨by decide, Plain.noCompl (e := e) h⟩
  | .un .not e, h => ⟨by decide, Plain.noCompl (e := e) h.1⟩
  | .bin (.arith _) a b, h => ⟨Plain.noCompl (e := a) h.1, Plain.noCompl (e := b) h.2.1⟩
  | .bin .land a b, h => ⟨Plain.noCompl (e := a) h.1, Plain.noCompl (e := b) h.2⟩
  | .bin .lor a b, h => ⟨Plain.noCompl (e := a) h.1, Plain.noCompl (e := b) h.2⟩
  | .cond c a b, h => ⟨Plain.noCompl (e := c) h.1, Plain.noCompl (e := a) h.2.1, Plain.noCompl (e := b) h.2.2.1⟩

theorem value_ty {e s v} (h : Value e s v) : Ty e s := by
  induction h with
  | lit t s v h => exact .lit t s v h
  | plus e s v _ ih => exact .plus _ _ ih
  | neg e s v w _ _ ih => exact .neg _ _ ih
  | compl e s v w _ _ ih => exact .compl _ _ ih
  | not e s v _ ih => exact .not _ _ ih
  | arith o a b s₁ s₂ v₁ v₂ w _ _ _ iha ihb => exact .arith _ _ _ _ _ iha ihb
  | landF a b s₁ s₂ _ hb ih => exact .land _ _ _ _ ih hb
  | landT a b s₁ s₂ v₁ v₂ _ _ _ iha ihb => exact .land _ _ _ _ iha ihb
  | lorT a b s₁ s₂ v₁ _ _ hb ih => exact .lor _ _ _ _ ih hb
  | lorF a b s₁ s₂ v₂ _ _ iha ihb => exact .lor _ _ _ _ iha ihb
  | condT c a b s s₁ s₂ v v₁ _ _ _ hb ihc iha => exact .cond _ _ _ _ _ _ ihc iha hb
  | condF c a b s s₁ s₂ v₂ _ ha _ ihc ihb => exact .cond _ _ _ _ _ _ ihc ha ihb

theorem rep_ofInt {s b v} (h : Rep s b v) : b = BitVec.ofInt 64 v := by
  cases s
  · rw [rep_false] at h
    apply BitVec.eq_of_toNat_eq
    rw [← h]; simp
  · rw [rep_true] at h
    rw [← h]; simp

/-- The model reads a literal as 6.10.1 does, up to the signedness of `PlainLit`. -/
theorem literal_ok (abi : Abi) {t : Tok} {s : Bool} {v : Int} (h : Literal t s v) :
    ∃ g b, literal abi (next [t]).1 = .ok ⟨g, b⟩ ∧ (PlainLit t → g = s ∧ Rep s b v) ∧
      (g = true → b.toInt ≠ -2 ^ 63) := by
  have num : ∀ (b : Base) (pre ds sp : Str) (sf : Suffix) (ty : ST) (g : Bool), t.type = .T_NUM → IsConstant b pre ds →
      sp ∈ spellings sf → t.str = pre ++ ds ++ sp → number b ds < 2 ^ 64 →
      constantType abi (b = .dec) sf (number b ds) = some ty → isSigned ty = .ok g →
      literal abi (next [t]).1 = .ok ⟨g, BitVec.ofNat 64 (number b ds)⟩ := by
    intro b pre ds sp sf ty g h1 h2 h3 h4 h5 h6 h7
    have hn : (next [t]).1 = t := by simp [next, h1]
    simp only [hn, literal, h1, if_true, h4, integer_not_float b pre ds sp sf h2 h3]
    rw [integer_constant_partial abi b pre ds sp sf h2 h3 h5]
    simp [constantSpec, h6, h7]
  have small : ∀ n : Nat, n < 2 ^ 63 → (BitVec.ofNat 64 n).toInt = n := by
    intro n hn
    rw [BitVec.toInt_eq_toNat_cond, BitVec.toNat_ofNat]; omega
  have min : ∀ n : Nat, (BitVec.ofNat 64 n).toInt = n → (BitVec.ofNat 64 n).toInt ≠ -2 ^ 63 := by
    intro n hn; omega
  cases h with
  | ident ht =>
    refine ⟨true, 0, ?_, fun _ => ⟨rfl, by rw [rep_true]; rfl⟩, fun _ => by decide⟩
    have hn : (next [t]).1 = { type := .T_NUM, str := str "0" } := by simp [next, ht]
    rw [hn]
    cases abi <;> decide +kernel
  | uns b pre ds sp sf h1 h2 h3 h4 h5 h6 =>
    obtain ⟨ty, t1, t2⟩ := (constant_sign abi (decide (b = .dec)) sf _ h6).1 h4
    refine ⟨false, _, num b pre ds sp sf ty false h1 h2 h3 h5 h6 t1 t2, fun _ => ⟨rfl, ?_⟩, by simp⟩
    rw [rep_false]; simp; omega
  | sgn b pre ds sp sf h1 h2 h3 h4 h5 h6 =>
    obtain ⟨ty, g, t1, t2, t3⟩ := (constant_sign abi (decide (b = .dec)) sf (number b ds) (by omega)).2.1 h4 h6
    refine ⟨g, _, num b pre ds sp sf ty g h1 h2 h3 h5 (by omega) t1 t2, fun hp => ⟨t3 ?_, ?_⟩, fun _ => min _ (small _ h6)⟩
    · intro hd hs
      exact hp b pre ds sp sf h1 h2 h3 h5 (by simpa using hd) hs
    · rw [rep_true]; exact small _ h6
  | big b pre ds sp sf h1 h2 h3 h4 h5 h6 h7 h8 =>
    obtain ⟨ty, t1, t2⟩ := (constant_sign abi (decide (b = .dec)) sf (number b ds) h8).2.2 h4 (by simpa using h5) h7
    refine ⟨false, _, num b pre ds sp sf ty false h1 h2 h3 h6 h8 t1 t2, fun _ => ⟨rfl, ?_⟩, by simp⟩
    rw [rep_false]; simp; omega
  | char c h1 h2 h3 h4 h5 h6 =>
    have key : ∀ c : Byte, 32 ≤ c.toNat → c.toNat < 127 → c ≠ ch '\'' → c ≠ ch '\\' →
        charValue [ch '\'', c, ch '\''] = .ok (c.setWidth 64) := by decide +kernel
    have hn : (next [t]).1 = t := by simp [next, h1]
    refine ⟨true, c.setWidth 64, by simp [hn, literal, h1, h2, key c h3 h4 h5 h6], fun _ => ⟨rfl, ?_⟩, fun _ => ?_⟩
    · rw [rep_true, BitVec.toInt_eq_toNat_cond]; simp; omega
    · rw [BitVec.toInt_eq_toNat_cond]; simp; omega

/-- An operand that is not evaluated never fails. -/
theorem eval_skipped (abi : Abi) {e : E} {s : Bool} (h : Ty e s) (hc : NoCompl e) :
    ∃ r, evalTree abi false e = .ok r ∧ (r.sgn = true → r.bits.toInt ≠ -2 ^ 63) := by
  induction h with
  | lit t s v h =>
    obtain ⟨g, b, h1, _, h3⟩ := literal_ok abi h
    exact ⟨_, h1, h3⟩
  | plus e s _ ih =>
    obtain ⟨r, h1, h2⟩ := ih hc.2
    exact ⟨r, by simp [evalTree, h1], h2⟩
  | neg e s _ ih =>
    obtain ⟨⟨g, b⟩, h1, h2⟩ := ih hc.2
    cases g with
    | false => exact ⟨⟨false, -b⟩, by simp [evalTree, h1, negV], by simp⟩
    | true =>
      have h2 := h2 rfl
      simp only at h2
      have l1 := BitVec.le_two_mul_toInt (x := b)
      have l2 := BitVec.two_mul_toInt_lt (x := b)
      have hr : -2 ^ 63 ≤ -b.toInt ∧ -b.toInt < 2 ^ 63 := by omega
      refine ⟨⟨true, BitVec.ofInt 64 (-b.toInt)⟩, ?_, fun _ => ?_⟩
      · have e : int64 (-b.toInt) = .ok (BitVec.ofInt 64 (-b.toInt)) := by simp only [int64]; exact if_pos hr
        simp [evalTree, h1, negV, e]
      · simp only
        rw [toInt_ofInt64 _ hr]; omega
  | compl e s _ ih => exact absurd rfl hc.1
  | not e s _ ih =>
    obtain ⟨r, h1, h2⟩ := ih hc.2
    refine ⟨notV r, by simp [evalTree, h1], fun _ => ?_⟩
    simp only [notV]
    split <;> decide
  | arith o a b s₁ s₂ _ _ iha ihb =>
    obtain ⟨r, h1, h2⟩ := iha hc.1
    obtain ⟨q, h3, h4⟩ := ihb hc.2
    refine ⟨(unify r q).1, by simp [evalTree, h1, h3, binAct], ?_⟩
    simp only [unify]
    split
    · exact h2
    · simp
  | land a b s₁ s₂ _ _ iha ihb =>
    obtain ⟨r, h1, h2⟩ := iha hc.1
    obtain ⟨q, h3, h4⟩ := ihb hc.2
    refine ⟨boolV (!isZero r && !isZero q), by simp [evalTree, h1, h3], fun _ => ?_⟩
    simp only [boolV, ofBool]
    split <;> decide
  | lor a b s₁ s₂ _ _ iha ihb =>
    obtain ⟨r, h1, h2⟩ := iha hc.1
    obtain ⟨q, h3, h4⟩ := ihb hc.2
    refine ⟨boolV (!isZero r || !isZero q), by simp [evalTree, h1, h3], fun _ => ?_⟩
    simp only [boolV, ofBool]
    split <;> decide
  | cond c a b s s₁ s₂ _ _ _ ihc iha ihb =>
    obtain ⟨r, h1, h2⟩ := ihc hc.1
    obtain ⟨q, h3, h4⟩ := iha hc.2.1
    obtain ⟨u, h5, h6⟩ := ihb hc.2.2
    refine ⟨if !isZero r then q else u, by simp [evalTree, h1, h3, h5], ?_⟩
    split
    · exact h4
    · exact h6

/-- An evaluated `Plain` operand gets its value. -/
theorem eval_value (abi : Abi) {e : E} {s : Bool} {v : Int} (h : Value e s v) (hp : Plain e) :
    ∃ b, evalTree abi true e = .ok ⟨s, b⟩ ∧ Rep s b v := by
  have tr : ∀ p : Prop, [Decidable p] → Rep true (ofBool (decide p)) (truth p) := by
    intro p _
    rw [rep_true]
    by_cases h : p <;> simp [h, ofBool, truth]
  induction h with
  | lit t s v h =>
    obtain ⟨g, b, h1, h2, _⟩ := literal_ok abi h
    obtain ⟨rfl, h3⟩ := h2 hp
    exact ⟨b, h1, h3⟩
  | plus e s v _ ih =>
    obtain ⟨b, h1, h2⟩ := ih hp
    exact ⟨b, by simp [evalTree, h1], h2⟩
  | neg e s v w _ hw ih =>
    obtain ⟨b, h1, h2⟩ := ih hp
    obtain ⟨c, c1, c2, c3, _⟩ := fold_unary_correct .sysv .neg ⟨ity s, b⟩ (valid64 s b)
      (show Promoted (ity s) by cases s <;> decide) w (by rw [h2]; exact hw)
    cases s with
    | true =>
      rw [rep_true] at h2
      simp only [uopVal, arith, ity, if_true, signed] at hw
      have hr : -2 ^ 63 ≤ -b.toInt ∧ -b.toInt < 2 ^ 63 := by
        rw [h2]
        have := hw
        split at this
        · split at this
          · rename_i _ hh; simpa [InRange, inBits, signed, width] using hh
          · cases this
        · rename_i hh; simp at hh
      have hw' : w = -b.toInt := by
        have := hw
        split at this
        · split at this
          · cases this; omega
          · cases this
        · rename_i hh; simp at hh
      have e : int64 (-b.toInt) = .ok (BitVec.ofInt 64 (-b.toInt)) := by simp only [int64]; exact if_pos hr
      exact ⟨BitVec.ofInt 64 (-b.toInt), by simp [evalTree, h1, negV, e], by rw [rep_true, toInt_ofInt64 _ hr, hw']⟩
    | false =>
      refine ⟨-b, by simp [evalTree, h1, negV], ?_⟩
      rw [rep_false] at h2 ⊢
      have := b.isLt
      simp [uopVal, arith, ity, signed, wrap, width] at hw
      rw [BitVec.toNat_neg, ← hw, ← h2]
      omega
  | compl e s v w _ _ ih => exact hp.elim
  | not e s v hv ih =>
    obtain ⟨b, h1, h2⟩ := ih hp.1
    have hs := hp.2 s (value_ty hv)
    subst hs
    refine ⟨ofBool (decide (v = 0)), ?_, tr _⟩
    have := rep_zero h2
    simp only [isZero] at this
    simp only [evalTree, h1, Res.bind_ok, notV, Res.pure_eq, ofBool]
    rw [← this]
    by_cases hb : b = 0 <;> simp [hb]
  | arith o a b s₁ s₂ v₁ v₂ w ha hb hw iha ihb =>
    obtain ⟨x, h1, h2⟩ := iha hp.1
    obtain ⟨y, h3, h4⟩ := ihb hp.2.1
    obtain ⟨r, r1, r2⟩ := binAct_ok o s₁ s₂ x y v₁ v₂ w h2 h4
      (fun hs => hp.2.2 hs s₁ s₂ (value_ty ha) (value_ty hb)) hw
    exact ⟨r, by simp [evalTree, h1, h3, r1], r2⟩
  | landF a b s₁ s₂ _ hb ih =>
    obtain ⟨x, h1, h2⟩ := ih hp.1
    obtain ⟨q, h3, _⟩ := eval_skipped abi hb hp.2.noCompl
    have hz := rep_zero h2
    simp at hz
    exact ⟨0, by simp [evalTree, h1, h3, hz, boolV, ofBool], by rw [rep_true]; rfl⟩
  | landT a b s₁ s₂ v₁ v₂ _ hn _ iha ihb =>
    obtain ⟨x, h1, h2⟩ := iha hp.1
    obtain ⟨y, h3, h4⟩ := ihb hp.2
    have hz := rep_zero h2
    simp [hn] at hz
    have hy := rep_zero h4
    refine ⟨_, ?_, tr _⟩
    simp [evalTree, h1, h3, hz, boolV, hy]
  | lorT a b s₁ s₂ v₁ _ hn hb ih =>
    obtain ⟨x, h1, h2⟩ := ih hp.1
    obtain ⟨q, h3, _⟩ := eval_skipped abi hb hp.2.noCompl
    have hz := rep_zero h2
    simp [hn] at hz
    exact ⟨1, by simp [evalTree, h1, h3, hz, boolV, ofBool], by rw [rep_true]; rfl⟩
  | lorF a b s₁ s₂ v₂ _ _ iha ihb =>
    obtain ⟨x, h1, h2⟩ := iha hp.1
    obtain ⟨y, h3, h4⟩ := ihb hp.2
    have hz := rep_zero h2
    simp at hz
    have hy := rep_zero h4
    refine ⟨_, ?_, tr _⟩
    simp [evalTree, h1, h3, hz, boolV, hy]
  | condT c a b s s₁ s₂ v v₁ _ hn ha hb ihc iha =>
    obtain ⟨x, h1, h2⟩ := ihc hp.1
    obtain ⟨y, h3, h4⟩ := iha hp.2.1
    obtain ⟨q, h5, _⟩ := eval_skipped abi hb hp.2.2.1.noCompl
    have hz := rep_zero h2
    simp [hn] at hz
    have hs := hp.2.2.2 s₁ s₂ (value_ty ha) hb
    subst hs
    exact ⟨y, by simp [evalTree, h1, h3, h5, hz], by simpa using rep_convert _ h4 (by simp)⟩
  | condF c a b s s₁ s₂ v₂ _ ha hb ihc ihb =>
    obtain ⟨x, h1, h2⟩ := ihc hp.1
    obtain ⟨y, h3, h4⟩ := ihb hp.2.2.1
    obtain ⟨q, h5, _⟩ := eval_skipped abi ha hp.2.1.noCompl
    have hz := rep_zero h2
    simp at hz
    have hs := hp.2.2.2 s₁ s₂ ha (value_ty hb)
    subst hs
    exact ⟨y, by simp [evalTree, h1, h3, h5, hz], by simpa using rep_convert _ h4 (by simp)⟩

/-- `k` steps down the chain of nonterminals. -/
def tightN : Nat → NT → NT
  | 0, n => n
  | k + 1, n => tightN k (tighter n)

theorem lift (k : Nat) (n : NT) {ts e} (h : Derives (tightN k n) ts e) : Derives n ts e := by
  induction k generalizing n with
  | zero => exact h
  | succ k ih => exact .up n _ _ (ih _ h)

end Verif.PPExpr
