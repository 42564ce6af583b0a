import Verif.Pratt
import Verif.PrattSpec
/-!
Helper lemmas: the expression parser builds the grammar's tree.
-/
namespace Verif.Pratt
open Verif Simple
open Verif.PPExpr (precGet precTable)
open Verif.PrattSpec (E Un Bin NT Lang Derives)
open Verif.Run

mutual
/-- The compiler's tree for a tree of the grammar: `!a` is `a ? 0 : 1`, `a || b` is
`a ? 1 : b ? 1 : 0`, `a[i]` is `*(a + i)`, `a->m` is `(*a).m`, `++a` is `a += 1`. -/
def lower : E → CE
  | .const t => .const t
  | .ident t => .ident t
  | .par a => lower a
  | .index a i => .indirection (.bin .add (lower a) (lower i))
  | .call f as => .call (lower f) (lowerArgs as)
  | .noArgs => .int 0
  | .arg _ _ => .int 0
  | .dot a t => .dot (lower a) t
  | .arrow a t => .dot (.indirection (lower a)) t
  | .postInc a => .assignOp .add (lower a) (.int 1) true
  | .postDec a => .assignOp .sub (lower a) (.int 1) true
  | .compound ty i => .compound ty i
  | .un .preInc a => .assignOp .add (lower a) (.int 1) false
  | .un .preDec a => .assignOp .sub (lower a) (.int 1) false
  | .un .addr a => .addrOf (lower a)
  | .un .deref a => .indirection (lower a)
  | .un .plus a => .un .plus (lower a)
  | .un .neg a => .un .neg (lower a)
  | .un .compl a => .un .bnot (lower a)
  | .un .not a => .cond (lower a) (.int 0) (.int 1)
  | .un .sizeof a => .sizeofE (lower a)
  | .sizeofT ty => .sizeofT ty
  | .alignofT ty => .alignofT ty
  | .cast ty a => .cast ty (lower a)
  | .bin (.arith o) a b => .bin o (lower a) (lower b)
  | .bin .land a b => .cond (lower a) (.cond (lower b) (.int 1) (.int 0)) (.int 0)
  | .bin .lor a b => .cond (lower a) (.int 1) (.cond (lower b) (.int 1) (.int 0))
  | .cond c a b => .cond (lower c) (lower a) (lower b)
  | .assign a b => .assign (lower a) (lower b)
  | .assignOp o a b => .assignOp o (lower a) (lower b) false
  | .comma a b => .comma (lower a) (lower b)

/-- The arguments of a call. -/
def lowerArgs : E → List CE
  | .arg a rest => lower a :: lowerArgs rest
  | _ => []
end

/-- Number of arguments. -/
def nArgs : E → Nat
  | .arg _ rest => nArgs rest + 1
  | _ => 0

/-- Does the expression begin with a compound literal? -/
def startsCompound : E → Bool
  | .compound _ _ => true
  | .index a _ => startsCompound a
  | .call a _ => startsCompound a
  | .dot a _ => startsCompound a
  | .arrow a _ => startsCompound a
  | .postInc a => startsCompound a
  | .postDec a => startsCompound a
  | _ => false

/-- The restrictions: no `sizeof` applied to an expression that begins with a compound
literal, no `&` applied to a register variable (a constraint of 6.5.3.2), at most 127
arguments. -/
def Plain (env : Env) : E → Prop
  | .const _ => True
  | .ident _ => True
  | .par a => Plain env a
  | .index a i => Plain env a ∧ Plain env i
  | .call f as => Plain env f ∧ Plain env as ∧ nArgs as ≤ 127
  | .noArgs => True
  | .arg a rest => Plain env a ∧ Plain env rest
  | .dot a _ => Plain env a
  | .arrow a _ => Plain env a
  | .postInc a => Plain env a
  | .postDec a => Plain env a
  | .compound _ _ => True
  | .un o a => Plain env a ∧ (o = .sizeof → startsCompound a = false) ∧
      (o = .addr → ∀ t, lower a = .ident t → env.register t = false)
  | .sizeofT _ => True
  | .alignofT _ => True
  | .cast _ a => Plain env a
  | .bin _ a b => Plain env a ∧ Plain env b
  | .cond c a b => Plain env c ∧ Plain env a ∧ Plain env b
  | .assign a b => Plain env a ∧ Plain env b
  | .assignOp _ a b => Plain env a ∧ Plain env b
  | .comma a b => Plain env a ∧ Plain env b

/-- Tokens other than identifiers that begin an expression. -/
def starts : List TType :=
  PrattSpec.constants ++ [.T_LPAR, .T_INC, .T_DEC, .T_STAR, .T_ADD, .T_SUB, .T_NOT, .T_BNOT, .T_AMP,
    .T_KSIZEOF, .T_KALIGNOF]

/-- The rest of the compiler recognises type names, initializers and identifiers. -/
structure Fits (env : Env) (L : Lang) : Prop where
  typeYes : ∀ ty (r : Tok) rest, L.TypeName ty → r.type = .T_RPAR →
    env.typeName (ty ++ r :: rest) = some (ty, r :: rest)
  typeNo : ∀ (t : Tok) rest, t.type ∈ starts ∨ (t.type = .T_IDENT ∧ L.Ordinary t) → env.typeName (t :: rest) = none
  braced : ∀ b r, L.Braced b → env.initializer (b ++ r) = some (b, r)
  bracedHead : ∀ b, L.Braced b → ∃ t b', b = t :: b' ∧ t.type = .T_LBRACE
  known : ∀ t, L.Ordinary t → env.known t = true

/-- Levels of the precedence table. -/
def lvl : NT → Nat
  | .primary => 14 | .postfix => 14 | .unary => 13 | .cast => 13
  | .multiplicative => 12 | .additive => 11 | .shift => 10
  | .relational => 9 | .equality => 8 | .and => 7 | .exclusiveOr => 6 | .inclusiveOr => 5
  | .logicalAnd => 4 | .logicalOr => 3 | .conditional => 2 | .assignment => 2 | .expression => 1
  | .arguments => 0

theorem prec_le (t : TType) : precTable t ≤ 14 := by cases t <;> decide

theorem lvl_tighter (n m : NT) : PrattSpec.tighter n = some m →
    lvl n ≤ lvl m ∧ m ≠ .arguments ∧ n ≠ .arguments ∧ lvl m ≤ 14 := by
  cases n <;> cases m <;> decide

/-- What may follow something derived from a nonterminal of level `k`. -/
def Follows (k : Nat) (r : List Tok) : Prop :=
  precTable (head r) ≤ k ∧ (k ≤ 13 → precTable (head r) ≤ 12) ∧ (k ≤ 2 → precTable (head r) ≤ 1)

theorem Follows.mono {k k' r} (h : Follows k r) (hk : k ≤ k') : Follows k' r :=
  ⟨Nat.le_trans h.1 hk, fun h' => h.2.1 (by omega), fun h' => h.2.2 (by omega)⟩

theorem Follows.tight (r : List Tok) : Follows 14 r := ⟨prec_le _, by omega, by omega⟩

theorem Follows.of {k : Nat} {t : Tok} {r : List Tok} (h1 : precTable t.type ≤ k) (h2 : k ≤ 13 → precTable t.type ≤ 12)
    (h3 : k ≤ 2 → precTable t.type ≤ 1) : Follows k (t :: r) := ⟨h1, h2, h3⟩

/-- The first token of an expression. -/
theorem first {L : Lang} {n ts e} (h : Derives L n ts e) :
    ∃ t ts', ts = t :: ts' ∧ (t.type ∈ starts ∨ (t.type = .T_IDENT ∧ L.Ordinary t)) := by
  have sc : ∀ t ∈ PrattSpec.constants, t ∈ starts := by decide
  have sl : TType.T_LPAR ∈ starts := by decide
  have app : ∀ {ts : List Tok} (us : List Tok),
      (∃ t ts', ts = t :: ts' ∧ (t.type ∈ starts ∨ (t.type = .T_IDENT ∧ L.Ordinary t))) →
      ∃ t ts', ts ++ us = t :: ts' ∧ (t.type ∈ starts ∨ (t.type = .T_IDENT ∧ L.Ordinary t)) := by
    rintro ts us ⟨t, ts', rfl, h⟩
    exact ⟨t, ts' ++ us, rfl, h⟩
  induction h with
  | const t h => exact ⟨t, [], rfl, .inl (sc _ h)⟩
  | ident t h h' => exact ⟨t, [], rfl, .inr ⟨h, h'⟩⟩
  | par l r ts e hl => exact ⟨l, _, rfl, .inl (hl ▸ sl)⟩
  | up n m ts e _ _ ih => exact ih
  | index l r ts₁ ts₂ a i _ _ _ _ ih => rw [List.append_assoc]; exact app _ ih
  | call0 l r ts₁ f _ _ _ ih => exact app _ ih
  | call l r ts₁ ts₂ f as _ _ _ _ ih => rw [List.append_assoc]; exact app _ ih
  | arg ts a _ ih => exact ih
  | args c ts₁ ts₂ a as _ _ _ ih => exact app _ ih
  | dot d m ts a _ _ _ ih => exact app _ ih
  | arrow d m ts a _ _ _ ih => exact app _ ih
  | postInc t ts a _ _ ih => exact app _ ih
  | postDec t ts a _ _ ih => exact app _ ih
  | compound l r ty b hl => exact ⟨l, _, rfl, .inl (hl ▸ sl)⟩
  | unU t o ts a h =>
    have : ∀ p ∈ PrattSpec.unaryOps, p.1 ∈ starts := by decide
    exact ⟨t, _, rfl, .inl (this _ h)⟩
  | unC t o ts a h =>
    have : ∀ p ∈ PrattSpec.castOps, p.1 ∈ starts := by decide
    exact ⟨t, _, rfl, .inl (this _ h)⟩
  | sizeofT k l r ty h => exact ⟨k, _, rfl, .inl (h ▸ by decide)⟩
  | alignofT k l r ty h => exact ⟨k, _, rfl, .inl (h ▸ by decide)⟩
  | cast l r ty ts a hl => exact ⟨l, _, rfl, .inl (hl ▸ sl)⟩
  | bin n m t o ts₁ ts₂ a b _ _ _ _ ih => exact app _ ih
  | cond q k ts₁ ts₂ ts₃ c a b _ _ _ _ _ ih => rw [List.append_assoc]; exact app _ ih
  | assign t ts₁ ts₂ a b _ _ _ ih => exact app _ ih
  | assignOp t o ts₁ ts₂ a b _ _ _ ih => exact app _ ih
  | comma t ts₁ ts₂ a b _ _ _ ih => exact app _ ih

/-- What follows a parenthesis that begins a unary-expression. -/
theorem second {L : Lang} {n ts e} (h : Derives L n ts e) :
    n = .primary ∨ n = .postfix ∨ n = .unary → startsCompound e = false → head ts = .T_LPAR →
    ∃ l t ts', ts = l :: t :: ts' ∧ (t.type ∈ starts ∨ (t.type = .T_IDENT ∧ L.Ordinary t)) := by
  have app : ∀ {n ts e} (us : List Tok), Derives L n ts e → (head ts = .T_LPAR →
      ∃ l t ts', ts = l :: t :: ts' ∧ (t.type ∈ starts ∨ (t.type = .T_IDENT ∧ L.Ordinary t))) →
      head (ts ++ us) = .T_LPAR →
      ∃ l t ts', ts ++ us = l :: t :: ts' ∧ (t.type ∈ starts ∨ (t.type = .T_IDENT ∧ L.Ordinary t)) := by
    intro n ts e us hd h hh
    obtain ⟨t, ts', rfl, _⟩ := first hd
    obtain ⟨l, t, ts', h1, h2⟩ := h hh
    exact ⟨l, t, ts' ++ us, by rw [h1]; rfl, h2⟩
  induction h with
  | const t h =>
    intro _ _ hh
    replace hh : t.type = .T_LPAR := hh
    rw [hh] at h; exact absurd h (by decide)
  | ident t h h' =>
    intro _ _ hh
    replace hh : t.type = .T_LPAR := hh
    rw [hh] at h; exact absurd h (by decide)
  | par l r ts e hl hr hd =>
    intro _ _ _
    obtain ⟨t, ts', rfl, h⟩ := first hd
    exact ⟨l, t, ts' ++ [r], rfl, h⟩
  | up n m ts e hm hd ih =>
    intro hn hs hh
    refine ih ?_ hs hh
    rcases hn with rfl | rfl | rfl <;> simp [PrattSpec.tighter] at hm <;> simp [← hm]
  | index l r ts₁ ts₂ a i _ _ hd _ ih =>
    intro _ hs hh
    rw [List.append_assoc] at hh ⊢; exact app _ hd (ih (by simp) hs) hh
  | call0 l r ts₁ f _ _ hd ih => intro _ hs hh; exact app _ hd (ih (by simp) hs) hh
  | call l r ts₁ ts₂ f as _ _ hd _ ih =>
    intro _ hs hh
    rw [List.append_assoc] at hh ⊢; exact app _ hd (ih (by simp) hs) hh
  | arg ts a _ ih => intro hn; simp at hn
  | args c ts₁ ts₂ a as _ _ _ ih => intro hn; simp at hn
  | dot d m ts a _ _ hd ih => intro _ hs hh; exact app _ hd (ih (by simp) hs) hh
  | arrow d m ts a _ _ hd ih => intro _ hs hh; exact app _ hd (ih (by simp) hs) hh
  | postInc t ts a _ hd ih => intro _ hs hh; exact app _ hd (ih (by simp) hs) hh
  | postDec t ts a _ hd ih => intro _ hs hh; exact app _ hd (ih (by simp) hs) hh
  | compound l r ty b hl => intro _ hs; simp [startsCompound] at hs
  | unU t o ts a h =>
    intro _ _ hh
    replace hh : t.type = .T_LPAR := hh
    have : ∀ p ∈ PrattSpec.unaryOps, p.1 ≠ .T_LPAR := by decide
    exact absurd hh (this _ h)
  | unC t o ts a h =>
    intro _ _ hh
    replace hh : t.type = .T_LPAR := hh
    have : ∀ p ∈ PrattSpec.castOps, p.1 ≠ .T_LPAR := by decide
    exact absurd hh (this _ h)
  | sizeofT k l r ty h => intro _ _ hh; replace hh : k.type = .T_LPAR := hh; rw [h] at hh; cases hh
  | alignofT k l r ty h => intro _ _ hh; replace hh : k.type = .T_LPAR := hh; rw [h] at hh; cases hh
  | cast l r ty ts a hl => intro hn; simp at hn
  | bin n m t o ts₁ ts₂ a b ho hm =>
    intro hn
    rcases hn with rfl | rfl | rfl <;> simp [PrattSpec.ops] at ho
  | cond q k ts₁ ts₂ ts₃ c a b => intro hn; simp at hn
  | assign t ts₁ ts₂ a b => intro hn; simp at hn
  | assignOp t o ts₁ ts₂ a b => intro hn; simp at hn
  | comma t ts₁ ts₂ a b => intro hn; simp at hn

variable {env : Env} {L : Lang}

theorem pLoop_stop {lhs r n p} (h : precTable (head r) ≤ p) :
    pLoop env (n + 1) p lhs r = .ok (lhs, r) := by
  cases r with
  | nil => rfl
  | cons t r =>
    replace h : precTable t.type ≤ p := h
    simp [pLoop, precGet, Nat.not_lt.2 h]

/-- The loop after the prefix part. -/
def wrap (x : CE × List Tok) : Run (Option CE × List Tok) := .ok (some x.1, x.2)

theorem pratt_of_prefix {p ts r ce x} (h1 : Ends (fun n => pPrefix env n ts) (.ok (some ce, r)))
    (h2 : Ends (fun n => pLoop env n p ce r >>= wrap) x) : Ends (fun n => pPratt env n p ts) x := by
  obtain ⟨M, h1⟩ := h1
  obtain ⟨N, h2⟩ := h2
  refine Ends.succ ⟨max M N, fun n hn => ?_⟩
  have e1 := h1 n (by omega)
  have e2 := h2 n (by omega)
  simp only at e1 e2 ⊢
  rw [pPratt, e1, ← e2]
  rfl

/-- The claim about a derivation from a nonterminal other than `arguments`. -/
def Climb (env : Env) (k : Nat) (ts : List Tok) (e : E) : Prop :=
  ∀ (p : Nat) (r : List Tok) (x : Run (Option CE × List Tok)), p ≤ 13 → (p < k ∨ 13 ≤ k) → Follows k r →
    Ends (fun n => pLoop env n p (lower e) r >>= wrap) x → Ends (fun n => pPratt env n p (ts ++ r)) x

/-- The claim about `arguments`. -/
def ClimbArgs (env : Env) (ts : List Tok) (e : E) : Prop :=
  ∀ (pos : Nat) (rp : Tok) (r : List Tok) (us : List Tok), rp.type = .T_RPAR → pos + nArgs e ≤ 127 →
    (pos = 0 → us = ts ++ rp :: r) → (pos ≠ 0 → ∃ c : Tok, c.type = .T_COMMA ∧ us = c :: (ts ++ rp :: r)) →
    Ends (fun n => pArgs env n pos us) (.ok (lowerArgs e, r))

/-- Closing a sub-expression at a token that stops it. -/
theorem Climb.close {k ts e} (h : Climb env k ts e) (p : Nat) (r : List Tok) (h0 : p ≤ 13) (h1 : p < k ∨ 13 ≤ k)
    (h2 : Follows k r) (h3 : precTable (head r) ≤ p) :
    Ends (fun n => pPratt env n p (ts ++ r)) (.ok (some (lower e), r)) :=
  h p r _ h0 h1 h2 (Ends.succ (Ends.congr (fun n => by simp only [pLoop_stop h3]; rfl) (Ends.const _)))

/-- How the loop recognises an operator. -/
def IsTok (t : TType) : Bin → Prop
  | .land => t = .T_AND
  | .lor => t = .T_OR
  | .arith o => binOps t = some o

instance (t o) : Decidable (IsTok t o) := by unfold IsTok; cases o <;> infer_instance

/-- The operators of the grammar in the precedence table and in the parser's table. -/
theorem ops_table (n : NT) : ∀ p ∈ PrattSpec.ops n,
    precTable p.1 = lvl n ∧ 3 ≤ lvl n ∧ lvl n ≤ 12 ∧ n ≠ .arguments ∧ assignOps p.1 = none ∧
    IsTok p.1 p.2 := by
  cases n <;> decide

theorem tighter_succ (n m : NT) : PrattSpec.ops n ≠ [] → PrattSpec.tighter n = some m → lvl m = lvl n + 1 := by
  cases n <;> cases m <;> decide

theorem head_app {ts r : List Tok} (h : ∃ t ts', ts = t :: ts') : head (ts ++ r) = head ts := by
  obtain ⟨t, ts', rfl⟩ := h; rfl

/-- `sizeof` and the other prefix operators. -/
theorem prefix_un (t : Tok) (o : Un) (a : E) {ts r : List Tok} (hF : Fits env L)
    (ho : (t.type, o) ∈ PrattSpec.unaryOps ∨ (t.type, o) ∈ PrattSpec.castOps)
    (hs : o = .sizeof → Derives L .unary ts a ∧ startsCompound a = false)
    (hr : o = .addr → ∀ u, lower a = .ident u → env.register u = false)
    (h : Ends (fun n => pPratt env n 13 (ts ++ r)) (.ok (some (lower a), r))) :
    Ends (fun n => pPrefix env n (t :: ts ++ r)) (.ok (some (lower (.un o a)), r)) := by
  obtain ⟨M, h⟩ := h
  refine Ends.succ ⟨M, fun n hn => ?_⟩
  have e1 := h n hn
  simp only at e1 ⊢
  rw [List.cons_append]
  have hm : (t.type, o) ∈ PrattSpec.unaryOps ++ PrattSpec.castOps := by simpa using ho
  simp only [PrattSpec.unaryOps, PrattSpec.castOps, List.cons_append, List.nil_append, List.mem_cons,
    Prod.mk.injEq, List.not_mem_nil, or_false] at hm
  rcases hm with ⟨ht, rfl⟩ | ⟨ht, rfl⟩ | ⟨ht, rfl⟩ | ⟨ht, rfl⟩ | ⟨ht, rfl⟩ | ⟨ht, rfl⟩ | ⟨ht, rfl⟩ | ⟨ht, rfl⟩ | ⟨ht, rfl⟩
  · simp [pPrefix, ht, e1, need, lower]
  · simp [pPrefix, ht, e1, need, lower]
  · obtain ⟨hd, hc⟩ := hs rfl
    obtain ⟨t', ts', hts, _⟩ := first hd
    have hh : head (ts ++ r) = head ts := head_app ⟨_, _, hts⟩
    by_cases hl : head ts = .T_LPAR
    · obtain ⟨l, u, us, hts', hu⟩ := second hd (by simp) hc hl
      have hn : env.typeName ((ts ++ r).tail) = none := by rw [hts']; exact hF.typeNo _ _ hu
      simp [pPrefix, ht, hh, hl, hn, e1, deref, lower]
    · simp [pPrefix, ht, hh, hl, e1, deref, lower]
  · have : addressOf env (lower a) = .ok (.addrOf (lower a)) := by
      cases hl : lower a <;> simp [addressOf]
      exact hr rfl _ hl
    simp [pPrefix, ht, e1, deref, this, lower]
  · simp [pPrefix, ht, e1, need, lower]
  · simp [pPrefix, ht, e1, need, lower]
  · simp [pPrefix, ht, e1, need, lower]
  · simp [pPrefix, ht, e1, need, lower]
  · simp [pPrefix, ht, e1, need, lower]

/-- A binary operator in the loop: the right operand is parsed, then the loop goes on. -/
theorem loop_bin {p np : Nat} {t : Tok} {lhs ce : CE} (f : CE → CE) {ts r : List Tok} {x}
    (hk : ∀ n, pLoop env (n + 1) p lhs (t :: ts) = (pPratt env n np ts >>= fun a => need a.1 >>= fun e =>
      pLoop env n p (f e) a.2))
    (h1 : Ends (fun n => pPratt env n np ts) (.ok (some ce, r)))
    (h2 : Ends (fun n => pLoop env n p (f ce) r >>= wrap) x) :
    Ends (fun n => pLoop env n p lhs (t :: ts) >>= wrap) x := by
  obtain ⟨M, h1⟩ := h1
  obtain ⟨N, h2⟩ := h2
  refine Ends.succ ⟨max M N, fun n hn => ?_⟩
  have e1 := h1 n (by omega)
  have e2 := h2 n (by omega)
  simp only at e1 e2 ⊢
  rw [hk, e1, ← e2]
  rfl

theorem assign_table : ∀ p ∈ PrattSpec.assignOps, precTable p.1 = 2 ∧ assignOps p.1 = some p.2 := by decide

/-- The main invariant of precedence climbing. -/
theorem climb (hF : Fits env L) {k : NT} {ts : List Tok} {e : E} (h : Derives L k ts e) : Plain env e →
    (k ≠ .arguments → Climb env (lvl k) ts e) ∧ (k = .arguments → ClimbArgs env ts e) := by
  induction h with
  | const t ht =>
    refine fun _ => ⟨fun _ p r x _ _ _ hx => ?_, by simp⟩
    refine pratt_of_prefix (Ends.succ (Ends.congr (fun n => ?_) (Ends.const _))) hx
    simp only [PrattSpec.constants, List.mem_cons, List.not_mem_nil, or_false] at ht
    rcases ht with h | h | h | h | h | h | h | h | h | h <;> simp [pPrefix, h, lower]
  | ident t ht ho =>
    refine fun _ => ⟨fun _ p r x _ _ _ hx => ?_, by simp⟩
    refine pratt_of_prefix (Ends.succ (Ends.congr (fun n => ?_) (Ends.const _))) hx
    simp [pPrefix, ht, lower, hF.known t ho]
  | par l rp ts e hl hr hd ih =>
    refine fun hp => ⟨fun _ p r x _ _ _ hx => ?_, by simp⟩
    have key := ((ih hp).1 (by simp)).close 0 (rp :: r) (by simp) (.inl (by decide))
      (Follows.of (by simp [hr, precTable]) (by simp [hr, precTable]) (by simp [hr, precTable]))
      (by simp [head, hr, precTable])
    obtain ⟨t, ts', hts, ht⟩ := first hd
    have hn : env.typeName (ts ++ rp :: r) = none := by rw [hts]; exact hF.typeNo _ _ ht
    refine pratt_of_prefix ?_ hx
    obtain ⟨M, key⟩ := key
    refine Ends.succ ⟨M, fun n hn' => ?_⟩
    have e1 := key n hn'
    simp only at e1 ⊢
    simp [pPrefix, hl, hn, e1, expect, hr, lower]
  | up n m ts e hm hd ih =>
    intro hp
    obtain ⟨l1, l2, l3, l4⟩ := lvl_tighter n m hm
    refine ⟨fun _ p r x h0 h1 hf hx => ?_, fun h => absurd h l3⟩
    exact (ih hp).1 l2 p r x h0 (by omega) (hf.mono l1) hx
  | index l rb ts₁ ts₂ a i hl hr hd1 hd2 iha ihi =>
    refine fun hp => ⟨fun _ p r x h0 _ _ hx => ?_, by simp⟩
    rw [List.append_assoc, List.append_assoc]
    refine (iha hp.1).1 (by simp) p _ x h0 (.inr (by decide)) (Follows.tight _) ?_
    have key := ((ihi hp.2).1 (by simp)).close 0 (rb :: r) (by simp) (.inl (by decide))
      (Follows.of (by simp [hr, precTable]) (by simp [hr, precTable]) (by simp [hr, precTable]))
      (by simp [head, hr, precTable])
    obtain ⟨M, key⟩ := key
    obtain ⟨N, hx⟩ := hx
    refine Ends.succ ⟨max M N, fun n hn => ?_⟩
    have e1 := key n (by omega)
    have e2 := hx n (by omega)
    simp only at e1 e2 ⊢
    have hlt : p < 14 := by omega
    rw [← e2]
    simp [pLoop, hl, precGet, precTable, hlt, assignOps, binOps, e1, expect, hr, need, lower]
  | call0 l rp ts₁ f hl hr hd ih =>
    refine fun hp => ⟨fun _ p r x h0 _ _ hx => ?_, by simp⟩
    rw [List.append_assoc]
    refine (ih hp.1).1 (by simp) p _ x h0 (.inr (by decide)) (Follows.tight _) ?_
    obtain ⟨N, hx⟩ := hx
    refine Ends.succ ⟨N + 1, fun n hn => ?_⟩
    have e2 := hx n (by omega)
    simp only at e2 ⊢
    have hlt : p < 14 := by omega
    rw [← e2]
    obtain ⟨n, rfl⟩ : ∃ m, n = m + 1 := ⟨n - 1, by omega⟩
    have ea : pArgs env (n + 1) 0 (rp :: r) = .ok ([], r) := by simp [pArgs, head, hr]
    rw [List.cons_append, List.cons_append, List.nil_append, pLoop]
    simp [hl, precGet, precTable, hlt, assignOps, binOps, ea, lower, lowerArgs]
  | call l rp ts₁ ts₂ f as hl hr hd1 hd2 ihf iha =>
    refine fun hp => ⟨fun _ p r x h0 _ _ hx => ?_, by simp⟩
    rw [List.append_assoc, List.append_assoc]
    refine (ihf hp.1).1 (by simp) p _ x h0 (.inr (by decide)) (Follows.tight _) ?_
    have key := (iha hp.2.1).2 rfl 0 rp r (ts₂ ++ rp :: r) hr (by have := hp.2.2; omega) (fun _ => rfl) (by simp)
    obtain ⟨M, key⟩ := key
    obtain ⟨N, hx⟩ := hx
    refine Ends.succ ⟨max M N, fun n hn => ?_⟩
    have e1 := key n (by omega)
    have e2 := hx n (by omega)
    simp only at e1 e2 ⊢
    have hlt : p < 14 := by omega
    rw [← e2]
    simp [pLoop, hl, precGet, precTable, hlt, assignOps, binOps, e1, lower]
  | arg ts a hd ih =>
    refine fun hp => ⟨by simp, fun _ pos rp r us hr hn hz hc => ?_⟩
    have key := ((ih hp.1).1 (by simp)).close 1 (rp :: r) (by simp) (.inl (by decide))
      (Follows.of (by simp [hr, precTable]) (by simp [hr, precTable]) (by simp [hr, precTable]))
      (by simp [head, hr, precTable])
    obtain ⟨M, key⟩ := key
    obtain ⟨t, ts', hts, ht⟩ := first hd
    have ht' : t.type ≠ .T_RPAR := by
      intro h; rw [h] at ht; revert ht; simp [starts, PrattSpec.constants]
    refine Ends.succ ⟨M + 1, fun n hn' => ?_⟩
    have e1 := key n (by omega)
    simp only at e1 ⊢
    simp only [nArgs] at hn
    have l1 : pos < 128 := by omega
    have l2 : pos + 1 < 128 := by omega
    obtain ⟨n, rfl⟩ : ∃ m, n = m + 1 := ⟨n - 1, by omega⟩
    have ea : pArgs env (n + 1) (pos + 1) (rp :: r) = .ok ([], r) := by simp [pArgs, head, hr, l2]
    by_cases h0 : pos = 0
    · rw [hz h0, pArgs]
      have hh : head (ts ++ rp :: r) ≠ .T_RPAR := by rw [hts]; exact ht'
      simp [h0, hh, e1, need, lowerArgs]
      simp [h0] at ea
      simp [ea]
    · obtain ⟨c, hc1, hc2⟩ := hc h0
      rw [hc2, pArgs]
      have hh : head (c :: (ts ++ rp :: r)) ≠ .T_RPAR := by simp [head, hc1]
      simp [l1, h0, hh, e1, need, lowerArgs, expect, hc1, ea]
  | args c ts₁ ts₂ a as hc hd1 hd2 iha ihas =>
    refine fun hp => ⟨by simp, fun _ pos rp r us hr hn hz hcm => ?_⟩
    have key := ((iha hp.1).1 (by simp)).close 1 (c :: (ts₂ ++ rp :: r)) (by simp) (.inl (by decide))
      (Follows.of (by simp [hc, precTable, lvl]) (by simp [hc, precTable]) (by simp [hc, precTable]))
      (by simp [head, hc, precTable])
    simp only [nArgs] at hn
    have key2 := (ihas hp.2).2 rfl (pos + 1) rp r (c :: (ts₂ ++ rp :: r)) hr (by omega) (by simp)
      (fun _ => ⟨c, hc, rfl⟩)
    obtain ⟨M, key⟩ := key
    obtain ⟨N, key2⟩ := key2
    obtain ⟨t, ts', hts, ht⟩ := first hd1
    have ht' : t.type ≠ .T_RPAR := by
      intro h; rw [h] at ht; revert ht; simp [starts, PrattSpec.constants]
    refine Ends.succ ⟨max M N, fun n hn' => ?_⟩
    have e1 := key n (by omega)
    have e2 := key2 n (by omega)
    simp only at e1 e2 ⊢
    have l1 : pos < 128 := by omega
    by_cases h0 : pos = 0
    · rw [hz h0, pArgs]
      have hh : head (ts₁ ++ c :: ts₂ ++ rp :: r) ≠ .T_RPAR := by rw [hts]; exact ht'
      simp [h0] at e2
      simp at hh
      simp [h0, hh, e1, e2, need, lowerArgs]
    · obtain ⟨d, hc1, hc2⟩ := hcm h0
      rw [hc2, pArgs]
      have hh : head (d :: (ts₁ ++ c :: ts₂ ++ rp :: r)) ≠ .T_RPAR := by simp [head, hc1]
      simp at hh
      simp [l1, h0, hh, e1, e2, need, lowerArgs, expect, hc1]
  | dot d m ts a hdot hm hd ih =>
    refine fun hp => ⟨fun _ p r x h0 _ _ hx => ?_, by simp⟩
    rw [List.append_assoc]
    refine (ih hp).1 (by simp) p _ x h0 (.inr (by decide)) (Follows.tight _) ?_
    refine Ends.succ (Ends.congr (fun n => ?_) hx)
    have hlt : p < 14 := by omega
    simp [pLoop, hdot, precGet, precTable, hlt, assignOps, binOps, member, hm, lower]
  | arrow d m ts a hdot hm hd ih =>
    refine fun hp => ⟨fun _ p r x h0 _ _ hx => ?_, by simp⟩
    rw [List.append_assoc]
    refine (ih hp).1 (by simp) p _ x h0 (.inr (by decide)) (Follows.tight _) ?_
    refine Ends.succ (Ends.congr (fun n => ?_) hx)
    have hlt : p < 14 := by omega
    simp [pLoop, hdot, precGet, precTable, hlt, assignOps, binOps, member, hm, lower]
  | postInc t ts a ht hd ih =>
    refine fun hp => ⟨fun _ p r x h0 _ _ hx => ?_, by simp⟩
    rw [List.append_assoc]
    refine (ih hp).1 (by simp) p _ x h0 (.inr (by decide)) (Follows.tight _) ?_
    refine Ends.succ (Ends.congr (fun n => ?_) hx)
    have hlt : p < 14 := by omega
    simp [pLoop, ht, precGet, precTable, hlt, assignOps, binOps, lower]
  | postDec t ts a ht hd ih =>
    refine fun hp => ⟨fun _ p r x h0 _ _ hx => ?_, by simp⟩
    rw [List.append_assoc]
    refine (ih hp).1 (by simp) p _ x h0 (.inr (by decide)) (Follows.tight _) ?_
    refine Ends.succ (Ends.congr (fun n => ?_) hx)
    have hlt : p < 14 := by omega
    simp [pLoop, ht, precGet, precTable, hlt, assignOps, binOps, lower]
  | compound l rp ty b hl hr hty hb =>
    refine fun _ => ⟨fun _ p r x _ _ _ hx => ?_, by simp⟩
    refine pratt_of_prefix (Ends.succ (Ends.congr (fun n => ?_) (Ends.const _))) hx
    obtain ⟨t, b', hb1, hb2⟩ := hF.bracedHead b hb
    have h1 := hF.typeYes ty rp (b ++ r) hty hr
    have h2 : head (b ++ r) = .T_LBRACE := by rw [hb1]; exact hb2
    simp [pPrefix, hl, h1, expect, hr, h2, hF.braced b r hb, lower]
  | unU t o ts a ho hd ih =>
    refine fun hp => ⟨fun _ p r x h0 _ hf hx => ?_, by simp⟩
    have key := ((ih hp.1).1 (by simp)).close 13 r (by simp) (.inr (by decide)) hf (by have := hf.2.1 (by decide); omega)
    exact pratt_of_prefix (prefix_un t o a hF (.inl ho) (fun h => ⟨hd, hp.2.1 h⟩) hp.2.2 key) hx
  | unC t o ts a ho hd ih =>
    refine fun hp => ⟨fun _ p r x h0 _ hf hx => ?_, by simp⟩
    have key := ((ih hp.1).1 (by simp)).close 13 r (by simp) (.inr (by decide)) hf (by have := hf.2.1 (by decide); omega)
    have hns : o ≠ .sizeof := by
      rintro rfl
      revert ho
      simp [PrattSpec.castOps]
    exact pratt_of_prefix (prefix_un t o a hF (.inr ho) (fun h => absurd h hns) hp.2.2 key) hx
  | sizeofT k l rp ty hk hl hr hty =>
    refine fun _ => ⟨fun _ p r x _ _ _ hx => ?_, by simp⟩
    refine pratt_of_prefix (Ends.succ (Ends.congr (fun n => ?_) (Ends.const _))) hx
    have h1 := hF.typeYes ty rp r hty hr
    simp [pPrefix, hk, head, hl, h1, expect, hr, lower]
  | alignofT k l rp ty hk hl hr hty =>
    refine fun _ => ⟨fun _ p r x _ _ _ hx => ?_, by simp⟩
    refine pratt_of_prefix (Ends.succ (Ends.congr (fun n => ?_) (Ends.const _))) hx
    have h1 := hF.typeYes ty rp r hty hr
    simp [pPrefix, hk, head, hl, h1, expect, hr, lower]
  | cast l rp ty ts a hl hr hty hd ih =>
    refine fun hp => ⟨fun _ p r x h0 _ hf hx => ?_, by simp⟩
    have key := ((ih hp).1 (by simp)).close 13 r (by simp) (.inr (by decide)) hf (by have := hf.2.1 (by decide); omega)
    refine pratt_of_prefix ?_ hx
    obtain ⟨M, key⟩ := key
    refine Ends.succ ⟨M, fun n hn => ?_⟩
    have e1 := key n hn
    simp only at e1 ⊢
    have h1 := hF.typeYes ty rp (ts ++ r) hty hr
    obtain ⟨t, ts', hts, ht⟩ := first hd
    have hh : head (ts ++ r) ≠ .T_LBRACE := by
      rw [hts]
      intro h
      replace h : t.type = .T_LBRACE := h
      rw [h] at ht; revert ht; simp [starts, PrattSpec.constants]
    simp [pPrefix, hl, h1, expect, hr, hh, e1, need, lower]
  | bin n m t o ts₁ ts₂ a b ho hm hd1 hd2 iha ihb =>
    intro hp
    obtain ⟨o1, o2, o3, o4, o5, o6⟩ := ops_table n _ ho
    simp only at o1 o5 o6
    have hs := tighter_succ n m (by intro h; rw [h] at ho; simp at ho) hm
    refine ⟨fun _ p r x h0 h1 hf hx => ?_, fun h => absurd h o4⟩
    have hlt : p < lvl n := by omega
    rw [List.append_assoc]
    refine (iha hp.1).1 o4 p _ x h0 h1 (Follows.of (by omega) (by omega) (by omega)) ?_
    have key := ((ihb hp.2).1 (lvl_tighter n m hm).2.1).close (lvl n) r (by omega) (by omega) (hf.mono (by omega)) hf.1
    have np : precGet t.type false = lvl n := by
      simp only [precGet]; rw [if_neg (by omega), o1]
    have lp : p < precGet t.type true := by simp only [precGet]; simp; omega
    cases o with
    | land =>
      replace o6 : t.type = .T_AND := o6
      refine loop_bin (fun e => .cond (lower a) (.cond e (.int 1) (.int 0)) (.int 0)) (np := lvl n) (fun k => ?_) key hx
      simp only [pLoop, lp, if_true, np]
      rw [o6]
      simp [assignOps, binOps]
    | lor =>
      replace o6 : t.type = .T_OR := o6
      refine loop_bin (fun e => .cond (lower a) (.int 1) (.cond e (.int 1) (.int 0))) (np := lvl n) (fun k => ?_) key hx
      simp only [pLoop, lp, if_true, np]
      rw [o6]
      simp [assignOps, binOps]
    | arith op =>
      replace o6 : binOps t.type = some op := o6
      refine loop_bin (fun e => .bin op (lower a) e) (np := lvl n) (fun k => ?_) key hx
      simp only [pLoop, lp, if_true, np, o5, o6]
  | cond q kk ts₁ ts₂ ts₃ c a b hq hk hd1 hd2 hd3 ihc iha ihb =>
    refine fun hp => ⟨fun _ p r x h0 h1 hf hx => ?_, by simp⟩
    have hp' : p < 2 := by rcases h1 with h | h <;> simp [lvl] at h; omega
    rw [List.append_assoc, List.append_assoc]
    refine (ihc hp.1).1 (by simp) p _ x h0 (.inl (by simp [lvl]; omega))
      (Follows.of (by simp [hq, precTable, lvl]) (by simp [hq, precTable]) (by simp [lvl])) ?_
    have keya := ((iha hp.2.1).1 (by simp)).close 0 (kk :: ts₃ ++ r) (by simp) (.inl (by decide))
      (Follows.of (by simp [hk, precTable]) (by simp [hk, precTable]) (by simp [hk, precTable]))
      (by simp [head, hk, precTable])
    have keyb := ((ihb hp.2.2).1 (by simp)).close 1 r (by simp) (.inl (by decide)) hf (hf.2.2 (by decide))
    obtain ⟨M, keya⟩ := keya
    obtain ⟨N, keyb⟩ := keyb
    obtain ⟨K, hx⟩ := hx
    refine Ends.succ ⟨max (max M N) K, fun n hn => ?_⟩
    have e1 := keya n (by omega)
    have e2 := keyb n (by omega)
    have e3 := hx n (by omega)
    simp only at e1 e2 e3 ⊢
    rw [← e3]
    have lp : p < precGet q.type true := by simp [precGet, hq, precTable]; omega
    have np : precGet q.type false = 1 := by simp [precGet, hq, precTable]
    rw [List.cons_append, pLoop]
    simp only [lp, if_true, np]
    rw [hq]
    simp at e1
    simp [assignOps, binOps, e1, expect, hk, e2, need, lower]
  | assign t ts₁ ts₂ a b ht hd1 hd2 iha ihb =>
    refine fun hp => ⟨fun _ p r x h0 h1 hf hx => ?_, by simp⟩
    have hp' : p < 2 := by rcases h1 with h | h <;> simp [lvl] at h; omega
    rw [List.append_assoc]
    refine (iha hp.1).1 (by simp) p _ x h0 (.inr (by decide))
      (Follows.of (by simp [ht, precTable, lvl]) (by simp [ht, precTable]) (by simp [lvl])) ?_
    have key := ((ihb hp.2).1 (by simp)).close 1 r (by simp) (.inl (by decide)) hf (hf.2.2 (by decide))
    have lp : p < precGet t.type true := by simp [precGet, ht, precTable]; omega
    have np : precGet t.type false = 1 := by simp [precGet, ht, precTable]
    refine loop_bin (fun e => .assign (lower a) e) (np := 1) (fun k => ?_) key hx
    simp only [pLoop, lp, if_true, np]
    rw [ht]
    simp [assignOps, binOps]
  | assignOp t o ts₁ ts₂ a b ho hd1 hd2 iha ihb =>
    refine fun hp => ⟨fun _ p r x h0 h1 hf hx => ?_, by simp⟩
    have hp' : p < 2 := by rcases h1 with h | h <;> simp [lvl] at h; omega
    obtain ⟨o1, o2⟩ := assign_table _ ho
    simp only at o1 o2
    rw [List.append_assoc]
    refine (iha hp.1).1 (by simp) p _ x h0 (.inr (by decide))
      (Follows.of (by simp [o1, lvl]) (by simp [o1]) (by simp [lvl])) ?_
    have key := ((ihb hp.2).1 (by simp)).close 1 r (by simp) (.inl (by decide)) hf (hf.2.2 (by decide))
    have lp : p < precGet t.type true := by simp [precGet, o1]; omega
    have np : precGet t.type false = 1 := by simp [precGet, o1]
    refine loop_bin (fun e => .assignOp o (lower a) e false) (np := 1) (fun k => ?_) key hx
    simp only [pLoop, lp, if_true, np, o2]
  | comma t ts₁ ts₂ a b ht hd1 hd2 iha ihb =>
    refine fun hp => ⟨fun _ p r x h0 h1 hf hx => ?_, by simp⟩
    have hp' : p < 1 := by rcases h1 with h | h <;> simp [lvl] at h; omega
    rw [List.append_assoc]
    refine (iha hp.1).1 (by simp) p _ x h0 (.inl (by simp [lvl]; omega))
      (Follows.of (by simp [ht, precTable, lvl]) (by simp [ht, precTable]) (by simp [ht, precTable])) ?_
    have key := ((ihb hp.2).1 (by simp)).close 1 r (by simp) (.inl (by decide)) (hf.mono (by decide)) hf.1
    have lp : p < precGet t.type true := by simp [precGet, ht, precTable]; omega
    have np : precGet t.type false = 1 := by simp [precGet, ht, precTable]
    refine loop_bin (fun e => .comma (lower a) e) (np := 1) (fun k => ?_) key hx
    simp only [pLoop, lp, if_true, np]
    rw [ht]
    simp [assignOps, binOps]

end Verif.Pratt
