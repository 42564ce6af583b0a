import Verif.PPExprLemmas
/-!
Properties C11 and C12: `#if` expressions.
-/
namespace Verif.PPExpr
open Verif Simple SimpleSpec PPExprSpec

/-! ### C11 -/

/-- Full statement of **C11**: every expression the grammar and 6.10.1 give a value is
accepted, and only operand lists the grammar derives are accepted. -/
def IfParsing : Prop :=
  (∀ (abi : Abi) (ts : List Tok) (e : E) (s : Bool) (v : Int), Derives .conditional ts e → Value e s v →
    ∃ r, Fin (fun n => evalBuffer abi n ts) (.ok r)) ∧
  (∀ (abi : Abi) (ts : List Tok) (r : V), Fin (fun n => evalBuffer abi n ts) (.ok r) →
    ∃ e, Derives .conditional ts e)

/-- **C11**, `_partial`: an operand list derived by the grammar with the tree `e` is
evaluated exactly as `e` is, whatever its depth.  Missing: `~`, which is rejected, and the
diagnosis of trailing tokens (`if_parsing_violated`). -/
theorem if_parses_grammar_partial (abi : Abi) (ts : List Tok) (e : E)
    (h : Derives .conditional ts e) (hc : NoCompl e) :
    Fin (fun n => evalBuffer abi n ts) (Run.ofRes (evalTree abi true e)) := by
  have hf : Follows 2 [eoi] := ⟨eoi, [], rfl, by decide, by decide, by decide, by decide⟩
  have key : Fin (fun n => evalExpr abi n 0 true (ts ++ [eoi]))
      (Run.ofRes (evalTree abi true e) >>= fun v => .ok (v, [eoi])) := by
    refine climb abi h hc 0 true [eoi] _ (.inl (by decide)) hf (Fin.succ ?_)
    exact Fin.congr (fun n => by simp only [evalLoop_stop (p := 0) (r := [eoi]) ⟨eoi, [], rfl, by decide, by decide⟩]) (Fin.const _)
  refine Fin.congr (g := fun n => evalExpr abi n 0 true (ts ++ [eoi]) >>= fun a => .ok a.1)
    (fun n => rfl) (Fin.bind key ?_)
  exact Fin.congr (fun n => by cases evalTree abi true e <;> simp) (Fin.const _)

/-- A token of a given kind. -/
def tk (t : TType) (s : String := "") : Tok := { type := t, str := str s }

/-- `1 + 2 * 3 == 7 ? 4 : 5` -/
example : Derives .conditional
    ([tk .T_NUM "1"] ++ tk .T_ADD :: ([tk .T_NUM "2"] ++ tk .T_STAR :: [tk .T_NUM "3"]))
    (.bin (.arith .add) (.lit (tk .T_NUM "1"))
      (.bin (.arith .mul) (.lit (tk .T_NUM "2")) (.lit (tk .T_NUM "3")))) ∧
    NoCompl (.bin (.arith .add) (.lit (tk .T_NUM "1"))
      (.bin (.arith .mul) (.lit (tk .T_NUM "2")) (.lit (tk .T_NUM "3")))) := by
  refine ⟨?_, trivial, trivial, trivial⟩
  have l : ∀ s, Derives .unary [tk .T_NUM s] (.lit (tk .T_NUM s)) :=
    fun s => .up .unary _ _ (.lit _ (.inl rfl))
  refine .up _ _ _ <| .up _ _ _ <| .up _ _ _ <| .up _ _ _ <| .up _ _ _ <| .up _ _ _ <| .up _ _ _ <|
    .up _ _ _ <| .up _ _ _ <| ?_
  exact .bin .additive _ _ _ _ _ _ (by decide) (.up _ _ _ (.up _ _ _ (l _)))
    (.bin .multiplicative _ _ _ _ _ _ (by decide) (.up _ _ _ (l _)) (l _))

/-- Every derivation is non-empty. -/
theorem derives_ne_nil {k ts e} (h : Derives k ts e) : ts ≠ [] := by
  induction h <;> simp_all

/-- A derived list of two tokens starts with a unary operator. -/
theorem derives_two {k ts e} (h : Derives k ts e) : ∀ a b, ts = [a, b] → a.type ∈ unOps.map (·.1) := by
  induction h with
  | lit t _ => intro a b h; cases h
  | par l r ts e _ _ h _ =>
    intro a b hh
    have := derives_ne_nil h
    cases ts with
    | nil => exact absurd rfl this
    | cons x xs => have := congrArg List.length hh; simp at this
  | un t o ts e ho _ _ =>
    intro a b hh
    cases hh
    exact List.mem_map.2 ⟨_, ho, rfl⟩
  | up n ts e _ ih => exact ih
  | bin n t o ts₁ ts₂ a b _ h1 h2 _ _ =>
    intro x y hh
    have l1 := List.length_pos_iff.2 (derives_ne_nil h1)
    have l2 := List.length_pos_iff.2 (derives_ne_nil h2)
    have := congrArg List.length hh
    simp at this; omega
  | cond q k ts₁ ts₂ ts₃ c a b _ _ h1 h2 h3 _ _ _ =>
    intro x y hh
    have l1 := List.length_pos_iff.2 (derives_ne_nil h1)
    have l2 := List.length_pos_iff.2 (derives_ne_nil h2)
    have := congrArg List.length hh
    simp at this; omega

/-- **C11 is violated**: `#if ~0` is rejected although it has a value, and `#if 1 0` is
accepted (as true) although it is not an expression. -/
theorem if_parsing_violated : ¬ IfParsing ∧
    (∃ e, Derives .conditional [tk .T_BNOT, tk .T_IDENT "x"] e ∧ Value e true (-1)) ∧
    (∀ n, 2 ≤ n → evalBuffer .sysv n [tk .T_BNOT, tk .T_IDENT "x"] = .fail) ∧
    (∀ n, 2 ≤ n → evalBuffer .sysv n [tk .T_NUM "1", tk .T_NUM "0"] = .ok ⟨true, 1⟩) := by
  have h1 : ∀ n, 2 ≤ n → evalBuffer .sysv n [tk .T_BNOT, tk .T_IDENT "x"] = .fail := by
    intro n hn
    obtain ⟨m, rfl⟩ := Nat.exists_eq_add_of_le hn
    rw [Nat.add_comm]
    rfl
  have h2 : ∀ n, 2 ≤ n → evalBuffer .sysv n [tk .T_NUM "1", tk .T_NUM "0"] = .ok ⟨true, 1⟩ := by
    intro n hn
    obtain ⟨m, rfl⟩ := Nat.exists_eq_add_of_le hn
    rw [Nat.add_comm]
    have e : literal .sysv (tk .T_NUM "1") = .ok ⟨true, 1⟩ := by decide +kernel
    simp only [evalBuffer, evalExpr, evalLoop]
    simp [next, tk, precGet, precTable]
    simp only [tk] at e
    simp [e]
  refine ⟨?_, ⟨.un .compl (.lit (tk .T_IDENT "x")), ?_, ?_⟩, h1, h2⟩
  · rintro ⟨_, h⟩
    obtain ⟨e, he⟩ := h .sysv [tk .T_NUM "1", tk .T_NUM "0"] _ ⟨2, h2⟩
    exact absurd (derives_two he _ _ rfl) (by decide)
  · refine .up _ _ _ <| .up _ _ _ <| .up _ _ _ <| .up _ _ _ <| .up _ _ _ <| .up _ _ _ <| .up _ _ _ <|
      .up _ _ _ <| .up _ _ _ <| .up _ _ _ <| .up .multiplicative _ _ ?_
    exact .un _ _ _ _ (by decide) (.up .unary _ _ (.lit _ (.inr (.inr rfl))))
  · exact .compl _ _ 0 _ (.lit _ _ _ (.ident _ rfl)) (by decide)

/-! ### C12 -/

/-- Full statement of **C12**: an expression with a value is evaluated to it. -/
def IfArithmetic : Prop :=
  ∀ (abi : Abi) (ts : List Tok) (e : E) (s : Bool) (v : Int), Derives .conditional ts e → Value e s v →
    Fin (fun n => evalBuffer abi n ts) (.ok ⟨s, BitVec.ofInt 64 v⟩)

/-- **C12**, `_partial`: every `Plain` expression with a value is evaluated to it, in the
right type.  Missing: exactly the constructs `Plain` excludes, see `if_arithmetic_violated`. -/
theorem if_arithmetic_partial (abi : Abi) (ts : List Tok) (e : E) (s : Bool) (v : Int)
    (hd : Derives .conditional ts e) (hv : Value e s v) (hp : Plain e) :
    Fin (fun n => evalBuffer abi n ts) (.ok ⟨s, BitVec.ofInt 64 v⟩) := by
  obtain ⟨b, h1, h2⟩ := eval_value abi hv hp
  have h3 := if_parses_grammar_partial abi ts e hd hp.noCompl
  rw [h1] at h3
  rwa [← rep_ofInt h2]

/-- **C12**: an evaluated division or remainder by zero is diagnosed. -/
theorem division_by_zero_diagnosed (abi : Abi) (ts : List Tok) (a b : E) (o : Op) (s₁ s₂ : Bool) (v : Int)
    (ho : o = .div ∨ o = .mod) (hd : Derives .conditional ts (.bin (.arith o) a b))
    (ha : Value a s₁ v) (hb : Value b s₂ 0) (hpa : Plain a) (hpb : Plain b) :
    Fin (fun n => evalBuffer abi n ts) .fail := by
  obtain ⟨x, h1, _⟩ := eval_value abi ha hpa
  obtain ⟨y, h2, hy⟩ := eval_value abi hb hpb
  have h3 := if_parses_grammar_partial abi ts _ hd ⟨hpa.noCompl, hpb.noCompl⟩
  have hz : y = 0 := by
    have := rep_zero hy
    simpa [isZero] using this
  have : evalTree abi true (.bin (.arith o) a b) = .fail := by
    subst hz
    simp only [evalTree, h1, h2, Res.bind_ok]
    rcases ho with rfl | rfl <;> cases s₁ <;> cases s₂ <;>
      simp [binAct, unify, evalTree.tokOf, binOp, divOverflow, isZero]
  rw [this] at h3
  exact h3

/-- `2 / X` with the identifier `X`, and `X && 2 / X`, whose division is not evaluated. -/
example : Value (.lit (tk .T_IDENT "X")) true 0 ∧ Plain (.lit (tk .T_IDENT "X")) ∧
    Value (.bin .land (.lit (tk .T_IDENT "X")) (.bin (.arith .div) (.lit (tk .T_NUM "2")) (.lit (tk .T_IDENT "X")))) true 0 ∧
    Plain (.bin .land (.lit (tk .T_IDENT "X")) (.bin (.arith .div) (.lit (tk .T_NUM "2")) (.lit (tk .T_IDENT "X")))) := by
  have v : Value (.lit (tk .T_IDENT "X")) true 0 := .lit _ _ _ (.ident _ rfl)
  have p : Plain (.lit (tk .T_IDENT "X")) := fun _ _ _ _ _ h => by cases h
  refine ⟨v, p, .landF _ _ _ _ v (.arith _ _ _ true _ (.lit _ true 2 ?_) (value_ty v)), p, ?_, p, fun h => absurd h (by decide)⟩
  · exact .sgn _ .dec [] (str "2") [] .none rfl
      ⟨by intro c hc; cases List.mem_singleton.1 hc; exact ⟨2, by decide, by decide⟩, rfl, _, _, rfl, by decide⟩
      (by simp [spellings]) (.inl rfl) rfl (by decide)
  · intro b pre ds sp s _ hc hsp hstr hb _
    obtain ⟨hd, h⟩ := hc
    have h0 : pre.head? = some (ch '0') := by
      cases b with
      | dec => exact absurd rfl hb
      | oct => rw [h]; rfl
      | hex => rcases h.1 with h | h <;> rw [h] <;> rfl
      | bin => rcases h.1 with h | h <;> rw [h] <;> rfl
    cases pre with
    | nil => cases h0
    | cons c cs =>
      simp only [List.head?_cons, Option.some.injEq] at h0
      rw [h0] at hstr
      have := congrArg List.head? hstr
      exact absurd this (by simp [tk]; decide)

/-- Evaluation of a token list for enough fuel, by running it. -/
theorem fin_of_run {abi ts x} (N : Nat) (h : ∀ m, evalBuffer abi (m + N) ts = x) :
    Fin (fun n => evalBuffer abi n ts) x :=
  ⟨N, fun n hn => by rw [← h (n - N), Nat.sub_add_cancel hn]⟩

/-- The tokens of `0xffffffff > -1`. -/
def wHex : List Tok := [tk .T_NUM "0xffffffff", tk .T_G, tk .T_SUB, tk .T_NUM "1"]
/-- The tokens of `-!0u < 0`. -/
def wNot : List Tok := [tk .T_SUB, tk .T_NOT, tk .T_NUM "0u", tk .T_L, tk .T_NUM "0"]
/-- The tokens of `-1 >> 1u < 0`. -/
def wShift : List Tok := [tk .T_SUB, tk .T_NUM "1", tk .T_RSHIFT, tk .T_NUM "1u", tk .T_L, tk .T_NUM "0"]
/-- The tokens of `(1 ? -1 : 0u) < 0`. -/
def wCond : List Tok := [tk .T_LPAR, tk .T_NUM "1", tk .T_QUEST, tk .T_SUB, tk .T_NUM "1", tk .T_COLON,
  tk .T_NUM "0u", tk .T_RPAR, tk .T_L, tk .T_NUM "0"]

theorem lit0 : Literal (tk .T_NUM "0") true 0 :=
  .sgn _ .oct (str "0") [] [] .none rfl ⟨by simp, rfl⟩ (by simp [spellings]) (.inl rfl) rfl (by decide)
theorem lit1 : Literal (tk .T_NUM "1") true 1 :=
  .sgn _ .dec [] (str "1") [] .none rfl
    ⟨by intro c hc; cases List.mem_singleton.1 hc; exact ⟨1, by decide, by decide⟩, rfl, _, _, rfl, by decide⟩
    (by simp [spellings]) (.inl rfl) rfl (by decide)
theorem lit0u : Literal (tk .T_NUM "0u") false 0 :=
  .uns _ .oct (str "0") [] (str "u") .u rfl ⟨by simp, rfl⟩ (by simp [spellings]) (.inl rfl) rfl (by decide)
theorem lit1u : Literal (tk .T_NUM "1u") false 1 :=
  .uns _ .dec [] (str "1") (str "u") .u rfl
    ⟨by intro c hc; cases List.mem_singleton.1 hc; exact ⟨1, by decide, by decide⟩, rfl, _, _, rfl, by decide⟩
    (by simp [spellings]) (.inl rfl) rfl (by decide)
theorem litHex : Literal (tk .T_NUM "0xffffffff") true 4294967295 :=
  .sgn _ .hex (str "0x") (str "ffffffff") [] .none rfl
    ⟨by intro c hc
        have key : ∀ c ∈ str "ffffffff", c = ch 'f' := by decide
        rw [key c hc]; exact ⟨15, by decide, by decide⟩, .inl rfl, by decide⟩
    (by simp [spellings]) (.inl rfl) rfl (by decide)

/-- **C12 is violated**, in four independent ways.  The four expressions `0xffffffff > -1`,
`-!0u < 0`, `-1 >> 1u < 0` are true and `(1 ? -1 : 0u) < 0` is false in C; the compiler
computes the opposite for each. -/
theorem if_arithmetic_violated : ¬ IfArithmetic ∧
    (∃ e, Derives .conditional wHex e ∧ Value e true 1) ∧
    Fin (fun n => evalBuffer .sysv n wHex) (.ok ⟨true, 0⟩) ∧
    (∃ e, Derives .conditional wNot e ∧ Value e true 1) ∧
    Fin (fun n => evalBuffer .sysv n wNot) (.ok ⟨true, 0⟩) ∧
    (∃ e, Derives .conditional wShift e ∧ Value e true 1) ∧
    Fin (fun n => evalBuffer .sysv n wShift) (.ok ⟨true, 0⟩) ∧
    (∃ e, Derives .conditional wCond e ∧ Value e true 0) ∧
    Fin (fun n => evalBuffer .sysv n wCond) (.ok ⟨true, 1⟩) := by
  have num : ∀ s, Derives .primary [tk .T_NUM s] (.lit (tk .T_NUM s)) := fun s => .lit _ (.inl rfl)
  have neg1 : Value (.un .neg (.lit (tk .T_NUM "1"))) true (-1) :=
    .neg _ _ 1 _ (.lit _ _ _ lit1) (by decide)
  have dneg1 : Derives .unary [tk .T_SUB, tk .T_NUM "1"] (.un .neg (.lit (tk .T_NUM "1"))) :=
    .un _ _ _ _ (by decide) (lift 1 .unary (num _))
  have run : ∀ ts e x, Derives .conditional ts e → NoCompl e → evalTree .sysv true e = .ok x →
      Fin (fun n => evalBuffer .sysv n ts) (.ok x) := by
    intro ts e x h1 h2 h3
    have := if_parses_grammar_partial .sysv ts e h1 h2
    rwa [h3] at this
  have dHex : Derives .conditional wHex (.bin (.arith .greater) (.lit (tk .T_NUM "0xffffffff"))
      (.un .neg (.lit (tk .T_NUM "1")))) :=
    lift 7 .conditional <| .bin .relational _ _ [_] [_, _] _ _ (by decide)
      (lift 6 .relational (num _)) (lift 3 .shift dneg1)
  have dNot : Derives .conditional wNot (.bin (.arith .less)
      (.un .neg (.un .not (.lit (tk .T_NUM "0u")))) (.lit (tk .T_NUM "0"))) :=
    lift 7 .conditional <| .bin .relational _ _ [_, _, _] [_] _ _ (by decide)
      (lift 4 .relational (.un _ _ _ _ (by decide) (.un _ _ _ _ (by decide) (lift 1 .unary (num _)))))
      (lift 5 .shift (num _))
  have dShift : Derives .conditional wShift (.bin (.arith .less)
      (.bin (.arith .rshift) (.un .neg (.lit (tk .T_NUM "1"))) (.lit (tk .T_NUM "1u"))) (.lit (tk .T_NUM "0"))) :=
    lift 7 .conditional <| .bin .relational _ _ [_, _, _, _] [_] _ _ (by decide)
      (lift 1 .relational (.bin .shift _ _ [_, _] [_] _ _ (by decide) (lift 3 .shift dneg1) (lift 4 .additive (num _))))
      (lift 5 .shift (num _))
  have dCond : Derives .conditional wCond (.bin (.arith .less)
      (.cond (.lit (tk .T_NUM "1")) (.un .neg (.lit (tk .T_NUM "1"))) (.lit (tk .T_NUM "0u"))) (.lit (tk .T_NUM "0"))) :=
    lift 7 .conditional <| .bin .relational _ _ [_, _, _, _, _, _, _, _] [_] _ _ (by decide)
      (lift 6 .relational (.par _ _ [_, _, _, _, _, _] _ rfl rfl
        (.cond _ _ [_] [_, _] [_] _ _ _ rfl rfl (lift 11 .logicalOr (num _)) (lift 11 .conditional dneg1)
          (lift 12 .conditional (num _)))))
      (lift 5 .shift (num _))
  have rHex := run _ _ ⟨true, 0⟩ dHex (by simp [NoCompl]) (by decide +kernel)
  have vHex : Value (.bin (.arith .greater) (.lit (tk .T_NUM "0xffffffff"))
      (.un .neg (.lit (tk .T_NUM "1")))) true 1 :=
    .arith .greater _ _ true true 4294967295 (-1) 1 (.lit _ _ _ litHex) neg1 (by decide)
  refine ⟨fun h => ?_, ⟨_, dHex, vHex⟩, rHex, ⟨_, dNot, ?_⟩, run _ _ _ dNot (by simp [NoCompl]) (by decide +kernel),
    ⟨_, dShift, ?_⟩, run _ _ _ dShift (by simp [NoCompl]) (by decide +kernel),
    ⟨_, dCond, ?_⟩, run _ _ _ dCond (by simp [NoCompl]) (by decide +kernel)⟩
  · obtain ⟨M, h1⟩ := h .sysv wHex _ _ _ dHex vHex
    obtain ⟨N, h2⟩ := rHex
    have a := h1 (max M N) (by omega)
    have b := h2 (max M N) (by omega)
    rw [a] at b
    exact absurd b (by decide)
  · exact .arith .less _ _ true true (-1) 0 1
      (.neg _ _ 1 _ (.not _ false 0 (.lit _ _ _ lit0u)) (by decide)) (.lit _ _ _ lit0) (by decide)
  · exact .arith .less _ _ true true (-1) 0 1
      (.arith .rshift _ _ true false (-1) 1 (-1) neg1 (.lit _ _ _ lit1u) (by decide)) (.lit _ _ _ lit0) (by decide)
  · exact .arith .less _ _ false true 18446744073709551615 0 0
      (.condT _ _ _ true true false 1 (-1) (.lit _ _ _ lit1) (by decide) neg1 (.lit _ _ _ lit0u))
      (.lit _ _ _ lit0) (by decide)

end Verif.PPExpr
