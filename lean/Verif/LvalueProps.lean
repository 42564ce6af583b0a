import Verif.LvalueLemmas
/-!
Properties of assignments: which left operands are accepted.

The full statement: an assignment `a = b`, and a compound assignment, is accepted exactly when `a`
is an lvalue (`Lv d false false`) of a modifiable type (`Modifiable`) and the operands have suitable
types (C17 6.5.16p2, 6.5.16.1p1, 6.5.16.2).
-/
namespace Verif.Lvalue
open Verif Simple

/-! ### Left operands that are `const` -/

/-- An assignment with `=` to an lvalue of a `const` type is rejected.  Missing: members of objects
that are `const` (`const_member_violated`) and structures with members that are `const`
(`const_inside_violated`). -/
theorem const_assignment_rejected_partial (d : Decls) (W : World) (a b : SE) (t : Ty) (bf : Bool)
    (h : Lv d true false a t bf) (hc : t.isConst = true) (v : EV) : d.statement W (.assign a b) ≠ .ok v := by
  obtain ⟨te, hp⟩ := lv_place (W := W) (by simp) h
  intro hv
  obtain ⟨x, hx, _⟩ := Res.bind_eq_ok.1 hv
  simp only [Decls.build, hp.build, Res.bind_ok] at hx
  obtain ⟨y, _, hx⟩ := Res.bind_eq_ok.1 hx
  obtain ⟨z, _, hx⟩ := Res.bind_eq_ok.1 hx
  simp [Decls.new, Decls.typeOf, hp.ty, Decls.fold, Decls.checkConst, hc] at hx

/-- A compound assignment to a pointer that is `const` is rejected, and so are the operators `++`
and `--`. -/
theorem const_pointer_compound_rejected_partial (d : Decls) (W : World) (op : Op) (post : Bool) (a b : SE) (t : Ty)
    (bf : Bool) (h : Lv d true false a (.ptr t true) bf) (v : EV) :
    d.statement W (.assignOp op post a b) ≠ .ok v := by
  obtain ⟨te, hp⟩ := lv_place (W := W) (by simp) h
  intro hv
  obtain ⟨x, hx, _⟩ := Res.bind_eq_ok.1 hv
  simp only [Decls.build, hp.build, Res.bind_ok, promote_ptr (W := W) hp.ty] at hx
  obtain ⟨y, _, hx⟩ := Res.bind_eq_ok.1 hx
  obtain ⟨z, _, hx⟩ := Res.bind_eq_ok.1 hx
  obtain ⟨w, _, hx⟩ := Res.bind_eq_ok.1 hx
  obtain ⟨f, hf, hx⟩ := Res.bind_eq_ok.1 hx
  have hconv : d.convert W te w = .ok (te, w) ∨ d.convert W te w = .fail ∨ d.convert W te w = .ub := by
    unfold Decls.convert
    rw [hp.ty]
    cases d.typeOf w with
    | ok u => exact .inl rfl
    | fail => exact .inr (.inl rfl)
    | ub => exact .inr (.inr rfl)
  rcases hconv with hconv | hconv | hconv
  · have hs : strip te = te := by
      cases te with
      | cast u e => exact (hp.nocast u e rfl).elim
      | _ => rfl
    simp only [Decls.fixAssign, hconv, Res.bind_ok, hs, hp.ty] at hf
    have : f = .assignPtr false post te w ∨ f = .assignPtr true post te w ∨ f = .assignOp op post te w := by
      revert hf
      cases op <;> simp <;> intro h <;> simp [← h]
    rcases this with rfl | rfl | rfl <;>
      simp [Decls.new, Decls.typeOf, hp.ty, Decls.fold, Decls.checkConst, Ty.isConst] at hx
  · simp [Decls.fixAssign, hconv] at hf
  · simp [Decls.fixAssign, hconv] at hf

/-- A compound assignment to an object of a `const` arithmetic type at file scope is rejected, and so
are the operators `++` and `--`.  Missing: objects that are not named by a label
(`const_compound_violated`). -/
theorem const_global_compound_rejected_partial (d : Decls) (W : World) (op : Op) (post : Bool) (b : SE) (s : ST)
    (v : EV) : d.statement W (.assignOp op post (.glob (.simple s true)) b) ≠ .ok v := by
  intro hv
  obtain ⟨x, hx, _⟩ := Res.bind_eq_ok.1 hv
  simp only [Decls.build, Res.bind_ok] at hx
  obtain ⟨a, ha, hx⟩ := Res.bind_eq_ok.1 hx
  obtain ⟨y, _, hx⟩ := Res.bind_eq_ok.1 hx
  obtain ⟨z, _, hx⟩ := Res.bind_eq_ok.1 hx
  obtain ⟨w, _, hx⟩ := Res.bind_eq_ok.1 hx
  obtain ⟨f, hf, hx⟩ := Res.bind_eq_ok.1 hx
  obtain ⟨⟨a', b'⟩, hab, hf⟩ := Res.bind_eq_ok.1 hf
  have hs : strip a' = .const (.label (.simple s true)) := global_strip ha hab
  simp only [hs] at hf
  have : f = .assignOp op post (.const (.label (.simple s true))) b' := by
    simpa [Decls.typeOf, K.ty, eq_comm] using hf
  subst this
  simp [Decls.new, Decls.typeOf, K.ty, Decls.fold, Decls.checkConst, Ty.isConst] at hx

/-! ### Left operands that are no lvalues -/

/-- An assignment with `=` to an expression that is no lvalue is rejected.  Missing: the four kinds
that `NoLvalue true` leaves out (`comma_violated`, `plus_violated`, `cast_violated`,
`assign_violated`), and compound assignments (`conditional_compound_violated`). -/
theorem nonlvalue_rejected_partial (d : Decls) (W : World) (a b : SE) (h : NoLvalue true a) (v : EV) :
    d.statement W (.assign a b) ≠ .ok v := by
  intro hv
  obtain ⟨x, hx, hv⟩ := Res.bind_eq_ok.1 hv
  simp only [Decls.build] at hx
  obtain ⟨te, hte, hx⟩ := Res.bind_eq_ok.1 hx
  obtain ⟨y, _, hx⟩ := Res.bind_eq_ok.1 hx
  obtain ⟨z, _, hx⟩ := Res.bind_eq_ok.1 hx
  have hxe : x = .assign te z := by
    rcases new_cases hx with h | ⟨k, hk, _⟩
    · exact h
    · simp [Decls.fold] at hk
  subst hxe
  simp only [Decls.eval] at hv
  obtain ⟨l, hl, hv⟩ := Res.bind_eq_ok.1 hv
  obtain ⟨r, _, hv⟩ := Res.bind_eq_ok.1 hv
  obtain ⟨r', _, hv⟩ := Res.bind_eq_ok.1 hv
  have := (nolvalue_eval h hte).2 l hl
  simp [this] at hv

/-! ### Modifiable lvalues -/

/-- An assignment with `=` to a modifiable lvalue is accepted, whatever the right operand is, as long
as it is accepted and is not `void`; the result has the type of the left operand.  Missing: compound
literals (`compound_literal_violated`), objects at addresses that are written as numbers
(`numeric_address_violated`), members of objects that are `const` with a type that is not; that the
types fit is not checked (`mismatch_violated`). -/
theorem modifiable_accepted_partial (d : Decls) (W : World) (hd : WellFormed d) (a b : SE) (t : Ty) (bf : Bool)
    (h : Lv d true true a t bf) (hm : Modifiable d t) (v : EV) (hb : d.operand W b = .ok v)
    (hv : v.form ≠ .void) : ∃ r, d.statement W (.assign a b) = .ok r ∧ r.ty = t := by
  obtain ⟨te, hp⟩ := lv_place (W := W) (fun _ => hd) h
  have hsize := bits_size hd h
  obtain ⟨x, hx, hb⟩ := Res.bind_eq_ok.1 hb
  obtain ⟨y, hy, hb⟩ := Res.bind_eq_ok.1 hb
  have hc : t.isConst = false := by
    cases hcc : t.isConst with
    | false => rfl
    | true =>
      refine (hm.2 ?_).elim
      cases t <;> simp only [Ty.isConst] at hcc <;> first | subst hcc | cases hcc
      · exact .simple
      · exact .ptr
      · exact .record
  have hbuild : d.build W (.assign a b) = .ok (.assign te y) := by
    simp only [Decls.build, hp.build, hx, hy, Res.bind_ok]
    refine new_none (t := t) (by simp [Decls.typeOf, hp.ty]) rfl ?_
    simp [Decls.checkConst, hp.ty, hc]
  obtain ⟨r, hr, hrt, hrf⟩ : ∃ r, v.castTo t = .ok r ∧ r.ty = t ∧ r.form ≠ .void := by
    by_cases he : v.ty = t
    · exact ⟨v, by simp [EV.castTo, he], he, hv⟩
    · exact ⟨_, castTo_variable he hm.1 hv, rfl, by simp⟩
  refine ⟨r, ?_, hrt⟩
  have hl := hp.ev rfl
  unfold Decls.statement
  rw [hbuild]
  simp only [Res.bind_ok, Decls.eval, hl, hb, hr, if_true]
  have : d.assignEE ⟨if bf then .bits else .pointer, true, t⟩ r = .ok () := by
    cases bf with
    | false => simp [Decls.assignEE, hasValue_ok hrf, EV.assignTo]
    | true => simp [Decls.assignEE, hasValue_ok hrf, EV.assignTo, hrt, hsize rfl]
  simp [this]

/-- The values that addresses are made of are accepted as right operands. -/
theorem value_accepted (d : Decls) (W : World) (hd : WellFormed d) (e : SE) (t : Ty) (h : Val d true true e t) :
    ∃ v, d.operand W e = .ok v ∧ v.ty.unconst = t ∧ v.form ≠ .void := by
  obtain ⟨te, te', t', h⟩ := val_value (W := W) (fun _ => hd) h
  obtain ⟨v, hv, hvt, hvf, _⟩ := h.core.ev rfl
  exact ⟨v, by simp [Decls.operand, h.build, h.decay, hv], by rw [hvt, h.un], hvf⟩

/-- Copying one modifiable object to another is accepted. -/
theorem copy_accepted_partial (d : Decls) (W : World) (hd : WellFormed d) (a b : SE) (t u : Ty) (bf bg : Bool)
    (h : Lv d true true a t bf) (hm : Modifiable d t) (hb : Lv d true true b u bg) (hu : IsObject u) :
    ∃ r, d.statement W (.assign a b) = .ok r ∧ r.ty = t := by
  obtain ⟨v, hv, _, hf⟩ := value_accepted d W hd b u.unconst (.object hb hu)
  exact modifiable_accepted_partial d W hd a b t bf h hm v hv hf

/-! ### Examples -/

/-- `struct S { int a; unsigned b : 3; long c, d; }` is 1, `struct T { const int a; }` is 2. -/
def decls : Decls where
  abi := .sysv
  field
    | 1, 0 => some (int, -1)
    | 1, 1 => some (.simple .uint false, 3)
    | 1, 2 => some (.simple .long false, -1)
    | 1, 3 => some (.simple .long false, -1)
    | 2, 0 => some (.simple .int true, -1)
    | _, _ => none
  size
    | .record 1 _ => 24
    | .ptr .. | .simple .long _ => 8
    | _ => 4
  inMemory
    | .record 1 _ => true
    | _ => false
  composite a _ := some a

theorem decls_wellFormed : WellFormed decls := by
  intro id i t w h hw
  simp only [decls] at h
  split at h <;> simp only [Option.some.injEq, Prod.mk.injEq, reduceCtorEq] at h
  all_goals (obtain ⟨rfl, rfl⟩ := h)
  all_goals first | exact (hw rfl).elim | exact ⟨rfl, by decide⟩

/-- `p` in `struct S *p`. -/
abbrev ptrS : SE := .var (.ptr (.record 1 false) false)

/-- `(*(p + 1)).b` is an lvalue. -/
theorem lv_bits (q p : Bool) : Lv decls q p (.member (.deref (.bin .add ptrS (.num .int))) 1) (.simple .uint false) true := by
  have h1 : Val decls q p ptrS (.ptr (.record 1 false) false) := .object (t := .ptr (.record 1 false) false) .var trivial
  have h2 : Lv decls q p (.deref (.bin .add ptrS (.num .int))) (.record 1 false) false :=
    .deref (.add h1 (.num rfl) rfl) (fun _ => rfl)
  exact .member (c := false) (w := 3) h2 rfl (fun _ => rfl)

theorem int_modifiable (d : Decls) (s : ST) (h : isInteger s = true) : Modifiable d (.simple s false) :=
  ⟨int_object h, fun h => nomatch h⟩

/-- The hypotheses of `modifiable_accepted_partial` and `copy_accepted_partial`: `p[1].b = p[1].b`. -/
example (W : World) : ∃ r, decls.statement W (.assign (.member (.deref (.bin .add ptrS (.num .int))) 1)
    (.member (.deref (.bin .add ptrS (.num .int))) 1)) = .ok r ∧ r.ty = .simple .uint false :=
  copy_accepted_partial _ W decls_wellFormed _ _ _ _ _ _ (lv_bits _ _) (int_modifiable _ _ rfl) (lv_bits _ _) trivial

/-- A structure of 24 bytes: `*p = f()`. -/
example (W : World) : ∃ r, decls.statement W (.assign (.deref ptrS) (.call (.record 1 false))) = .ok r ∧ r.ty = .record 1 false := by
  obtain ⟨v, hv, _, hf⟩ := value_accepted decls W decls_wellFormed (.call (.record 1 false)) _ (.call trivial rfl)
  refine modifiable_accepted_partial _ W decls_wellFormed _ _ _ false (.deref ?_ (fun _ => rfl)) ⟨trivial, ?_⟩ v hv hf
  · exact .object (t := .ptr (.record 1 false) false) .var trivial
  · intro h
    cases h with
    | member hf hc =>
      simp only [decls] at hf
      split at hf <;> simp only [Option.some.injEq, Prod.mk.injEq, reduceCtorEq] at hf <;>
        (first | omega | skip)
      all_goals (obtain ⟨rfl, rfl⟩ := hf; first | cases hc | omega)

/-- The hypotheses of `const_assignment_rejected_partial`: `*q = 1` with `const int *q`, and a member
declared `const`. -/
example (W : World) (v : EV) : decls.statement W (.assign (.deref (.var (.ptr (.simple .int true) false))) (.num .int)) ≠ .ok v :=
  const_assignment_rejected_partial _ _ _ _ (.simple .int true) false
    (.deref (.object (t := .ptr (.simple .int true) false) .var trivial) (fun h => nomatch h)) rfl v

example (W : World) (v : EV) : decls.statement W (.assign (.member (.var (.record 2 false)) 0) (.num .int)) ≠ .ok v :=
  const_assignment_rejected_partial _ _ _ _ (.simple .int true) false
    (.member (id := 2) (c := false) (t := .simple .int true) (w := -1) .var rfl (fun _ => rfl)) rfl v

/-- The hypotheses of `const_pointer_compound_rejected_partial`: `p++` with `int *const p`. -/
example (W : World) (v : EV) : decls.statement W (.assignOp .add true (.var (.ptr int true)) (.num .int)) ≠ .ok v :=
  const_pointer_compound_rejected_partial _ _ _ _ _ _ int false .var v

/-- `g += 1` with `const int g` at file scope. -/
example (W : World) (v : EV) : decls.statement W (.assignOp .add false (.glob (.simple .int true)) (.num .int)) ≠ .ok v :=
  const_global_compound_rejected_partial _ _ _ _ _ _ v

/-- The hypothesis of `nonlvalue_rejected_partial`: `f().a = 1`. -/
example (W : World) (v : EV) : decls.statement W (.assign (.member (.call (.record 1 false)) 0) (.num .int)) ≠ .ok v :=
  nonlvalue_rejected_partial _ _ _ _ (.member .call) v

/-! ### Violations -/

/-- `const int c; c += 1;` in a function is accepted. -/
theorem const_compound_violated : Lv decls true true (.var (.simple .int true)) (.simple .int true) false ∧
    ∀ W, decls.statement W (.assignOp .add false (.var (.simple .int true)) (.num .int)) = .ok ⟨.variable, false, int⟩ :=
  ⟨.var, fun _ => rfl⟩

/-- `const struct S s; s.a = 1;` is accepted. -/
theorem const_member_violated : Lv decls false true (.member (.var (.record 1 true)) 0) (.simple .int true) false ∧
    ∀ W, decls.statement W (.assign (.member (.var (.record 1 true)) 0) (.num .int)) = .ok ⟨.constant, false, int⟩ :=
  ⟨Lv.member (d := decls) (q := false) (p := true) (a := .var (.record 1 true)) (id := 1) (c := true) (i := 0)
    (t := int) (w := -1) .var rfl (fun h => nomatch h), fun _ => rfl⟩

/-- `struct T s, t; s = t;` is accepted although the member is `const`. -/
theorem const_inside_violated : ¬ Modifiable decls (.record 2 false) ∧
    ∀ W, decls.statement W (.assign (.var (.record 2 false)) (.var (.record 2 false))) = .ok ⟨.pointer, true, .record 2 false⟩ :=
  ⟨fun h => h.2 (.member (i := 0) (t := .simple .int true) (w := -1) rfl .simple), fun _ => rfl⟩

/-- `(0, c) = 1` is accepted, with `const int c`. -/
theorem comma_violated : NoLvalue false (.comma (.num .int) (.var (.simple .int true))) ∧
    ∀ W, decls.statement W (.assign (.comma (.num .int) (.var (.simple .int true))) (.num .int)) = .ok ⟨.constant, false, int⟩ :=
  ⟨.comma rfl, fun _ => rfl⟩

/-- `+c = 1` is accepted, with `const int c`. -/
theorem plus_violated : NoLvalue false (.un .plus (.var (.simple .int true))) ∧
    ∀ W, decls.statement W (.assign (.un .plus (.var (.simple .int true))) (.num .int)) = .ok ⟨.constant, false, int⟩ :=
  ⟨.plus rfl, fun _ => rfl⟩

/-- `(int)c = 1` is accepted, with `const int c`. -/
theorem cast_violated : NoLvalue false (.cast int (.var (.simple .int true))) ∧
    ∀ W, decls.statement W (.assign (.cast int (.var (.simple .int true))) (.num .int)) = .ok ⟨.constant, false, int⟩ :=
  ⟨.cast rfl, fun _ => rfl⟩

/-- `(a = b) = 1` is accepted, and it is `b` that gets the value: the result of `a = b` is `b`. -/
theorem assign_violated : NoLvalue false (.assign (.var int) (.var int)) ∧
    ∀ W, decls.statement W (.assign (.assign (.var int) (.var int)) (.num .int)) = .ok ⟨.constant, false, int⟩ :=
  ⟨.assign rfl, fun _ => rfl⟩

/-- `(x ? a : b) += 1` is accepted. -/
theorem conditional_compound_violated : NoLvalue true (.cond (.var int) (.var int) (.var int)) ∧
    ∀ W, decls.statement W (.assignOp .add false (.cond (.var int) (.var int) (.var int)) (.num .int)) =
      .ok ⟨.variable, false, int⟩ :=
  ⟨.cond, fun _ => rfl⟩

/-- `(int)c += 1` is accepted, with `const signed char c`. -/
theorem cast_compound_violated : NoLvalue false (.cast int (.var (.simple .schar true))) ∧
    ∀ W, decls.statement W (.assignOp .add false (.cast int (.var (.simple .schar true))) (.num .int)) =
      .ok ⟨.variable, false, .simple .schar false⟩ :=
  ⟨.cast rfl, fun _ => rfl⟩

/-- `(int){1} = 2` is rejected although a compound literal is an lvalue. -/
theorem compound_literal_violated : Lv decls true false (.lit int) int false ∧ Modifiable decls int ∧
    ∀ W, decls.statement W (.assign (.lit int) (.num .int)) = .fail :=
  ⟨.lit rfl, int_modifiable _ _ rfl, fun _ => rfl⟩

/-- `*(int *)4096 = 5` is rejected. -/
theorem numeric_address_violated : Lv decls true false (.deref (.cast (.ptr int false) (.num .int))) int false ∧
    Modifiable decls int ∧
    ∀ W, decls.statement W (.assign (.deref (.cast (.ptr int false) (.num .int))) (.num .int)) = .fail :=
  ⟨.deref (.cast (.num rfl) (.inr rfl)) (fun h => nomatch h), int_modifiable _ _ rfl, fun _ => rfl⟩

/-- `int x; struct S s; x = s; s = x; s += 1;` is accepted. -/
theorem mismatch_violated (W : World) :
    decls.statement W (.assign (.var int) (.var (.record 1 false))) = .ok ⟨.variable, false, int⟩ ∧
    decls.statement W (.assign (.var (.record 1 false)) (.var int)) = .ok ⟨.variable, false, .record 1 false⟩ ∧
    decls.statement W (.assignOp .add false (.var (.record 1 false)) (.num .int)) = .ok ⟨.variable, false, .record 1 false⟩ :=
  ⟨rfl, rfl, rfl⟩

/-- `x ? g : s` with `const struct S g` at file scope and `struct S s` is rejected; with `g` in a
function it is accepted. -/
theorem conditional_const_violated (W : World) :
    decls.statement W (.cond (.var int) (.glob (.record 1 true)) (.var (.record 1 false))) = .fail ∧
    decls.statement W (.cond (.var int) (.var (.record 1 true)) (.var (.record 1 false))) = .ok ⟨.pointer, false, .record 1 false⟩ :=
  ⟨rfl, rfl⟩

end Verif.Lvalue
