import Verif.ConstExprSim
/-!
C100: the type of an expression, constant or not; names that are not declared.
-/
namespace Verif.ConstExpr
open Verif Simple SimpleSpec ConstExprSpec

theorem simpleCast_ty {abi : Abi} {c c' : Const} {t : ST} (h : simpleCast abi c t = .ok c') : c'.ty = t := by
  unfold simpleCast at h
  split at h
  · cases h; rfl
  · split at h
    · obtain ⟨r, _, h⟩ := Res.bind_eq_ok.1 h
      obtain ⟨a, _, h⟩ := Res.bind_eq_ok.1 h
      obtain ⟨b, _, h⟩ := Res.bind_eq_ok.1 h
      obtain ⟨sf, _, h⟩ := Res.bind_eq_ok.1 h
      obtain ⟨st, _, h⟩ := Res.bind_eq_ok.1 h
      split at h
      · cases h; rfl
      · split at h
        · cases h; rfl
        · split at h <;> (cases h; rfl)
    · cases h

theorem cast_ty {abi : Abi} {e x : Tree} {t : ST} (h : castTo abi e t = .ok x) : x.ty = t := by
  unfold castTo at h
  split at h
  · rename_i he; cases h; exact he
  · cases e with
    | const c =>
      obtain ⟨c', hc, h⟩ := Res.bind_eq_ok.1 h
      cases h
      exact simpleCast_ty hc
    | other u => cases h; rfl

theorem promote_ty {e x : Tree} {t : ST} (hi : IsInt e.ty) (hp : IsPromotion .sysv e.ty (width .sysv e.ty) t)
    (h : promoteTree .sysv e = .ok x) : x.ty = t ∧ Promoted t := by
  obtain ⟨t', h1, h2, _, h4⟩ := promo_table e.ty hi
  obtain rfl := promo_unique hp h1
  refine ⟨?_, h2⟩
  unfold promoteTree at h
  rw [if_pos ((isInteger_iff _).2 hi)] at h
  rcases h4 with ⟨h4, h5⟩ | ⟨h4, h5⟩
  · rw [h4] at h
    simp only [Res.bind_ok, if_true] at h
    rw [cast_ty h, h5]
  · rw [h4] at h
    simp only [Res.bind_ok] at h
    cases h
    exact h5.symm

theorem normalize_ty {abi : Abi} {c c' : Const} (h : normalize abi c = .ok c') : c'.ty = c.ty := by
  unfold normalize at h
  split at h
  · cases h
  · obtain ⟨r, _, h⟩ := Res.bind_eq_ok.1 h
    obtain ⟨a, _, h⟩ := Res.bind_eq_ok.1 h
    obtain ⟨b, _, h⟩ := Res.bind_eq_ok.1 h
    obtain ⟨s, _, h⟩ := Res.bind_eq_ok.1 h
    split at h <;> (cases h; rfl)

theorem foldUnary_ty {abi : Abi} {op : UOp} {c c' : Const} (h : foldUnary abi op c = .ok c') : c'.ty = c.ty := by
  unfold foldUnary at h
  split at h
  · cases h
  · obtain ⟨b, _, h⟩ := Res.bind_eq_ok.1 h
    split at h
    · cases op
      · cases h; rfl
      · obtain ⟨v, _, h⟩ := Res.bind_eq_ok.1 h
        cases h; rfl
      · cases h; rfl
    · cases op
      · exact normalize_ty h
      · exact normalize_ty (c := { c with bits := -c.bits }) h
      · exact normalize_ty (c := { c with bits := ~~~ c.bits }) h

theorem foldBinary_ty {abi : Abi} {op : Op} {l r c : Const} (h : foldBinary abi op l r = .ok (some c)) : c.ty = resultType op l.ty := by
  unfold foldBinary at h
  split at h
  · cases h
  · split at h
    · cases h
    · obtain ⟨b, _, h⟩ := Res.bind_eq_ok.1 h
      split at h
      · split at h
        · cases h
        · obtain ⟨v, _, h⟩ := Res.bind_eq_ok.1 h
          cases h; rfl
      · obtain ⟨v, _, h⟩ := Res.bind_eq_ok.1 h
        dsimp only at h
        split at h
        · cases h; rfl
        · obtain ⟨v, hv, h⟩ := Res.bind_eq_ok.1 h
          cases h
          exact normalize_ty hv

theorem resultType_eq (op : Op) (t : ST) : resultType op t = opType t op := by
  cases op <;> rfl

theorem resultType_shift {op : Op} (h : IsShift op) (t : ST) : resultType op t = t := by
  rcases h with rfl | rfl <;> rfl

theorem convert_ty {a b x y : Tree} {t : ST} (ha : Promoted a.ty) (hb : Promoted b.ty) (hc : IsCommon .sysv a.ty b.ty t)
    (h : convertArith .sysv a b = .ok (x, y)) : x.ty = t ∧ y.ty = t := by
  unfold convertArith at h
  obtain ⟨u, hu, h⟩ := Res.bind_eq_ok.1 h
  obtain ⟨a', h1, h⟩ := Res.bind_eq_ok.1 h
  obtain ⟨b', h2, h⟩ := Res.bind_eq_ok.1 h
  cases h
  rw [(arith_table ha hb hc).1] at hu
  cases hu
  exact ⟨cast_ty h1, cast_ty h2⟩

theorem unary_ty {op : UOp} {e x : Tree} {t : ST} (hi : IsInt e.ty) (hp : IsPromotion .sysv e.ty (width .sysv e.ty) t)
    (h : unary .sysv op e = .ok x) : x.ty = t := by
  unfold unary at h
  obtain ⟨y, hy, h⟩ := Res.bind_eq_ok.1 h
  have ht := (promote_ty hi hp hy).1
  cases y with
  | const c =>
    obtain ⟨r, hr, h⟩ := Res.bind_eq_ok.1 h
    cases h
    rw [← ht]
    exact foldUnary_ty hr
  | other u => cases h; exact ht

/-- The type of what `binary` makes of converted operands. -/
theorem fold_ty {abi : Abi} {op : Op} {a b x : Tree}
    (h : (match a, b with
      | .const l, .const r => do
        match ← foldBinary abi op l r with
        | some c => pure (.const c)
        | none => pure (.other (resultType op l.ty))
      | _, _ => pure (.other (resultType op a.ty)) : Res Tree) = .ok x) : x.ty = resultType op a.ty := by
  cases a with
  | const l =>
    cases b with
    | const r =>
      obtain ⟨v, hv, h⟩ := Res.bind_eq_ok.1 h
      cases v with
      | some c => cases h; exact foldBinary_ty hv
      | none => cases h; rfl
    | other t => cases h; rfl
  | other t => cases h; rfl

theorem binary_ty {op : Op} {a b x : Tree} {ta tb t : ST} (hop : ¬ IsShift op) (hia : IsInt a.ty) (hib : IsInt b.ty)
    (hpa : IsPromotion .sysv a.ty (width .sysv a.ty) ta) (hpb : IsPromotion .sysv b.ty (width .sysv b.ty) tb)
    (hc : IsCommon .sysv ta tb t) (h : binary .sysv op a b = .ok x) : x.ty = opType t op := by
  unfold binary at h
  obtain ⟨a', h1, h⟩ := Res.bind_eq_ok.1 h
  obtain ⟨b', h2, h⟩ := Res.bind_eq_ok.1 h
  obtain ⟨⟨p, q⟩, h3, h⟩ := Res.bind_eq_ok.1 h
  obtain ⟨t1, p1⟩ := promote_ty hia hpa h1
  obtain ⟨t2, p2⟩ := promote_ty hib hpb h2
  rw [if_neg (show ¬ (op = .lshift ∨ op = .rshift) from hop)] at h3
  have h4 := convert_ty (t1 ▸ p1) (t2 ▸ p2) (by rw [t1, t2]; exact hc) h3
  have := fold_ty h
  rw [this, h4.1, resultType_eq]

theorem shift_ty {op : Op} {a b x : Tree} {ta : ST} (hop : IsShift op) (hia : IsInt a.ty)
    (hpa : IsPromotion .sysv a.ty (width .sysv a.ty) ta) (h : binary .sysv op a b = .ok x) : x.ty = ta := by
  unfold binary at h
  obtain ⟨a', h1, h⟩ := Res.bind_eq_ok.1 h
  obtain ⟨b', h2, h⟩ := Res.bind_eq_ok.1 h
  obtain ⟨⟨p, q⟩, h3, h⟩ := Res.bind_eq_ok.1 h
  rw [if_pos (show op = .lshift ∨ op = .rshift from hop)] at h3
  obtain ⟨b2, _, h3⟩ := Res.bind_eq_ok.1 h3
  cases h3
  rw [fold_ty h, resultType_shift hop, (promote_ty hia hpa h1).1]

theorem conditional_ty {c a b x : Tree} {ta tb t : ST} (hia : IsInt a.ty) (hib : IsInt b.ty)
    (hpa : IsPromotion .sysv a.ty (width .sysv a.ty) ta) (hpb : IsPromotion .sysv b.ty (width .sysv b.ty) tb)
    (hc : IsCommon .sysv ta tb t) (h : conditional .sysv c a b = .ok x) : x.ty = t := by
  unfold conditional at h
  obtain ⟨c', _, h⟩ := Res.bind_eq_ok.1 h
  obtain ⟨a', h1, h⟩ := Res.bind_eq_ok.1 h
  obtain ⟨b', h2, h⟩ := Res.bind_eq_ok.1 h
  obtain ⟨⟨p, q⟩, h3, h⟩ := Res.bind_eq_ok.1 h
  obtain ⟨t1, p1⟩ := promote_ty hia hpa h1
  obtain ⟨t2, p2⟩ := promote_ty hib hpb h2
  have hpq : p.ty = t ∧ q.ty = t := by
    split at h3
    · rename_i he
      cases h3
      have hself : ∀ u, Promoted u → IsCommon .sysv u u u := by intro u; cases u <;> decide
      rw [t1, t2] at he
      subst he
      obtain rfl := common_unique hc (hself ta p1)
      exact ⟨t1, t2⟩
    · split at h3
      · exact convert_ty (t1 ▸ p1) (t2 ▸ p2) (by rw [t1, t2]; exact hc) h3
      · cases h3
  cases c' with
  | other u => cases h; exact hpq.1
  | const z =>
    cases p with
    | other u => cases h; exact hpq.1
    | const y =>
      cases q with
      | other u => cases h; exact hpq.1
      | const w =>
        cases h
        show (if constIsZero z then w else y).ty = t
        split
        · exact hpq.2
        · exact hpq.1

theorem cond_int {c a b x : Tree} (ha : a.ty = .int) (hb : b.ty = .int) (h : conditional .sysv c a b = .ok x) : x.ty = .int :=
  conditional_ty (ta := .int) (tb := .int) (by rw [ha]; decide) (by rw [hb]; decide) (by rw [ha]; decide)
    (by rw [hb]; decide) (by decide) h

theorem int_branch_ty {c x : Tree} {p q : Int} (h : conditional .sysv c (exprInt p) (exprInt q) = .ok x) : x.ty = .int :=
  cond_int rfl rfl h

/-- C100: every expression that is built, constant or not, has the type that C gives it. -/
theorem expression_types (names : Str → Option Const) (N : Names) (hA : Agree names N) (e : E) (t : ST) (ht : HasType .sysv N e t)
    (x : Tree) (hx : build .sysv names e = .ok x) : x.ty = t := by
  induction ht generalizing x with
  | num b pre ds sp s t h hs ht =>
    rw [(num_const (names := names) h hs ht).1] at hx
    cases hx; rfl
  | lit t v h hr => cases hx; rfl
  | dbl b => cases hx; rfl
  | name y t v h =>
    have := hA y
    rw [h] at this
    unfold build at hx
    cases hn : names y with
    | none => rw [hn] at this; cases this
    | some c =>
      rw [hn] at this hx
      cases hx
      simp at this
      exact this.1
  | obj t h => cases hx; rfl
  | un op e t t' h hi hp ih =>
    obtain ⟨y, hy, hx⟩ := Res.bind_eq_ok.1 hx
    have := ih y hy
    subst this
    exact unary_ty hi hp hx
  | shift op a b ta tb ta' hop ha hb hia hib hp iha ihb =>
    obtain ⟨y, hy, hx⟩ := Res.bind_eq_ok.1 hx
    obtain ⟨z, hz, hx⟩ := Res.bind_eq_ok.1 hx
    have := iha y hy
    subst this
    exact shift_ty hop hia hp hx
  | bin op a b ta tb ta' tb' t hop ha hb hia hib hpa hpb hc iha ihb =>
    obtain ⟨y, hy, hx⟩ := Res.bind_eq_ok.1 hx
    obtain ⟨z, hz, hx⟩ := Res.bind_eq_ok.1 hx
    have e1 := iha y hy
    have e2 := ihb z hz
    subst e1 e2
    exact binary_ty hop hia hib hpa hpb hc hx
  | cast t e te h hi ht ih =>
    obtain ⟨y, hy, hx⟩ := Res.bind_eq_ok.1 hx
    exact cast_ty hx
  | not e t h ih =>
    obtain ⟨y, hy, hx⟩ := Res.bind_eq_ok.1 hx
    exact int_branch_ty hx
  | and a b ta tb ha hb iha ihb =>
    obtain ⟨y, hy, hx⟩ := Res.bind_eq_ok.1 hx
    obtain ⟨z, hz, hx⟩ := Res.bind_eq_ok.1 hx
    obtain ⟨w, hw, hx⟩ := Res.bind_eq_ok.1 hx
    exact cond_int (int_branch_ty hw) rfl hx
  | or a b ta tb ha hb iha ihb =>
    obtain ⟨y, hy, hx⟩ := Res.bind_eq_ok.1 hx
    obtain ⟨z, hz, hx⟩ := Res.bind_eq_ok.1 hx
    obtain ⟨w, hw, hx⟩ := Res.bind_eq_ok.1 hx
    exact cond_int rfl (int_branch_ty hw) hx
  | cond c a b tc ta tb ta' tb' t hc ha hb hia hib hpa hpb hcm ihc iha ihb =>
    obtain ⟨w, hw, hx⟩ := Res.bind_eq_ok.1 hx
    obtain ⟨y, hy, hx⟩ := Res.bind_eq_ok.1 hx
    obtain ⟨z, hz, hx⟩ := Res.bind_eq_ok.1 hx
    have e1 := iha y hy
    have e2 := ihb z hz
    subst e1 e2
    exact conditional_ty hia hib hpa hpb hcm hx

/-- `1 ? 5 : (x == 3L)` with an object `x` of type char is an int. -/
example : HasType .sysv (fun _ => none) (.cond (.lit .int 1) (.lit .int 5) (.bin .equal (.obj .char) (.lit .long 3))) .int ∧
    build .sysv (fun _ => none) (.cond (.lit .int 1) (.lit .int 5) (.bin .equal (.obj .char) (.lit .long 3))) = .ok (.other .int) := by
  refine ⟨.cond _ _ _ .int .int .int .int .int _ (.lit _ _ (by decide) (by decide)) (.lit _ _ (by decide) (by decide)) ?_ (by decide) (by decide)
    (by decide) (by decide) (by decide), by decide +kernel⟩
  exact .bin _ _ _ .char .long .int .long .long (by decide) (.obj _ (by decide)) (.lit _ _ (by decide) (by decide)) (by decide) (by decide)
    (by decide) (by decide) (by decide)

/-- The name occurs in the expression. -/
def mentions (x : Str) : E → Bool
  | .name y => decide (y = x)
  | .num _ | .lit _ _ | .dbl _ | .obj _ => false
  | .un _ e | .cast _ e | .not e => mentions x e
  | .bin _ a b | .and a b | .or a b | .comma a b => mentions x a || mentions x b
  | .cond c a b => mentions x c || mentions x a || mentions x b

/-- C100: an expression with a name that is not declared is rejected, wherever the name stands. -/
theorem undeclared_rejected (abi : Abi) (names : Str → Option Const) (x : Str) (hx : names x = none) (e : E) (h : mentions x e = true)
    (r : Tree) : build abi names e ≠ .ok r := by
  induction e generalizing r with
  | num s => cases h
  | lit t v => cases h
  | dbl b => cases h
  | obj t => cases h
  | name y =>
    have : y = x := of_decide_eq_true h
    subst this
    unfold build
    rw [hx]
    intro hc; cases hc
  | un op e ih | cast t e ih | not e ih =>
    intro hr
    obtain ⟨y, hy, hr⟩ := Res.bind_eq_ok.1 hr
    exact ih h y hy
  | bin op a b iha ihb | and a b iha ihb | or a b iha ihb | comma a b iha ihb =>
    intro hr
    obtain ⟨y, hy, hr⟩ := Res.bind_eq_ok.1 hr
    obtain ⟨z, hz, hr⟩ := Res.bind_eq_ok.1 hr
    rcases Bool.or_eq_true_iff.1 h with h | h
    · exact iha h y hy
    · exact ihb h z hz
  | cond c a b ihc iha ihb =>
    intro hr
    obtain ⟨w, hw, hr⟩ := Res.bind_eq_ok.1 hr
    obtain ⟨y, hy, hr⟩ := Res.bind_eq_ok.1 hr
    obtain ⟨z, hz, hr⟩ := Res.bind_eq_ok.1 hr
    rcases Bool.or_eq_true_iff.1 h with h | h
    · rcases Bool.or_eq_true_iff.1 h with h | h
      · exact ihc h w hw
      · exact iha h y hy
    · exact ihb h z hz

example : mentions (str "x") (.cond (.lit .int 1) (.lit .int 2) (.name (str "x"))) = true := by decide

end Verif.ConstExpr
