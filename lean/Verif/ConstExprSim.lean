import Verif.ConstExprLemmas
/-! Constant expressions: the induction behind `ConstExprProps.lean`. -/
namespace Verif.ConstExpr
open Verif Simple SimpleSpec ConstExprSpec

/-- The restrictions of the partial theorem: casts to `_Bool` are of 0 or 1, operands that are not
evaluated have a value, and floating conditions are zero exactly if their lower halves are. -/
def Plain (abi : Abi) (N : Names) : E → Prop
  | .num _ | .lit _ _ | .name _ | .obj _ => True
  | .dbl b => b.toNat % 2 ^ 31 = 0 ↔ b.toNat % 2 ^ 63 = 0
  | .un _ e | .not e => Plain abi N e
  | .bin _ a b => Plain abi N a ∧ Plain abi N b
  | .cast t e => Plain abi N e ∧ (t = .bool → ∀ v, HasValue abi N e (.int v) → v = 0 ∨ v = 1)
  | .and a b | .or a b => Plain abi N a ∧ Plain abi N b ∧ ∃ y, HasValue abi N b y
  | .cond c a b => Plain abi N c ∧ Plain abi N a ∧ Plain abi N b ∧
      (∃ v, HasValue abi N a (.int v)) ∧ ∃ v, HasValue abi N b (.int v)
  | .comma a b => Plain abi N a ∧ Plain abi N b

theorem plain_dbl {N : Names} {e : E} {x : V} (h : HasValue .sysv N e x) (hp : Plain .sysv N e) :
    ∀ b, x = .dbl b → (b.toNat % 2 ^ 31 = 0 ↔ b.toNat % 2 ^ 63 = 0) := by
  rintro b rfl
  cases h
  exact hp

theorem fits64 {dec : Bool} {s : Suffix} {n : Nat} {t : ST}
    (h : constantType .sysv dec s n = some t) : n < 2 ^ 64 ∧ IsInt t ∧ InRange .sysv t n := by
  unfold constantType at h
  have h1 := List.find?_some h
  have h2 := List.mem_of_find?_eq_some h
  have h3 : InRange .sysv t n := by simpa using h1
  have hi : IsInt t := by
    revert h2
    cases s <;> cases dec <;> cases t <;> decide
  refine ⟨?_, hi, h3⟩
  revert h3
  cases t <;> first
    | exact absurd hi (by decide)
    | (simp only [InRange, inBits, signed, width]; simp; omega)

theorem lit_valid {t : ST} {v : Int} (h : IsInt t) (hr : InRange .sysv t v) :
    Valid .sysv (simpleConst t v) ∧ val (simpleConst t v) = v := by
  have hv : val (simpleConst t v) = v := by
    unfold val simpleConst
    dsimp only
    revert hr
    cases t <;> first
      | exact absurd h (by decide)
      | (intro hr
         rw [if_pos (by decide)]
         simp only [InRange, inBits, signed, width] at hr
         simp at hr
         exact toInt_ofInt64 v (by omega))
      | (intro hr
         rw [if_neg (by decide)]
         simp only [InRange, inBits, signed, width] at hr
         simp at hr
         rw [BitVec.toNat_ofInt]
         omega)
  exact ⟨⟨h, by rw [hv]; exact hr⟩, hv⟩

theorem num_const {names : Str → Option Const} {b : Base} {pre ds sp : Str} {s : Suffix} {t : ST}
    (h : IsConstant b pre ds) (hs : sp ∈ spellings s)
    (ht : constantType .sysv (b = .dec) s (number b ds) = some t) :
    build .sysv names (.num (pre ++ ds ++ sp)) =
      .ok (.const ⟨t, BitVec.ofNat 64 (number b ds)⟩) ∧
    Valid .sysv ⟨t, BitVec.ofNat 64 (number b ds)⟩ ∧
    val ⟨t, BitVec.ofNat 64 (number b ds)⟩ = number b ds := by
  obtain ⟨h1, h2, h3⟩ := fits64 ht
  have h4 := integer_constant_partial .sysv b pre ds sp s h hs h1
  have h5 := integer_not_float b pre ds sp s h hs
  have h6 := lit_valid h2 h3
  have e : BitVec.ofInt 64 ((number b ds : Nat) : Int) = BitVec.ofNat 64 (number b ds) := by
    simp
  unfold simpleConst at h6
  rw [e] at h6
  refine ⟨?_, h6⟩
  unfold build
  rw [if_neg (by rw [h5]; decide), h4]
  unfold constantSpec
  rw [ht]
  rfl

/-- `0` and `1` of type int, as branches. -/
theorem int_branches {x : V} {c : Const} {p q : Int} (hp : p = 0 ∨ p = 1) (hq : q = 0 ∨ q = 1)
    (hx : Rep .sysv x c)
    (hd : ∀ b, x = .dbl b → (b.toNat % 2 ^ 31 = 0 ↔ b.toNat % 2 ^ 63 = 0)) :
    ∃ r, conditional .sysv (.const c) (exprInt p) (exprInt q) = .ok (.const r) ∧ r.ty = .int ∧
      Valid .sysv r ∧ val r = if truth x then p else q := by
  have h01 : ∀ p : Int, p = 0 ∨ p = 1 → InRange .sysv .int p := by
    rintro p (rfl | rfl) <;> decide
  obtain ⟨v1, w1⟩ := lit_valid (t := .int) (v := p) (by decide) (h01 p hp)
  obtain ⟨v2, w2⟩ := lit_valid (t := .int) (v := q) (by decide) (h01 q hq)
  obtain ⟨r, k1, k2, k3, k4⟩ := cond_const (ta := .int) (tb := .int) (t := .int) hx hd v1 v2
    (show IsPromotion .sysv .int (width .sysv .int) .int by decide)
    (show IsPromotion .sysv .int (width .sysv .int) .int by decide) (by decide)
  refine ⟨r, k1, k2, k3, ?_⟩
  rw [w1, w2] at k4
  refine conversion_unique .sysv .int (by decide) _ _ _ k4 (conv_self (by decide) ?_)
  split
  · exact h01 p hp
  · exact h01 q hq

/-- An int constant with value 0 or 1, as the value of an inner conditional. -/
theorem rep_int {r : Const} {v : Int} (h : Valid .sysv r) (hv : val r = v) : Rep .sysv (.int v) r :=
  ⟨h, hv⟩

theorem truth_b2i (b : Bool) (h : Int) (hh : h = if b then 1 else 0) : truth (.int h) = b := by
  subst hh; cases b <;> decide

theorem no_dbl {v : Int} : ∀ b, V.int v = .dbl b → (b.toNat % 2 ^ 31 = 0 ↔ b.toNat % 2 ^ 63 = 0) := by
  intro b h; cases h

/-- A conditional one of whose branches is a 0/1 int constant, the other the literal `q`. -/
theorem int_cond {x : V} {c a b : Const} (hx : Rep .sysv x c)
    (hd : ∀ b, x = .dbl b → (b.toNat % 2 ^ 31 = 0 ↔ b.toNat % 2 ^ 63 = 0))
    (ha : Valid .sysv a) (hb : Valid .sysv b) (ta : a.ty = .int) (tb : b.ty = .int) :
    ∃ r, conditional .sysv (.const c) (.const a) (.const b) = .ok (.const r) ∧ r.ty = .int ∧
      Valid .sysv r ∧ val r = if truth x then val a else val b := by
  obtain ⟨r, k1, k2, k3, k4⟩ := cond_const (ta := .int) (tb := .int) (t := .int) hx hd ha hb
    (by rw [ta]; decide) (by rw [tb]; decide) (by decide)
  refine ⟨r, k1, k2, k3, ?_⟩
  refine conversion_unique .sysv .int (by decide) _ _ _ k4 (conv_self (by decide) ?_)
  split
  · have := ha.2; rw [ta] at this; exact this
  · have := hb.2; rw [tb] at this; exact this

theorem constant_main (names : Str → Option Const) (N : Names) (ha : Agree names N)
    (hd : Declared .sysv N) (e : E) : ∀ (t : ST) (x : V), HasType .sysv N e t →
      HasValue .sysv N e x → Plain .sysv N e →
      ∃ c, build .sysv names e = .ok (.const c) ∧ c.ty = t ∧ Rep .sysv x c := by
  have one : Valid .sysv (simpleConst .int 1) ∧ val (simpleConst .int 1) = 1 :=
    lit_valid (by decide) (by decide)
  have zero : Valid .sysv (simpleConst .int 0) ∧ val (simpleConst .int 0) = 0 :=
    lit_valid (by decide) (by decide)
  induction e with
  | num s =>
    intro t x ht hv _
    have key : ∀ s t, HasType .sysv N (.num s) t → ∃ c, build .sysv names (.num s) = .ok (.const c) ∧
        c.ty = t := by
      intro s t h
      generalize hs : E.num s = e at h
      cases h <;> first | (exfalso; injection hs; done) | skip
      rename_i b pre ds sp sf h1 h2 h3
      exact ⟨_, (num_const (names := names) h1 h2 h3).1, rfl⟩
    have key2 : ∀ s x, HasValue .sysv N (.num s) x → ∃ c, build .sysv names (.num s) = .ok (.const c) ∧
        Rep .sysv x c := by
      intro s x h
      generalize hs : E.num s = e at h
      cases h <;> first | (exfalso; injection hs; done) | skip
      rename_i b pre ds sp sf t h1 h2 h3
      have := num_const (names := names) h1 h2 h3
      exact ⟨_, this.1, this.2⟩
    obtain ⟨c, c1, c2⟩ := key s t ht
    obtain ⟨c', c1', c2'⟩ := key2 s x hv
    rw [c1] at c1'
    cases c1'
    exact ⟨c, c1, c2, c2'⟩
  | lit t v =>
    intro t' x ht hv _
    cases ht
    rename_i h hr
    cases hv
    exact ⟨_, rfl, rfl, lit_valid h hr⟩
  | dbl b =>
    intro t x ht hv _
    cases ht
    cases hv
    exact ⟨_, rfl, rfl, rfl⟩
  | name y =>
    intro t x ht hv _
    cases ht
    rename_i v h
    cases hv
    rename_i t' v' h'
    rw [h] at h'
    cases h'
    have hA := ha y
    rw [h] at hA
    cases hn : names y with
    | none => rw [hn] at hA; cases hA
    | some c =>
      rw [hn] at hA
      simp only [Option.map_some, Option.some.injEq, Prod.mk.injEq] at hA
      refine ⟨c, ?_, hA.1, ?_, hA.2⟩
      · unfold build; rw [hn]
      · have := hd y _ _ h
        unfold Valid
        rw [hA.1, hA.2]
        exact this
  | obj t =>
    intro t' x ht hv _
    cases hv
  | un op e ih =>
    intro t x ht hv hp
    have key : ∀ t, HasType .sysv N (.un op e) t → ∃ te, HasType .sysv N e te ∧
        IsPromotion .sysv te (width .sysv te) t := by
      intro t h
      cases h with
      | un _ _ te _ h1 _ h2 => exact ⟨te, h1, h2⟩
    have key2 : ∃ t v w, x = .int w ∧ HasType .sysv N (.un op e) t ∧ HasValue .sysv N e (.int v) ∧
        uopVal .sysv t op v = some w := by
      generalize hs : E.un op e = u at hv
      cases hv <;> first | (exfalso; injection hs; done) | skip
      rename_i t v w h1 h2 h3
      injection hs with hs1 hs2
      subst hs1 hs2
      exact ⟨t, v, w, rfl, h1, h2, h3⟩
    obtain ⟨t2, v, w, rfl, ht2, h, hw⟩ := key2
    obtain ⟨te, h1, h2⟩ := key t ht
    obtain ⟨te2, k1, k2⟩ := key t2 ht2
    obtain ⟨c, c1, c2, c3⟩ := ih te _ h1 h hp
    obtain ⟨c', c1', c2', c3'⟩ := ih te2 _ k1 h hp
    rw [c1] at c1'
    cases c1'
    obtain rfl : te = te2 := c2.symm.trans c2'
    obtain rfl := promo_unique h2 k2
    subst c2
    obtain ⟨hval, rfl⟩ := c3
    obtain ⟨r, r1, r2, r3, r4⟩ := unary_const hval h2 hw
    refine ⟨r, ?_, r2, r3, r4⟩
    simp only [build, c1, Res.bind_ok]
    exact r1
  | bin op a b iha ihb =>
    intro t x ht hv hp
    obtain ⟨pa, pb⟩ := hp
    cases hv with
    | shift _ _ _ t2 v w x hop ht2 hva hvb hx =>
      have key : ∀ t, HasType .sysv N (.bin op a b) t → ∃ ta tb, HasType .sysv N a ta ∧
          HasType .sysv N b tb ∧ IsInt ta ∧ IsInt tb ∧ IsPromotion .sysv ta (width .sysv ta) t := by
        intro t h
        cases h with
        | shift _ _ _ ta tb ta' _ h1 h2 h3 h4 h5 => exact ⟨ta, tb, h1, h2, h3, h4, h5⟩
        | bin _ _ _ _ _ _ _ _ hop' => exact absurd hop hop'
      obtain ⟨ta, tb, h1, h2, h3, h4, h5⟩ := key t ht
      obtain ⟨ta2, tb2, k1, k2, k3, k4, k5⟩ := key t2 ht2
      obtain ⟨ca, a1, a2, a3⟩ := iha ta _ h1 hva pa
      obtain ⟨ca', a1', a2', _⟩ := iha ta2 _ k1 hva pa
      obtain ⟨cb, b1, b2, b3⟩ := ihb tb _ h2 hvb pb
      rw [a1] at a1'
      cases a1'
      obtain rfl : ta = ta2 := a2.symm.trans a2'
      obtain rfl := promo_unique h5 k5
      subst a2 b2
      obtain ⟨hA, rfl⟩ := a3
      obtain ⟨hB, rfl⟩ := b3
      obtain ⟨r, r1, r2, r3, r4⟩ := shift_const hop hA hB h4 h5 hx
      refine ⟨r, ?_, r2, r3, r4⟩
      simp only [build, a1, b1, Res.bind_ok]
      exact r1
    | bin _ _ _ ta tb ta' tb' t2 v w v' w' x hop h1 h2 hpa hpb hc hva hvb hca hcb hx =>
      cases ht with
      | shift _ _ _ _ _ _ hop' => exact absurd hop' hop
      | bin _ _ _ ta2 tb2 ta2' tb2' t _ k1 k2 ki kj kpa kpb kc =>
        obtain ⟨ca, a1, a2, a3⟩ := iha ta _ h1 hva pa
        obtain ⟨ca', a1', a2', _⟩ := iha ta2 _ k1 hva pa
        obtain ⟨cb, b1, b2, b3⟩ := ihb tb _ h2 hvb pb
        obtain ⟨cb', b1', b2', _⟩ := ihb tb2 _ k2 hvb pb
        rw [a1] at a1'
        cases a1'
        rw [b1] at b1'
        cases b1'
        obtain rfl : ta = ta2 := a2.symm.trans a2'
        obtain rfl : tb = tb2 := b2.symm.trans b2'
        obtain rfl := promo_unique hpa kpa
        obtain rfl := promo_unique hpb kpb
        obtain rfl := common_unique hc kc
        subst a2 b2
        obtain ⟨hA, rfl⟩ := a3
        obtain ⟨hB, rfl⟩ := b3
        obtain ⟨r, r1, r2, r3, r4⟩ := binary_const hop hA hB hpa hpb hc hca hcb hx
        refine ⟨r, ?_, r2, r3, r4⟩
        simp only [build, a1, b1, Res.bind_ok]
        exact r1
  | cast t e ih =>
    intro t' x ht hv hp
    obtain ⟨pe, pb⟩ := hp
    cases hv
    rename_i v w hc hv
    have ⟨te, h1, hti⟩ : ∃ te, HasType .sysv N e te ∧ IsInt t := by
      cases ht with
      | cast _ _ te h1 _ h2 => exact ⟨te, h1, h2⟩
    have htt : t' = t := by
      cases ht with
      | cast _ _ te h1 _ h2 => rfl
    subst t'
    obtain ⟨c, c1, c2, c3⟩ := ih te _ h1 hv pe
    obtain ⟨hC, rfl⟩ := c3
    by_cases hb : t = .bool
    · subst hb
      have h01 := pb rfl _ hv
      obtain ⟨r, r1, r2, r3, r4⟩ := cast_bool hC h01
      refine ⟨r, ?_, r2, r3, ?_⟩
      · simp only [build, c1, Res.bind_ok]; exact r1
      · rw [r4]
        unfold IsConversion at hc
        rw [if_pos rfl] at hc
        rw [hc]
        rcases h01 with h | h <;> rw [h] <;> decide
    · obtain ⟨r, r1, r2, r3, r4⟩ := cast_const hC hti hb
      refine ⟨r, ?_, r2, r3, conversion_unique .sysv t hti _ _ _ r4 hc⟩
      simp only [build, c1, Res.bind_ok]
      exact r1
  | not e ih =>
    intro t x ht hv hp
    cases hv
    rename_i x hv
    cases ht
    rename_i te h1
    obtain ⟨c, c1, c2, c3⟩ := ih te _ h1 hv hp
    obtain ⟨r, r1, r2, r3, r4⟩ := int_branches (p := 0) (q := 1) (.inl rfl) (.inr rfl) c3
      (plain_dbl hv hp)
    refine ⟨r, ?_, r2, r3, r4⟩
    simp only [build, c1, Res.bind_ok]
    exact r1
  | and a b iha ihb =>
    intro t x ht hv hp
    obtain ⟨pa, pb, y, hy⟩ := hp
    cases ht
    rename_i ta tb h1 h2
    obtain ⟨cb, b1, _, b3⟩ := ihb tb _ h2 hy pb
    obtain ⟨rb, s1, s2, s3, s4⟩ := int_branches (p := 1) (q := 0) (.inr rfl) (.inl rfl) b3
      (plain_dbl hy pb)
    cases hv with
    | andFalse _ _ x hva hx =>
      obtain ⟨ca, a1, _, a3⟩ := iha ta _ h1 hva pa
      obtain ⟨r, r1, r2, r3, r4⟩ := int_cond a3 (plain_dbl hva pa) s3 zero.1 s2 rfl
      refine ⟨r, ?_, r2, r3, ?_⟩
      · simp only [build, a1, b1, s1, Res.bind_ok]; exact r1
      · rw [r4, hx, zero.2]; rfl
    | andTrue _ _ x y' hva hx hvb =>
      obtain ⟨ca, a1, _, a3⟩ := iha ta _ h1 hva pa
      obtain ⟨cb', b1', _, b3'⟩ := ihb tb _ h2 hvb pb
      rw [b1] at b1'
      cases b1'
      obtain ⟨rb', s1', s2', s3', s4'⟩ := int_branches (p := 1) (q := 0) (.inr rfl) (.inl rfl) b3'
        (plain_dbl hvb pb)
      rw [s1] at s1'
      cases s1'
      obtain ⟨r, r1, r2, r3, r4⟩ := int_cond a3 (plain_dbl hva pa) s3 zero.1 s2 rfl
      refine ⟨r, ?_, r2, r3, ?_⟩
      · simp only [build, a1, b1, s1, Res.bind_ok]; exact r1
      · rw [r4, hx, if_pos rfl, s4']
  | or a b iha ihb =>
    intro t x ht hv hp
    obtain ⟨pa, pb, y, hy⟩ := hp
    cases ht
    rename_i ta tb h1 h2
    obtain ⟨cb, b1, _, b3⟩ := ihb tb _ h2 hy pb
    obtain ⟨rb, s1, s2, s3, s4⟩ := int_branches (p := 1) (q := 0) (.inr rfl) (.inl rfl) b3
      (plain_dbl hy pb)
    cases hv with
    | orTrue _ _ x hva hx =>
      obtain ⟨ca, a1, _, a3⟩ := iha ta _ h1 hva pa
      obtain ⟨r, r1, r2, r3, r4⟩ := int_cond a3 (plain_dbl hva pa) one.1 s3 rfl s2
      refine ⟨r, ?_, r2, r3, ?_⟩
      · simp only [build, a1, b1, s1, Res.bind_ok]; exact r1
      · rw [r4, hx, one.2]; rfl
    | orFalse _ _ x y' hva hx hvb =>
      obtain ⟨ca, a1, _, a3⟩ := iha ta _ h1 hva pa
      obtain ⟨cb', b1', _, b3'⟩ := ihb tb _ h2 hvb pb
      rw [b1] at b1'
      cases b1'
      obtain ⟨rb', s1', s2', s3', s4'⟩ := int_branches (p := 1) (q := 0) (.inr rfl) (.inl rfl) b3'
        (plain_dbl hvb pb)
      rw [s1] at s1'
      cases s1'
      obtain ⟨r, r1, r2, r3, r4⟩ := int_cond a3 (plain_dbl hva pa) one.1 s3 rfl s2
      refine ⟨r, ?_, r2, r3, ?_⟩
      · simp only [build, a1, b1, s1, Res.bind_ok]; exact r1
      · rw [r4, hx, if_neg (by decide), s4']
  | cond c a b ihc iha ihb =>
    intro t x ht hv hp
    obtain ⟨pc, pa, pb, ⟨va, hva⟩, vb, hvb⟩ := hp
    have key : ∀ t, HasType .sysv N (.cond c a b) t → ∀ x, HasValue .sysv N c x →
        ∀ va, HasValue .sysv N a (.int va) → ∀ vb, HasValue .sysv N b (.int vb) →
        ∃ r, build .sysv names (.cond c a b) = .ok (.const r) ∧ r.ty = t ∧ Valid .sysv r ∧ IsInt t ∧
          IsConversion .sysv t (if truth x then va else vb) (val r) := by
      intro t ht x hx va hva vb hvb
      have ⟨tc, ta, tb, ta', tb', h1, h2, h3, hpa, hpb, hcm⟩ : ∃ tc ta tb ta' tb',
          HasType .sysv N c tc ∧ HasType .sysv N a ta ∧ HasType .sysv N b tb ∧
          IsPromotion .sysv ta (width .sysv ta) ta' ∧ IsPromotion .sysv tb (width .sysv tb) tb' ∧
          IsCommon .sysv ta' tb' t := by
        cases ht with
        | cond _ _ _ tc ta tb ta' tb' _ h1 h2 h3 _ _ hpa hpb hcm =>
          exact ⟨tc, ta, tb, ta', tb', h1, h2, h3, hpa, hpb, hcm⟩
      obtain ⟨cc, c1, c2, c3⟩ := ihc tc _ h1 hx pc
      obtain ⟨ca, a1, a2, a3⟩ := iha ta _ h2 hva pa
      obtain ⟨cb, b1, b2, b3⟩ := ihb tb _ h3 hvb pb
      subst a2 b2
      obtain ⟨hA, rfl⟩ := a3
      obtain ⟨hB, rfl⟩ := b3
      obtain ⟨r, r1, r2, r3, r4⟩ := cond_const c3 (plain_dbl hx pc) hA hB hpa hpb hcm
      refine ⟨r, ?_, r2, r3, r2 ▸ r3.1, r4⟩
      simp only [build, c1, a1, b1, Res.bind_ok]
      exact r1
    cases hv with
    | condTrue _ _ _ t2 x v w ht2 hx htr hv hw =>
      obtain ⟨r, r1, r2, r3, r4, r5⟩ := key t ht x hx v hv vb hvb
      obtain ⟨r', r1', r2', _⟩ := key t2 ht2 x hx v hv vb hvb
      rw [r1] at r1'
      cases r1'
      obtain rfl : t = t2 := r2.symm.trans r2'
      rw [htr, if_pos rfl] at r5
      exact ⟨r, r1, r2, r3, conversion_unique .sysv t r4 _ _ _ r5 hw⟩
    | condFalse _ _ _ t2 x v w ht2 hx htr hv hw =>
      obtain ⟨r, r1, r2, r3, r4, r5⟩ := key t ht x hx va hva v hv
      obtain ⟨r', r1', r2', _⟩ := key t2 ht2 x hx va hva v hv
      rw [r1] at r1'
      cases r1'
      obtain rfl : t = t2 := r2.symm.trans r2'
      rw [htr, if_neg (by decide)] at r5
      exact ⟨r, r1, r2, r3, conversion_unique .sysv t r4 _ _ _ r5 hw⟩
  | comma a b _ _ =>
    intro t x ht hv hp
    cases ht

end Verif.ConstExpr
