import Verif.ExprIrArgs
/-!
Lemmas for C92: what an expression evaluates to is what its nodes compute.
-/
namespace Verif.ExprIr
open Verif.SimpleSpec Verif.ExprIrSpec
open Verif.Simple hiding Promoted
open Verif.CodegenSpec (bytes Promoted IsRel)
open Verif.Codegen (IrOp irFromTypeAndOp irBinaryOp bvOp)
open Verif.X86 (rd wr)

/-- The nodes of the expression compute what it evaluates to. -/
def Correct (d : Decls) (W : World) (e : SE) (m : Mem) (o : Out) (m' : Mem) : Prop :=
  match o with
  | .place a bits => ∀ T w te, HasType d True e (.expr T w) → d.build e = .ok te → w = bits.map (·.2) ∧ RunsPlace d W te m T a bits m'
  | .val x src => ∀ T w te, HasType d True e (.expr T w) → d.build e = .ok te →
      Runs d W (d.decay te) m (decayed T) x src (Wide d True e) m' ∧ Fits T w x
  | .args l => ∀ ps te, HasType d True e (.args ps) → d.build e = .ok te → l.map (·.1) = ps → RunsArgs d W te ps m l m'

theorem Fits.none (T : Ty) (x : Nat) : Fits T none x := fun _ _ h => by cases h

section
variable {d : Decls} {W : World} {e : SE} {m m' : Mem} {T : Ty} {w : Option Nat} {te : TE} {x : Nat} {src : Option Src}
  {a : BitVec 64} {bits : Option (Nat × Nat)}

theorem mk_val (hw : WellFormed d) (ht : HasType d True e (.expr T w)) (hb : d.build e = .ok te) (hd : decayed T = T) (hf : Fits T w x)
    (r : Runs d W te m T x src (Wide d True e) m') : Correct d W e m (.val x src) m' := by
  intro T' w' te' hT hb'
  obtain ⟨rfl, rfl⟩ := type_unique hw ht hT
  rw [hb] at hb'
  injection hb' with hb'
  subst hb'
  rw [decay_id (by rw [(built_type hw ht hb).1, hd]), hd]
  exact ⟨r, hf⟩

theorem mk_place (hw : WellFormed d) (ht : HasType d True e (.expr T w)) (hb : d.build e = .ok te) (hf : w = bits.map (·.2))
    (r : RunsPlace d W te m T a bits m') : Correct d W e m (.place a bits) m' := by
  intro T' w' te' hT hb'
  obtain ⟨rfl, rfl⟩ := type_unique hw ht hT
  rw [hb] at hb'
  injection hb' with hb'
  subst hb'
  exact ⟨hf, r⟩

theorem Correct.val (hw : WellFormed d) (ht : HasType d True e (.expr T w)) (h : Correct d W e m (.val x src) m') :
    ∃ te, d.build e = .ok te ∧ d.tyOf te = T ∧ d.bitfield te = wOf w ∧ Runs d W (d.decay te) m (decayed T) x src (Wide d True e) m' ∧ Fits T w x := by
  obtain ⟨te, h1, h2, h3⟩ := hasType_built hw ht
  exact ⟨te, h1, h2, h3, h T w te ht h1⟩

theorem Correct.int {s : ST} (hw : WellFormed d) (ht : HasType d True e (.expr (.simple s) w)) (hi : IsInt s) (h : Correct d W e m (.val x src) m') :
    ∃ te, d.build e = .ok te ∧ d.tyOf te = .simple s ∧ d.bitfield te = wOf w ∧ Runs d W te m (.simple s) x src (Wide d True e) m' ∧
      Fits (.simple s) w x ∧ x < 256 ^ bytes .sysv s ∧ Good s w := by
  obtain ⟨te, h1, h2, h3, h4, h5⟩ := h.val hw ht
  rw [decay_id (by rw [h2]; rfl)] at h4
  have hx := h4.lt (T := .simple s) hi
  rw [osize_scalar d (t := .simple s) hi] at hx
  exact ⟨te, h1, h2, h3, h4, h5, hx, (hasType_good hw ht _ _ rfl).good hi⟩

theorem Correct.ptr {t : Ty} (hw : WellFormed d) (ht : HasType d True e (.expr T w)) (hp : decayed T = .ptr t) (h : Correct d W e m (.val x src) m') :
    ∃ te, d.build e = .ok te ∧ d.tyOf te = T ∧ d.tyOf (d.decay te) = .ptr t ∧ Runs d W (d.decay te) m (.ptr t) x src (Wide d True e) m' ∧ x < 2 ^ 64 := by
  obtain ⟨te, h1, h2, h3, h4, h5⟩ := h.val hw ht
  rw [hp] at h4
  exact ⟨te, h1, h2, by rw [tyOf_decay, h2, hp], h4, h4.lt (T := .ptr t) trivial⟩

theorem Correct.place (hw : WellFormed d) (ht : HasType d True e (.expr T w)) (h : Correct d W e m (.place a bits) m') :
    ∃ te, d.build e = .ok te ∧ d.tyOf te = T ∧ d.bitfield te = wOf w ∧ RunsPlace d W te m T a bits m' ∧ w = bits.map (·.2) := by
  obtain ⟨te, h1, h2, h3⟩ := hasType_built hw ht
  obtain ⟨h4, h5⟩ := h T w te ht h1
  exact ⟨te, h1, h2, h3, h5, h4⟩

end

theorem tyOf_bin {d : Decls} {op : Op} {a b : TE} {t : ST} (ha : d.tyOf a = .simple t) : d.tyOf (.bin op a b) = .simple (opType t op) := by
  simp only [Decls.tyOf, ha, opType]
  by_cases hr : IsRel op
  · rw [(returnsInt_iff op).mpr hr, if_pos rfl]
    unfold CodegenSpec.IsRel at hr
    rw [if_pos hr]
  · have : returnsInt op = false := by
      cases hri : returnsInt op with
      | false => rfl
      | true => exact absurd ((returnsInt_iff op).mp hri) hr
    rw [this]
    simp only [Bool.false_eq_true, if_false]
    unfold CodegenSpec.IsRel at hr
    rw [if_neg hr]

theorem opType_shift {op : Op} (h : op = .lshift ∨ op = .rshift) (t : ST) : opType t op = t := by
  rcases h with rfl | rfl <;> rfl

theorem shift_count {op : Op} (h : op = .lshift ∨ op = .rshift) {t : ST} (ht : Promoted t) {a b v : Int} (hv : opVal .sysv t op a b = some v) :
    IsConversion .sysv t b b := by
  refine inRange_conversion (promoted_not_bool ht) ?_
  have hb : 0 ≤ b ∧ b < width .sysv t := by
    rcases h with rfl | rfl
    · simp only [opVal] at hv
      by_cases hc : 0 ≤ b ∧ b < width .sysv t ∧ 0 ≤ a
      · exact ⟨hc.1, hc.2.1⟩
      · rw [if_neg hc] at hv; cases hv
    · simp only [opVal] at hv
      by_cases hc : 0 ≤ b ∧ b < width .sysv t
      · exact hc
      · rw [if_neg hc] at hv; cases hv
  have hw : (width .sysv t : Int) ≤ 64 := by revert ht; cases t <;> decide
  unfold InRange inBits
  have : (64 : Int) ≤ 2 ^ (width .sysv t - 1) ∧ (64 : Int) ≤ 2 ^ width .sysv t := by revert ht; cases t <;> decide
  split <;> constructor <;> omega

theorem opType_rel {op : Op} (h : IsRel op) (t : ST) : opType t op = .int := by
  unfold CodegenSpec.IsRel at h
  unfold opType
  rw [if_pos h]

theorem rel_small {op : Op} (h : IsRel op) {t : ST} {a b : Int} {v : Nat} (hv : opVal .sysv t op a b = some (v : Int)) : v ≤ 1 := by
  have : (v : Int) = 0 ∨ (v : Int) = 1 := by
    revert h hv
    cases op <;> intro h hv <;> first | exact absurd h (by decide) | skip
    all_goals
      simp only [opVal, Option.some.injEq] at hv
      revert hv
      split <;> omega
  omega

theorem rep_int {v : Nat} (h : v ≤ 1) : Rep (.simple .int) (v : Int) v :=
  ⟨by show v < 256 ^ 4; omega, valueOf_small (t := .simple .int) (by show IsInt .int; decide) h⟩

theorem rep_ptr {p : Nat} (h : p < 2 ^ 64) : Rep (.simple .ulong) (p : Int) p := by
  refine ⟨by show p < 256 ^ 8; omega, ?_⟩
  show ((BitVec.ofNat 64 p).toNat : Int) = p
  rw [BitVec.toNat_ofNat, Nat.mod_eq_of_lt h]

theorem ir_ptr {op : Op} (h : IsRel op) : irFromTypeAndOp none op = irFromTypeAndOp (some .ulong) op := by
  revert h
  cases op <;> decide

theorem divOk_rel {op : Op} (h : IsRel op) (t : ST) (a b : Int) : DivOk op t a b := by
  intro e
  subst e
  exact absurd h (by decide)

theorem eq_rel {op : Op} (h : op = .equal ∨ op = .notEqual) : IsRel op := by
  rcases h with rfl | rfl <;> decide

theorem cond_not_bool {d : Decls} (hw : WellFormed d) {c a b : SE} {T : Ty} {w : Option Nat} (h : HasType d True (.cond c a b) (.expr T w)) :
    T ≠ .simple .bool := by
  cases h with
  | condArith hc sc ha ia hb ib pa pb hcm =>
    have ga := (hasType_good hw ha _ _ rfl).good ia
    have gb := (hasType_good hw hb _ _ rfl).good ib
    have := promoted_not_bool (common_promoted (promotion_promoted ga pa).1 (promotion_promoted gb pb).1 hcm)
    intro e
    injection e with e
    exact this e
  | condSame hc sc ha hb he hk =>
    rcases hk with h | ⟨_, h⟩ | ⟨_, h⟩ <;> rw [h] <;> intro e <;> cases e
  | condNullR => intro e; cases e
  | condNullL => intro e; cases e
  | compArith hC => cases hC
  | compPtr hC => cases hC

theorem compound_fun {E : SE} {op op' : Op} {a a' b b' : SE} {post post' : Bool} (h : Compound E op a b post) (h' : Compound E op' a' b' post') :
    op = op' ∧ a = a' ∧ b = b' ∧ post = post' := by
  cases h <;> cases h' <;> exact ⟨rfl, rfl, rfl, rfl⟩

theorem compound_inv {d : Decls} {E : SE} {op : Op} {a b : SE} {post : Bool} (hC : Compound E op a b post) {T : Ty} {w : Option Nat}
    (h : HasType d True E (.expr T w)) : IsLvalue a ∧ w = none ∧
      ((¬ IsRel op ∧ ∃ sa wa, HasType d True a (.expr (.simple sa) wa) ∧ T = .simple sa) ∨
        ∃ t wa, HasType d True a (.expr (.ptr t) wa) ∧ T = .ptr t ∧ IsObject d t) := by
  have key : ∀ {op' a' b' post' sa wa}, Compound E op' a' b' post' → ¬ IsRel op' → HasType d True a' (.expr (.simple sa) wa) → IsLvalue a' → T = .simple sa → w = none →
      IsLvalue a ∧ w = none ∧ ((¬ IsRel op ∧ ∃ sa wa, HasType d True a (.expr (.simple sa) wa) ∧ T = .simple sa) ∨
        ∃ t wa, HasType d True a (.expr (.ptr t) wa) ∧ T = .ptr t ∧ IsObject d t) := by
    intro op' a' b' post' sa wa hC' h1 h2 h3 h4 h5
    obtain ⟨rfl, rfl, rfl, rfl⟩ := compound_fun hC hC'
    exact ⟨h3, h5, .inl ⟨h1, sa, wa, h2, h4⟩⟩
  have key2 : ∀ {op' a' b' post' t wa}, Compound E op' a' b' post' → HasType d True a' (.expr (.ptr t) wa) → IsLvalue a' → IsObject d t → T = .ptr t → w = none →
      IsLvalue a ∧ w = none ∧ ((¬ IsRel op ∧ ∃ sa wa, HasType d True a (.expr (.simple sa) wa) ∧ T = .simple sa) ∨
        ∃ t wa, HasType d True a (.expr (.ptr t) wa) ∧ T = .ptr t ∧ IsObject d t) := by
    intro op' a' b' post' t wa hC' h2 h3 ho h4 h5
    obtain ⟨rfl, rfl, rfl, rfl⟩ := compound_fun hC hC'
    exact ⟨h3, h5, .inr ⟨t, wa, h2, h4, ho⟩⟩
  cases hC with
  | op =>
    cases h with
    | compArith hC' h1 h2 h3 h4 h5 h6 => exact key hC' h1 h2 h4 rfl rfl
    | compPtr hC' h1 h2 h3 h4 h5 h6 => exact key2 hC' h2 h3 h4 rfl rfl
  | incr =>
    cases h with
    | compArith hC' h1 h2 h3 h4 h5 h6 => exact key hC' h1 h2 h4 rfl rfl
    | compPtr hC' h1 h2 h3 h4 h5 h6 => exact key2 hC' h2 h3 h4 rfl rfl

theorem read_lt {d : Decls} {s : ST} (hi : IsInt s) {a : BitVec 64} {bits : Option (Nat × Nat)} {m : Mem} {x : Nat} (h : Read d (.simple s) a bits m x) :
    x < 256 ^ bytes .sysv s := by
  cases h with
  | plain h => rw [osize_scalar d (t := .simple s) hi]; exact X86.rd_lt _ _ _
  | bits h => exact h.1

theorem null_runs {d : Decls} {W : World} {s : ST} (hs : Promoted s) (mem : Mem) (wd : Prop) :
    Runs d W (.cast (.ptr .void) (.const s 0)) mem (.ptr .void) 0 none wd mem := by
  have hi := promoted_scalar hs
  have hp : (0 : Nat) < 256 ^ bytes .sysv s := Nat.pow_pos (by decide)
  have hd : d.decay (.const s 0) = .const s 0 := decay_id rfl
  have hne : d.castTo (.const s 0) (.ptr .void) = .cast (.ptr .void) (.const s 0) := by
    rw [castTo_ne (e := .const s 0) (t := .ptr .void) (by show Ty.simple s ≠ .ptr .void; intro h; cases h), hd]
  rw [← hne]
  refine (Runs.castTo (T := .simple s) (x := 0) (src := none) (wd := False) ?_ rfl (.inl (by intro h; cases h)) ?_ (fun _ => rfl)).wd_mono (fun h _ => h.1.elim)
  · rw [hd]
    exact Runs.const mem hi hp none False
  · unfold Conv
    rw [if_neg (by intro h; cases h)]
    refine ⟨0, hi, trivial, ?_, by decide, by decide⟩
    rw [(valueOf_zero (t := .simple s) hi hp).mpr rfl]
    exact inRange_conversion (by decide) (by decide)

theorem void_or_scalar_decayed {T : Ty} (h : T = .void ∨ IsScalar T) : decayed T = T := by
  rcases h with rfl | h
  · rfl
  · exact decayed_scalar h

/-- The main induction. -/
theorem eval_correct {d : Decls} {W : World} (hw : WellFormed d) {e : SE} {m m' : Mem} {o : Out} (h : Eval d W True e m o m') : Correct d W e m o m' := by
  have int1 : IsInt .int := by decide
  have u : ∀ {e : SE} {te te' : TE}, d.build e = .ok te' → d.build e = .ok te → te = te' := by
    intro e te te' h h'
    rw [h] at h'
    injection h' with h'
    exact h'.symm
  induction h with
  | @const s x m =>
    intro T w te hT hb
    cases hT with
    | const hs hx =>
      exact mk_val hw (.const hs hx) rfl rfl (Fits.none _ _) (Runs.const m (promoted_scalar hs) hx none _) _ _ _ (.const hs hx) hb
    | compArith hC => cases hC
    | compPtr hC => cases hC
  | @var x m =>
    intro T w te hT hb
    cases hT with
    | var hx =>
      refine mk_place hw (.var hx) rfl rfl ?_ _ _ _ (.var hx) hb
      intro st M ho hv hm
      exact ⟨_, st, M, ev_sym d st x, Gen.refl W ho M, hm, rfl, rfl, x, Nat.lt_of_lt_of_le hx hv.1, (hv.2 x hx).2, (hv.2 x hx).1, .inl ⟨rfl, rfl⟩⟩
    | compArith hC => cases hC
    | compPtr hC => cases hC
  | @deref e m p src m' h ih =>
    intro T w te hT hb
    cases hT with
    | deref h hp hv =>
      obtain ⟨t1, h1, h2, h3, h4, _⟩ := ih.ptr hw h hp
      exact mk_place hw (.deref h hp hv) (by simp only [Decls.build, h1, Res.bind_ok]) rfl (RunsPlace.deref h4 h3) _ _ _ (.deref h hp hv) hb
    | compArith hC => cases hC
    | compPtr hC => cases hC
  | @index a b m o m' h ih =>
    cases o with
    | place p bits =>
      intro T w te hT hb
      cases hT with
      | index h =>
        refine ih _ _ te h ?_
        simp only [Decls.build, Res.bind_eq_ok] at hb ⊢
        obtain ⟨ta, a1, tb, b1, s, hs, he⟩ := hb
        exact ⟨s, ⟨ta, a1, tb, b1, hs⟩, he⟩
      | compArith hC => cases hC
      | compPtr hC => cases hC
    | val x src =>
      intro T w te hT hb
      cases hT with
      | index h =>
        obtain ⟨h1, h2⟩ := ih _ _ te h (by
          simp only [Decls.build, Res.bind_eq_ok] at hb ⊢
          obtain ⟨ta, a1, tb, b1, s, hs, he⟩ := hb
          exact ⟨s, ⟨ta, a1, tb, b1, hs⟩, he⟩)
        exact ⟨h1.wd_mono (fun h _ => by cases h), h2⟩
      | compArith hC => cases hC
      | compPtr hC => cases hC
    | args l =>
      intro ps te hT hb
      cases hT with
      | index h => cases h
  | @member e s i f m a m' hT hf h ih =>
    obtain ⟨t1, h1, h2, h3, h4, _⟩ := ih.place hw hT
    exact mk_place hw (.member hT hf) (by simp only [Decls.build, h1, Res.bind_ok]) rfl (h4.member hw h2 hf)
  | @memberVal e s i f m x src m' hT hf hbits hv h ih =>
    obtain ⟨t1, h1, h2, h3, h4, h5⟩ := ih.val hw hT
    rw [decay_id (by rw [h2]; rfl)] at h4
    exact mk_val hw (.member hT hf) (by simp only [Decls.build, h1, Res.bind_ok]) (decayed_value hv) (by rw [hbits]; exact Fits.none _ _)
      (h4.member hw h2 hf hbits hv _)
  | @arrow e i m o m' h ih =>
    have key : ∀ {te}, d.build (.arrow e i) = .ok te → d.build (.member (.deref e) i) = .ok te := by
      intro te hb
      simp only [Decls.build, Res.bind_eq_ok] at hb ⊢
      obtain ⟨ta, a1, he⟩ := hb
      exact ⟨_, ⟨ta, a1, rfl⟩, he⟩
    cases o with
    | place p bits =>
      intro T w te hT hb
      cases hT with
      | arrow h => exact ih _ _ te h (key hb)
      | compArith hC => cases hC
      | compPtr hC => cases hC
    | val x src =>
      intro T w te hT hb
      cases hT with
      | arrow h =>
        obtain ⟨h1, h2⟩ := ih _ _ te h (key hb)
        exact ⟨h1.wd_mono (fun h _ => by cases h), h2⟩
      | compArith hC => cases hC
      | compPtr hC => cases hC
    | args l =>
      intro ps te hT hb
      cases hT with
      | arrow h => cases h
  | @read e T w m a bits m' x hT h hr ih =>
    obtain ⟨te, h1, h2, h3, h4, h5⟩ := ih.place hw hT
    have hg := hasType_good hw hT _ _ rfl
    have hi : ∀ o n, bits = some (o, n) → ∃ s, T = .simple s ∧ IsInt s := by
      intro o n hb
      subst hb
      obtain ⟨s, e1, e2⟩ := hg n h5
      exact ⟨s, e1, e2.1⟩
    refine mk_val hw hT h1 (decayed_value (read_value hr hi)) ?_ (h4.read hr _)
    cases hr with
    | plain _ => rw [h5]; exact Fits.none _ _
    | @bits s _ o n _ _ hrep =>
      rw [h5]
      intro n' s' e1 e2
      injection e1 with e1
      subst e1
      injection e2 with e2
      subst e2
      have hn : 1 ≤ n := by
        obtain ⟨s', e1, e2⟩ := hg n h5
        exact (e2.2 n h5).2.1
      rw [hrep.2]
      exact fieldVal_inBits _ o hn
  | @decay e T w t m a m' hT hne hp h ih =>
    obtain ⟨te, h1, h2, h3, h4, h5⟩ := ih.place hw hT
    intro T' w' te' hT' hb
    obtain ⟨rfl, rfl⟩ := type_unique hw hT hT'
    rw [u h1 hb, h5]
    exact ⟨h4.decay h2 hne _, Fits.none _ _⟩
  | @addr e m a m' h ih =>
    intro T w te hT hb
    cases hT with
    | addr h hl =>
      obtain ⟨t1, h1, h2, h3, h4, _⟩ := ih.place hw h
      exact mk_val hw (.addr h hl) (by simp only [Decls.build, h1, Res.bind_ok]) rfl (Fits.none _ _) (h4.addr h2 _) _ _ _ (.addr h hl) hb
    | compArith hC => cases hC
    | compPtr hC => cases hC
  | @cast t e T w m x src m' y hT h hv hc ih =>
    obtain ⟨t1, h1, h2, h3, h4, h5⟩ := ih.val hw hT
    intro T' w' te' hT' hb
    have hT0 := hT'
    cases hT' with
    | cast h hs hl =>
      obtain ⟨rfl, rfl⟩ := type_unique hw hT h
      refine mk_val hw hT0 (by simp only [Decls.build, h1, Res.bind_ok]) (void_or_scalar_decayed (hs.imp id And.right)) (Fits.none _ _)
        ((h4.castTo (by rw [h2]) (.inl hv) hc (fun e => by rw [if_pos e])).wd_mono (fun h _ => .cast h.1 h.2)) _ _ _ hT0 hb
    | compArith hC => cases hC
    | compPtr hC => cases hC
  | @castVoid e m x src m' h ih =>
    intro T' w' te' hT' hb
    have hT0 := hT'
    cases hT' with
    | cast h hs hl =>
      obtain ⟨t1, h1, h2, h3, h4, h5⟩ := ih.val hw h
      exact mk_val hw hT0 (by simp only [Decls.build, h1, Res.bind_ok]) rfl (Fits.none _ _) (h4.castVoid (by rw [h2]) 0 none) _ _ _ hT0 hb
    | compArith hC => cases hC
    | compPtr hC => cases hC
  | @un op e s w s' m x src m' v y hT hi hp h hv hy hlim ih =>
    obtain ⟨t1, h1, h2, h3, h4, h5, hx, hg⟩ := ih.int hw hT hi
    have hq := (promotion_promoted hg hp).1
    obtain ⟨k, k1, k2⟩ := h4.prom h2 hx hg h5 hp
    refine mk_val hw (.un hT hi hp) (by simp only [Decls.build, Decls.mkUn, h1, Res.bind_ok, (promote_int h2 h3 hg hp).1]) rfl (Fits.none _ _)
      ((Runs.un (t := s') k2 (tyOf_castTo _ _ _) hq k1 hv hy (hlim trivial)).wd_mono (fun h _ => ?_))
    obtain ⟨rfl, h⟩ := h
    exact .plus h
  | @not e m x src m' h ih =>
    intro T' w' te' hT' hb
    have hT0 := hT'
    cases hT' with
    | not h hs =>
      obtain ⟨t1, h1, h2, h3, h4, h5⟩ := ih.val hw h
      obtain ⟨T1, b1, b2⟩ := not_built ⟨h1, h2, h3⟩ (hasType_good hw h _ _ rfl)
      obtain ⟨k, k1, k2⟩ := h4.promTo h2 h5 b2 hs
      refine mk_val hw hT0 b1 rfl (Fits.none _ _) ?_ _ _ _ hT0 hb
      by_cases hx : x = 0
      · rw [if_pos hx]
        have := k1.mpr hx
        subst this
        exact Runs.condFalse k2 (const_total d 0 int1) (Runs.const _ int1 (by decide) none False) (promTo_scalar b2 hs) rfl (.inr int1) (fun _ => id) _
      · rw [if_neg hx]
        exact Runs.condTrue k2 (fun h => hx (k1.mp h)) (Runs.const _ int1 (by decide) none False) (const_total d 1 int1) (promTo_scalar b2 hs) rfl rfl (.inr int1) (fun _ => id) _
    | compArith hC => cases hC
    | compPtr hC => cases hC
  | @bin op a b sa wa sb wb sa' sb' t m x srcA m1 y srcB m2 va vb v z hop ha ia hb ib pa pb hc hea heb hk ca cb hv hz hlim iha ihb =>
    obtain ⟨ta, a1, a2, a3, a4, a5, ax, ga⟩ := iha.int hw ha ia
    obtain ⟨tb, b1, b2, b3, b4, b5, bx, gb⟩ := ihb.int hw hb ib
    have qt := common_promoted (promotion_promoted ga pa).1 (promotion_promoted gb pb).1 hc
    obtain ⟨xa, ra, xa2⟩ := a4.conv2 a2 ax ga a5 pa qt ca
    obtain ⟨xb, rb, xb2⟩ := b4.conv2 b2 bx gb b5 pb qt cb
    refine mk_val hw (.bin hop ha ia hb ib pa pb hc) (by simp only [Decls.build, a1, b1, Res.bind_ok]; exact mkBin_arith hop a2 b2 a3 b3 ga gb pa pb hc)
      rfl (Fits.none _ _) ?_
    refine (Runs.op (so := some t) qt xa2 xb2 hk (promoted_scalar qt) (promoted_scalar qt) rfl (hlim trivial).2 (tyOf_conv2 ..) rfl rfl ra rb hv (hlim trivial).1
      (tyOf_bin (tyOf_conv2 ..)) hz).wd_mono (fun h _ => ?_)
    exact .arith h.1 ha hb pa pb hc h.2
  | @shift op a b sa wa sb wb sa' m x srcA m1 y srcB m2 v z hop ha ia hb ib pa hea heb hk hv hz hlim iha ihb =>
    obtain ⟨ta, a1, a2, a3, a4, a5, ax, ga⟩ := iha.int hw ha ia
    obtain ⟨tb, b1, b2, b3, b4, b5, bx, gb⟩ := ihb.int hw hb ib
    obtain ⟨sb', pb⟩ := promotion_exists sb (bitsOf sb wb)
    have qa := (promotion_promoted ga pa).1
    obtain ⟨xa, ra, xa2⟩ := a4.prom a2 ax ga a5 pa
    obtain ⟨xb, rb, xb2⟩ := b4.conv2 b2 bx gb b5 pb qa (shift_count hop qa hv)
    refine mk_val hw (.shift hop ha ia hb ib pa) (by simp only [Decls.build, a1, b1, Res.bind_ok]; exact mkBin_shift hop a2 b2 a3 b3 ga gb pa pb)
      rfl (Fits.none _ _) ?_
    have := (Runs.op (so := some sa') qa xa2 xb2 hk (promoted_scalar qa) (promoted_scalar qa) rfl (hlim trivial) (tyOf_castTo ..) rfl rfl ra rb hv
      (fun e => by subst e; rcases hop with h | h <;> cases h) (tyOf_bin (tyOf_castTo ..)) (z := z) (by rw [opType_shift hop]; exact hz))
    rw [opType_shift hop] at this
    refine this.wd_mono (fun h _ => ?_)
    rcases hop with rfl | rfl <;> exact absurd h.1 (by decide)
  | @ptrInt op a b Ta wa t sb wb m p srcA m1 y srcB m2 z hop ha hpa hob hb ib hea heb hk hz hd iha ihb =>
    obtain ⟨ta, a1, a2, a3, a4, a5⟩ := iha.ptr hw ha hpa
    obtain ⟨tb, b1, b2, b3, b4, b5, bx, gb⟩ := ihb.int hw hb ib
    obtain ⟨sb', pb⟩ := promotion_exists sb (bitsOf sb wb)
    have qb := promoted_scalar (promotion_promoted gb pb).1
    obtain ⟨xb, rb, xb2⟩ := b4.prom b2 bx gb b5 pb
    refine mk_val hw (.ptrInt hop ha hpa hob hb ib) (by simp only [Decls.build, a1, b1, Res.bind_ok]; exact mkBin_ptrInt hop (by rw [a2]; exact hpa) b2 b3 gb pb)
      rfl (Fits.none _ _) (Runs.ptrArith a4 xb2 hk a3 qb hz ?_ _)
    rw [rb.2]
    rcases hop with rfl | rfl
    · exact hd
    · exact hd
  | @intPtr a b Tb wb t sa wa m p srcB m1 x srcA m2 z ha ia hb hpb hob heb hea hk hz hd ihb iha =>
    obtain ⟨tb, b1, b2, b3, b4, b5⟩ := ihb.ptr hw hb hpb
    obtain ⟨ta, a1, a2, a3, a4, a5, ax, ga⟩ := iha.int hw ha ia
    obtain ⟨sa', pa⟩ := promotion_exists sa (bitsOf sa wa)
    have qa := promoted_scalar (promotion_promoted ga pa).1
    obtain ⟨xa, ra, xa2⟩ := a4.prom a2 ax ga a5 pa
    refine mk_val hw (.intPtr ha ia hb hpb hob) (by simp only [Decls.build, a1, b1, Res.bind_ok]; exact mkBin_intPtr a2 a3 ga pa (by rw [b2]; exact hpb))
      rfl (Fits.none _ _) (Runs.ptrArith b4 xa2 hk b3 qa hz ?_ _)
    rw [ra.2]
    exact hd
  | @ptrDiff a b Ta wa Tb wb t m p srcA m1 q srcB m2 k z ha hpa hb hpb hob hea heb hk h1 h2 h3 hz iha ihb =>
    obtain ⟨ta, a1, a2, a3, a4, a5⟩ := iha.ptr hw ha hpa
    obtain ⟨tb, b1, b2, b3, b4, b5⟩ := ihb.ptr hw hb hpb
    exact mk_val hw (.ptrDiff ha hpa hb hpb hob) (by simp only [Decls.build, a1, b1, Res.bind_ok]; exact mkBin_ptrDiff (by rw [a2]; exact hpa) (by rw [b2]; exact hpb))
      rfl (Fits.none _ _) (Runs.ptrDiff a4 b4 hk a3 hob h1 h2 h3 hz _)
  | @ptrCmp op a b Ta wa Tb wb ta' tb' m p srcA m1 q srcB m2 v hop ha hpa hb hpb hea heb hk hv iha ihb =>
    obtain ⟨ta, a1, a2, a3, a4, a5⟩ := iha.ptr hw ha hpa
    obtain ⟨tb, b1, b2, b3, b4, b5⟩ := ihb.ptr hw hb hpb
    refine mk_val hw (.ptrCmp hop ha hpa hb hpb) (by simp only [Decls.build, a1, b1, Res.bind_ok]; exact mkBin_ptrCmp hop (by rw [a2]; exact hpa) (by rw [b2]; exact hpb))
      rfl (Fits.none _ _) ?_
    have := Runs.op (so := none) (t := .ulong) (op := op) (z := v) (by decide) (a4.wd_mono (wd' := False) (fun _ h => by cases h)) b4 hk trivial trivial rfl id a3 rfl (ir_ptr hop) (rep_ptr a5) (rep_ptr b5) hv
      (divOk_rel hop _ _ _) (by rw [opType_rel hop]; simp only [Decls.tyOf, (returnsInt_iff op).mpr hop, if_true]) (by rw [opType_rel hop]; exact rep_int (rel_small hop hv))
    rw [opType_rel hop] at this
    exact this.wd_mono (fun h _ => .ptrL hop ha hpa)
  | @ptrNull op a b Ta wa ta' Tb wb m p srcA m1 v hop ha hpa hb hn hea hv iha =>
    obtain ⟨ta, a1, a2, a3, a4, a5⟩ := iha.ptr hw ha hpa
    have hT0 := HasType.ptrNull hop ha hpa hb hn
    obtain ⟨s, rfl⟩ := isNull_const hn
    cases hb with
    | const hs hx =>
      refine mk_val hw hT0 (by simp only [Decls.build, a1, Res.bind_ok]; exact mkBin_ptrNull hop (by rw [a2]; exact hpa) hs) rfl (Fits.none _ _) ?_
      have hr := eq_rel hop
      have := Runs.op (so := none) (t := .ulong) (op := op) (z := v) (vb := (0 : Nat)) (by decide) (a4.wd_mono (wd' := False) (fun _ h => by cases h))
        (null_runs hs m1 False) (kept_eq rfl) trivial trivial rfl id a3 rfl (ir_ptr hr) (rep_ptr a5) (rep_ptr (by decide)) hv
        (divOk_rel hr _ _ _) (by rw [opType_rel hr]; simp only [Decls.tyOf, (returnsInt_iff op).mpr hr, if_true]) (by rw [opType_rel hr]; exact rep_int (rel_small hr hv))
      rw [opType_rel hr] at this
      exact this.wd_mono (fun h _ => .ptrL hr ha hpa)
    | compArith hC => cases hC
    | compPtr hC => cases hC
  | @nullPtr op a b Ta wa Tb wb tb' m p srcB m1 v hop hb hpb ha hn heb hv ihb =>
    obtain ⟨tb, b1, b2, b3, b4, b5⟩ := ihb.ptr hw hb hpb
    have hT0 := HasType.nullPtr hop ha hn hb hpb
    obtain ⟨s, rfl⟩ := isNull_const hn
    cases ha with
    | const hs hx =>
      refine mk_val hw hT0 (by simp only [Decls.build, b1, Res.bind_ok]; exact mkBin_nullPtr hop (by rw [b2]; exact hpb) hs) rfl (Fits.none _ _) ?_
      have hr := eq_rel hop
      have := Runs.op (so := none) (t := .ulong) (op := op) (z := v) (va := (0 : Nat)) (by decide) (null_runs hs m False) b4 (fun s h => by cases h)
        trivial trivial rfl id rfl rfl (ir_ptr hr) (rep_ptr (by decide)) (rep_ptr b5) hv
        (divOk_rel hr _ _ _) (by rw [opType_rel hr]; simp only [Decls.tyOf, (returnsInt_iff op).mpr hr, if_true]) (by rw [opType_rel hr]; exact rep_int (rel_small hr hv))
      rw [opType_rel hr] at this
      exact this.wd_mono (fun h _ => .ptrR hr hb hpb)
    | compArith hC => cases hC
    | compPtr hC => cases hC
  | @landFalse a b m src m' h ih =>
    intro T' w' te' hT' hbd
    have hT0 := hT'
    cases hT' with
    | land ha sa hb sb =>
      obtain ⟨ta, a1, a2, a3, a4, a5⟩ := ih.val hw ha
      obtain ⟨tb, b1, b2, b3⟩ := hasType_built hw hb
      obtain ⟨T1, T2, c1, c2, c3⟩ := land_built ⟨a1, a2, a3⟩ (hasType_good hw ha _ _ rfl) ⟨b1, b2, b3⟩ (hasType_good hw hb _ _ rfl)
      obtain ⟨k, k1, k2⟩ := a4.promTo a2 a5 c2 sa
      have := k1.mpr rfl
      subst this
      have tb' := prom_total (hasType_total hw hb _ b1) b2 c3
      exact mk_val hw hT0 c1 rfl (Fits.none _ _) (Runs.condFalse k2
        (cond_total tb' (const_total d 1 int1) (const_total d 0 int1) (by rw [tyOf_castTo]; exact promTo_scalar c3 sb) rfl)
        (Runs.const _ int1 (by decide) none False) (promTo_scalar c2 sa) rfl (.inr int1) (fun _ => id) _) _ _ _ hT0 hbd
    | compArith hC => cases hC
    | compPtr hC => cases hC
  | @landTrue a b m x srcA m1 y srcB m2 hea hx heb iha ihb =>
    intro T' w' te' hT' hbd
    have hT0 := hT'
    cases hT' with
    | land ha sa hb sb =>
      obtain ⟨ta, a1, a2, a3, a4, a5⟩ := iha.val hw ha
      obtain ⟨tb, b1, b2, b3, b4, b5⟩ := ihb.val hw hb
      obtain ⟨T1, T2, c1, c2, c3⟩ := land_built ⟨a1, a2, a3⟩ (hasType_good hw ha _ _ rfl) ⟨b1, b2, b3⟩ (hasType_good hw hb _ _ rfl)
      obtain ⟨k, k1, k2⟩ := a4.promTo a2 a5 c2 sa
      obtain ⟨l, l1, l2⟩ := b4.promTo b2 b5 c3 sb
      refine mk_val hw hT0 c1 rfl (Fits.none _ _) (Runs.condTrue k2 (fun h => hx (k1.mp h)) (wa := False) (T := .int) (src := none) ?_ (const_total d 0 int1)
        (promTo_scalar c2 sa) rfl rfl (.inr int1) (fun _ => id) _) _ _ _ hT0 hbd
      by_cases hy : y = 0
      · rw [if_pos hy]
        have := l1.mpr hy
        subst this
        exact Runs.condFalse l2 (const_total d 1 int1) (Runs.const _ int1 (by decide) none False) (promTo_scalar c3 sb) rfl (.inr int1) (fun _ => id) _
      · rw [if_neg hy]
        exact Runs.condTrue l2 (fun h => hy (l1.mp h)) (Runs.const _ int1 (by decide) none False) (const_total d 0 int1) (promTo_scalar c3 sb) rfl rfl (.inr int1) (fun _ => id) _
    | compArith hC => cases hC
    | compPtr hC => cases hC
  | @lorTrue a b m x src m' h hx ih =>
    intro T' w' te' hT' hbd
    have hT0 := hT'
    cases hT' with
    | lor ha sa hb sb =>
      obtain ⟨ta, a1, a2, a3, a4, a5⟩ := ih.val hw ha
      obtain ⟨tb, b1, b2, b3⟩ := hasType_built hw hb
      obtain ⟨T1, T2, c1, c2, c3⟩ := lor_built ⟨a1, a2, a3⟩ (hasType_good hw ha _ _ rfl) ⟨b1, b2, b3⟩ (hasType_good hw hb _ _ rfl)
      obtain ⟨k, k1, k2⟩ := a4.promTo a2 a5 c2 sa
      have tb' := prom_total (hasType_total hw hb _ b1) b2 c3
      exact mk_val hw hT0 c1 rfl (Fits.none _ _) (Runs.condTrue k2 (fun h => hx (k1.mp h)) (Runs.const _ int1 (by decide) none False)
        (cond_total tb' (const_total d 1 int1) (const_total d 0 int1) (by rw [tyOf_castTo]; exact promTo_scalar c3 sb) rfl)
        (promTo_scalar c2 sa) rfl rfl (.inr int1) (fun _ => id) _) _ _ _ hT0 hbd
    | compArith hC => cases hC
    | compPtr hC => cases hC
  | @lorFalse a b m srcA m1 y srcB m2 hea heb iha ihb =>
    intro T' w' te' hT' hbd
    have hT0 := hT'
    cases hT' with
    | lor ha sa hb sb =>
      obtain ⟨ta, a1, a2, a3, a4, a5⟩ := iha.val hw ha
      obtain ⟨tb, b1, b2, b3, b4, b5⟩ := ihb.val hw hb
      obtain ⟨T1, T2, c1, c2, c3⟩ := lor_built ⟨a1, a2, a3⟩ (hasType_good hw ha _ _ rfl) ⟨b1, b2, b3⟩ (hasType_good hw hb _ _ rfl)
      obtain ⟨k, k1, k2⟩ := a4.promTo a2 a5 c2 sa
      obtain ⟨l, l1, l2⟩ := b4.promTo b2 b5 c3 sb
      have := k1.mpr rfl
      subst this
      refine mk_val hw hT0 c1 rfl (Fits.none _ _) (Runs.condFalse k2 (const_total d 1 int1) (wb := False) (T := .int) (src := none) ?_
        (promTo_scalar c2 sa) rfl (.inr int1) (fun _ => id) _) _ _ _ hT0 hbd
      by_cases hy : y = 0
      · rw [if_pos hy]
        have := l1.mpr hy
        subst this
        exact Runs.condFalse l2 (const_total d 1 int1) (Runs.const _ int1 (by decide) none False) (promTo_scalar c3 sb) rfl (.inr int1) (fun _ => id) _
      · rw [if_neg hy]
        exact Runs.condTrue l2 (fun h => hy (l1.mp h)) (Runs.const _ int1 (by decide) none False) (const_total d 0 int1) (promTo_scalar c3 sb) rfl rfl (.inr int1) (fun _ => id) _
    | compArith hC => cases hC
    | compPtr hC => cases hC
  | @condTrue c a b T m x srcC m1 Ta wa y src m2 z hT hec hx ha hea hc hlim ihc iha =>
    obtain ⟨tc, ta, tb, Tc, Ta', Tb, wc, wa', wb, T1, T2, T3, hc', ha', hb', c1, a1, b1, h1, p1, p2, p3, sc, hTv, q2, q3⟩ := cond_built hw hT
    obtain ⟨rfl, rfl⟩ := type_unique hw ha ha'
    obtain ⟨r1, f1⟩ := ihc _ _ tc hc' c1
    obtain ⟨r2, f2⟩ := iha _ _ ta ha a1
    obtain ⟨k, k1, k2⟩ := r1.promTo (built_type hw hc' c1).1 f1 p1 sc
    have hb2 := (built_type hw hb' b1).1
    have ra := r2.arm (built_type hw ha a1).1 f2 p2 q2 (cond_not_bool hw hT) hTv hc
    have tb' := castTo_total (t := T) (prom_total (hasType_total hw hb' _ b1) hb2 p3) (by rw [tyOf_castTo]; exact ExprIr.arm hTv q3)
    refine mk_val hw hT h1 ?_ (Fits.none _ _) (Runs.condTrue k2 (fun h => hx (k1.mp h)) ra tb' (promTo_scalar p1 sc) (tyOf_castTo ..) (tyOf_castTo ..) hTv (fun _ => hlim trivial) _)
    rcases hTv with rfl | h
    · rfl
    · exact decayed_value h
  | @condFalse c a b T m srcC m1 Tb wb y src m2 z hT hec hb heb hc hlim ihc ihb =>
    obtain ⟨tc, ta, tb, Tc, Ta, Tb', wc, wa, wb', T1, T2, T3, hc', ha', hb', c1, a1, b1, h1, p1, p2, p3, sc, hTv, q2, q3⟩ := cond_built hw hT
    obtain ⟨rfl, rfl⟩ := type_unique hw hb hb'
    obtain ⟨r1, f1⟩ := ihc _ _ tc hc' c1
    obtain ⟨r2, f2⟩ := ihb _ _ tb hb b1
    obtain ⟨k, k1, k2⟩ := r1.promTo (built_type hw hc' c1).1 f1 p1 sc
    have := k1.mpr rfl
    subst this
    have ha2 := (built_type hw ha' a1).1
    have rb := r2.arm (built_type hw hb b1).1 f2 p3 q3 (cond_not_bool hw hT) hTv hc
    have ta' := castTo_total (t := T) (prom_total (hasType_total hw ha' _ a1) ha2 p2) (by rw [tyOf_castTo]; exact ExprIr.arm hTv q2)
    refine mk_val hw hT h1 ?_ (Fits.none _ _) (Runs.condFalse k2 ta' rb (promTo_scalar p1 sc) (tyOf_castTo ..) hTv (fun _ => hlim trivial) _)
    rcases hTv with rfl | h
    · rfl
    · exact decayed_value h
  | @comma a b m x src m1 y src' m2 hea heb iha ihb =>
    intro T' w' te' hT' hbd
    have hT0 := hT'
    cases hT' with
    | comma ha hb =>
      obtain ⟨ta, a1, a2, a3, a4, a5⟩ := iha.val hw ha
      obtain ⟨tb, b1, b2, b3, b4, b5⟩ := ihb.val hw hb
      exact mk_val hw hT0 (by simp only [Decls.build, a1, b1, Res.bind_ok]) (decayed_decayed _) (Fits.none _ _)
        ((a4.comma b4 (by rw [tyOf_decay, b2])).wd_mono (fun h _ => .comma h)) _ _ _ hT0 hbd
    | compArith hC => cases hC
    | compPtr hC => cases hC
  | @assign a b T wa Tb wb m p bits m1 x srcB m2 y y' m3 src ha hb hea heb hc hn hwr hs hlim iha ihb =>
    obtain ⟨rfl, rfl, hwd⟩ := hlim trivial
    intro T' w' te' hT' hbd
    have hT0 := hT'
    cases hT' with
    | assign ha' hl hb' has =>
      obtain ⟨rfl, rfl⟩ := type_unique hw ha ha'
      obtain ⟨rfl, rfl⟩ := type_unique hw hb hb'
      obtain ⟨ta, a1, a2, a3, a4, a5⟩ := iha.place hw ha
      obtain ⟨tb, b1, b2, b3, b4, b5⟩ := ihb.val hw hb
      exact mk_val hw hT0 (by simp only [Decls.build, a1, b1, Res.bind_ok]) (decayed_value has.1) (Fits.none _ _)
        (Runs.assign a4 b4 a2 has.1 hc hn hwr hwd _) _ _ _ hT0 hbd
    | compArith hC => cases hC
    | compPtr hC => cases hC
  | @compArith E op a b post sa wa sb wb sa' sb' t m p bits m1 y srcB m2 x va vb v r z z' m3 hC ha ia hb ib pa pb hc hea heb hr ca cb hv hcr hz hwr hlim iha ihb =>
    obtain ⟨hdiv, rfl, hcm⟩ := hlim trivial
    intro T' w' te' hT' hbd
    obtain ⟨hl, rfl, ⟨hop, sa0, wa0, ha0, rfl⟩ | ⟨t0, wa0, ha0, rfl, _⟩⟩ := compound_inv hC hT'
    · obtain ⟨hsa, rfl⟩ := type_unique hw ha ha0
      injection hsa with hsa
      subst hsa
      obtain ⟨ta, a1, a2, a3, a4, a5⟩ := iha.place hw ha
      obtain ⟨tb, b1, b2, b3, b4, b5, bx, gb⟩ := ihb.int hw hb ib
      have ga := (hasType_good hw ha _ _ rfl).good ia
      have qt := common_promoted (promotion_promoted ga pa).1 (promotion_promoted gb pb).1 hcm
      have cb' : IsConversion .sysv t (valueOf (.simple sb) y) vb := by
        by_cases hsh : op = .lshift ∨ op = .rshift
        · rw [if_pos hsh] at cb
          rw [← cb]
          exact shift_count hsh qt hv
        · rw [if_neg hsh] at cb
          exact cb
      obtain ⟨xb, rb, xb2⟩ := b4.conv2 b2 bx gb b5 pb qt cb'
      obtain ⟨xt, rx, c1⟩ := conv_of_conversion (t := t) ia qt (read_lt ia hr) ca
      exact mk_val hw hT' ((compound_build hC a1 b1).trans (mkAssignOp_arith (lvalue_noCast hl a1) a2 b2 a3 b3 ga gb pa pb hcm)) rfl (Fits.none _ _)
        (Runs.assignOp a4 xb2 a2 (tyOf_conv2 ..) ia qt hop hr c1 rx rb hv hdiv hcr hz hwr _) _ _ _ hT' hbd
    · obtain ⟨h, _⟩ := type_unique hw ha ha0
      cases h
  | @compPtr E op a b post t wa sb wb m p m1 y srcB m2 z hC hop ha hb ib hea heb hz hd iha ihb =>
    intro T' w' te' hT' hbd
    obtain ⟨hl, rfl, ⟨_, sa0, wa0, ha0, rfl⟩ | ⟨t0, wa0, ha0, rfl, hob⟩⟩ := compound_inv hC hT'
    · obtain ⟨h, _⟩ := type_unique hw ha ha0
      cases h
    · obtain ⟨ht, rfl⟩ := type_unique hw ha ha0
      injection ht with ht
      subst ht
      obtain ⟨ta, a1, a2, a3, a4, a5⟩ := iha.place hw ha
      obtain ⟨tb, b1, b2, b3, b4, b5, bx, gb⟩ := ihb.int hw hb ib
      obtain ⟨sb', pb⟩ := promotion_exists sb (bitsOf sb wb)
      have qb := promoted_scalar (promotion_promoted gb pb).1
      obtain ⟨xb, rb, xb2⟩ := b4.prom b2 bx gb b5 pb
      refine mk_val hw hT' ((compound_build hC a1 b1).trans (mkAssignOp_ptr hop (lvalue_noCast hl a1) a2 b2 b3 gb pb)) rfl (Fits.none _ _)
        (Runs.assignPtr a4 xb2 a2 qb hz ?_ _) _ _ _ hT' hbd
      rw [rb.2]
      rcases hop with rfl | rfl
      · exact hd
      · exact hd
  | @call f args T w s m p srcF m1 l m2 r m3 hf hp hef hea hk hl hc hr ihf iha =>
    intro T' w' te' hT' hbd
    have hT0 := hT'
    cases hT' with
    | call hf' hp' ha hret =>
      obtain ⟨rfl, rfl⟩ := type_unique hw hf hf'
      rw [hp] at hp'
      injection hp' with hp'
      injection hp' with hp'
      subst hp'
      obtain ⟨tf, f1, f2, f3, f4, f5⟩ := ihf.ptr hw hf hp
      obtain ⟨ta, a1, a2⟩ := hasType_built hw ha
      refine mk_val hw hT0 (by simp only [Decls.build, f1, a1, Res.bind_ok, f3]; rw [if_pos a2]) (void_or_scalar_decayed hret) (Fits.none _ _)
        (Runs.call f4 f3 (iha _ _ ha a1 hl) hk hc hr hret _) _ _ _ hT0 hbd
    | compArith hC => cases hC
    | compPtr hC => cases hC
  | @anil m =>
    intro ps te hT hbd hl
    rw [u (e := .anil) rfl hbd]
    subst hl
    exact RunsArgs.nil d W _ m
  | @acons a rest T w p m x src m1 y l m2 ha hea hc her hk hlim iha ihr =>
    intro ps te hT hbd hl
    cases hT with
    | @acons _ _ T0 w0 p0 ps0 ha' has hr =>
      obtain ⟨rfl, rfl⟩ := type_unique hw ha ha'
      injection hl with hp0 hl
      simp only at hp0
      subst hp0
      obtain ⟨ta, a1, a2, a3, a4, a5⟩ := iha.val hw ha
      obtain ⟨tr, r1, r2⟩ := hasType_built hw hr
      rw [u (e := .acons a rest) (by simp only [Decls.build, a1, r1, Res.bind_ok]; rfl) hbd]
      exact RunsArgs.cons a4 hc has.1 (ihr _ _ hr r1 hl) hk (hlim trivial)

end Verif.ExprIr
