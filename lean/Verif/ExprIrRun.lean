import Verif.ExprIrTotal
import Verif.MemoryLemmas
/-!
Lemmas for C92: what the nodes of an expression compute, by the kind of the expression.
-/
namespace Verif.ExprIr
open Verif.SimpleSpec Verif.ExprIrSpec
open Verif.Simple hiding Promoted
open Verif.CodegenSpec (bytes Promoted IsRel)
open Verif.Codegen (IrOp irFromTypeAndOp irBinaryOp bvOp)
open Verif.X86 (rd wr)

/-- Evaluated from memory `mem`, the expression has the value and leaves `mem'`. -/
def Runs (d : Decls) (W : World) (e : TE) (mem : Mem) (T : Ty) (x : Nat) (src : Option Src) (wd : Prop) (mem' : Mem) : Prop :=
  ∀ st m, Open st → HasVars d W st m → m.mem = mem → ∃ v st' m', d.evaluate e st = .ok (v, st') ∧ Gen W st st' m m' ∧
    m'.mem = mem' ∧ Holds d st' m' T x src wd v

/-- The evaluated expression is the object. -/
def PlaceEE (st : St) (m : M) (T : Ty) (a : BitVec 64) (bits : Option (Nat × Nat)) (ee : EE) : Prop :=
  ∃ p, p < st.next ∧ st.size p = 8 ∧ m.vals p = some (.word a.toNat) ∧
    ((bits = none ∧ ee = .ptr p) ∨ ∃ o n s, bits = some (o, n) ∧ ee = .bits p o n (signed s) ∧ T = .simple s ∧ IsInt s ∧
      1 ≤ n ∧ o + n ≤ 8 * bytes .sysv s)

def RunsPlace (d : Decls) (W : World) (e : TE) (mem : Mem) (T : Ty) (a : BitVec 64) (bits : Option (Nat × Nat)) (mem' : Mem) : Prop :=
  ∀ st m, Open st → HasVars d W st m → m.mem = mem → ∃ v st' m', d.evaluate e st = .ok (v, st') ∧ Gen W st st' m m' ∧
    m'.mem = mem' ∧ v.ty = T ∧ v.lv = true ∧ PlaceEE st' m' T a bits v.ee

theorem PlaceEE.mono {W : World} {st st' : St} {m m' : M} {T : Ty} {a : BitVec 64} {bits : Option (Nat × Nat)} {ee : EE}
    (h : PlaceEE st m T a bits ee) (g : Gen W st st' m m') : PlaceEE st' m' T a bits ee := by
  obtain ⟨p, h1, h2, h3, h4⟩ := h
  exact ⟨p, Nat.lt_of_lt_of_le h1 g.grow.next, by rw [g.grow.size p h1]; exact h2, by rw [(g.keep p h1).1]; exact h3, h4⟩

theorem Holds.none_any {d : Decls} {st : St} {m : M} {T : Ty} {x : Nat} {wd : Prop} {v : EV} (h : Holds d st m T x none wd v)
    (src : Option Src) : Holds d st m T x src wd v := by
  refine ⟨h.ty, ?_, h.lt⟩
  have hv := h.val
  cases hee : v.ee with
  | void => rw [hee] at hv; exact hv
  | const n y => rw [hee] at hv; exact hv
  | var n => rw [hee] at hv; exact hv
  | ptr p =>
    rw [hee] at hv
    obtain ⟨h0, h1, h2, u, h3, h4, h5⟩ := hv
    refine ⟨h0, h1, h2, u, h3, h4, ?_⟩
    cases u with
    | word a => exact absurd h5.2 (by simp)
    | slot k o => exact h5
  | bits p o n g =>
    rw [hee] at hv
    obtain ⟨s, a, _, _, _, _, _, _, _, _, _, h10, _⟩ := hv
    cases h10

/-- Structures are never wide. -/
theorem Holds.struct_wd {d : Decls} {st : St} {m : M} {T : Ty} {x : Nat} {src : Option Src} {wd wd' : Prop} {v : EV}
    (h : Holds d st m T x src wd v) (hT : ¬ IsScalar T) : Holds d st m T x src wd' v := by
  refine ⟨h.ty, ?_, h.lt⟩
  have hv := h.val
  cases hee : v.ee with
  | var n => rw [hee] at hv; exact absurd hv.1 hT
  | _ => rw [hee] at hv; exact hv

theorem Runs.wd_mono {d : Decls} {W : World} {e : TE} {mem mem' : Mem} {T : Ty} {x : Nat} {src : Option Src} {wd wd' : Prop}
    (h : Runs d W e mem T x src wd mem') (hw : wd → osize d T = 4 → wd') : Runs d W e mem T x src wd' mem' := by
  intro st m ho hv hm
  obtain ⟨v, st', m', h1, h2, h3, h4⟩ := h st m ho hv hm
  exact ⟨v, st', m', h1, h2, h3, h4.wd_mono hw⟩

theorem Runs.none_any {d : Decls} {W : World} {e : TE} {mem mem' : Mem} {T : Ty} {x : Nat} {wd : Prop}
    (h : Runs d W e mem T x none wd mem') (src : Option Src) : Runs d W e mem T x src wd mem' := by
  intro st m ho hv hm
  obtain ⟨v, st', m', h1, h2, h3, h4⟩ := h st m ho hv hm
  exact ⟨v, st', m', h1, h2, h3, h4.none_any src⟩

/-! ### Conversions -/

theorem Runs.castTo {d : Decls} {W : World} {e : TE} {mem mem' : Mem} {T t : Ty} {x y : Nat} {src src' : Option Src} {wd : Prop}
    (h : Runs d W (d.decay e) mem T x src wd mem') (hT : decayed (d.tyOf e) = T) (ht : t ≠ .void ∨ T = t) (hc : Conv T t x y)
    (hs : T = t → src' = src) : Runs d W (d.castTo e t) mem t y src' (wd ∧ osize d t = 4) mem' := by
  intro st m ho hv hm
  obtain ⟨v, st1, m1, h1, h2, h3, h4⟩ := h st m ho hv hm
  by_cases hne : T = t
  · rw [castTo_same (hT.trans hne)]
    have hxy := hc
    unfold Conv at hxy
    rw [if_pos hne] at hxy
    subst hne
    rw [hs rfl, hxy]
    exact ⟨v, st1, m1, h1, h2, h3, h4.wd_mono (fun a b => ⟨a, b⟩)⟩
  · rw [castTo_ne (by rw [hT]; exact hne)]
    obtain ⟨v', st2, m2, e2, g2, hm2, hv'⟩ := castEV_ok (W := W) h2.opened h4 ht hc hs
    refine ⟨_, st2, m2, ev_cast d st h1 e2, h2.trans ho g2, hm2.trans h3, rfl, hv'.val, hv'.lt⟩

theorem Runs.castVoid {d : Decls} {W : World} {e : TE} {mem mem' : Mem} {T : Ty} {x : Nat} {src : Option Src} {wd wd' : Prop}
    (h : Runs d W (d.decay e) mem T x src wd mem') (hT : decayed (d.tyOf e) = T) (y : Nat) (src' : Option Src) :
    Runs d W (d.castTo e .void) mem .void y src' wd' mem' := by
  intro st m ho hv hm
  obtain ⟨v, st1, m1, h1, h2, h3, h4⟩ := h st m ho hv hm
  by_cases hne : T = .void
  · rw [castTo_same (hT.trans hne)]
    subst hne
    refine ⟨v, st1, m1, h1, h2, h3, h4.ty, ?_, fun h => (value_ne_void h rfl).elim⟩
    have hval := h4.val
    cases hee : v.ee with
    | void => exact rfl
    | const n y => rw [hee] at hval; obtain ⟨⟨s, hs, hi⟩, _⟩ := hval; cases hs; exact absurd hi (by decide)
    | var n => rw [hee] at hval; exact absurd rfl (scalar_ne_void hval.1)
    | ptr n => rw [hee] at hval; exact absurd rfl (value_ne_void hval.1)
    | bits p o n g => rw [hee] at hval; obtain ⟨s, a, hs, hi, _⟩ := hval; cases hs; exact absurd hi (by decide)
  · rw [castTo_ne (by rw [hT]; exact hne)]
    have e2 : d.castEV v .void st1 = .ok (⟨.void, false, .void⟩, st1) := by
      unfold Decls.castEV
      rw [h4.ty, if_neg hne, if_pos rfl]
    exact ⟨_, st1, m1, ev_cast d st h1 e2, h2, h3, rfl, rfl, fun h => (value_ne_void h rfl).elim⟩

/-- The value of a bit-field fits. -/
def Fits (T : Ty) (w : Option Nat) (x : Nat) : Prop := ∀ n s, w = some n → T = .simple s → inBits (signed s) n (valueOf T x)

theorem prom_inRange {s s' : ST} {w : Option Nat} {x : Nat} (hg : Good s w) (hf : Fits (.simple s) w x)
    (hp : IsPromotion .sysv s (bitsOf s w) s') : InRange .sysv s' (valueOf (.simple s) x) := by
  have hall := valueOf_inBits (t := .simple s) hg.1 x
  simp only [asInt] at hall
  have hp := hp.1 hg.1
  cases w with
  | none =>
    simp only [bitsOf, Option.getD_none] at hp
    by_cases hb : s = .bool
    · subst hb
      rw [if_pos (by decide)] at hp
      have : Represents .sysv .int (signed .bool) (width .sysv .bool) := by
        intro v hv
        have h1 : signed .bool = false := by decide
        have h2 : width .sysv .bool = 1 := by decide
        have h3 : signed .int = true := by decide
        have h4 : width .sysv .int = 32 := by decide
        unfold InRange
        rw [h1, h2] at hv
        rw [h3, h4]
        simp only [inBits, if_true, Bool.false_eq_true, if_false] at *
        omega
      rw [hp.1 this]
      have h1 : signed .bool = false := by decide
      have h2 : bytes .sysv .bool = 1 := by decide
      have h3 : signed .int = true := by decide
      have h4 : width .sysv .int = 32 := by decide
      unfold InRange
      rw [h1, h2] at hall
      rw [h3, h4]
      simp only [inBits, if_true, Bool.false_eq_true, if_false] at *
      omega
    · rw [← width_bytes hg.1 hb] at hall
      by_cases hr : rank s ≤ rank .int
      · rw [if_pos hr] at hp
        by_cases hrep : Represents .sysv .int (signed s) (width .sysv s)
        · rw [hp.1 hrep]; exact hrep _ hall
        · rw [hp.2 hrep]
          have : s = .uint := by
            have := hg.1
            revert hr hrep hb this
            clear hp hall hf hg
            cases s <;> first
              | (intro _ hr; exact absurd hr (by decide))
              | (intro hb; exact absurd rfl hb)
              | (intro _ _ h _; refine absurd (fun v hv => ?_) h
                 simp only [InRange, inBits, signed, width] at hv ⊢
                 simp at hv ⊢
                 omega)
              | (intro _ _ _ hi; exact absurd hi (by decide))
              | (intro _ _ _ _; rfl)
          rw [this] at hall ⊢
          exact hall
      · rw [if_neg hr] at hp
        rw [hp]; exact hall
  | some n =>
    obtain ⟨h1, h2, h3⟩ := hg.2 n rfl
    have hfit := hf n s rfl rfl
    simp only [bitsOf, Option.getD_some] at hp
    rw [if_pos (by rcases h1 with rfl | rfl | rfl <;> decide)] at hp
    by_cases hrep : Represents .sysv .int (signed s) n
    · rw [hp.1 hrep]; exact hrep _ hfit
    · rw [hp.2 hrep]
      have hs : s = .uint := by
        rcases h1 with rfl | rfl | rfl
        · refine absurd (fun v hv => ?_) hrep
          have : n = 1 := by have : width .sysv .bool = 1 := by decide
                             omega
          subst this
          simp [InRange, inBits, signed, width] at hv ⊢
          omega
        · refine absurd (fun v hv => ?_) hrep
          have hw : width .sysv .int = 32 := by decide
          simp only [InRange, inBits, signed, width] at hv ⊢
          simp at hv ⊢
          have : (2 : Int) ^ (n - 1) ≤ 2 ^ 31 := by
            have := Nat.pow_le_pow_right (n := 2) (by decide) (show n - 1 ≤ 31 by omega)
            exact_mod_cast this
          omega
        · rfl
      subst hs
      simp only [InRange, inBits, signed, width] at hfit ⊢
      simp at hfit ⊢
      have hw : width .sysv .uint = 32 := by decide
      have : (2 : Int) ^ n ≤ 2 ^ 32 := by
        have := Nat.pow_le_pow_right (n := 2) (by decide) (show n ≤ 32 by omega)
        exact_mod_cast this
      omega

theorem inRange_conversion {t : ST} (ht : t ≠ .bool) {v : Int} (hv : InRange .sysv t v) : IsConversion .sysv t v v := by
  unfold IsConversion
  rw [if_neg ht]
  exact ⟨hv, by rw [Int.sub_self]; exact Int.dvd_zero _⟩

/-- The conversion of a value to a promoted type. -/
theorem conv_of_conversion {s t : ST} (hs : IsInt s) (ht : Promoted t) {x : Nat} (hx : x < 256 ^ bytes .sysv s) {va : Int}
    (h : IsConversion .sysv t (valueOf (.simple s) x) va) : ∃ y, Rep (.simple t) va y ∧ Conv (.simple s) (.simple t) x y := by
  have hb := promoted_not_bool ht
  have hti : IsInt t := promoted_scalar ht
  by_cases hst : s = t
  · subst hst
    refine ⟨x, ⟨hx, ?_⟩, by unfold Conv; rw [if_pos rfl]⟩
    refine (Simple.conversion_unique .sysv s hti _ _ _ h (inRange_conversion hb ?_)).symm
    exact (inRange_iff hti hb _).mpr (valueOf_inBits (t := .simple s) hs x)
  · have h' := h
    unfold IsConversion at h'
    rw [if_neg hb] at h'
    obtain ⟨y, hy⟩ := rep_of (t := .simple t) hti ((inRange_iff hti hb _).mp h'.1)
    refine ⟨y, hy, ?_⟩
    unfold Conv
    rw [if_neg (fun h => hst (by injection h))]
    exact ⟨va, hs, hti, h, hy⟩

/-- A promoted operand. -/
theorem Runs.prom {d : Decls} {W : World} {e : TE} {mem mem' : Mem} {s s' : ST} {w : Option Nat} {x : Nat} {src : Option Src} {wd : Prop}
    (h : Runs d W e mem (.simple s) x src wd mem') (ht : d.tyOf e = .simple s) (hx : x < 256 ^ bytes .sysv s) (hg : Good s w)
    (hf : Fits (.simple s) w x) (hp : IsPromotion .sysv s (bitsOf s w) s') :
    ∃ y, Rep (.simple s') (valueOf (.simple s) x) y ∧ Runs d W (d.castTo e (.simple s')) mem (.simple s') y src wd mem' := by
  have hq := (promotion_promoted hg hp).1
  obtain ⟨y, h1, h2⟩ := conv_of_conversion hg.1 hq hx (inRange_conversion (promoted_not_bool hq) (prom_inRange hg hf hp))
  refine ⟨y, h1, ?_⟩
  have hd : d.decay e = e := decay_id (by rw [ht]; rfl)
  refine (Runs.castTo (T := .simple s) (src := src) (src' := src) (by rw [hd]; exact h) (by rw [ht]; rfl) (.inl ?_) h2 (fun _ => rfl)).wd_mono (fun h _ => h.1)
  exact scalar_ne_void (promoted_scalar hq)

theorem Runs.conv2 {d : Decls} {W : World} {e : TE} {mem mem' : Mem} {s s' t : ST} {w : Option Nat} {x : Nat} {src : Option Src} {wd : Prop}
    {va : Int} (h : Runs d W e mem (.simple s) x src wd mem') (ht : d.tyOf e = .simple s) (hx : x < 256 ^ bytes .sysv s) (hg : Good s w)
    (hf : Fits (.simple s) w x) (hp : IsPromotion .sysv s (bitsOf s w) s') (hq : Promoted t)
    (hc : IsConversion .sysv t (valueOf (.simple s) x) va) :
    ∃ y, Rep (.simple t) va y ∧ Runs d W (d.conv2 e s' t) mem (.simple t) y src wd mem' := by
  obtain ⟨y1, h1, h2⟩ := h.prom ht hx hg hf hp
  have hq' := (promotion_promoted hg hp).1
  rw [← h1.2] at hc
  obtain ⟨y, h3, h4⟩ := conv_of_conversion (promoted_scalar hq') hq h1.1 hc
  refine ⟨y, h3, ?_⟩
  have hd : d.decay (d.castTo e (.simple s')) = d.castTo e (.simple s') := decay_id (by rw [tyOf_castTo]; rfl)
  refine (Runs.castTo (T := .simple s') (src := src) (src' := src) (by rw [hd]; exact h2) (by rw [tyOf_castTo]; rfl) (.inl ?_) h4 (fun _ => rfl)).wd_mono (fun h _ => h.1)
  exact scalar_ne_void (promoted_scalar hq)

/-! ### Operators -/

theorem NodeVal.size {d : Decls} {st : St} {m : M} {T : Ty} {x : Nat} {wd : Prop} {n : Nat} (h : NodeVal d st m T x wd n) (hw : ¬ wd) :
    st.size n = osize d T := by
  rcases h.2.2 with h | h
  · exact h
  · exact absurd h.1 hw

/-- Two operands, evaluated one after the other, as nodes. -/
theorem Runs.two {d : Decls} {W : World} {a b : TE} {mem mem1 mem2 : Mem} {Ta Tb : Ty} {x y : Nat} {srcA srcB : Option Src} {wa wb : Prop}
    (ha : Runs d W a mem Ta x srcA wa mem1) (hb : Runs d W b mem1 Tb y srcB wb mem2) (hk : Kept srcA mem1 mem2)
    (va : Ta ≠ .void) (vb : Tb ≠ .void) {st : St} {m : M} (ho : Open st) (hv : HasVars d W st m) (hm : m.mem = mem) :
    ∃ l r st1 st2 st3 st4 m4 lv rv, d.evaluate a st = .ok (l, st1) ∧ d.evaluate b st1 = .ok (r, st2) ∧ d.toVar l st2 = .ok (lv, st3) ∧
      d.toVar r st3 = .ok (rv, st4) ∧ Gen W st st4 m m4 ∧ m4.mem = mem2 ∧ NodeVal d st4 m4 Ta x wa lv ∧ NodeVal d st4 m4 Tb y wb rv ∧
      (IsValue Ta → x < 256 ^ osize d Ta) ∧ (IsValue Tb → y < 256 ^ osize d Tb) := by
  obtain ⟨l, st1, m1, e1, g1, hm1, hl⟩ := ha st m ho hv hm
  obtain ⟨r, st2, m2, e2, g2, hm2, hr⟩ := hb st1 m1 g1.opened (HasVars.mono hv g1) hm1
  have hl2 := hl.mono g2 (by rw [hm1, hm2]; exact hk)
  obtain ⟨lv, st3, m3, e3, g3, hm3, nl⟩ := toVar_ok (W := W) g2.opened hl2 va
  obtain ⟨rv, st4, m4, e4, g4, hm4, nr⟩ := toVar_ok (W := W) g3.opened (hr.mono g3 (kept_eq hm3)) vb
  exact ⟨l, r, st1, st2, st3, st4, m4, lv, rv, e1, e2, e3, e4, ((g1.trans ho g2).trans ho g3).trans ho g4, hm4.trans (hm3.trans hm2),
    nl.mono g4, nr, hl.lt, hr.lt⟩

/-- An operator node. -/
theorem op_put {W : World} {st : St} {m : M} {a b x y n : Nat} {o : IrOp} (ho : Open st) (hn : n = 4 ∨ n = 8)
    (ha : m.vals a = some (.word x)) (hb : m.vals b = some (.word y)) {z : BitVec (8 * n)}
    (hz : bvOp o (BitVec.ofNat (8 * n) x) (BitVec.ofNat (8 * n) y) = some z) :
    Gen W st (emit st n (fun k => .op k o a b n)).2 m (m.put st.next (.word z.toNat)) := by
  refine gen_put ho _ _ _ (fun e => ?_)
  simp only [exec, ha, word_eq hb]
  show (if IsOpSize n then (bvOp o (BitVec.ofNat (8 * n) x) (BitVec.ofNat (8 * n) y)).bind _ else none) = _
  rw [if_pos (show IsOpSize n from hn), hz]
  rfl

theorem Runs.op {d : Decls} {W : World} {a b : TE} {mem mem1 mem2 : Mem} {Ta Tb : Ty} {x y z : Nat} {srcA srcB : Option Src} {wa wb : Prop}
    {t : ST} {op : Op} {so : Option ST} {va vb v : Int} (ht : Promoted t)
    (ha : Runs d W a mem Ta x srcA wa mem1) (hb : Runs d W b mem1 Tb y srcB wb mem2) (hk : Kept srcA mem1 mem2)
    (sa : IsScalar Ta) (sb : IsScalar Tb) (ta : asInt Ta = t) (hw : ¬ wa) (hta : d.tyOf a = Ta)
    (hso : Ta.scalar = .ok so) (hir : irFromTypeAndOp so op = irFromTypeAndOp (some t) op)
    (hx : Rep (.simple t) va x) (hy : Rep (.simple t) vb y) (hv : opVal .sysv t op va vb = some v) (hd : DivOk op t va vb)
    (hty : d.tyOf (.bin op a b) = .simple (opType t op)) (hz : Rep (.simple (opType t op)) v z) :
    Runs d W (.bin op a b) mem (.simple (opType t op)) z none (IsRel op ∧ bytes .sysv t = 8) mem2 := by
  intro st m ho hvs hm
  obtain ⟨l, r, st1, st2, st3, st4, m4, lv, rv, e1, e2, e3, e4, g, hm4, nl, nr, _, _⟩ :=
    Runs.two ha hb hk (scalar_ne_void sa) (scalar_ne_void sb) ho hvs hm
  obtain ⟨o, h1, z', h2, h3, h4⟩ := op_node ht op hx hy hv hd
  have hz' := rep_unique h3 hz
  have hsz : st4.size lv = bytes .sysv t := by rw [nl.size hw, osize_scalar d sa, ta]
  have g5 := op_put (W := W) g.opened (promoted_bytes ht) nl.2.1 nr.2.1 h2
  refine ⟨_, _, _, ev_bin d st e1 e2 e3 e4 (by rw [hta]; exact hso) (hir.trans h1), g.trans ho (show Gen W st4 _ m4 (m4.put st4.next (.word z'.toNat)) by rw [hsz]; exact g5), hm4, hty, ?_, ?_⟩
  · have hos : osize d (.simple (opType t op)) = bytes .sysv (opType t op) := by
      refine osize_scalar d ?_
      unfold opType
      split
      · show IsInt .int; decide
      · exact promoted_scalar ht
    refine ⟨?_, ?_, ?_, ?_⟩
    · show IsInt (opType t op)
      unfold opType
      split
      · decide
      · exact promoted_scalar ht
    · exact Nat.lt_succ_self _
    · rw [put_vals, hz']
    · rw [emit_size, hsz, hos]
      unfold opType
      split
      · rename_i hr
        have : bytes .sysv .int = 4 := by decide
        rcases promoted_bytes ht with h | h
        · left; rw [h, this]
        · right
          exact ⟨⟨hr, h⟩, h, this, by rw [← hz']; exact h4 hr⟩
      · exact .inl rfl
  · intro _
    rw [osize_scalar d (t := .simple (opType t op))]
    · exact hz.1
    · unfold opType
      split
      · show IsInt .int; decide
      · exact promoted_scalar ht

theorem bnot_node {t : ST} (ht : Promoted t) {x : Nat} {a v : Int} (hx : Rep (.simple t) a x) (h : uopVal .sysv t .bnot a = some v) :
    Rep (.simple t) v (~~~ BitVec.ofNat (8 * bytes .sysv t) x).toNat := by
  have hn := promoted_bytes ht
  have hW := promoted_width8 ht
  refine ⟨by rw [pow256]; exact BitVec.isLt _, ?_⟩
  obtain ⟨_, hx⟩ := hx
  change bitsVal t (BitVec.ofNat (8 * bytes .sysv t) x) = a at hx
  show bitsVal t (BitVec.ofNat (8 * bytes .sysv t) (~~~ BitVec.ofNat (8 * bytes .sysv t) x).toNat) = v
  rw [BitVec.ofNat_toNat, BitVec.setWidth_eq]
  simp only [uopVal, Option.some.injEq] at h
  rw [← h, ← hx, hW]
  generalize BitVec.ofNat (8 * bytes .sysv t) x = X
  have hX := X.isLt
  have hc : ((2 ^ (8 * bytes .sysv t) : Nat) : Int) = 2 ^ (8 * bytes .sysv t) := by simp
  cases hs : signed t
  · simp only [Codegen.bitsVal_unsigned hs, BitVec.toNat_not, Bool.false_eq_true, if_false]
    omega
  · simp only [Codegen.bitsVal_signed hs, BitVec.toInt_not, if_true]
    have hb := X86.toInt_bounds X (by omega)
    have hr : inBits true (8 * bytes .sysv t) (-X.toInt - 1) := by
      simp only [inBits, if_true]; omega
    rw [← Codegen.bmod_inRange (by omega) hr, BitVec.toInt_eq_toNat_bmod,
      show -(X.toNat : Int).bmod (2 ^ (8 * bytes .sysv t)) - 1 = -1 - (X.toNat : Int).bmod (2 ^ (8 * bytes .sysv t)) by omega,
      Int.sub_bmod_bmod,
      show (2 : Int) ^ (8 * bytes .sysv t) - 1 - (X.toNat : Int) = -1 - (X.toNat : Int) + ((2 ^ (8 * bytes .sysv t) : Nat) : Int) by
        rw [hc]; omega, Int.add_bmod_right]

theorem neg_node {t : ST} (ht : Promoted t) {x : Nat} {a v : Int} (hx : Rep (.simple t) a x) (h : uopVal .sysv t .neg a = some v) :
    Rep (.simple t) v (- BitVec.ofNat (8 * bytes .sysv t) x).toNat := by
  have hn := promoted_bytes ht
  have hW := promoted_width8 ht
  refine ⟨by rw [pow256]; exact BitVec.isLt _, ?_⟩
  obtain ⟨_, hx⟩ := hx
  change bitsVal t (BitVec.ofNat (8 * bytes .sysv t) x) = a at hx
  show bitsVal t (BitVec.ofNat (8 * bytes .sysv t) (- BitVec.ofNat (8 * bytes .sysv t) x).toNat) = v
  rw [BitVec.ofNat_toNat, BitVec.setWidth_eq]
  simp only [uopVal, arith] at h
  rw [← hx] at h
  revert h
  generalize BitVec.ofNat (8 * bytes .sysv t) x = X
  intro h
  have hX := X.isLt
  have hc : ((2 ^ (8 * bytes .sysv t) : Nat) : Int) = 2 ^ (8 * bytes .sysv t) := by simp
  cases hs : signed t
  · simp only [Codegen.bitsVal_unsigned hs, hs, Bool.false_eq_true, if_false, Option.some.injEq, wrap] at h ⊢
    rw [← h, BitVec.toNat_neg, Int.natCast_emod, Int.ofNat_sub (by omega), hc,
      show (2 : Int) ^ (8 * bytes .sysv t) - (X.toNat : Int) = -(X.toNat : Int) + 2 ^ (8 * bytes .sysv t) by omega,
      Int.add_emod_right]
    rw [hW]
  · simp only [Codegen.bitsVal_signed hs, hs, if_true, InRange] at h ⊢
    split at h
    case isFalse => cases h
    rename_i hr
    cases h
    rw [hW] at hr
    rw [BitVec.toInt_neg, Codegen.bmod_inRange (by omega) hr]

theorem Runs.un {d : Decls} {W : World} {e : TE} {mem mem' : Mem} {t : ST} {x y : Nat} {src : Option Src} {wd : Prop} {op : UOp} {a v : Int}
    (h : Runs d W e mem (.simple t) x src wd mem') (hte : d.tyOf e = .simple t) (ht : Promoted t)
    (hx : Rep (.simple t) a x) (hv : uopVal .sysv t op a = some v) (hy : Rep (.simple t) v y) (hw : op ≠ .plus → ¬ wd) :
    Runs d W (.un op e) mem (.simple t) y (if op = .plus then src else none) (op = .plus ∧ wd) mem' := by
  intro st m ho hvs hm
  obtain ⟨r, st1, m1, e1, g1, hm1, hr⟩ := h st m ho hvs hm
  have hsc := promoted_scalar ht
  have hint : (d.tyOf e).isInt = true := by rw [hte]; exact (isInteger_iff t).mpr hsc
  have hos := osize_scalar d hsc
  change osize d (.simple t) = bytes .sysv t at hos
  by_cases hp : op = .plus
  · subst hp
    rw [if_pos rfl]
    simp only [uopVal, Option.some.injEq] at hv
    subst hv
    have := rep_unique hx hy
    subst this
    exact ⟨_, st1, m1, ev_plus d st e1, g1, hm1, hte, hr.val.wd_mono (fun h _ => ⟨rfl, h⟩), hr.lt⟩
  · rw [if_neg hp]
    have hw := hw hp
    obtain ⟨n, st2, m2, e2, g2, hm2, hn⟩ := toVar_ok (W := W) g1.opened hr (scalar_ne_void hsc)
    have hsz := (hn.size hw).trans hos
    have hlt : IsValue (.simple t) → y < 256 ^ osize d (.simple t) := fun _ => by rw [hos]; exact hy.1
    cases op with
    | plus => exact absurd rfl hp
    | bnot =>
      have := rep_unique (bnot_node ht hx hv) hy
      refine ⟨_, _, _, ev_bnot d st e1 e2 hint, (g1.trans ho g2).trans ho (gen_put g2.opened _ _ (.word y) (fun _ => ?_)),
        (show _ from hm2.trans hm1), hte, ⟨hsc, ?_⟩, hlt⟩
      · simp only [exec, word_eq hn.2.1, hsz]
        show (if IsOpSize _ then _ else _) = _
        rw [if_pos (show IsOpSize _ from promoted_bytes ht)]
        show some (M.put _ _ (Val.word (BitVec.toNat _))) = _
        rw [hsz, this]
      · exact nodeVal_put (fun k => .bnot k n (st2.size n)) (by rw [hsz, hos]) _
    | neg =>
      have := rep_unique (neg_node ht hx hv) hy
      refine ⟨_, _, _, ev_neg d st e1 e2 hint, (g1.trans ho g2).trans ho (gen_put g2.opened _ _ (.word y) (fun _ => ?_)),
        (show _ from hm2.trans hm1), hte, ⟨hsc, ?_⟩, hlt⟩
      · simp only [exec, word_eq hn.2.1, hsz]
        show (if IsOpSize _ then _ else _) = _
        rw [if_pos (show IsOpSize _ from promoted_bytes ht)]
        show some (M.put _ _ (Val.word (BitVec.toNat _))) = _
        rw [hsz, this]
      · exact nodeVal_put (fun k => .neg k n (st2.size n)) (by rw [hsz, hos]) _

end Verif.ExprIr
