import Verif.LvalueSpec
/-!
Lemmas for C107.
-/
namespace Verif.Lvalue
open Verif Simple

/-! ### Construction of expressions -/

theorem new_none {d : Decls} {W : World} {e : TE} {t : Ty} (ht : d.typeOf e = .ok t) (hf : d.fold W e = .ok none)
    (hc : d.checkConst e = .ok ()) : d.new W e = .ok e := by
  simp [Decls.new, ht, hf, hc]

theorem new_some {d : Decls} {W : World} {e : TE} {t : Ty} {k : K} (ht : d.typeOf e = .ok t) (hf : d.fold W e = .ok (some k)) :
    d.new W e = .ok (.const k) := by
  simp [Decls.new, ht, hf]

theorem new_cases {d : Decls} {W : World} {e te : TE} (h : d.new W e = .ok te) :
    te = e ∨ ∃ k, d.fold W e = .ok (some k) ∧ te = .const k := by
  unfold Decls.new at h
  obtain ⟨t, ht, h⟩ := Res.bind_eq_ok.1 h
  obtain ⟨o, ho, h⟩ := Res.bind_eq_ok.1 h
  cases o with
  | none =>
    obtain ⟨_, _, h⟩ := Res.bind_eq_ok.1 h
    cases h; exact .inl rfl
  | some k => cases h; exact .inr ⟨k, ho, rfl⟩

theorem unconst_const (t : Ty) : t.unconst.isConst = false := by cases t <;> rfl

theorem unconst_of (t : Ty) (h : t.isConst = false) : t.unconst = t := by
  cases t <;> simp_all [Ty.isConst, Ty.unconst]

theorem isObject_unconst {t : Ty} (h : IsObject t) : IsObject t.unconst := by
  cases t with
  | simple s c => cases s <;> simp_all [Ty.unconst, IsObject]
  | _ => simp_all [Ty.unconst, IsObject]

theorem decayE_object {d : Decls} {W : World} {e : TE} {t : Ty} (ht : d.typeOf e = .ok t) (ho : IsObject t) :
    d.decayE W e = if t.isConst then d.new W (.constRemove e) else .ok e := by
  unfold Decls.decayE
  rw [ht]
  cases t with
  | array => exact ho.elim
  | func => exact ho.elim
  | _ => simp [ht]

/-- A value with its type, and the form it is evaluated to. -/
structure Core (d : Decls) (p : Bool) (te : TE) (t : Ty) : Prop where
  ty : d.typeOf te = .ok t
  obj : IsObject t
  stable : t.isConst = false ∨ ∃ k, te = .const k
  ptrk : ∀ u, te = .const (.labelPtr u) → u.isPtr = true
  ev : p = true → ∃ v, d.eval te = .ok v ∧ v.ty = t ∧ v.form ≠ .void ∧ (v.form = .bits → t.isPtr = false) ∧
    (v.form = .constant → ∃ k, te = .const k)

theorem Core.decayE {d : Decls} {W : World} {p te t} (h : Core d p te t) : d.decayE W te = .ok te := by
  rw [decayE_object h.ty h.obj]
  rcases h.stable with hc | ⟨k, rfl⟩
  · rw [if_neg (by simp [hc])]
  · split
    · exact new_some (t := t.unconst) (by have := h.ty; simp [Decls.typeOf] at this ⊢; rw [this]) rfl
    · rfl

/-- An lvalue with its type and the form it is evaluated to. -/
structure Place (d : Decls) (W : World) (p : Bool) (a : SE) (t : Ty) (bf : Bool) (te : TE) : Prop where
  build : d.build W a = .ok te
  ty : d.typeOf te = .ok t
  const : ∀ k, te = .const k → k = .label t
  nocast : ∀ u e, te ≠ .cast u e
  ev : p = true → d.eval te = .ok ⟨if bf then .bits else .pointer, true, t⟩
  /-- a bit-field is a number -/
  bits : p = true → bf = true → t.isPtr = false

theorem hasValue_ok {v : EV} (h : v.form ≠ .void) : v.hasValue = .ok () := by simp [EV.hasValue, h]

theorem not_void {t : Ty} (h : IsObject t) : ∀ c, t ≠ .simple .void c := by
  intro c h'; subst h'; exact h.elim

theorem castTo_variable {v : EV} {t : Ty} (h : v.ty ≠ t) (ho : IsObject t) (hv : v.form ≠ .void) :
    v.castTo t = .ok ⟨.variable, false, t⟩ := by
  unfold EV.castTo
  rw [if_neg h]
  split
  · exact ho.elim
  · simp [hasValue_ok hv]

/-- A cast of a value. -/
theorem cast_core {d : Decls} {W : World} {p te t u} (h : Core d p te t) (hu : u.isConst = false) (ho : IsObject u)
    (hc : (u.isPtr = true ∧ (t.isPtr = true ∨ t.isInt = true)) ∨ ∃ s s' c, u = .simple s false ∧ t = .simple s' c) :
    ∃ te', d.castTo W te u = .ok te' ∧ Core d p te' u ∧
      ((∃ x, te' = .const (.num x)) → ∃ x, te = .const (.num x)) := by
  unfold Decls.castTo
  rw [h.decayE]
  simp only [Res.bind_ok, h.ty]
  by_cases he : t = u
  · subst he
    rw [if_pos rfl]
    exact ⟨te, rfl, h, id⟩
  rw [if_neg he]
  by_cases hk : ∃ k, te = .const k
  · obtain ⟨k, rfl⟩ := hk
    have hkt : k.ty = t := by have := h.ty; simpa [Decls.typeOf] using this
    by_cases hl : ∃ x, k = .label x
    · obtain ⟨x, rfl⟩ := hl
      refine ⟨_, new_none (t := u) rfl rfl rfl, ⟨rfl, ho, .inl hu, by simp, fun _ => ?_⟩, by simp⟩
      refine ⟨⟨.variable, false, u⟩, ?_, rfl, by simp, by simp, by simp⟩
      simp only [Decls.eval, Res.bind_ok]
      exact castTo_variable (by simp only [K.ty] at hkt; rw [hkt]; exact he) ho (by simp)
    · have hf : d.fold W (.cast u (.const k)) = (if k.ty.isPtr && !u.isPtr then .ok none else do .ok (some (← constantCast k u))) := by
        cases k with
        | label x => exact (hl ⟨x, rfl⟩).elim
        | _ => rfl
      by_cases hp : (k.ty.isPtr && !u.isPtr) = true
      · rw [if_pos hp] at hf
        refine ⟨_, new_none (t := u) rfl hf rfl, ⟨rfl, ho, .inl hu, by simp, fun _ => ?_⟩, by simp⟩
        refine ⟨⟨.variable, false, u⟩, ?_, rfl, by simp, by simp, by simp⟩
        have : d.eval (.const k) = .ok ⟨.constant, false, k.ty⟩ := by
          cases k with
          | label x => exact (hl ⟨x, rfl⟩).elim
          | _ => rfl
        simp only [Decls.eval] at this ⊢
        simp only [this, Res.bind_ok]
        exact castTo_variable (by rw [hkt]; exact he) ho (by simp)
      · rw [if_neg hp] at hf
        have hne : k.ty ≠ u := by rw [hkt]; exact he
        have key : ∃ k', constantCast k u = .ok k' ∧ k'.ty = u ∧ (∀ x, k' ≠ .label x) ∧
            (∀ x, k' = .labelPtr x → x.isPtr = true) ∧ ((∃ x, k' = .num x) → ∃ x, k = .num x) := by
          rcases hc with ⟨hup, hti⟩ | ⟨s, s', c, rfl, rfl⟩
          · have : (u.isPtr && (k.ty.isPtr || k.ty.isInt)) = true := by
              rw [hkt]; rcases hti with h | h <;> simp [hup, h]
            unfold constantCast
            simp only [if_neg hne, this, if_true]
            cases k with
            | label x => exact (hl ⟨x, rfl⟩).elim
            | num x => exact ⟨_, rfl, rfl, by simp, by simp, fun _ => ⟨_, rfl⟩⟩
            | labelPtr x => exact ⟨_, rfl, rfl, by simp, by simp [hup], by simp⟩
          · unfold constantCast
            simp only [if_neg hne]
            rw [if_neg (by simp [Ty.isPtr])]
            rw [hkt]
            refine ⟨_, rfl, rfl, by simp, by simp, fun _ => ?_⟩
            cases k with
            | label x => exact (hl ⟨x, rfl⟩).elim
            | num x => exact ⟨_, rfl⟩
            | labelPtr x =>
              have := h.ptrk x rfl
              simp only [K.ty] at hkt; subst hkt; simp [Ty.isPtr] at this
        obtain ⟨k', hk', hty, hnl, hpk, hnum⟩ := key
        rw [hk'] at hf
        refine ⟨.const k', new_some (t := u) rfl hf, ⟨by simp [Decls.typeOf, hty], ho, .inl hu, ?_, fun _ => ?_⟩, ?_⟩
        · intro x hx; cases hx; exact hpk x rfl
        · refine ⟨⟨.constant, false, u⟩, ?_, rfl, by simp, by simp, fun _ => ⟨k', rfl⟩⟩
          cases k' with
          | label x => exact (hnl x rfl).elim
          | num x => simp only [K.ty] at hty; subst hty; rfl
          | labelPtr x => simp only [K.ty] at hty; subst hty; rfl
        · rintro ⟨x, hx⟩; cases hx
          obtain ⟨y, rfl⟩ := hnum ⟨x, rfl⟩
          exact ⟨y, rfl⟩
  · refine ⟨_, new_none (t := u) rfl ?_ rfl, ⟨rfl, ho, .inl hu, by simp, fun hp => ?_⟩, by simp⟩
    · cases te with
      | const k => exact (hk ⟨k, rfl⟩).elim
      | _ => rfl
    · obtain ⟨v, hv, hvt, hvf, _, _⟩ := h.ev hp
      refine ⟨⟨.variable, false, u⟩, ?_, rfl, by simp, by simp, by simp⟩
      simp only [Decls.eval, hv, Res.bind_ok]
      exact castTo_variable (by rw [hvt]; exact he) ho hvf

theorem bitfield_ok {d : Decls} {te : TE} {t : Ty} (h : d.typeOf te = .ok t) : ∃ w, d.bitfield te = .ok w := by
  cases te with
  | dot e i =>
    simp only [Decls.typeOf] at h
    obtain ⟨x, hx, h⟩ := Res.bind_eq_ok.1 h
    obtain ⟨y, hy, h⟩ := Res.bind_eq_ok.1 h
    exact ⟨y.2, by simp [Decls.bitfield, hx, hy]⟩
  | _ => exact ⟨-1, rfl⟩

theorem isSigned_ok {s : ST} (h : isInteger s = true) : ∃ b, isSigned s = .ok b := by
  cases s <;> simp_all [isInteger, isSigned]

theorem contained_ok {abi : Abi} {s : ST} (h : isInteger s = true) (w : Int) :
    ∃ b, isContainedIn abi .int (-1) s w = .ok b := by
  obtain ⟨b, hb⟩ := isSigned_ok h
  have hi : isSigned .int = .ok true := rfl
  unfold isContainedIn getRange
  cases b <;> simp [hb, hi]

theorem int_object {s : ST} {c : Bool} (h : isInteger s = true) : IsObject (.simple s c) := by
  cases s <;> simp_all [isInteger, IsObject]

/-- Promotion of an integer. -/
theorem promote_core {d : Decls} {W : World} {p te s c} (h : Core d p te (.simple s c)) (hi : isInteger s = true) :
    ∃ te' s' c', d.promoteE W te = .ok te' ∧ Core d p te' (.simple s' c') ∧ isInteger s' = true ∧
      ((∃ x, te' = .const (.num x)) → ∃ x, te = .const (.num x)) := by
  obtain ⟨w, hw⟩ := bitfield_ok h.ty
  obtain ⟨b, hb⟩ := contained_ok (abi := d.abi) hi w
  unfold Decls.promoteE
  simp only [h.ty, hw, Res.bind_ok, hi, hb, if_true]
  cases b with
  | false => exact ⟨te, s, c, rfl, h, hi, id⟩
  | true =>
    obtain ⟨te', h1, h2, h3⟩ := cast_core (W := W) h (u := int) rfl trivial (.inr ⟨_, _, _, rfl, rfl⟩)
    exact ⟨te', .int, false, by simpa using h1, h2, rfl, h3⟩

/-- The value of an expression. -/
structure Value (d : Decls) (W : World) (p : Bool) (e : SE) (t : Ty) (te te' : TE) (t' : Ty) : Prop where
  build : d.build W e = .ok te
  decay : d.decayE W te = .ok te'
  core : Core d p te' t'
  un : t'.unconst = t
  num : (∃ x, te' = .const (.num x)) → constantAddress e = true

theorem ptr_of_unconst {t' t : Ty} (h : t'.unconst = .ptr t false) : ∃ c, t' = .ptr t c := by
  cases t' <;> simp_all [Ty.unconst]

theorem simple_of_unconst {t' : Ty} {s} (h : t'.unconst = .simple s false) : ∃ c, t' = .simple s c := by
  cases t' <;> simp_all [Ty.unconst]

theorem isPtr_unconst (t : Ty) : t.unconst.isPtr = t.isPtr := by cases t <;> rfl
theorem isInt_unconst (t : Ty) : t.unconst.isInt = t.isInt := by cases t <;> rfl

theorem int_not_ptr {t : Ty} (h : t.isInt = true) : t.isPtr = false := by
  cases t <;> simp_all [Ty.isInt, Ty.isPtr]

/-- The value of an object. -/
theorem Place.value {d : Decls} {W : World} {p a t bf te} (h : Place d W p a t bf te) (ho : IsObject t) :
    ∃ te' t', Value d W p a t.unconst te te' t' := by
  have hd := decayE_object (W := W) h.ty ho
  by_cases hc : t.isConst = true
  · rw [if_pos hc] at hd
    by_cases hk : ∃ k, te = .const k
    · obtain ⟨k, rfl⟩ := hk
      have hkl := h.const k rfl
      subst hkl
      refine ⟨.const (.label t), t, h.build, ?_, ⟨rfl, ho, .inr ⟨_, rfl⟩, by simp, fun hp => ?_⟩, rfl, by simp⟩
      · rw [hd]; exact new_some (t := t.unconst) rfl rfl
      · exact ⟨_, h.ev hp, rfl, by cases bf <;> simp, fun hb => h.bits hp (by cases bf <;> simp_all), fun hb => ⟨_, rfl⟩⟩
    · refine ⟨.constRemove te, t.unconst, h.build, ?_, ⟨by simp [Decls.typeOf, h.ty], isObject_unconst ho, .inl (unconst_const t), by simp, fun hp => ?_⟩, ?_, by simp⟩
      · rw [hd]
        refine new_none (t := t.unconst) (by simp [Decls.typeOf, h.ty]) ?_ rfl
        cases te with
        | const k => exact (hk ⟨k, rfl⟩).elim
        | _ => rfl
      · refine ⟨⟨if bf then .bits else .pointer, true, t.unconst⟩, by simp [Decls.eval, h.ev hp], rfl, by cases bf <;> simp, fun hb => ?_, fun hb => by cases bf <;> simp_all⟩
        rw [isPtr_unconst]; exact h.bits hp (by cases bf <;> simp_all)
      · exact unconst_of _ (unconst_const t)
  · rw [if_neg hc] at hd
    have hc : t.isConst = false := by simpa using hc
    refine ⟨te, t, h.build, hd, ⟨h.ty, ho, .inl hc, ?_, fun hp => ?_⟩, rfl, ?_⟩
    · intro u hu; have := h.const _ hu; cases this
    · exact ⟨_, h.ev hp, rfl, by cases bf <;> simp, fun hb => h.bits hp (by cases bf <;> simp_all), fun hb => by cases bf <;> simp_all⟩
    · rintro ⟨x, hx⟩; have := h.const _ hx; cases this

theorem promote_ptr {d : Decls} {W : World} {te t c} (h : d.typeOf te = .ok (.ptr t c)) : d.promoteE W te = .ok te := by
  obtain ⟨w, hw⟩ := bitfield_ok h
  simp [Decls.promoteE, h, hw]

theorem convert_ptr {d : Decls} {W : World} {a b t c u} (h : d.typeOf a = .ok (.ptr t c)) (hb : d.typeOf b = .ok u) :
    d.convert W a b = .ok (a, b) := by
  simp [Decls.convert, h, hb]

/-- Pointer arithmetic. -/
theorem arith_value {d : Decls} {W : World} {p e i t s te te' t' ti ti' u} (sub : Bool)
    (he : Value d W p e (.ptr t false) te te' t') (hi : Value d W p i (.simple s false) ti ti' u)
    (hs : isInteger s = true) :
    ∃ x x' y, Value d W p (.bin (if sub then .sub else .add) e i) (.ptr t false) x x' y := by
  obtain ⟨c, rfl⟩ := ptr_of_unconst he.un
  obtain ⟨c', rfl⟩ := simple_of_unconst hi.un
  obtain ⟨j, s', c'', hj, hjc, hs', hjn⟩ := promote_core (W := W) hi.core hs
  have hpe := promote_ptr (W := W) he.core.ty
  have hb : d.build W (.bin (if sub then .sub else .add) e i) = d.new W (if sub then .ptrSub te' j else .ptrAdd te' j) := by
    cases sub <;>
      simp [Decls.build, he.build, he.decay, hpe, hi.build, hi.decay, hj, Decls.fixBinary, convert_ptr he.core.ty hjc.ty,
        he.core.ty, hjc.ty, Ty.isPtr]
  have hty : d.typeOf (if sub then .ptrSub te' j else .ptrAdd te' j) = .ok (.ptr t c) := by
    cases sub <;> simp [Decls.typeOf, he.core.ty]
  have hfold : d.fold W (if sub then .ptrSub te' j else .ptrAdd te' j) = .ok none ∨
      ((∃ k, te' = .const k) ∧ d.fold W (if sub then .ptrSub te' j else .ptrAdd te' j) = .ok (some (.labelPtr (.ptr t c)))) := by
    by_cases hk : ∃ y, te' = .const (.labelPtr y)
    · obtain ⟨y, rfl⟩ := hk
      have hy : y = .ptr t c := by have := he.core.ty; simpa [Decls.typeOf, K.ty] using this
      subst hy
      cases j with
      | const k =>
        cases k with
        | num z =>
          cases z with
          | simple s'' _ =>
            cases sub <;> cases s'' <;> first | exact .inl rfl | exact .inr ⟨⟨_, rfl⟩, rfl⟩
          | _ => cases sub <;> exact .inl rfl
        | _ => cases sub <;> exact .inl rfl
      | _ => cases sub <;> exact .inl rfl
    · refine .inl ?_
      cases te' with
      | const k =>
        cases k with
        | labelPtr y => exact (hk ⟨y, rfl⟩).elim
        | _ => cases sub <;> rfl
      | _ => cases sub <;> rfl
  rcases hfold with hf | ⟨⟨k, hk⟩, hf⟩
  · have hn : d.new W (if sub then .ptrSub te' j else .ptrAdd te' j) = .ok (if sub then .ptrSub te' j else .ptrAdd te' j) := by
      refine new_none hty hf ?_
      cases sub <;> rfl
    have hev : p = true → d.eval (if sub then .ptrSub te' j else .ptrAdd te' j) = .ok ⟨.variable, false, .ptr t c⟩ := by
      intro hp
      obtain ⟨v, hv, hvt, hvf, _⟩ := he.core.ev hp
      obtain ⟨w, hw, hwt, hwf, _⟩ := hjc.ev hp
      have hcast : ∃ w', w.castTo (.simple .ulong false) = .ok w' ∧ w'.form ≠ .void := by
        by_cases hq : w.ty = .simple .ulong false
        · exact ⟨w, by simp [EV.castTo, hq], hwf⟩
        · exact ⟨_, castTo_variable hq trivial hwf, by simp⟩
      obtain ⟨w', hw', hwf'⟩ := hcast
      cases sub <;> simp [Decls.eval, hv, hw, hw', hasValue_ok hvf, hasValue_ok hwf', hvt]
    by_cases hc : c = true
    · subst hc
      refine ⟨_, .constRemove (if sub then .ptrSub te' j else .ptrAdd te' j), .ptr t false, hb.trans hn, ?_, ⟨?_, trivial, .inl rfl, by simp, fun hp => ?_⟩, rfl, by simp⟩
      · rw [decayE_object hty trivial, if_pos (by rfl)]
        refine new_none (t := .ptr t false) (by simp [Decls.typeOf, hty, Ty.unconst]) ?_ rfl
        cases sub <;> rfl
      · simp [Decls.typeOf, hty, Ty.unconst]
      · exact ⟨⟨.variable, false, .ptr t false⟩, by simp [Decls.eval, hev hp, Ty.unconst], rfl, by simp, by simp, by simp⟩
    · have hc : c = false := by simpa using hc
      subst hc
      refine ⟨_, (if sub then .ptrSub te' j else .ptrAdd te' j), .ptr t false, hb.trans hn, ?_, ⟨hty, trivial, .inl rfl, ?_, fun hp => ?_⟩, rfl, ?_⟩
      · rw [decayE_object hty trivial, if_neg (by simp [Ty.isConst])]
      · intro u hu; cases sub <;> simp at hu
      · exact ⟨_, hev hp, rfl, by simp, by simp, by simp⟩
      · rintro ⟨x, hx⟩; cases sub <;> simp at hx
  · have hcore : Core d p (.const (.labelPtr (.ptr t c))) (.ptr t c) :=
      ⟨rfl, trivial, .inr ⟨_, rfl⟩, by intro u hu; cases hu; rfl, fun _ => ⟨_, rfl, rfl, by simp, by simp, fun _ => ⟨_, rfl⟩⟩⟩
    exact ⟨_, _, _, hb.trans (new_some hty hf), hcore.decayE, hcore, rfl, by simp⟩

mutual
/-- Lvalues. -/
theorem lv_place {d : Decls} {W : World} {p : Bool} (hw : p = true → WellFormed d) :
    ∀ {a t bf}, Lv d true p a t bf → ∃ te, Place d W p a t bf te
  | _, _, _, .var => ⟨.sym _, rfl, rfl, by simp, by simp, fun _ => rfl, by simp⟩
  | _, _, _, .glob => ⟨.const (.label _), rfl, rfl, by intro k h; cases h; rfl, by simp, fun _ => rfl, by simp⟩
  | _, _, _, .lit hp => ⟨.lit _, rfl, rfl, by simp, by simp, (fun h => by rw [hp] at h; cases h), by simp⟩
  | _, t, _, .deref (e := e) h hn => by
    obtain ⟨te, te', t', hv⟩ := val_value (W := W) hw h
    obtain ⟨c, rfl⟩ := ptr_of_unconst hv.un
    have hb : d.build W (.deref e) = d.new W (.ind te') := by simp [Decls.build, hv.build, hv.decay]
    have hty : d.typeOf (.ind te') = .ok t := by simp [Decls.typeOf, hv.core.ty]
    by_cases hk : ∃ y, te' = .const (.labelPtr y)
    · obtain ⟨y, rfl⟩ := hk
      have hy : y = .ptr t c := by have := hv.core.ty; simpa [Decls.typeOf, K.ty] using this
      subst hy
      exact ⟨.const (.label t), hb.trans (new_some hty rfl), rfl, by intro k h; cases h; rfl, by simp, fun _ => rfl, by simp⟩
    · refine ⟨.ind te', hb.trans (new_none hty ?_ rfl), hty, by simp, by simp, fun hp => ?_, by simp⟩
      · cases te' with
        | const k =>
          cases k with
          | labelPtr y => exact (hk ⟨y, rfl⟩).elim
          | _ => rfl
        | _ => rfl
      · obtain ⟨v, hv1, hv2, hv3, hv4, hv5⟩ := hv.core.ev hp
        have hform : v.form = .variable ∨ v.form = .pointer := by
          cases hf : v.form with
          | «variable» => exact .inl rfl
          | pointer => exact .inr rfl
          | bits => have := hv4 hf; simp [Ty.isPtr] at this
          | void => exact (hv3 hf).elim
          | constant =>
            obtain ⟨k, rfl⟩ := hv5 hf
            cases k with
            | labelPtr y => exact (hk ⟨y, rfl⟩).elim
            | num y =>
              have := hv.num ⟨y, rfl⟩
              rw [hn hp] at this; cases this
            | label y =>
              simp only [Decls.eval] at hv1; cases hv1; cases hf
        simp only [Decls.eval, hv1, Res.bind_ok, hty]
        rcases hform with h | h <;> simp [h]
  | _, _, _, .member (a := a) (id := id) (c := c) (i := i) (t := t) (w := w) h hf hc => by
    obtain ⟨te, hv⟩ := lv_place (W := W) hw h
    have hc := hc rfl
    subst hc
    have hty : d.typeOf (.dot te i) = .ok t := by simp [Decls.typeOf, hv.ty, Decls.select, hf]
    have hb : d.build W (.member a i) = d.new W (.dot te i) := by simp [Decls.build, hv.build]
    have hbits : p = true → decide (w ≠ -1) = true → t.isPtr = false := by
      intro hp hd
      exact int_not_ptr (hw hp id i t w hf (by simpa using hd)).1
    have hnone : d.fold W (.dot te i) = .ok none → ∃ te, Place d W p (.member a i) t (decide (w ≠ -1)) te := by
      intro hfo
      refine ⟨_, hb.trans (new_none hty hfo rfl), hty, by simp, by simp, fun hp => ?_, hbits⟩
      have := hv.ev hp
      simp [Decls.eval, this, Decls.select, hf, EV.hasValue]
    by_cases hk : ∃ k, te = .const k
    · obtain ⟨k, rfl⟩ := hk
      have hkl := hv.const k rfl
      subst hkl
      by_cases hww : w = -1
      · have hfo : d.fold W (.dot (.const (.label (.record id false))) i) = .ok (some (.label t)) := by
          simp [Decls.fold, Decls.select, hf, hww]
        refine ⟨.const (.label t), hb.trans (new_some hty hfo), rfl, by intro k h; cases h; rfl, by simp, fun _ => ?_, hbits⟩
        simp [hww, Decls.eval]
      · exact hnone (by simp [Decls.fold, Decls.select, hf, hww])
    · refine hnone ?_
      cases te with
      | const k => exact (hk ⟨k, rfl⟩).elim
      | _ => rfl
/-- Values. -/
theorem val_value {d : Decls} {W : World} {p : Bool} (hw : p = true → WellFormed d) :
    ∀ {e t}, Val d true p e t → ∃ te te' t', Value d W p e t te te' t'
  | _, _, .object h ho => by
    obtain ⟨te, h⟩ := lv_place (W := W) hw h
    obtain ⟨te', t', h⟩ := h.value ho
    exact ⟨te, te', t', h⟩
  | _, _, .array (a := a) (t := t) h => by
    obtain ⟨te, h⟩ := lv_place (W := W) hw h
    have hty : d.typeOf (.decay te) = .ok (.ptr t false) := by simp [Decls.typeOf, h.ty]
    have hdec : ∀ x, d.new W (.decay te) = .ok x → d.typeOf x = .ok (.ptr t false) → d.decayE W te = .ok x := by
      intro x hx hxt
      simp [Decls.decayE, h.ty, hx, hxt, Ty.isConst]
    by_cases hk : ∃ k, te = .const k
    · obtain ⟨k, rfl⟩ := hk
      have hkl := h.const k rfl
      subst hkl
      refine ⟨_, .const (.labelPtr (.ptr t false)), _, h.build, hdec _ (new_some hty rfl) rfl, ⟨rfl, trivial, .inl rfl, by intro u hu; cases hu; rfl, fun _ => ?_⟩, rfl, by simp⟩
      exact ⟨_, rfl, rfl, by simp, by simp, fun _ => ⟨_, rfl⟩⟩
    · refine ⟨_, .decay te, _, h.build, hdec _ (new_none hty ?_ rfl) hty, ⟨hty, trivial, .inl rfl, by simp, fun hp => ?_⟩, rfl, by simp⟩
      · cases te with
        | const k => exact (hk ⟨k, rfl⟩).elim
        | _ => rfl
      · refine ⟨⟨.variable, false, .ptr t false⟩, ?_, rfl, by simp, by simp, by simp⟩
        have := h.ev hp
        simp [Decls.eval, this, hty]
  | _, _, .addr (a := a) (t := t) h => by
    obtain ⟨te, h⟩ := lv_place (W := W) hw h
    have hty : d.typeOf (.addrOf te) = .ok (.ptr t false) := by simp [Decls.typeOf, h.ty]
    have hb : d.build W (.addr a) = d.new W (.addrOf te) := by simp [Decls.build, h.build]
    by_cases hk : ∃ k, te = .const k
    · obtain ⟨k, rfl⟩ := hk
      have hkl := h.const k rfl
      subst hkl
      have hcore : Core d p (.const (.labelPtr (.ptr t false))) (.ptr t false) :=
        ⟨rfl, trivial, .inl rfl, by intro u hu; cases hu; rfl, fun _ => ⟨_, rfl, rfl, by simp, by simp, fun _ => ⟨_, rfl⟩⟩⟩
      exact ⟨_, _, _, hb.trans (new_some hty rfl), hcore.decayE, hcore, rfl, by simp⟩
    · have hcore : Core d p (.addrOf te) (.ptr t false) := by
        refine ⟨hty, trivial, .inl rfl, by simp, fun hp => ?_⟩
        refine ⟨⟨.variable, false, .ptr t false⟩, ?_, rfl, by simp, by simp, by simp⟩
        have := h.ev hp
        simp [Decls.eval, this, hty]
      refine ⟨_, _, _, hb.trans (new_none hty ?_ rfl), hcore.decayE, hcore, rfl, by simp⟩
      cases te with
      | const k => exact (hk ⟨k, rfl⟩).elim
      | _ => rfl
  | _, _, .num (s := s) hs => by
    have hcore : Core d p (.const (.num (.simple s false))) (.simple s false) :=
      ⟨rfl, int_object hs, .inl rfl, by simp, fun _ => ⟨_, rfl, rfl, by simp, by simp, fun _ => ⟨_, rfl⟩⟩⟩
    exact ⟨_, _, _, rfl, hcore.decayE, hcore, rfl, fun _ => rfl⟩
  | _, _, .call (t := t) ho hc => by
    have hcore : Core d p (.call t) t := by
      refine ⟨rfl, ho, .inl hc, by simp, fun _ => ?_⟩
      refine ⟨⟨if d.inMemory t then .pointer else .variable, false, t⟩, ?_, rfl, by split <;> simp, by split <;> simp, by split <;> simp⟩
      simp only [Decls.eval]
      split
      · exact ho.elim
      · rfl
    exact ⟨_, _, _, rfl, hcore.decayE, hcore, unconst_of _ hc, by simp⟩
  | _, _, .cast (e := e) (t := t) (u := u) h ht => by
    obtain ⟨te, te', t', h⟩ := val_value (W := W) hw h
    have ht' : t'.isPtr = true ∨ t'.isInt = true := by
      rw [← isPtr_unconst, ← isInt_unconst, h.un]; exact ht
    obtain ⟨x, h1, h2, h3⟩ := cast_core (W := W) h.core (u := .ptr u false) rfl trivial (.inl ⟨rfl, ht'⟩)
    have hb : d.build W (.cast (.ptr u false) e) = .ok x := by
      have : d.castTo W te (.ptr u false) = d.castTo W te' (.ptr u false) := by
        unfold Decls.castTo
        rw [h.decay, h.core.decayE]
      simp [Decls.build, h.build, this, h1]
    refine ⟨x, x, _, hb, h2.decayE, h2, rfl, fun hx => ?_⟩
    simpa [constantAddress] using h.num (h3 hx)
  | _, _, .add he hi hs => by
    obtain ⟨te, te', t', he⟩ := val_value (W := W) hw he
    obtain ⟨ti, ti', u, hi⟩ := val_value (W := W) hw hi
    exact arith_value false he hi hs
  | _, _, .sub he hi hs => by
    obtain ⟨te, te', t', he⟩ := val_value (W := W) hw he
    obtain ⟨ti, ti', u, hi⟩ := val_value (W := W) hw hi
    exact arith_value true he hi hs
end

theorem bits_size {d : Decls} (hd : WellFormed d) {a t bf} (h : Lv d true true a t bf) (hb : bf = true) :
    d.size t ≤ 8 := by
  cases h with
  | var => cases hb
  | glob => cases hb
  | lit => cases hb
  | deref => cases hb
  | member h hf hc =>
    have hc := hc rfl
    subst hc
    exact (hd _ _ _ _ hf (by simpa using hb)).2

/-- No label with the type of an object, and evaluated to something that is no lvalue. -/
def Rvalue (d : Decls) (te : TE) : Prop :=
  (∀ t, te ≠ .const (.label t)) ∧ ∀ v, d.eval te = .ok v → v.lv = false

theorem rvalue_const {d : Decls} {k : K} (h : ∀ t, k ≠ .label t) : Rvalue d (.const k) := by
  refine ⟨fun t he => by cases he; exact h t rfl, fun v hv => ?_⟩
  cases k with
  | label t => exact (h t rfl).elim
  | _ => simp only [Decls.eval] at hv; cases hv; rfl

theorem fixBinary_cases {d : Decls} {W : World} {op a b f} (h : d.fixBinary W op a b = .ok f) :
    ∃ x y, f = .ptrDiff x y ∨ f = .ptrAdd x y ∨ f = .ptrSub x y ∨ f = .bin op x y := by
  unfold Decls.fixBinary at h
  obtain ⟨⟨a, b⟩, _, h⟩ := Res.bind_eq_ok.1 h
  obtain ⟨ta, _, h⟩ := Res.bind_eq_ok.1 h
  obtain ⟨tb, _, h⟩ := Res.bind_eq_ok.1 h
  have key : ∀ {x : TE}, x = f → (∃ p q, x = .ptrDiff p q ∨ x = .ptrAdd p q ∨ x = .ptrSub p q ∨ x = .bin op p q) →
      ∃ p q, f = .ptrDiff p q ∨ f = .ptrAdd p q ∨ f = .ptrSub p q ∨ f = .bin op p q := by
    rintro x rfl h; exact h
  cases op <;> simp only at h
  all_goals (repeat' split at h)
  all_goals try (obtain ⟨c, _, h⟩ := Res.bind_eq_ok.1 h)
  all_goals first
    | (cases h; done)
    | (injection h with h; exact key h ⟨_, _, .inl rfl⟩)
    | (injection h with h; exact key h ⟨_, _, .inr (.inl rfl)⟩)
    | (injection h with h; exact key h ⟨_, _, .inr (.inr (.inl rfl))⟩)
    | (injection h with h; exact key h ⟨_, _, .inr (.inr (.inr rfl))⟩)

theorem rvalue_new {d : Decls} {W : World} {e te} (h : d.new W e = .ok te)
    (hk : ∀ t, d.fold W e ≠ .ok (some (.label t))) (hl : ∀ t, e ≠ .const (.label t))
    (hev : ∀ v, d.eval e = .ok v → v.lv = false) : Rvalue d te := by
  rcases new_cases h with rfl | ⟨k, hf, rfl⟩
  · exact ⟨hl, hev⟩
  · exact rvalue_const (fun t ht => hk t (ht ▸ hf))

theorem fold_un {d : Decls} {W : World} {op e} : ∀ t, d.fold W (.un op e) ≠ .ok (some (.label t)) := by
  intro t ht
  unfold Decls.fold at ht
  split at ht <;> simp_all
  split at ht <;> simp_all

theorem eval_un {d : Decls} {op e v} (ho : op ≠ .plus) (hv : d.eval (.un op e) = .ok v) : v.lv = false := by
  simp only [Decls.eval] at hv
  obtain ⟨w, _, hv⟩ := Res.bind_eq_ok.1 hv
  cases op with
  | plus => exact (ho rfl).elim
  | _ =>
    obtain ⟨_, _, hv⟩ := Res.bind_eq_ok.1 hv
    split at hv
    · split at hv
      · cases hv; rfl
      · cases hv
    · cases hv

theorem nolvalue_eval {d : Decls} {W : World} {a te} (h : NoLvalue true a) (hb : d.build W a = .ok te) :
    Rvalue d te := by
  induction h generalizing te with
  | num => cases hb; exact rvalue_const (by simp)
  | call =>
    cases hb
    refine ⟨by simp, fun v hv => ?_⟩
    simp only [Decls.eval] at hv
    split at hv <;> cases hv <;> rfl
  | addr =>
    simp only [Decls.build] at hb
    obtain ⟨x, _, hb⟩ := Res.bind_eq_ok.1 hb
    refine rvalue_new hb ?_ (by simp) ?_
    · intro t ht
      unfold Decls.fold at ht
      split at ht <;> simp_all
    · intro v hv
      simp only [Decls.eval] at hv
      obtain ⟨w, _, hv⟩ := Res.bind_eq_ok.1 hv
      split at hv
      · obtain ⟨u, _, hv⟩ := Res.bind_eq_ok.1 hv
        cases hv; rfl
      · cases hv
  | neg =>
    simp only [Decls.build] at hb
    obtain ⟨x, _, hb⟩ := Res.bind_eq_ok.1 hb
    obtain ⟨y, _, hb⟩ := Res.bind_eq_ok.1 hb
    obtain ⟨z, _, hb⟩ := Res.bind_eq_ok.1 hb
    refine rvalue_new hb (fold_un ) (by simp) (fun v hv => eval_un (by simp) hv)
  | bnot =>
    simp only [Decls.build] at hb
    obtain ⟨x, _, hb⟩ := Res.bind_eq_ok.1 hb
    obtain ⟨y, _, hb⟩ := Res.bind_eq_ok.1 hb
    obtain ⟨z, _, hb⟩ := Res.bind_eq_ok.1 hb
    refine rvalue_new hb (fold_un ) (by simp) (fun v hv => eval_un (by simp) hv)
  | bin =>
    simp only [Decls.build] at hb
    obtain ⟨x1, _, hb⟩ := Res.bind_eq_ok.1 hb
    obtain ⟨x2, _, hb⟩ := Res.bind_eq_ok.1 hb
    obtain ⟨x3, _, hb⟩ := Res.bind_eq_ok.1 hb
    obtain ⟨x4, _, hb⟩ := Res.bind_eq_ok.1 hb
    obtain ⟨x5, _, hb⟩ := Res.bind_eq_ok.1 hb
    obtain ⟨x6, _, hb⟩ := Res.bind_eq_ok.1 hb
    obtain ⟨f, hf, hb⟩ := Res.bind_eq_ok.1 hb
    obtain ⟨x, y, hf⟩ := fixBinary_cases hf
    rcases hf with rfl | rfl | rfl | rfl
    · refine rvalue_new hb (by intro t ht; cases ht) (by simp) ?_
      intro v hv
      simp only [Decls.eval] at hv
      obtain ⟨a, _, hv⟩ := Res.bind_eq_ok.1 hv
      obtain ⟨a, _, hv⟩ := Res.bind_eq_ok.1 hv
      obtain ⟨a, _, hv⟩ := Res.bind_eq_ok.1 hv
      obtain ⟨a, _, hv⟩ := Res.bind_eq_ok.1 hv
      cases hv; rfl
    · refine rvalue_new hb ?_ (by simp) ?_
      · intro t ht
        unfold Decls.fold at ht
        split at ht <;> simp_all
        split at ht <;> simp_all
      · intro v hv
        simp only [Decls.eval] at hv
        obtain ⟨a, _, hv⟩ := Res.bind_eq_ok.1 hv
        obtain ⟨a, _, hv⟩ := Res.bind_eq_ok.1 hv
        obtain ⟨a, _, hv⟩ := Res.bind_eq_ok.1 hv
        obtain ⟨a, _, hv⟩ := Res.bind_eq_ok.1 hv
        obtain ⟨a, _, hv⟩ := Res.bind_eq_ok.1 hv
        cases hv; rfl
    · refine rvalue_new hb ?_ (by simp) ?_
      · intro t ht
        unfold Decls.fold at ht
        split at ht <;> simp_all
        split at ht <;> simp_all
      · intro v hv
        simp only [Decls.eval] at hv
        obtain ⟨a, _, hv⟩ := Res.bind_eq_ok.1 hv
        obtain ⟨a, _, hv⟩ := Res.bind_eq_ok.1 hv
        obtain ⟨a, _, hv⟩ := Res.bind_eq_ok.1 hv
        obtain ⟨a, _, hv⟩ := Res.bind_eq_ok.1 hv
        obtain ⟨a, _, hv⟩ := Res.bind_eq_ok.1 hv
        cases hv; rfl
    · refine rvalue_new hb ?_ (by simp) ?_
      · intro t ht
        unfold Decls.fold at ht
        split at ht <;> simp_all
        split at ht <;> simp_all
        split at ht <;> simp_all
      · intro v hv
        simp only [Decls.eval] at hv
        obtain ⟨a, _, hv⟩ := Res.bind_eq_ok.1 hv
        obtain ⟨a, _, hv⟩ := Res.bind_eq_ok.1 hv
        obtain ⟨a, _, hv⟩ := Res.bind_eq_ok.1 hv
        obtain ⟨a, _, hv⟩ := Res.bind_eq_ok.1 hv
        obtain ⟨a, _, hv⟩ := Res.bind_eq_ok.1 hv
        obtain ⟨a, _, hv⟩ := Res.bind_eq_ok.1 hv
        cases hv; rfl
  | cond =>
    simp only [Decls.build] at hb
    obtain ⟨x1, _, hb⟩ := Res.bind_eq_ok.1 hb
    obtain ⟨x2, _, hb⟩ := Res.bind_eq_ok.1 hb
    obtain ⟨x3, _, hb⟩ := Res.bind_eq_ok.1 hb
    obtain ⟨x4, _, hb⟩ := Res.bind_eq_ok.1 hb
    obtain ⟨x5, _, hb⟩ := Res.bind_eq_ok.1 hb
    obtain ⟨x6, _, hb⟩ := Res.bind_eq_ok.1 hb
    obtain ⟨x7, _, hb⟩ := Res.bind_eq_ok.1 hb
    obtain ⟨x8, _, hb⟩ := Res.bind_eq_ok.1 hb
    obtain ⟨x9, _, hb⟩ := Res.bind_eq_ok.1 hb
    obtain ⟨⟨x, y⟩, _, hb⟩ := Res.bind_eq_ok.1 hb
    refine rvalue_new hb ?_ (by simp) ?_
    · intro t ht
      unfold Decls.fold at ht
      split at ht <;> simp_all
    · intro v hv
      simp only [Decls.eval] at hv
      obtain ⟨a, _, hv⟩ := Res.bind_eq_ok.1 hv
      obtain ⟨_, _, hv⟩ := Res.bind_eq_ok.1 hv
      obtain ⟨a, _, hv⟩ := Res.bind_eq_ok.1 hv
      obtain ⟨a, _, hv⟩ := Res.bind_eq_ok.1 hv
      split at hv
      · cases hv; rfl
      · obtain ⟨_, _, hv⟩ := Res.bind_eq_ok.1 hv
        obtain ⟨_, _, hv⟩ := Res.bind_eq_ok.1 hv
        cases hv; rfl
  | assignOp =>
    simp only [Decls.build] at hb
    obtain ⟨x1, _, hb⟩ := Res.bind_eq_ok.1 hb
    obtain ⟨x2, _, hb⟩ := Res.bind_eq_ok.1 hb
    obtain ⟨x3, _, hb⟩ := Res.bind_eq_ok.1 hb
    obtain ⟨x4, _, hb⟩ := Res.bind_eq_ok.1 hb
    obtain ⟨x5, _, hb⟩ := Res.bind_eq_ok.1 hb
    obtain ⟨f, hf, hb⟩ := Res.bind_eq_ok.1 hb
    obtain ⟨⟨x, y⟩, _, hf⟩ := Res.bind_eq_ok.1 hf
    obtain ⟨t, _, hf⟩ := Res.bind_eq_ok.1 hf
    split at hf <;> cases hf
    · refine rvalue_new hb (by intro t ht; cases ht) (by simp) ?_
      intro v hv
      simp only [Decls.eval] at hv
      obtain ⟨a, _, hv⟩ := Res.bind_eq_ok.1 hv
      obtain ⟨a, _, hv⟩ := Res.bind_eq_ok.1 hv
      obtain ⟨a, _, hv⟩ := Res.bind_eq_ok.1 hv
      obtain ⟨a, _, hv⟩ := Res.bind_eq_ok.1 hv
      obtain ⟨a, _, hv⟩ := Res.bind_eq_ok.1 hv
      obtain ⟨a, _, hv⟩ := Res.bind_eq_ok.1 hv
      cases hv; rfl
    · refine rvalue_new hb (by intro t ht; cases ht) (by simp) ?_
      intro v hv
      simp only [Decls.eval] at hv
      obtain ⟨a, _, hv⟩ := Res.bind_eq_ok.1 hv
      obtain ⟨a, _, hv⟩ := Res.bind_eq_ok.1 hv
      obtain ⟨a, _, hv⟩ := Res.bind_eq_ok.1 hv
      obtain ⟨a, _, hv⟩ := Res.bind_eq_ok.1 hv
      obtain ⟨a, _, hv⟩ := Res.bind_eq_ok.1 hv
      obtain ⟨a, _, hv⟩ := Res.bind_eq_ok.1 hv
      cases hv; rfl
    · refine rvalue_new hb (by intro t ht; cases ht) (by simp) ?_
      intro v hv
      simp only [Decls.eval] at hv
      obtain ⟨a, _, hv⟩ := Res.bind_eq_ok.1 hv
      obtain ⟨a, _, hv⟩ := Res.bind_eq_ok.1 hv
      obtain ⟨a, _, hv⟩ := Res.bind_eq_ok.1 hv
      obtain ⟨a, _, hv⟩ := Res.bind_eq_ok.1 hv
      obtain ⟨a, _, hv⟩ := Res.bind_eq_ok.1 hv
      obtain ⟨a, _, hv⟩ := Res.bind_eq_ok.1 hv
      cases hv; rfl
  | member _ ih =>
    simp only [Decls.build] at hb
    obtain ⟨x, hx, hb⟩ := Res.bind_eq_ok.1 hb
    have := ih hx
    refine rvalue_new hb ?_ (by simp) ?_
    · intro t ht
      unfold Decls.fold at ht
      split at ht <;> simp_all
      exact this.1 _ rfl
    · intro v hv
      simp only [Decls.eval] at hv
      obtain ⟨w, hw, hv⟩ := Res.bind_eq_ok.1 hv
      obtain ⟨⟨u, i⟩, _, hv⟩ := Res.bind_eq_ok.1 hv
      obtain ⟨_, _, hv⟩ := Res.bind_eq_ok.1 hv
      cases hv
      exact this.2 w hw
  | comma h => cases h
  | assign h => cases h
  | plus h => cases h
  | cast h => cases h

/-- A cast of a label, or of a cast. -/
theorem castTo_global {d : Decls} {W : World} {s u} :
    d.castTo W (.const (.label (.simple s true))) (.simple u false) =
      .ok (.cast (.simple u false) (.const (.label (.simple s true)))) := by
  have h1 : d.decayE W (.const (.label (.simple s true))) = .ok (.const (.label (.simple s true))) := rfl
  unfold Decls.castTo
  rw [h1]
  simp [Decls.typeOf, K.ty, Decls.new, Decls.fold, Decls.checkConst]

theorem castTo_cast {d : Decls} {W : World} {e x t a} (h : d.castTo W (.cast (.simple x false) e) t = .ok a) :
    a = .cast (.simple x false) e ∨ a = .cast t (.cast (.simple x false) e) := by
  have h1 : d.decayE W (.cast (.simple x false) e) = .ok (.cast (.simple x false) e) := by
    simp [Decls.decayE, Decls.typeOf, Ty.isConst]
  unfold Decls.castTo at h
  rw [h1] at h
  simp only [Res.bind_ok, Decls.typeOf] at h
  split at h
  · cases h; exact .inl rfl
  · rcases new_cases h with rfl | ⟨k, hk, _⟩
    · exact .inr rfl
    · cases hk

theorem global_strip {d : Decls} {W : World} {s a b a' b'}
    (ha : d.promoteE W (.const (.label (.simple s true))) = .ok a) (hc : d.convert W a b = .ok (a', b')) :
    strip a' = .const (.label (.simple s true)) := by
  have ha : a = .const (.label (.simple s true)) ∨ a = .cast int (.const (.label (.simple s true))) := by
    unfold Decls.promoteE at ha
    simp only [Decls.typeOf, K.ty, Decls.bitfield, Res.bind_ok] at ha
    split at ha
    · obtain ⟨c, _, ha⟩ := Res.bind_eq_ok.1 ha
      split at ha
      · rw [castTo_global] at ha; cases ha; exact .inr rfl
      · cases ha; exact .inl rfl
    · cases ha; exact .inl rfl
  unfold Decls.convert at hc
  obtain ⟨ta, _, hc⟩ := Res.bind_eq_ok.1 hc
  obtain ⟨tb, _, hc⟩ := Res.bind_eq_ok.1 hc
  split at hc
  · obtain ⟨_, _, hc⟩ := Res.bind_eq_ok.1 hc
    obtain ⟨_, _, hc⟩ := Res.bind_eq_ok.1 hc
    obtain ⟨_, _, hc⟩ := Res.bind_eq_ok.1 hc
    obtain ⟨x, hx, hc⟩ := Res.bind_eq_ok.1 hc
    obtain ⟨y, _, hc⟩ := Res.bind_eq_ok.1 hc
    cases hc
    rcases ha with rfl | rfl
    · rw [castTo_global] at hx; cases hx; rfl
    · rcases castTo_cast hx with rfl | rfl <;> rfl
  · cases hc
    rcases ha with rfl | rfl <;> rfl

end Verif.Lvalue
