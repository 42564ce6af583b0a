import Verif.AddrConstSpec
import Verif.SimpleProps
/-! Lemmas for `AddrConstProps`. -/
namespace Verif.AddrConstLemmas
open Verif Verif.Simple Verif.SimpleSpec Verif.StaticInit Verif.AddrConst Verif.AddrConstSpec

theorem size_eq (d : Decls) : ∀ t, IsObject t → sizeOf d t = bytes d t
  | .simple s, _ => by
    cases s <;> simp [AddrConst.sizeOf, bytes, Simple.sizeOf, width] <;> cases d.abi <;> rfl
  | .ptr _, _ => rfl
  | .array t n, h => by simp only [AddrConst.sizeOf, bytes]; rw [size_eq d t h]
  | .record k, _ => rfl
  | .func, h => h.elim

theorem int64_ok {x : Int} (h : Small x) : AddrConst.int64 x = .ok x := if_pos h

/-- What the parser has built for an expression with a value. -/
def Rep (d : Decls) (e : T) : V → Prop
  | .num s i => e = .const (.num (.simple s) (BitVec.ofInt 64 i))
  | .lv t (.named l) o => e = .const (.lab t l o)
  | .pv t (.named l) o => e = .const (.ptr (.ptr t) l o)
  | .lv _ .absolute _ => False
  | .pv t .absolute o => e = .const (.num (.ptr t) (BitVec.ofInt 64 o))
  | .lv t (.literal _ u i) o => ∃ ti, buildI d i = .ok ti ∧ e.ty = t ∧ eval d e = .ok none ∧
      ∀ n, literals d true n e = .ok (.const (.lab t n o), n - 1, [(n, u, ti)])
  | .pv t (.literal _ u i) o => ∃ ti, buildI d i = .ok ti ∧ e.ty = .ptr t ∧ eval d e = .ok none ∧
      ∀ lv n, literals d lv n e = .ok (.const (.ptr (.ptr t) n o), n - 1, [(n, u, ti)])

theorem fold_some {d : Decls} {e : T} {k : K} (h : eval d e = .ok (some k)) : fold d e = .ok (.const k) := by
  simp [fold, h]

theorem fold_none {d : Decls} {e : T} (h : eval d e = .ok none) : fold d e = .ok e := by
  simp [fold, h]

theorem evalDecay_none {d : Decls} {e : T} (t : Ty) (h : eval d e = .ok none) : evalDecay e t = .ok none := by
  cases e <;> first | rfl | (simp [eval] at h)

theorem rep_lv_ty {d e t b o} (h : Rep d e (.lv t b o)) : e.ty = t := by
  cases b with
  | named l => cases h; rfl
  | literal k u i => obtain ⟨_, _, h, _⟩ := h; exact h
  | absolute => cases h

theorem rep_pv_ty {d e t b o} (h : Rep d e (.pv t b o)) : e.ty = .ptr t := by
  cases b with
  | named l => cases h; rfl
  | literal k u i => obtain ⟨_, _, h, _⟩ := h; exact h
  | absolute => cases h; rfl

theorem rep_convert {d e v t b o} (h : Rep d e v) (hc : Converts v t b o) :
    ∃ e', decayArray d e = .ok e' ∧ Rep d e' (.pv t b o) := by
  cases hc with
  | pv => exact ⟨e, by simp [decayArray, rep_pv_ty h], h⟩
  | array t n b o =>
    have ht := rep_lv_ty h
    cases b with
    | named l =>
      cases h
      exact ⟨_, by simp only [decayArray, T.ty, K.ty]; exact fold_some rfl, rfl⟩
    | literal k u i =>
      obtain ⟨ti, h1, h2, h3, h4⟩ := h
      have h5 : eval d (.decay e (.ptr t)) = .ok none := by rw [eval]; exact evalDecay_none _ h3
      refine ⟨_, by simp only [decayArray, ht]; exact fold_none h5, ti, h1, rfl, h5, fun lv m => ?_⟩
      rw [literals, h4 m]
      simp [fold, eval, evalDecay]
    | absolute => cases h
  | func b o =>
    have ht := rep_lv_ty h
    cases b with
    | named l =>
      cases h
      exact ⟨_, by simp only [decayArray, T.ty, K.ty]; exact fold_some rfl, rfl⟩
    | literal k u i =>
      obtain ⟨ti, h1, h2, h3, h4⟩ := h
      have h5 : eval d (.addr e (.ptr .func)) = .ok none := by simp [eval, h3, onConst]
      refine ⟨_, by simp only [decayArray, ht]; exact fold_none h5, ti, h1, rfl, h5, fun lv m => ?_⟩
      rw [literals, h4 m]
      simp [fold, eval, onConst, evalAddr]
    | absolute => cases h

theorem rep_addr {d e t b o} (h : Rep d e (.lv t b o)) :
    ∃ e', mkAddr d e = .ok e' ∧ Rep d e' (.pv t b o) := by
  have ht := rep_lv_ty h
  cases b with
  | named l => cases h; exact ⟨_, fold_some rfl, rfl⟩
  | literal k u i =>
    obtain ⟨ti, h1, h2, h3, h4⟩ := h
    have h5 : eval d (.addr e (.ptr e.ty)) = .ok none := by simp [eval, h3, onConst]
    refine ⟨_, fold_none h5, ti, h1, by show Ty.ptr e.ty = _; rw [ht], h5, fun lv m => ?_⟩
    rw [literals, h4 m]
    simp [fold, eval, onConst, evalAddr, ht]
  | absolute => cases h

theorem rep_deref {d e v t b o} (h : Rep d e v) (hc : Converts v t b o) (hb : b ≠ .absolute) :
    ∃ e', mkDeref d e = .ok e' ∧ Rep d e' (.lv t b o) := by
  obtain ⟨e1, h1, h2⟩ := rep_convert h hc
  have ht := rep_pv_ty h2
  simp only [mkDeref, h1, Res.bind_ok, ht]
  cases b with
  | named l => cases h2; exact ⟨_, fold_some rfl, rfl⟩
  | literal k u i =>
    obtain ⟨ti, h3, h4, h5, h6⟩ := h2
    have h7 : eval d (.deref e1 t) = .ok none := by simp [eval, h5, onConst]
    refine ⟨_, fold_none h7, ti, h3, rfl, h7, fun m => ?_⟩
    rw [literals, h6 false m]
    simp [fold, eval, onConst, evalDeref]
  | absolute => exact absurd rfl hb

theorem rep_dot {d e r b o i m} (h : Rep d e (.lv (.record r) b o)) (hm : d.member r i = some m)
    (hb : m.bitSize = -1) (hs : Small (o + m.offset)) :
    ∃ e', mkDot d e i = .ok e' ∧ Rep d e' (.lv m.ty b (o + m.offset)) := by
  have ht := rep_lv_ty h
  simp only [mkDot, ht, hm]
  cases b with
  | named l =>
    cases h
    exact ⟨_, fold_some (by simp [eval, onConst, evalDot, hm, hb, int64_ok hs]), rfl⟩
  | literal k u j =>
    obtain ⟨ti, h1, h2, h3, h4⟩ := h
    have h5 : eval d (.dot e i m.ty) = .ok none := by simp [eval, h3, onConst]
    refine ⟨_, fold_none h5, ti, h1, rfl, h5, fun n => ?_⟩
    rw [literals, if_pos rfl, h4 n]
    simp [fold, eval, onConst, evalDot, hm, hb, int64_ok hs]
  | absolute => cases h

theorem mkCast_same {d : Decls} {e e1 : T} {t : Ty} (h : decayArray d e = .ok e1) (ht : e1.ty = t) :
    mkCast d e t = .ok e1 := by
  simp [mkCast, h, ht]

theorem mkCast_other {d : Decls} {e e1 : T} {t : Ty} (h : decayArray d e = .ok e1) (ht : e1.ty ≠ t) :
    mkCast d e t = fold d (.cast e1 t) := by
  simp [mkCast, h, ht]

theorem rep_cast {d e v t b o} (u : Ty) (h : Rep d e v) (hc : Converts v t b o) :
    ∃ e', mkCast d e (.ptr u) = .ok e' ∧ Rep d e' (.pv u b o) := by
  obtain ⟨e1, h1, h2⟩ := rep_convert h hc
  have ht := rep_pv_ty h2
  simp only [mkCast, h1, Res.bind_ok]
  split
  · rename_i he
    rw [ht] at he; cases he
    exact ⟨e1, rfl, h2⟩
  · rename_i he
    rw [ht] at he
    have hne : ¬ t = u := fun h => he (by rw [h])
    cases b with
    | named l =>
      cases h2
      exact ⟨_, fold_some (by simp [eval, onConst, evalCast, Ty.isPtr, constantCast, hne]), rfl⟩
    | literal k w j =>
      obtain ⟨ti, h3, h4, h5, h6⟩ := h2
      have h7 : eval d (.cast e1 (.ptr u)) = .ok none := by simp [eval, h5, onConst]
      refine ⟨_, fold_none h7, ti, h3, rfl, h7, fun lv n => ?_⟩
      rw [literals, h6 lv n]
      simp [fold, eval, onConst, evalCast, Ty.isPtr, constantCast, hne]
    | absolute =>
      cases h2
      exact ⟨_, fold_some (by simp [eval, onConst, evalCast, Ty.isPtr, constantCast, hne]), rfl⟩

theorem isInt_isInteger {s : ST} (h : IsInt s) : isInteger s = true := by
  revert h; cases s <;> decide

theorem rep_castNum {d e s i} (u : Ty) (hs : IsInt s) (h : Rep d e (.num s i)) :
    ∃ e', mkCast d e (.ptr u) = .ok e' ∧ Rep d e' (.pv u .absolute i) := by
  cases h
  refine ⟨_, ?_, rfl⟩
  rw [mkCast_other (e1 := .const (.num (.simple s) (BitVec.ofInt 64 i))) rfl (by simp [T.ty, K.ty])]
  exact fold_some (by simp [eval, onConst, evalCast, Ty.isPtr, constantCast, Ty.isInt, isInt_isInteger hs])

theorem promotes_int {s : ST} (h : Promotes s) : IsInt s := by revert h; cases s <;> decide

theorem promotes_contained {abi : Abi} {s : ST} (h : Promotes s) : isContainedIn abi .int (-1) s (-1) = .ok true := by
  revert h; cases abi <;> cases s <;> decide

theorem promotes_range {abi : Abi} {s : ST} (h : Promotes s) {i : Int} (hr : InRange abi s i) :
    -2 ^ 31 ≤ i ∧ i < 2 ^ 31 := by
  revert h
  cases s <;> simp [Promotes] <;> simp [InRange, inBits, signed, width] at hr <;> omega

theorem val_ofInt {abi : Abi} {s : ST} (h : Promotes s) {i : Int} (hr : InRange abi s i) :
    val ⟨s, BitVec.ofInt 64 i⟩ = i := by
  have h1 := promotes_range h hr
  unfold val
  split
  · exact toInt_ofInt64 _ (by omega)
  · rename_i hs
    have h2 : 0 ≤ i := by
      simp only [InRange, inBits, hs] at hr
      exact hr.1
    simp only [BitVec.toNat_ofInt]
    omega

theorem rep_index {d : Decls} {s : ST} {i : Int} (h : Promotes s) (hr : InRange d.abi s i) :
    promoteInt d (.const (.num (.simple s) (BitVec.ofInt 64 i))) =
      .ok (.const (.num (.simple .int) (BitVec.ofInt 64 i))) := by
  simp only [promoteInt, T.ty, K.ty]
  rw [if_pos (isInt_isInteger (promotes_int h)), promotes_contained h]
  simp only [Res.bind_ok, if_true]
  by_cases hne : s = .int
  · subst hne; exact mkCast_same rfl rfl
  · rw [mkCast_other (e1 := .const (.num (.simple s) (BitVec.ofInt 64 i))) rfl (by simp [T.ty, K.ty, hne])]
    have hv := val_ofInt h hr
    obtain ⟨c, h1, h2, h3⟩ := cast_is_conversion_partial d.abi ⟨s, BitVec.ofInt 64 i⟩ .int
      ⟨promotes_int h, by rw [hv]; exact hr⟩ (by decide) (by decide)
    rw [hv] at h3
    have hi := promotes_range h hr
    have h4 : val c = i := by
      simp only [IsConversion, InRange, inBits, signed, width] at h3
      simp at h3
      obtain ⟨h3, h5⟩ := h3
      omega
    have h5 : c.bits = BitVec.ofInt 64 i := by
      apply BitVec.eq_of_toInt_eq
      rw [toInt_ofInt64 _ (by omega)]
      rw [← h4]; unfold val; rw [h2]; rfl
    apply fold_some
    simp [eval, onConst, evalCast, Ty.isPtr, constantCast, hne, h1, h2, h5]

theorem decay_num {d : Decls} {s : ST} {v : BitVec 64} :
    decayArray d (.const (.num (.simple s) v)) = .ok (.const (.num (.simple s) v)) := rfl

theorem promote_ptr {d : Decls} {e : T} {t : Ty} (h : e.ty = .ptr t) : promoteInt d e = .ok e := by
  simp [promoteInt, h]

theorem toInt_index {abi : Abi} {s : ST} {i : Int} (h : Promotes s) (hr : InRange abi s i) :
    (BitVec.ofInt 64 i).toInt = i := toInt_ofInt64 _ (by have := promotes_range h hr; omega)

/-- Folding a step. -/
theorem step_eval {d : Decls} {t : Ty} {l o i : Int} (sign : Int) (ho : IsObject t)
    (hv : (BitVec.ofInt 64 i).toInt = i) (h1 : Small (i * bytes d t)) (h2 : Small (o + sign * (i * bytes d t))) :
    evalStep d sign (.ptr (.ptr t) l o) (.num (.simple .int) (BitVec.ofInt 64 i)) =
      .ok (some (.ptr (.ptr t) l (o + sign * (i * bytes d t)))) := by
  simp only [evalStep, hv, size_eq d t ho, int64_ok h1, Res.bind_ok, int64_ok h2]

theorem rep_padd {d e t b o i} (h : Rep d e (.pv t b o)) (hb : b ≠ .absolute) (ho : IsObject t)
    (hv : (BitVec.ofInt 64 i).toInt = i) (h1 : Small (i * bytes d t)) (h2 : Small (o + i * bytes d t)) :
    ∃ e', fold d (.padd e (.const (.num (.simple .int) (BitVec.ofInt 64 i))) (.ptr t)) = .ok e' ∧
      Rep d e' (.pv t b (o + i * bytes d t)) := by
  have h2' : Small (o + 1 * (i * bytes d t)) := by rwa [Int.one_mul]
  have hst := fun l => step_eval (d := d) (l := l) 1 ho hv h1 h2'
  simp only [Int.one_mul] at hst
  cases b with
  | named l => cases h; exact ⟨_, fold_some (by simp [eval, onConst, hst]), rfl⟩
  | literal k w j =>
    obtain ⟨ti, h3, h4, h5, h6⟩ := h
    have h7 : eval d (.padd e (.const (.num (.simple .int) (BitVec.ofInt 64 i))) (.ptr t)) = .ok none := by
      simp [eval, h5, onConst]
    refine ⟨_, fold_none h7, ti, h3, rfl, h7, fun lv n => ?_⟩
    rw [literals, h6 lv n]
    simp [literals, fold, eval, onConst, hst]
  | absolute => exact absurd rfl hb

theorem rep_psub {d e t b o i} (h : Rep d e (.pv t b o)) (hb : b ≠ .absolute) (ho : IsObject t)
    (hv : (BitVec.ofInt 64 i).toInt = i) (h1 : Small (i * bytes d t)) (h2 : Small (o - i * bytes d t)) :
    ∃ e', fold d (.psub e (.const (.num (.simple .int) (BitVec.ofInt 64 i))) (.ptr t)) = .ok e' ∧
      Rep d e' (.pv t b (o - i * bytes d t)) := by
  have he : o + -1 * (i * bytes d t) = o - i * bytes d t := by omega
  have h2' : Small (o + -1 * (i * bytes d t)) := by rwa [he]
  have hst := fun l => step_eval (d := d) (l := l) (-1) ho hv h1 h2'
  simp only [he] at hst
  cases b with
  | named l => cases h; exact ⟨_, fold_some (by simp [eval, onConst, hst]), rfl⟩
  | literal k w j =>
    obtain ⟨ti, h3, h4, h5, h6⟩ := h
    have h7 : eval d (.psub e (.const (.num (.simple .int) (BitVec.ofInt 64 i))) (.ptr t)) = .ok none := by
      simp [eval, h5, onConst]
    refine ⟨_, fold_none h7, ti, h3, rfl, h7, fun lv n => ?_⟩
    rw [literals, h6 lv n]
    simp [literals, fold, eval, onConst, hst]
  | absolute => exact absurd rfl hb

theorem den_num {d e s i} (h : Den d e (.num s i)) : e = .num s i ∧ IsInt s ∧ InRange d.abi s i := by
  cases h with
  | num _ _ h1 h2 => exact ⟨rfl, h1, h2⟩

/-- The literal of a value. -/
def litsOf : V → List (Nat × Ty × I)
  | .lv _ (.literal k t i) _ => [(k, t, i)]
  | .pv _ (.literal k t i) _ => [(k, t, i)]
  | _ => []

theorem litsOf_convert {v t b o} (h : Converts v t b o) : litsOf v = litsOf (.pv t b o) := by
  cases h <;> cases b <;> rfl

theorem litsOf_base (t : Ty) (b : AddrConstSpec.Base) (o : Int) (u : Ty) (o' : Int) :
    litsOf (.pv t b o) = litsOf (.lv u b o') ∧ litsOf (.pv t b o) = litsOf (.pv u b o') := by
  cases b <;> exact ⟨rfl, rfl⟩

theorem den_lits {d e v} (h : Den d e v) : literalIn e = litsOf v := by
  induction h with
  | obj => rfl
  | lit => rfl
  | num => rfl
  | addr _ ih => rw [literalIn, ih]; exact ((litsOf_base _ _ _ _ _).1).symm
  | deref _ hc ih => rw [literalIn, ih, litsOf_convert hc]; exact (litsOf_base _ _ _ _ _).1
  | dot _ _ _ _ ih =>
    rw [literalIn, ih, ← (litsOf_base (.simple .int) _ 0 _ _).1]; exact (litsOf_base _ _ _ _ _).1
  | addL _ hc _ _ _ _ ih ih2 =>
    rw [literalIn, ih, ih2, litsOf_convert hc]
    exact (List.append_nil _).trans (litsOf_base _ _ _ _ _).2
  | addR _ hc _ _ _ _ ih ih2 =>
    rw [literalIn, ih, ih2, litsOf_convert hc]
    exact (List.nil_append _).trans (litsOf_base _ _ _ _ _).2
  | sub _ hc _ _ _ _ ih ih2 =>
    rw [literalIn, ih, ih2, litsOf_convert hc]
    exact (List.append_nil _).trans (litsOf_base _ _ _ _ _).2
  | cast _ hc ih => rw [literalIn, ih, litsOf_convert hc]; exact (litsOf_base _ _ _ _ _).2
  | castNum _ ih => rw [literalIn, ih]; rfl

/-- At an absolute address. -/
def IsAbs : V → Prop
  | .lv _ .absolute _ => True
  | .pv _ .absolute _ => True
  | _ => False

theorem isAbs_convert {v t b o} (h : Converts v t b o) (ha : IsAbs (.pv t b o)) : IsAbs v := by
  cases h <;> cases b <;> first | exact ha | exact trivial | cases ha

theorem isAbs_base {t b o} (u : Ty) (o' : Int) (ha : IsAbs (.pv t b o)) : IsAbs (.pv u b o') := by
  cases b <;> first | exact trivial | cases ha

theorem isAbs_lv {t b o} (u : Ty) (o' : Int) (ha : IsAbs (.lv t b o)) : IsAbs (.pv u b o') := by
  cases b <;> first | exact trivial | cases ha

theorem isAbs_pv {t b o} (u : Ty) (o' : Int) (ha : IsAbs (.pv t b o)) : IsAbs (.lv u b o') := by
  cases b <;> first | exact trivial | cases ha

theorem den_lv {d e v} (h : Den d e v) : ∀ {t b o}, v = .lv t b o → isAbsolute e = false := by
  intro t b o hv
  cases h <;> first | rfl | cases hv

theorem den_abs {d e v} (h : Den d e v) (hk : Known e) (ha : IsAbs v) : isAbsolute e = true := by
  induction h with
  | obj => cases ha
  | lit => cases ha
  | num => cases ha
  | addr h1 ih =>
    have := ih (by simpa only [Known] using hk) (isAbs_pv _ _ ha)
    rw [den_lv h1 rfl] at this; cases this
  | deref _ hc ih =>
    simp only [Known] at hk
    have := ih hk.1 (isAbs_convert hc (isAbs_lv _ _ ha))
    rw [hk.2] at this; cases this
  | dot h1 _ _ _ ih =>
    have := ih (by simpa only [Known] using hk) (isAbs_pv _ _ (isAbs_lv (.simple .int) 0 ha))
    rw [den_lv h1 rfl] at this; cases this
  | addL _ hc _ _ _ _ ih ih2 =>
    simp only [Known] at hk
    have := ih hk.1 (isAbs_convert hc (isAbs_base _ _ ha))
    rw [hk.2.2.1] at this; cases this
  | addR _ hc _ _ _ _ ih ih2 =>
    simp only [Known] at hk
    have := ih hk.2.1 (isAbs_convert hc (isAbs_base _ _ ha))
    rw [hk.2.2.2.1] at this; cases this
  | sub _ hc _ _ _ _ ih ih2 =>
    simp only [Known] at hk
    have := ih hk.1 (isAbs_convert hc (isAbs_base _ _ ha))
    rw [hk.2.2.1] at this; cases this
  | @cast e0 v t b o u h1 hc ih =>
    have := ih (by simpa only [Known] using hk) (isAbs_convert hc (isAbs_base _ _ ha))
    cases e0 <;> simp_all [isAbsolute]
  | castNum h1 ih =>
    obtain ⟨rfl, _⟩ := den_num h1
    rfl

theorem not_abs {d e v t b o} (h : Den d e v) (hc : Converts v t b o) (hk : Known e)
    (ha : isAbsolute e = false) : b ≠ .absolute := by
  rintro rfl
  have := den_abs h hk (by cases hc <;> trivial)
  rw [ha] at this; cases this

theorem rep_den {d e v} (h : Den d e v) (hk : Known e)
    (hl : ∀ x ∈ literalIn e, ∃ ti, buildI d x.2.2 = .ok ti) : ∃ e', build d e = .ok e' ∧ Rep d e' v := by
  induction h with
  | obj => exact ⟨_, rfl, rfl⟩
  | lit k t i =>
    obtain ⟨ti, h⟩ := hl (k, t, i) (by simp [literalIn])
    refine ⟨.literal t ti, by simp only [build]; rw [h]; rfl, ti, h, rfl, rfl, fun n => rfl⟩
  | num => exact ⟨_, rfl, rfl⟩
  | addr h1 ih =>
    simp only [Known, literalIn] at hk hl
    obtain ⟨e', h2, h3⟩ := ih hk hl
    obtain ⟨e2, h4, h5⟩ := rep_addr h3
    exact ⟨e2, by simp [build, h2, h4], h5⟩
  | deref h1 hc ih =>
    simp only [Known, literalIn] at hk hl
    obtain ⟨e', h2, h3⟩ := ih hk.1 hl
    obtain ⟨e2, h4, h5⟩ := rep_deref h3 hc (not_abs h1 hc hk.1 hk.2)
    exact ⟨e2, by simp [build, h2, h4], h5⟩
  | dot h1 hm hb hs ih =>
    simp only [Known, literalIn] at hk hl
    obtain ⟨e', h2, h3⟩ := ih hk hl
    obtain ⟨e2, h4, h5⟩ := rep_dot h3 hm hb hs
    exact ⟨e2, by simp [build, h2, h4], h5⟩
  | addL h1 hc hi ho s1 s2 ih ih2 =>
    obtain ⟨rfl, hsi, hr⟩ := den_num hi
    simp only [Known, literalIn, IndexOk] at hk hl
    obtain ⟨e', h2, h3⟩ := ih hk.1 (fun x hx => hl x (by simp [hx]))
    obtain ⟨e1, h4, h5⟩ := rep_convert h3 hc
    have ht := rep_pv_ty h5
    obtain ⟨e2, h6, h7⟩ := rep_padd h5 (not_abs h1 hc hk.1 hk.2.2.1) ho (toInt_index hk.2.2.2.2.2 hr) s1 s2
    refine ⟨e2, ?_, h7⟩
    simp only [build, h2, Res.bind_ok, mkAdd, h4, decay_num, promote_ptr ht, rep_index hk.2.2.2.2.2 hr, ht]
    exact h6
  | addR h1 hc hi ho s1 s2 ih ih2 =>
    obtain ⟨rfl, hsi, hr⟩ := den_num hi
    simp only [Known, literalIn, IndexOk] at hk hl
    obtain ⟨e', h2, h3⟩ := ih hk.2.1 (fun x hx => hl x (by simp [hx]))
    obtain ⟨e1, h4, h5⟩ := rep_convert h3 hc
    have ht := rep_pv_ty h5
    obtain ⟨e2, h6, h7⟩ := rep_padd h5 (not_abs h1 hc hk.2.1 hk.2.2.2.1) ho (toInt_index hk.2.2.2.2.1 hr) s1 s2
    refine ⟨e2, ?_, h7⟩
    simp only [build, h2, Res.bind_ok, mkAdd, h4, decay_num, promote_ptr ht, rep_index hk.2.2.2.2.1 hr, ht]
    exact h6
  | sub h1 hc hi ho s1 s2 ih ih2 =>
    obtain ⟨rfl, hsi, hr⟩ := den_num hi
    simp only [Known, literalIn, IndexOk] at hk hl
    obtain ⟨e', h2, h3⟩ := ih hk.1 (fun x hx => hl x (by simp [hx]))
    obtain ⟨e1, h4, h5⟩ := rep_convert h3 hc
    have ht := rep_pv_ty h5
    obtain ⟨e2, h6, h7⟩ := rep_psub h5 (not_abs h1 hc hk.1 hk.2.2.1) ho (toInt_index hk.2.2.2 hr) s1 s2
    refine ⟨e2, ?_, h7⟩
    simp only [build, h2, Res.bind_ok, mkSub, h4, decay_num, promote_ptr ht, rep_index hk.2.2.2 hr, ht]
    exact h6
  | cast h1 hc ih =>
    simp only [Known, literalIn] at hk hl
    obtain ⟨e', h2, h3⟩ := ih hk hl
    obtain ⟨e2, h4, h5⟩ := rep_cast _ h3 hc
    exact ⟨e2, by simp [build, h2, h4], h5⟩
  | castNum h1 ih =>
    simp only [Known, literalIn] at hk hl
    obtain ⟨e', h2, h3⟩ := ih hk hl
    obtain ⟨e2, h4, h5⟩ := rep_castNum _ (den_num h1).2.1 h3
    exact ⟨e2, by simp [build, h2, h4], h5⟩

theorem isValue_convert {d e v t b o u} (h : Den d e v) (hc : Converts v t b o) : isValue (.ptr u) e = false := by
  cases h <;> first | rfl | skip
  rename_i w _ _
  simp only [isValue, decide_eq_false_iff_not]
  rintro rfl
  cases hc

theorem isValue_num {d e s i t} (h : Den d e (.num s i)) : isValue t e = false := by
  obtain ⟨rfl, _⟩ := den_num h; rfl

/-- Without literals whose addresses are used. -/
theorem build_plain {d lab i n} (h : Init d lab i n) (hk : KnownInit i) (ha : addressed i = []) :
    ∃ ti, buildI d i = .ok ti ∧ node d ti = n ∧ ∀ next, preInitializer d next ti = .ok (ti, next, []) := by
  induction h with
  | empty => exact ⟨_, rfl, rfl, fun _ => rfl⟩
  | string => exact ⟨_, rfl, rfl, fun _ => rfl⟩
  | last => exact ⟨_, rfl, rfl, fun _ => rfl⟩
  | @entry o bo bs i rest n m h1 h2 ih1 ih2 =>
    simp only [KnownInit] at hk
    simp only [addressed, List.append_eq_nil_iff] at ha
    obtain ⟨t1, a1, b1, c1⟩ := ih1 hk.1 ha.1
    obtain ⟨t2, a2, b2, c2⟩ := ih2 hk.2 ha.2
    refine ⟨.entry o bo bs t1 t2, by simp only [buildI, a1, a2, Res.bind_ok], by simp [node, b1, b2], fun next => ?_⟩
    simp [preInitializer, c1, c2]
  | @address u e v t b o h1 hc =>
    simp only [KnownInit] at hk
    simp only [addressed, isValue_convert h1 hc] at ha
    have ha : literalIn e = [] := by simpa using ha
    obtain ⟨e', h2, h3⟩ := rep_den h1 hk (by simp [ha])
    obtain ⟨e2, h4, h5⟩ := rep_cast u h3 hc
    have hb := den_lits h1
    rw [ha, litsOf_convert hc] at hb
    refine ⟨.expr e2, by simp [buildI, h2, h4], ?_⟩
    cases b with
    | named l => cases h5; exact ⟨rfl, fun _ => rfl⟩
    | literal => simp [litsOf] at hb
    | absolute => cases h5; exact ⟨rfl, fun _ => rfl⟩
  | @integer e s i h1 =>
    obtain ⟨rfl, hs, hr⟩ := den_num h1
    refine ⟨.expr (.const (.num (.simple s) (BitVec.ofInt 64 i))), ?_, ?_, fun _ => rfl⟩
    · simp only [buildI, build, Res.bind_ok]
      rw [mkCast_same (e1 := .const (.num (.simple s) (BitVec.ofInt 64 i))) (t := .simple s) rfl rfl]; rfl
    · show Node.const (AddrConst.sizeOf d (.simple s)).toNat _ = _
      rw [size_eq d (.simple s) trivial]
  | @null u e s i h1 =>
    obtain ⟨rfl, hs, hr⟩ := den_num h1
    obtain ⟨e2, h4, h5⟩ := rep_castNum (d := d) u hs (e := .const (.num (.simple s) (BitVec.ofInt 64 i))) rfl
    cases h5
    exact ⟨_, by simp only [buildI, build, Res.bind_ok]; rw [h4]; rfl, rfl, fun _ => rfl⟩
  | @value k t i n h1 h2 h3 ih =>
    simp only [KnownInit, Known] at hk
    obtain ⟨ti, a1, b1, c1⟩ := ih hk.1 hk.2
    refine ⟨.expr (.literal t ti), ?_, by simp [node, exprNode, b1], fun _ => rfl⟩
    have hd : decayArray d (.literal t ti) = .ok (.literal t ti) := by
      unfold decayArray
      split
      · rename_i he; exact absurd he (h1 _ _)
      · rename_i he; exact absurd he h2
      · rfl
    simp only [buildI, build, a1, Res.bind_ok]
    rw [mkCast_same (t := t) hd rfl]; rfl

theorem den_literal_object {d e v} (h : Den d e v) : ∀ x ∈ litsOf v, IsObject x.2.1 ∧ (Known e → KnownInit x.2.2 ∧ addressed x.2.2 = []) := by
  induction h with
  | obj => simp [litsOf]
  | lit k t i ho =>
    intro x hx
    simp only [litsOf, List.mem_singleton] at hx
    subst hx
    exact ⟨ho, fun hk => by simpa only [Known] using hk⟩
  | num => simp [litsOf]
  | addr _ ih =>
    intro x hx
    rw [(litsOf_base _ _ _ _ _).1] at hx
    exact ⟨(ih x hx).1, fun hk => (ih x hx).2 (by simpa only [Known] using hk)⟩
  | deref _ hc ih =>
    intro x hx
    rw [← (litsOf_base _ _ _ _ _).1, ← litsOf_convert hc] at hx
    exact ⟨(ih x hx).1, fun hk => (ih x hx).2 (by simp only [Known] at hk; exact hk.1)⟩
  | dot _ _ _ _ ih =>
    intro x hx
    rw [← (litsOf_base (.simple .int) _ 0 _ _).1, (litsOf_base _ _ _ _ _).1] at hx
    exact ⟨(ih x hx).1, fun hk => (ih x hx).2 (by simpa only [Known] using hk)⟩
  | addL _ hc _ _ _ _ ih ih2 =>
    intro x hx
    rw [← (litsOf_base _ _ _ _ _).2, ← litsOf_convert hc] at hx
    exact ⟨(ih x hx).1, fun hk => (ih x hx).2 (by simp only [Known] at hk; exact hk.1)⟩
  | addR _ hc _ _ _ _ ih ih2 =>
    intro x hx
    rw [← (litsOf_base _ _ _ _ _).2, ← litsOf_convert hc] at hx
    exact ⟨(ih x hx).1, fun hk => (ih x hx).2 (by simp only [Known] at hk; exact hk.2.1)⟩
  | sub _ hc _ _ _ _ ih ih2 =>
    intro x hx
    rw [← (litsOf_base _ _ _ _ _).2, ← litsOf_convert hc] at hx
    exact ⟨(ih x hx).1, fun hk => (ih x hx).2 (by simp only [Known] at hk; exact hk.1)⟩
  | cast _ hc ih =>
    intro x hx
    rw [← (litsOf_base _ _ _ _ _).2, ← litsOf_convert hc] at hx
    exact ⟨(ih x hx).1, fun hk => (ih x hx).2 (by simpa only [Known] using hk)⟩
  | castNum => simp [litsOf]

/-- What is emitted for the literals. -/
def pend (d : Decls) (nodeOf : Nat → Node) (next : Int) : List (Nat × Ty × I) → Pending
  | [] => []
  | x :: xs => (next, (bytes d x.2.1).toNat, nodeOf x.1) :: pend d nodeOf (next - 1) xs

theorem pend_append (d : Decls) (nodeOf : Nat → Node) : ∀ (xs : List (Nat × Ty × I)) (next : Int) (ys : List (Nat × Ty × I)),
    pend d nodeOf next (xs ++ ys) = pend d nodeOf next xs ++ pend d nodeOf (next - xs.length) ys
  | [], next, ys => by simp [pend]
  | x :: xs, next, ys => by
    simp only [List.cons_append, pend, List.length_cons]
    rw [pend_append d nodeOf xs (next - 1) ys]
    congr 3
    omega

theorem build_init {d lab i n} (nodeOf : Nat → Node) (h : Init d lab i n) (hk : KnownInit i) (next : Int)
    (hn : ∀ x ∈ addressed i, Init d lab x.2.2 (nodeOf x.1))
    (hlab : ∀ (j : Nat) (x : Nat × Ty × I), (addressed i)[j]? = some x → lab x.1 = next - j) :
    ∃ ti ti' ls, buildI d i = .ok ti ∧ preInitializer d next ti = .ok (ti', next - (addressed i).length, ls) ∧
      node d ti' = n ∧ ls.map (pendingOf d) = pend d nodeOf next (addressed i) := by
  by_cases hz : addressed i = []
  · obtain ⟨ti, h1, h2, h3⟩ := build_plain h hk hz
    exact ⟨ti, ti, [], h1, by simp [h3, hz], h2, by simp [hz, pend]⟩
  induction h generalizing next with
  | empty => exact absurd rfl hz
  | string => exact absurd rfl hz
  | last => exact absurd rfl hz
  | @entry o bo bs i rest n m h1 h2 ih1 ih2 =>
    simp only [KnownInit] at hk
    simp only [addressed] at hn hlab ⊢
    have r1 : ∃ ti ti' ls, buildI d i = .ok ti ∧ preInitializer d next ti = .ok (ti', next - (addressed i).length, ls) ∧
        node d ti' = n ∧ ls.map (pendingOf d) = pend d nodeOf next (addressed i) := by
      by_cases hz : addressed i = []
      · obtain ⟨ti, h1, h2, h3⟩ := build_plain h1 hk.1 hz
        exact ⟨ti, ti, [], h1, by simp [h3, hz], h2, by simp [hz, pend]⟩
      · refine ih1 hk.1 next (fun x hx => hn x (by simp [hx])) (fun j x hj => hlab j x ?_) hz
        rw [List.getElem?_append_left (List.getElem?_eq_some_iff.mp hj).1]; exact hj
    have r2 : ∃ ti ti' ls, buildI d rest = .ok ti ∧
        preInitializer d (next - (addressed i).length) ti =
          .ok (ti', next - (addressed i).length - (addressed rest).length, ls) ∧
        node d ti' = m ∧ ls.map (pendingOf d) = pend d nodeOf (next - (addressed i).length) (addressed rest) := by
      by_cases hz : addressed rest = []
      · obtain ⟨ti, h1, h2, h3⟩ := build_plain h2 hk.2 hz
        exact ⟨ti, ti, [], h1, by simp [h3, hz], h2, by simp [hz, pend]⟩
      · refine ih2 hk.2 _ (fun x hx => hn x (by simp [hx])) (fun j x hj => ?_) hz
        have := hlab ((addressed i).length + j) x (by
          rw [List.getElem?_append_right (by omega)]; simpa using hj)
        rw [this]; omega
    obtain ⟨t1, t1', l1, a1, b1, c1, e1⟩ := r1
    obtain ⟨t2, t2', l2, a2, b2, c2, e2⟩ := r2
    refine ⟨.entry o bo bs t1 t2, .entry o bo bs t1' t2', l1 ++ l2, by simp only [buildI, a1, a2, Res.bind_ok], ?_, by simp [node, c1, c2], ?_⟩
    · simp only [preInitializer, b1, b2, Res.bind_ok, List.length_append]
      congr 3
      omega
    · rw [List.map_append, e1, e2, pend_append]
  | @address u e v t b o h1 hc =>
    simp only [KnownInit] at hk
    have hval := isValue_convert (u := u) h1 hc
    simp only [addressed, hval] at hn hlab hz ⊢
    simp only [Bool.false_eq_true, if_false] at hn hlab hz ⊢
    have hb := den_lits h1
    rw [litsOf_convert hc] at hb
    have hobj := den_literal_object h1
    rw [litsOf_convert hc] at hobj
    cases b with
    | named l => exact absurd hb hz
    | absolute => exact absurd hb hz
    | literal k t0 i0 =>
      have hb : literalIn e = [(k, t0, i0)] := hb
      rw [hb] at hn hlab
      have hn0 := hn _ (List.mem_singleton.mpr rfl)
      obtain ⟨ho, hkn⟩ := hobj (k, t0, i0) (List.mem_singleton.mpr rfl)
      obtain ⟨ti, b1, b2, b3⟩ := build_plain hn0 (hkn hk).1 (hkn hk).2
      obtain ⟨e', h2, h3⟩ := rep_den h1 hk (by
        rw [hb]; intro x hx; cases List.mem_singleton.mp hx; exact ⟨ti, b1⟩)
      obtain ⟨e2, h4, ti', h5, h6, h7, h8⟩ := rep_cast u h3 hc
      rw [b1] at h5; cases h5
      refine ⟨.expr e2, .expr (.const (.ptr (.ptr u) next o)), [(next, t0, ti)], by simp [buildI, h2, h4], ?_, ?_, ?_⟩
      · simp [preInitializer, h8, hb]
      · have := hlab 0 (k, t0, i0) rfl
        simp only [node, exprNode, addressNode, labelOf]
        rw [this]; simp
      · simp [hb, pend, pendingOf, b2, size_eq d t0 ho]
  | @integer e s i h1 => exact absurd (by obtain ⟨rfl, _⟩ := den_num h1; rfl) hz
  | @null u e s i h1 => exact absurd (by obtain ⟨rfl, _⟩ := den_num h1; rfl) hz
  | value => exact absurd (by simp [addressed, isValue]) hz

theorem bytes_nonneg (d : Decls) : ∀ t, 0 ≤ bytes d t
  | .simple s => by cases s <;> simp [bytes] <;> omega
  | .ptr _ => by simp [bytes]
  | .array t n => by simp only [bytes]; exact Int.mul_nonneg (by omega) (bytes_nonneg d t)
  | .record k => by simp [bytes]
  | .func => by simp [bytes]

theorem offset_nonneg {d t p o u} (h : Offset d t p o u) : 0 ≤ o := by
  induction h with
  | nil => omega
  | member _ _ _ ih => omega
  | @index t n s v p o u _ _ _ hv _ ih =>
    have := Int.mul_nonneg hv (bytes_nonneg d t)
    omega

theorem pend_length (d : Decls) (nodeOf : Nat → Node) : ∀ (xs : List (Nat × Ty × I)) (next : Int),
    (pend d nodeOf next xs).length = xs.length
  | [], _ => rfl
  | x :: xs, next => by simp [pend, pend_length d nodeOf xs]

theorem pend_get (d : Decls) (nodeOf : Nat → Node) : ∀ (xs : List (Nat × Ty × I)) (next : Int) (j : Nat) (x : Nat × Ty × I),
    xs[j]? = some x → (pend d nodeOf next xs)[j]? = some (next - j, (bytes d x.2.1).toNat, nodeOf x.1)
  | [], _, _, _, h => by simp at h
  | y :: xs, next, 0, x, h => by simp at h; subst h; simp [pend]
  | y :: xs, next, j + 1, x, h => by
    simp only [List.getElem?_cons_succ] at h
    simp only [pend, List.getElem?_cons_succ]
    rw [pend_get d nodeOf xs (next - 1) j x h]
    congr 2
    omega

theorem rep_offset {d t p o u} (h : Offset d t p o u) (hp : IntIndices p) : ∀ (e : E) (o0 : Int), 0 ≤ o0 → Small (o0 + o) →
    build d e = .ok (.const (.lab t (-1) o0)) →
    build d (p.foldl addStep e) = .ok (.const (.lab u (-1) (o0 + o))) := by
  induction h with
  | nil => intro e o0 _ _ he; simpa using he
  | @member r i m p o t hm hb h1 ih =>
    intro e o0 h0 hs he
    have hn := offset_nonneg h1
    have hs1 : Small (o0 + m.offset) := by unfold Small at hs ⊢; omega
    obtain ⟨e', h2, h3⟩ := rep_dot (d := d) (e := .const (.lab (.record r) (-1) o0)) (b := .named (-1)) rfl hm hb hs1
    cases h3
    have := ih (fun s v hx => hp s v (List.mem_cons_of_mem _ hx)) (.dot e i) (o0 + m.offset) (by omega)
      (by rwa [Int.add_assoc]) (by simp [build, he, h2])
    rw [List.foldl_cons]
    exact this.trans (by rw [Int.add_assoc])
  | @index t n s v p o u ho hsi hr hv h1 ih =>
    intro e o0 h0 hs he
    have hn := offset_nonneg h1
    have hm := Int.mul_nonneg hv (bytes_nonneg d t)
    have hpr : Promotes s := hp s v (by simp)
    have hs1 : Small (v * bytes d t) := by unfold Small at hs ⊢; omega
    have hs2 : Small (o0 + v * bytes d t) := by unfold Small at hs ⊢; omega
    obtain ⟨e1, h2, h3⟩ := rep_convert (d := d) (e := .const (.lab (.array t n) (-1) o0)) (v := .lv (.array t n) (.named (-1)) o0) rfl (.array t n _ o0)
    have ht := rep_pv_ty h3
    obtain ⟨e2, h4, h5⟩ := rep_padd h3 (by simp) ho (toInt_index hpr hr) hs1 hs2
    obtain ⟨e3, h6, h7⟩ := rep_deref h5 (.pv _ _ _) (by simp)
    cases h7
    have hb : build d (.deref (.add e (.num s v))) = .ok (.const (.lab t (-1) (o0 + v * bytes d t))) := by
      simp only [build, he, Res.bind_ok, mkAdd, h2, decay_num, promote_ptr ht, rep_index hpr hr, ht]
      have : (Ty.ptr t).isPtr = true := rfl
      simp only [this, T.ty, K.ty]
      simp only [Ty.isPtr, Bool.and_false, Bool.false_eq_true, if_false, if_true]
      rw [h4]; exact h6
    have := ih (fun s v hx => hp s v (List.mem_cons_of_mem _ hx)) (.deref (.add e (.num s v))) (o0 + v * bytes d t) (by omega)
      (by rwa [Int.add_assoc]) hb
    rw [List.foldl_cons]
    exact this.trans (by rw [Int.add_assoc])

end Verif.AddrConstLemmas
