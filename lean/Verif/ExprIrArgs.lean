import Verif.ExprIrFlow
/-!
Lemmas for C92: the comma operator, calls, the arms of conditional expressions.
-/
namespace Verif.ExprIr
open Verif.SimpleSpec Verif.ExprIrSpec
open Verif.Simple hiding Promoted
open Verif.CodegenSpec (bytes Promoted IsRel)
open Verif.Codegen (IrOp irFromTypeAndOp irBinaryOp bvOp)
open Verif.X86 (rd wr)

theorem Runs.comma {d : Decls} {W : World} {a b : TE} {mem mem1 mem2 : Mem} {Ta T : Ty} {x y : Nat} {srcA src : Option Src} {wa wd : Prop}
    (ha : Runs d W a mem Ta x srcA wa mem1) (hb : Runs d W b mem1 T y src wd mem2) (htb : d.tyOf b = T) :
    Runs d W (.comma a b) mem T y src wd mem2 := by
  intro st m ho hvs hm
  obtain ⟨v, st1, m1, e1, g1, hm1, _⟩ := ha st m ho hvs hm
  obtain ⟨v', st2, m2, e2, g2, hm2, h2⟩ := hb st1 m1 g1.opened (HasVars.mono hvs g1) hm1
  exact ⟨_, st2, m2, ev_comma d st e1 e2, g1.trans ho g2, hm2, htb, h2.val, h2.lt⟩

theorem Runs.const {d : Decls} {W : World} {s : ST} {x : Nat} (mem : Mem) (hi : IsInt s) (hx : x < 256 ^ bytes .sysv s) (src : Option Src) (wd : Prop) :
    Runs d W (.const s x) mem (.simple s) x src wd mem := by
  intro st m ho hvs hm
  have hs := osize_scalar d (t := .simple s) hi
  refine ⟨_, st, m, ev_const d st s x, Gen.refl W ho m, hm, rfl, ⟨⟨s, rfl, hi⟩, (sizeOf_bytes hi).trans hs.symm, rfl⟩, fun _ => ?_⟩
  rw [hs]
  exact hx

/-! ### There is a place to translate the expression to -/

def st0 (d : Decls) : St :=
  { next := d.nvars + 1, cur := d.nvars, size := fun _ => 8, code := fun _ => [], uses := fun _ => [], preds := fun _ => 0 }

theorem Runs.lt {d : Decls} {W : World} {e : TE} {mem mem' : Mem} {T : Ty} {x : Nat} {src : Option Src} {wd : Prop}
    (h : Runs d W e mem T x src wd mem') (hT : IsValue T) : x < 256 ^ osize d T := by
  obtain ⟨v, st', m', _, _, _, hh⟩ := h (st0 d) ⟨fun x => some (.word (W.addr x).toNat), fun _ => none, mem⟩
    ⟨Nat.lt_succ_self _, rfl, fun _ _ => ⟨rfl, rfl, rfl⟩⟩ ⟨Nat.le_succ _, fun _ _ => ⟨rfl, rfl⟩⟩ rfl
  exact hh.lt hT

/-! ### Promotions and arms -/

theorem scalar_value {T : Ty} (h : IsScalar T) : IsValue T := by
  cases T <;> first | exact h | exact trivial | exact h.elim

theorem Runs.promTo {d : Decls} {W : World} {te : TE} {mem mem' : Mem} {T T1 : Ty} {w : Option Nat} {x : Nat} {src : Option Src} {wd : Prop}
    (h : Runs d W (d.decay te) mem (decayed T) x src wd mem') (ht : d.tyOf te = T) (hf : Fits T w x) (hp : PromTo T w T1)
    (hs : IsScalar (decayed T)) :
    ∃ y, (y = 0 ↔ x = 0) ∧ Runs d W (d.castTo te T1) mem T1 y src wd mem' := by
  rcases hp with ⟨s, s', rfl, hg, hp, rfl⟩ | ⟨_, rfl⟩
  · have hd : d.decay te = te := decay_id (by rw [ht]; rfl)
    rw [hd] at h
    have hx := h.lt (T := .simple s) hg.1
    rw [osize_scalar d (t := .simple s) hg.1] at hx
    obtain ⟨y, h1, h2⟩ := Runs.prom (s := s) h ht hx hg hf hp
    refine ⟨y, ?_, h2⟩
    rw [← valueOf_zero (t := .simple s') (promoted_scalar (promotion_promoted hg hp).1) h1.1, h1.2]
    exact valueOf_zero (t := .simple s) hg.1 hx
  · rw [castTo_same (by rw [ht])]
    exact ⟨x, Iff.rfl, h⟩

theorem conversion_self {t : Ty} (ht : IsScalar t) (hb : t ≠ .simple .bool) (x : Nat) : IsConversion .sysv (asInt t) (valueOf t x) (valueOf t x) := by
  have hb' : asInt t ≠ .bool := by
    cases t with
    | simple s => intro h; exact hb (by rw [show s = .bool from h])
    | ptr t => intro h; cases h
    | _ => exact ht.elim
  refine inRange_conversion hb' ?_
  have := valueOf_inBits ht x
  unfold InRange
  have hw : width .sysv (asInt t) = 8 * bytes .sysv (asInt t) := by
    have := asInt_int ht
    revert hb' this
    cases asInt t <;> decide
  rw [hw]
  exact this

/-- A conversion by way of the promoted type. -/
theorem conv_prom {s s' : ST} {T : Ty} {x y z : Nat} (hs : IsInt s) (hx : x < 256 ^ bytes .sysv s) (hs' : IsInt s') (h : Rep (.simple s') (valueOf (.simple s) x) y)
    (hT : IsScalar T) (hb : T ≠ .simple .bool) (hc : Conv (.simple s) T x z) : Conv (.simple s') T y z := by
  have key : ∃ v, IsConversion .sysv (asInt T) (valueOf (.simple s) x) v ∧ Rep T v z := by
    unfold Conv at hc
    by_cases e : Ty.simple s = T
    · rw [if_pos e] at hc
      subst hc
      subst e
      exact ⟨_, conversion_self hT hb z, hx, rfl⟩
    · rw [if_neg e] at hc
      obtain ⟨v, _, _, h1, h2⟩ := hc
      exact ⟨v, h1, h2⟩
  obtain ⟨v, h1, h2⟩ := key
  unfold Conv
  by_cases e : Ty.simple s' = T
  · rw [if_pos e]
    subst e
    rw [← h.2] at h1
    have := Simple.conversion_unique .sysv s' hs' _ _ _ h1 (conversion_self (t := .simple s') hT hb y)
    subst this
    exact rep_unique h2 ⟨h.1, rfl⟩
  · rw [if_neg e]
    exact ⟨v, hs', hT, by rw [h.2]; exact h1, h2⟩

theorem Runs.arm {d : Decls} {W : World} {te : TE} {mem mem' : Mem} {Ta T2 T : Ty} {w : Option Nat} {y z : Nat} {src : Option Src} {wd : Prop}
    (h : Runs d W (d.decay te) mem (decayed Ta) y src wd mem') (ht : d.tyOf te = Ta) (hf : Fits Ta w y) (hp : PromTo Ta w T2)
    (hq : T2 = T ∨ IsScalar T2 ∧ IsScalar T) (hb : T ≠ .simple .bool) (hv : T = .void ∨ IsValue T) (hc : Conv (decayed Ta) T y z) :
    Runs d W (d.castTo (d.castTo te T2) T) mem T z (if decayed Ta = T then src else none) wd mem' := by
  have hdT : decayed T = T := by
    rcases hv with rfl | hv
    · rfl
    · exact decayed_value hv
  rcases hp with ⟨s, s', rfl, hg, hp, rfl⟩ | ⟨_, rfl⟩
  · have hs' := promoted_scalar (promotion_promoted hg hp).1
    have hd : d.decay te = te := decay_id (by rw [ht]; rfl)
    have h' := h
    rw [hd] at h'
    have hx := h'.lt (T := .simple s) hg.1
    rw [osize_scalar d (t := .simple s) hg.1] at hx
    obtain ⟨k, h1, h2⟩ := conv_of_conversion (t := s') hg.1 (promotion_promoted hg hp).1 hx
      (inRange_conversion (promoted_not_bool (promotion_promoted hg hp).1) (prom_inRange hg hf hp))
    have hT : IsScalar T := by
      rcases hq with rfl | hq
      · exact hs'
      · exact hq.2
    have c2 := conv_prom hg.1 hx hs' h1 hT hb hc
    have r1 : Runs d W (d.castTo te (.simple s')) mem (.simple s') k
        (if decayed (.simple s) = .simple s' then src else if decayed (.simple s) = T then src else none) wd mem' :=
      (h.castTo (by rw [ht]) (.inl (scalar_ne_void (T := .simple s') hs')) h2 (fun e => by rw [if_pos e])).wd_mono (fun h _ => h.1)
    have hd2 : d.decay (d.castTo te (.simple s')) = d.castTo te (.simple s') := decay_id (by rw [tyOf_castTo]; rfl)
    refine (Runs.castTo (T := .simple s') (by rw [hd2]; exact r1) (by rw [tyOf_castTo]; rfl) (.inl (scalar_ne_void hT)) c2 (fun e => ?_)).wd_mono (fun h _ => h.1)
    by_cases e2 : decayed (.simple s) = .simple s'
    · rw [if_pos e2, if_pos (e2.trans e)]
    · rw [if_neg e2]
  · rw [castTo_same (e := te) (by rw [ht])]
    have hd2 : d.decay (d.decay te) = d.decay te := decay_decay d te
    refine (Runs.castTo (T := decayed Ta) (by rw [hd2]; exact h) (by rw [tyOf_decay, ht, decayed_decayed]) ?_ hc (fun e => by rw [if_pos e])).wd_mono (fun h _ => h.1)
    rcases hq with e | ⟨_, hs⟩
    · exact .inr e
    · exact .inl (scalar_ne_void hs)

/-! ### Calls -/

/-- The evaluated arguments have the values. -/
def HoldArgs (d : Decls) (st : St) (m : M) : List EV → List (Ty × Nat × Option Src) → Prop
  | [], [] => True
  | v :: vs, (p, x, src) :: l => IsValue p ∧ Holds d st m p x src False v ∧ HoldArgs d st m vs l
  | _, _ => False

def RunsArgs (d : Decls) (W : World) (e : TE) (ps : List Ty) (mem : Mem) (l : List (Ty × Nat × Option Src)) (mem' : Mem) : Prop :=
  ∀ st m, Open st → HasVars d W st m → m.mem = mem → ∃ vs st' m', d.arguments ps e st = .ok (vs, st') ∧ Gen W st st' m m' ∧
    m'.mem = mem' ∧ HoldArgs d st' m' vs l

theorem HoldArgs.mono {d : Decls} {W : World} {st st' : St} {m m' : M} (g : Gen W st st' m m') (hm : m'.mem = m.mem) :
    ∀ {vs : List EV} {l : List (Ty × Nat × Option Src)}, HoldArgs d st m vs l → HoldArgs d st' m' vs l
  | [], [], _ => trivial
  | _ :: _, (_, _, _) :: _, ⟨h1, h2, h3⟩ => ⟨h1, h2.mono g (kept_eq hm), h3.mono g hm⟩
  | [], _ :: _, h => h.elim
  | _ :: _, [], h => h.elim

theorem RunsArgs.nil (d : Decls) (W : World) (ps : List Ty) (mem : Mem) : RunsArgs d W .anil ps mem [] mem :=
  fun st m ho _ hm => ⟨[], st, m, args_nil d st ps, Gen.refl W ho m, hm, trivial⟩

theorem RunsArgs.cons {d : Decls} {W : World} {a r : TE} {p : Ty} {ps : List Ty} {mem mem1 mem2 : Mem} {T : Ty} {x y : Nat} {src : Option Src} {wd : Prop}
    {l : List (Ty × Nat × Option Src)} (ha : Runs d W a mem T x src wd mem1) (hc : Conv T p x y) (hp : IsValue p)
    (hr : RunsArgs d W r ps mem1 l mem2) (hk : Kept src mem1 mem2) (hw : osize d p = 4 → ¬ wd) :
    RunsArgs d W (.acons a r) (p :: ps) mem ((p, y, if T = p then src else none) :: l) mem2 := by
  intro st m ho hvs hm
  obtain ⟨v, st1, m1, e1, g1, hm1, h1⟩ := ha st m ho hvs hm
  obtain ⟨v', st2, m2, e2, g2, hm2, h2⟩ := castEV_ok (W := W) (src' := if T = p then src else none) g1.opened h1 (.inl (value_ne_void hp)) hc (fun e => by rw [if_pos e])
  obtain ⟨vs, st3, m3, e3, g3, hm3, h3⟩ := hr st2 m2 g2.opened (HasVars.mono (HasVars.mono hvs g1) g2) (hm2.trans hm1)
  refine ⟨_, st3, m3, args_cons d st e1 e2 e3, (g1.trans ho g2).trans ho g3, hm3, hp, ?_, h3⟩
  refine (h2.wd_mono (wd' := False) (fun h _ => hw h.2 h.1)).mono g3 ?_
  rw [hm2, hm1, hm3]
  intro s hs
  split at hs
  · exact hk s hs
  · cases hs

theorem AddrVal.arg {d : Decls} {st : St} {m : M} {T : Ty} {x : Nat} {src : Option Src} {p : Nat} (h : AddrVal d st m T x src p) :
    ∃ v, m.vals p = some v ∧ m.read (d.size T) v = some x := by
  obtain ⟨_, _, v, h1, h2, _⟩ := h
  exact ⟨v, h1, by rw [size_eq]; exact h2⟩

/-- The addresses lead to the values. -/
def ArgVals (d : Decls) (st : St) (m : M) : List (Nat × Nat) → List (Ty × Nat × Option Src) → Prop
  | [], [] => True
  | (p, n) :: as, (T, x, src) :: l => n = d.size T ∧ AddrVal d st m T x src p ∧ ArgVals d st m as l
  | _, _ => False

theorem ArgVals.mono {d : Decls} {W : World} {st st' : St} {m m' : M} (g : Gen W st st' m m') (hm : m'.mem = m.mem) :
    ∀ {vs : List (Nat × Nat)} {l : List (Ty × Nat × Option Src)}, ArgVals d st m vs l → ArgVals d st' m' vs l
  | [], [], _ => trivial
  | (_, _) :: _, (_, _, _) :: _, ⟨h1, h2, h3⟩ => ⟨h1, h2.mono g (kept_eq hm), h3.mono g hm⟩
  | [], _ :: _, h => h.elim
  | (_, _) :: _, [], h => h.elim

theorem ArgVals.args {d : Decls} {st : St} {m : M} : ∀ {as : List (Nat × Nat)} {l : List (Ty × Nat × Option Src)}, ArgVals d st m as l →
    m.args as = some (l.map (·.2.1))
  | [], [], _ => rfl
  | (p, n) :: as, (T, x, src) :: l, ⟨h1, h2, h3⟩ => by
    obtain ⟨v, h4, h5⟩ := h2.arg
    subst h1
    simp only [M.args, h4, h5, h3.args, bind, Option.bind, pure, List.map_cons]
  | [], _ :: _, h => h.elim
  | (_, _) :: _, [], h => h.elim

theorem addresses_ok {d : Decls} {W : World} : ∀ {vs : List EV} {l : List (Ty × Nat × Option Src)} {st : St} {m : M}, Open st → HoldArgs d st m vs l →
    ∃ as st' m', d.addresses vs st = .ok (as, st') ∧ Gen W st st' m m' ∧ m'.mem = m.mem ∧ ArgVals d st' m' as l
  | [], [], st, m, ho, _ => ⟨[], st, m, rfl, Gen.refl W ho m, rfl, trivial⟩
  | v :: vs, (p, x, src) :: l, st, m, ho, ⟨h1, h2, h3⟩ => by
    obtain ⟨a, st1, m1, e1, g1, hm1, a1⟩ := toAddress_ok (W := W) ho h2 (value_ne_void h1) (fun _ => id)
    obtain ⟨as, st2, m2, e2, g2, hm2, a2⟩ := addresses_ok (W := W) g1.opened (h3.mono g1 hm1)
    refine ⟨(a, d.size v.ty) :: as, st2, m2, by simp only [Decls.addresses, e1, e2, Res.bind_ok], g1.trans ho g2, hm2.trans hm1, ?_⟩
    exact ⟨by rw [h2.ty], a1.mono g2 (kept_eq hm2), a2⟩
  | [], _ :: _, _, _, _, h => h.elim
  | _ :: _, [], _, _, _, h => h.elim

theorem Runs.call {d : Decls} {W : World} {f args : TE} {s : Nat} {mem mem1 mem2 mem3 : Mem} {p r : Nat} {srcF : Option Src} {wf : Prop}
    {l : List (Ty × Nat × Option Src)} (hf : Runs d W f mem (.ptr (.func s)) p srcF wf mem1) (htf : d.tyOf f = .ptr (.func s))
    (ha : RunsArgs d W args (d.sigs s).params mem1 l mem2) (hk : Kept srcF mem1 mem2)
    (hc : W.call p (l.map (·.2.1)) mem2 = some (r, mem3)) (hr : r < 256 ^ osize d (d.sigs s).ret)
    (hret : (d.sigs s).ret = .void ∨ IsScalar (d.sigs s).ret) (wd : Prop) :
    Runs d W (.call f args) mem (d.sigs s).ret r none wd mem3 := by
  intro st m ho hvs hm
  obtain ⟨c, st1, m1, e1, g1, hm1, h1⟩ := hf st m ho hvs hm
  obtain ⟨vs, st2, m2, e2, g2, hm2, h2⟩ := ha st1 m1 g1.opened (HasVars.mono hvs g1) hm1
  have h1' := h1.mono g2 (by rw [hm1, hm2]; exact hk)
  obtain ⟨as, st3, m3, e3, g3, hm3, h3⟩ := addresses_ok (W := W) g2.opened h2
  obtain ⟨fn, st4, m4, e4, g4, hm4, h4⟩ := toVar_ok (W := W) g3.opened (h1'.mono g3 (kept_eq hm3)) (by intro h; cases h)
  have h34 := (h3.mono g4 hm4).args
  have g := ((g1.trans ho g2).trans ho g3).trans ho g4
  have hmem : m4.mem = mem2 := by rw [hm4, hm3, hm2]
  have hgen : ∀ k, Gen W st4 (emit st4 k (fun n => .call n fn as k)).2 m4 { m4.put st4.next (.word r) with mem := mem3 } := fun k => by
    refine gen_emit g4.opened k (fun n => .call n fn as k) (fun e => ?_) (fun n hn => ⟨?_, rfl⟩)
    · simp only [exec, word_eq h4.2.1, h34, hmem, hc, bind, Option.bind, pure]
    · exact (keeps_put m4 st4.next (.word r) n hn).1
  have hty : d.tyOf (.call f args) = (d.sigs s).ret := by simp only [Decls.tyOf, htf, Ty.target]
  have hcty : c.ty = .ptr (.func s) := h1.ty
  have fin : ∀ ee k, d.callIr c vs st2 = .ok (ee, (emit st4 k (fun n => .call n fn as k)).2) →
      EEVal d (emit st4 k (fun n => .call n fn as k)).2 { m4.put st4.next (.word r) with mem := mem3 } (d.sigs s).ret r none wd ee →
      ∃ v st' m', d.evaluate (.call f args) st = .ok (v, st') ∧ Gen W st st' m m' ∧ m'.mem = mem3 ∧
        Holds d st' m' (d.sigs s).ret r none wd v := fun ee k h5 h6 =>
    ⟨_, _, _, ev_call d st e1 hcty e2 h5, g.trans ho (hgen k), rfl, hty, h6, fun _ => hr⟩
  cases hR : (d.sigs s).ret with
  | simple t =>
    by_cases hv : t = .void
    · subst hv
      rw [← hR]
      refine fin .void 0 (by simp only [Decls.callIr, hcty, e3, e4, Res.bind_ok, hR]) hR
    · rw [hR] at hret
      have hi : IsInt t := by
        rcases hret with h | h
        · injection h with h; exact absurd h hv
        · exact h
      have hii := (isInteger_iff t).mpr hi
      have hsz : Simple.sizeOf .sysv t = osize d (.simple t) := (sizeOf_bytes hi).trans (osize_scalar d (t := .simple t) hi).symm
      rw [← hR]
      refine fin (.var st4.next) (Simple.sizeOf .sysv t) ?_ ?_
      · simp only [Decls.callIr, hcty, e3, e4, Res.bind_ok, hR, hii, if_true]
        revert hv
        cases t <;> first | (intro _; rfl) | (intro h; exact absurd rfl h)
      · rw [hR]
        exact ⟨hi, Nat.lt_succ_self _, put_vals _ _ _, .inl ((emit_size _ _ _).trans hsz)⟩
  | ptr t =>
    rw [← hR]
    refine fin (.var st4.next) 8 (by simp only [Decls.callIr, hcty, e3, e4, Res.bind_ok, hR]; rfl) ?_
    rw [hR]
    exact ⟨trivial, Nat.lt_succ_self _, put_vals _ _ _, .inl (emit_size _ _ _)⟩
  | arr t n => rw [hR] at hret; rcases hret with h | h <;> cases h
  | struct i => rw [hR] at hret; rcases hret with h | h <;> cases h
  | func i => rw [hR] at hret; rcases hret with h | h <;> cases h

end Verif.ExprIr
