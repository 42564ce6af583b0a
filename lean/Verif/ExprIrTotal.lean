import Verif.ExprIrBranch
/-!
Lemmas for C92: every typed expression is translated.
-/
namespace Verif.ExprIr
open Verif.SimpleSpec Verif.ExprIrSpec
open Verif.Simple hiding Promoted
open Verif.CodegenSpec (bytes Promoted IsRel)
open Verif.Codegen (IrOp irFromTypeAndOp irBinaryOp)

/-- The node exists; it has eight bytes if its type has. -/
def NodeSz (d : Decls) (st : St) (T : Ty) (n : Nat) : Prop := n < st.next ∧ (osize d T = 8 → st.size n = 8)

/-- The node exists and is an address. -/
def AddrSz (st : St) (p : Nat) : Prop := p < st.next ∧ st.size p = 8

def ShapeEE (d : Decls) (st : St) (T : Ty) : EE → Prop
  | .void => T = .void
  | .const n _ => (∃ s, T = .simple s ∧ IsInt s) ∧ n = osize d T
  | .var n => IsScalar T ∧ NodeSz d st T n
  | .ptr p => AddrSz st p
  | .bits p _ _ _ => (∃ s, T = .simple s ∧ IsInt s) ∧ AddrSz st p

theorem NodeSz.mono {d : Decls} {st st' : St} {T : Ty} {n : Nat} (h : NodeSz d st T n) (x : Ext st st') : NodeSz d st' T n :=
  ⟨Nat.lt_of_lt_of_le h.1 x.grow.next, fun h8 => by rw [x.grow.size n h.1]; exact h.2 h8⟩

theorem AddrSz.mono {st st' : St} {n : Nat} (h : AddrSz st n) (x : Ext st st') : AddrSz st' n :=
  ⟨Nat.lt_of_lt_of_le h.1 x.grow.next, by rw [x.grow.size n h.1]; exact h.2⟩

theorem ShapeEE.mono {d : Decls} {st st' : St} {T : Ty} {ee : EE} (h : ShapeEE d st T ee) (x : Ext st st') : ShapeEE d st' T ee := by
  cases ee with
  | void => exact h
  | const n y => exact h
  | var n => exact ⟨h.1, h.2.mono x⟩
  | ptr p => exact AddrSz.mono h x
  | bits p o n g => exact ⟨h.1, h.2.mono x⟩

theorem addrSz_emit (st : St) (i : Nat → Ins) : AddrSz (emit st 8 i).2 st.next := ⟨Nat.lt_succ_self _, emit_size _ _ _⟩

theorem nodeSz_emit {d : Decls} {T : Ty} (st : St) {s : Nat} (i : Nat → Ins) (h : osize d T = 8 → s = 8) : NodeSz d (emit st s i).2 T st.next :=
  ⟨Nat.lt_succ_self _, fun h8 => by rw [emit_size]; exact h h8⟩

/-- Where something can be translated: the variables are addresses. -/
structure Ready (d : Decls) (st : St) : Prop where
  opened : Open st
  vars : ∀ x, x < d.nvars → AddrSz st x

theorem Ready.ext {d : Decls} {st st' : St} (h : Ready d st) (x : Ext st st') : Ready d st' := ⟨x.opened, fun v hv => (h.vars v hv).mono x⟩

/-- The result for an lvalue. -/
def LvEE (w : Option Nat) (v : EV) : Prop :=
  v.lv = true ∧ (w = none → ∃ p, v.ee = .ptr p) ∧ ((∃ p, v.ee = .ptr p) ∨ ∃ p o n g, v.ee = .bits p o n g)

/-- The expression is translated, wherever it is. -/
def Total (d : Decls) (e : TE) (L : Prop) (w : Option Nat) : Prop :=
  ∀ st, Ready d st → ∃ v st', d.evaluate e st = .ok (v, st') ∧ Ext st st' ∧ v.ty = d.tyOf e ∧ ShapeEE d st' (d.tyOf e) v.ee ∧ (L → LvEE w v)

theorem Total.weak {d : Decls} {e : TE} {L : Prop} {w : Option Nat} (h : Total d e L w) : Total d e False none := by
  intro st ho
  obtain ⟨v, st', h1, h2, h3, h4, _⟩ := h st ho
  exact ⟨v, st', h1, h2, h3, h4, False.elim⟩

theorem Total.lift {d : Decls} {e : TE} (h : Total d e False none) {w : Option Nat} {L : Prop} (hL : ¬ L := by exact id) : Total d e L w := by
  intro st ho
  obtain ⟨v, st', h1, h2, h3, h4, _⟩ := h st ho
  exact ⟨v, st', h1, h2, h3, h4, fun h => (hL h).elim⟩

theorem scalar_ne_void {T : Ty} (h : IsScalar T) : T ≠ .void := by
  rintro rfl
  exact absurd h (by simp [IsScalar, IsInt])

theorem value_ne_void {T : Ty} (h : IsValue T) : T ≠ .void := by
  rintro rfl
  exact absurd h (by simp [IsValue, IsScalar, IsInt])

theorem toVar_total {d : Decls} {T : Ty} {v : EV} {st : St} (ho : Open st) (hty : v.ty = T) (h : ShapeEE d st T v.ee) (hT : T ≠ .void) :
    ∃ n st', d.toVar v st = .ok (n, st') ∧ Ext st st' ∧ NodeSz d st' T n := by
  obtain ⟨ty, lv, ee⟩ := v
  simp only at hty
  subst hty
  cases ee with
  | void => exact absurd h hT
  | const n x => exact ⟨_, _, rfl, ext_emit ho _ (fun k => .const k x), nodeSz_emit st (fun k => .const k x) (fun h8 => h.2.trans h8)⟩
  | var n => exact ⟨_, _, rfl, Ext.refl ho, h.2⟩
  | ptr p => exact ⟨_, _, rfl, ext_emit ho _ (fun k => .load k p (d.size ty)), nodeSz_emit st (fun k => .load k p (d.size ty)) (fun h8 => (size_eq d ty).trans h8)⟩
  | bits p o n g =>
    exact ⟨_, _, rfl, (ext_emit ho _ (fun k => .load k p (d.size ty))).trans ho
      (ext_emit (emit_open ho _ _) _ (fun k => .getBits k st.next o n g (d.size ty))),
      nodeSz_emit (emit st (d.size ty) (fun k => .load k p (d.size ty))).2 (fun k => .getBits k st.next o n g (d.size ty)) (fun h8 => (size_eq d ty).trans h8)⟩

theorem spill_ext {st : St} (ho : Open st) (s v : Nat) : Ext st (spill st s v).2 :=
  (ext_emit ho 8 (fun k => .alloc k s)).trans ho (ext_emit (emit_open ho 8 (fun k => .alloc k s)) 0
    (fun _ => .store st.next v ((emit st 8 (fun k => .alloc k s)).2.size v)))

theorem spill_sz {st : St} (ho : Open st) (s v : Nat) : AddrSz (spill st s v).2 (spill st s v).1 :=
  (addrSz_emit st (fun k => .alloc k s)).mono (ext_emit (emit_open ho 8 (fun k => .alloc k s)) 0
    (fun _ => .store st.next v ((emit st 8 (fun k => .alloc k s)).2.size v)))

theorem toAddress_total {d : Decls} {T : Ty} {v : EV} {st : St} (ho : Open st) (hty : v.ty = T) (h : ShapeEE d st T v.ee) (hT : T ≠ .void) :
    ∃ n st', d.toAddress v st = .ok (n, st') ∧ Ext st st' ∧ AddrSz st' n := by
  have h0 := h
  obtain ⟨ty, lv, ee⟩ := v
  cases ee with
  | void => exact absurd h hT
  | const n x =>
    have x1 := ext_emit ho 8 (fun k => .alloc k (d.size ty))
    have x2 := (ext_emit x1.opened n (fun k => .const k x)).trans x1.opened
        (ext_emit (emit_open x1.opened n (fun k => .const k x)) 0 (fun _ => .store st.next (st.next + 1)
          ((emit (emit st 8 (fun k => .alloc k (d.size ty))).2 n (fun k => .const k x)).2.size (st.next + 1))))
    exact ⟨_, _, rfl, x1.trans ho x2, (addrSz_emit st (fun k => .alloc k (d.size ty))).mono x2⟩
  | var n => exact ⟨_, _, rfl, spill_ext ho _ _, spill_sz ho _ _⟩
  | ptr p => exact ⟨_, _, rfl, Ext.refl ho, h⟩
  | bits p o n g =>
    obtain ⟨k, st1, e1, x1, _⟩ := toVar_total (d := d) (v := ⟨ty, lv, .bits p o n g⟩) ho hty h0 hT
    exact ⟨_, _, by simp only [Decls.toAddress, e1, Res.bind_ok]; rfl, x1.trans ho (spill_ext x1.opened _ _), spill_sz x1.opened _ _⟩

theorem castVar_total {d : Decls} {st : St} (ho : Open st) (n : Nat) (T t : Ty) : Ext st (d.castVar n T t st).2 := by
  unfold Decls.castVar
  split
  · exact Ext.refl ho
  · split
    · exact ext_emit ho _ _
    · split
      · split
        · split
          · split
            · exact ext_emit ho _ _
            · exact ext_emit ho _ _
          · exact ext_emit ho _ _
        · exact Ext.refl ho
      · exact Ext.refl ho

theorem scalar_isInt {T : Ty} (h : IsScalar T) : (T.isInt || T.isPtr) = true := by
  cases T with
  | simple s => exact Bool.or_eq_true_iff.mpr (.inl ((isInteger_iff s).mpr h))
  | ptr t => rfl
  | _ => exact h.elim

theorem castVar_sz {d : Decls} {st : St} {n : Nat} {T t : Ty} (h : NodeSz d st T n) (hT : IsScalar T) (ht : IsScalar t) :
    NodeSz d (d.castVar n T t st).2 t (d.castVar n T t st).1 := by
  unfold Decls.castVar
  split
  · rename_i e; subst e; exact h
  · split
    · rename_i e
      subst e
      exact nodeSz_emit _ _ (fun h8 => absurd h8 (by show ¬ bytes .sysv .bool = 8; decide))
    · rw [scalar_isInt hT, scalar_isInt ht]
      simp only [Bool.and_self, if_true]
      split
      · have he : ∀ i, NodeSz d (emit st (d.size t) i).2 t st.next := fun i => nodeSz_emit _ _ (fun h8 => (size_eq d t).trans h8)
        split
        · split
          · exact he _
          · exact he _
        · exact he _
      · rename_i e
        refine ⟨h.1, fun h8 => h.2 ?_⟩
        rw [size_eq, size_eq] at e
        omega

theorem castEV_total {d : Decls} {T t : Ty} {v : EV} {st : St} (ho : Open st) (hty : v.ty = T) (h : ShapeEE d st T v.ee)
    (hc : T = t ∨ t = .void ∨ IsScalar T ∧ IsScalar t) :
    ∃ v' st', d.castEV v t st = .ok (v', st') ∧ Ext st st' ∧ v'.ty = t ∧ ShapeEE d st' t v'.ee := by
  unfold Decls.castEV
  rw [hty]
  by_cases h1 : T = t
  · rw [if_pos h1]
    subst h1
    exact ⟨v, st, rfl, Ext.refl ho, hty, h⟩
  rw [if_neg h1]
  by_cases h2 : t = .void
  · rw [if_pos h2]
    exact ⟨_, st, rfl, Ext.refl ho, rfl, h2⟩
  rw [if_neg h2]
  obtain ⟨hT, ht⟩ := (hc.resolve_left h1).resolve_left h2
  obtain ⟨n, st1, e1, x1, z1⟩ := toVar_total (d := d) ho hty h (scalar_ne_void hT)
  exact ⟨⟨t, false, .var (d.castVar n T t st1).1⟩, (d.castVar n T t st1).2, by simp only [e1, Res.bind_ok],
    x1.trans ho (castVar_total x1.opened n T t), rfl, ht, castVar_sz z1 hT ht⟩

theorem decay_total {d : Decls} {e : TE} {L : Prop} {w : Option Nat} (h : Total d e L w) : Total d (d.decay e) False none := by
  intro st ho
  obtain ⟨v, st', h1, h2, h3, h4, _⟩ := h st ho
  have hp : ¬ IsScalar (d.tyOf e) → (∀ s, d.tyOf e ≠ .simple s) → ∃ p, v.ee = .ptr p ∧ AddrSz st' p := by
    intro hs hn
    cases hv : v.ee with
    | void => rw [hv] at h4; exact absurd h4 (hn _)
    | const n x => rw [hv] at h4; obtain ⟨⟨s, h4, _⟩, _⟩ := h4; exact absurd h4 (hn _)
    | var n => rw [hv] at h4; exact absurd h4.1 hs
    | ptr p => rw [hv] at h4; exact ⟨p, rfl, h4⟩
    | bits p o n g => rw [hv] at h4; obtain ⟨⟨s, h4, _⟩, _⟩ := h4; exact absurd h4 (hn _)
  cases ht : d.tyOf e with
  | arr t n =>
    obtain ⟨p, hp, hz⟩ := hp (by rw [ht]; exact id) (by intro s; rw [ht]; intro h; cases h)
    have : d.decay e = .decay e := by unfold Decls.decay; rw [ht]
    rw [this]
    exact ⟨_, st', ev_decay d st h1 hp, h2, rfl, ⟨trivial, hz.1, fun _ => hz.2⟩, False.elim⟩
  | func s =>
    obtain ⟨p, hp, hz⟩ := hp (by rw [ht]; exact id) (by intro s; rw [ht]; intro h; cases h)
    have : d.decay e = .addr e := by unfold Decls.decay; rw [ht]
    rw [this]
    exact ⟨_, st', ev_addr d st h1 hp, h2, rfl, ⟨trivial, hz.1, fun _ => hz.2⟩, False.elim⟩
  | simple s => rw [decay_id (by rw [ht]; rfl)]; exact ⟨v, st', h1, h2, h3, h4, False.elim⟩
  | ptr t => rw [decay_id (by rw [ht]; rfl)]; exact ⟨v, st', h1, h2, h3, h4, False.elim⟩
  | struct i => rw [decay_id (by rw [ht]; rfl)]; exact ⟨v, st', h1, h2, h3, h4, False.elim⟩

theorem castTo_total {d : Decls} {e : TE} {L : Prop} {w : Option Nat} {t : Ty} (h : Total d e L w)
    (hc : decayed (d.tyOf e) = t ∨ t = .void ∨ IsScalar (decayed (d.tyOf e)) ∧ IsScalar t) : Total d (d.castTo e t) False none := by
  have hd := decay_total h
  unfold Decls.castTo
  split
  · exact hd
  · intro st ho
    obtain ⟨v, st', h1, h2, h3, h4, _⟩ := hd st ho
    obtain ⟨v', st2, e2, x2, ht2, hs2⟩ := castEV_total (d := d) h2.opened h3 h4 (by rw [tyOf_decay]; exact hc)
    exact ⟨_, st2, ev_cast d st h1 e2, h2.trans ho.opened x2, rfl, hs2, False.elim⟩

theorem conv2_total {d : Decls} {e : TE} {L : Prop} {w : Option Nat} {s s' t : ST} (h : Total d e L w) (ht : d.tyOf e = .simple s)
    (hs : IsInt s) (hs' : IsInt s') (hi : IsInt t) : Total d (d.conv2 e s' t) False none :=
  castTo_total (castTo_total h (by rw [ht]; exact .inr (.inr ⟨hs, hs'⟩))) (by rw [tyOf_castTo]; exact .inr (.inr ⟨hs', hi⟩))

theorem un_total {d : Decls} {op : UOp} {e : TE} {s : ST} (h : Total d e False none) (ht : d.tyOf e = .simple s) (hi : IsInt s) :
    Total d (.un op e) False none := by
  intro st ho
  obtain ⟨v, st', h1, h2, h3, h4, _⟩ := h st ho
  have hint : (d.tyOf e).isInt = true := by rw [ht]; exact (isInteger_iff s).mpr hi
  have h0 := h4
  rw [ht] at h3 h4
  obtain ⟨n, st1, e1, x1, z1⟩ := toVar_total (d := d) h2.opened h3 h4 (scalar_ne_void (T := .simple s) hi)
  have hres : ∀ i, ShapeEE d (emit st1 (st1.size n) i).2 (d.tyOf e) (.var st1.next) := fun i => by
    rw [ht]; exact ⟨hi, nodeSz_emit _ _ z1.2⟩
  cases op with
  | plus => exact ⟨_, _, ev_plus d st h1, h2, rfl, h0, False.elim⟩
  | bnot => exact ⟨_, _, ev_bnot d st h1 e1 hint, (h2.trans ho.opened x1).trans ho.opened (ext_emit x1.opened _ (fun k => .bnot k n _)), rfl, hres _, False.elim⟩
  | neg => exact ⟨_, _, ev_neg d st h1 e1 hint, (h2.trans ho.opened x1).trans ho.opened (ext_emit x1.opened _ (fun k => .neg k n _)), rfl, hres _, False.elim⟩

theorem bin_total {d : Decls} {op : Op} {a b : TE} {so : Option ST} {o : IrOp} (ha : Total d a False none) (hb : Total d b False none)
    (sa : IsScalar (d.tyOf a)) (sb : IsScalar (d.tyOf b)) (h1 : (d.tyOf a).scalar = .ok so) (h2 : irFromTypeAndOp so op = .ok o) :
    Total d (.bin op a b) False none := by
  intro st ho
  have o0 := ho.opened
  obtain ⟨v, st1, a1, a2, a3, a4, _⟩ := ha st ho
  obtain ⟨u, st2, b1, b2, b3, b4, _⟩ := hb st1 (ho.ext a2)
  obtain ⟨n, st3, e3, x3, z3⟩ := toVar_total (d := d) b2.opened a3 (a4.mono b2) (scalar_ne_void sa)
  obtain ⟨k, st4, e4, x4, z4⟩ := toVar_total (d := d) x3.opened b3 (b4.mono x3) (scalar_ne_void sb)
  refine ⟨_, _, ev_bin d st a1 b1 e3 e4 h1 h2, (((a2.trans o0 b2).trans o0 x3).trans o0 x4).trans o0 (ext_emit x4.opened _ _), rfl, ?_, False.elim⟩
  show ShapeEE d _ (if returnsInt op then .int else d.tyOf a) (.var st4.next)
  split
  · exact ⟨by show IsInt .int; decide, nodeSz_emit _ _ (fun h8 => absurd h8 (by show ¬ bytes .sysv .int = 8; decide))⟩
  · exact ⟨sa, nodeSz_emit _ _ (z3.mono x4).2⟩

theorem pointerStep_total {d : Decls} {sub : Bool} {p i : EV} {t : Ty} {s : ST} {st : St} (ho : Open st) (hpt : p.ty = .ptr t)
    (hp : ShapeEE d st (.ptr t) p.ee) (hi : ShapeEE d st (.simple s) i.ee) (hit : i.ty = .simple s) (his : IsInt s) :
    ∃ o r st', d.pointerStep sub p i st = .ok (o, r, st') ∧ Ext st st' ∧ AddrSz st' o ∧ AddrSz st' r := by
  unfold Decls.pointerStep
  obtain ⟨i', st1, e1, x1, t1, s1⟩ := castEV_total (d := d) (t := .ulong) ho hit hi (.inr (.inr ⟨his, by show IsInt .ulong; decide⟩))
  obtain ⟨n, st2, e2, x2, z2⟩ := toVar_total (d := d) x1.opened hpt (hp.mono x1) (by intro h; cases h)
  obtain ⟨k, st3, e3, x3, z3⟩ := toVar_total (d := d) x2.opened t1 (s1.mono x2) (by intro h; cases h)
  obtain ⟨l, st4, e4, x4, z4⟩ := toVar_total (d := d) (T := .ulong) (v := d.sizeEV p.ty.target) x3.opened rfl
    (show ShapeEE d st3 .ulong (.const 8 _) from ⟨⟨_, rfl, by decide⟩, rfl⟩) (by intro h; cases h)
  have x5 := ext_emit x4.opened (st4.size k) (fun j => .op j .mul k l (st4.size k))
  have z5 : AddrSz (emit st4 (st4.size k) (fun j => .op j .mul k l (st4.size k))).2 n := by
    have := ((z2.mono x3).mono x4).mono x5
    exact ⟨this.1, this.2 rfl⟩
  have x6 := ext_emit x5.opened ((emit st4 (st4.size k) (fun j => .op j .mul k l (st4.size k))).2.size n)
    (fun j => .op j (if sub then .sub else .add) n st4.next ((emit st4 (st4.size k) (fun j => .op j .mul k l (st4.size k))).2.size n))
  refine ⟨_, _, _, by simp only [e1, Res.bind_ok, e2, e3, e4]; rfl, ?_, z5.mono x6, ?_⟩
  · exact ((((x1.trans ho x2).trans ho x3).trans ho x4).trans ho x5).trans ho x6
  · refine ⟨Nat.lt_succ_self _, ?_⟩
    exact (emit_size _ _ _).trans z5.2

theorem ptrArith_total {d : Decls} {sub : Bool} {a b : TE} {t : Ty} {s : ST} (ha : Total d a False none) (hb : Total d b False none)
    (hta : d.tyOf a = .ptr t) (htb : d.tyOf b = .simple s) (hs : IsInt s) : Total d (.ptrArith sub a b) False none := by
  intro st ho
  have o0 := ho.opened
  obtain ⟨v, st1, a1, a2, a3, a4, _⟩ := ha st ho
  obtain ⟨u, st2, b1, b2, b3, b4, _⟩ := hb st1 (ho.ext a2)
  rw [hta] at a3 a4
  rw [htb] at b3 b4
  obtain ⟨o, r, st3, e3, x3, _, z3⟩ := pointerStep_total (d := d) (sub := sub) b2.opened a3 (a4.mono b2) b4 b3 hs
  refine ⟨_, _, ev_ptrArith d st a1 b1 e3, (a2.trans o0 b2).trans o0 x3, rfl, ?_, False.elim⟩
  show ShapeEE d st3 (d.tyOf a) (.var r)
  rw [hta]
  exact ⟨trivial, z3.1, fun _ => z3.2⟩

theorem ptrDiff_total {d : Decls} {a b : TE} {t : Ty} (ha : Total d a False none) (hb : Total d b False none)
    (hta : d.tyOf a = .ptr t) (sb : IsScalar (d.tyOf b)) : Total d (.ptrDiff a b) False none := by
  intro st ho
  have o0 := ho.opened
  obtain ⟨v, st1, a1, a2, a3, a4, _⟩ := ha st ho
  obtain ⟨u, st2, b1, b2, b3, b4, _⟩ := hb st1 (ho.ext a2)
  have ht : d.tyOf a = .ptr t := hta
  rw [hta] at a3 a4
  obtain ⟨n, st3, e3, x3, z3⟩ := toVar_total (d := d) b2.opened a3 (a4.mono b2) (by intro h; cases h)
  obtain ⟨k, st4, e4, x4, z4⟩ := toVar_total (d := d) x3.opened b3 (b4.mono x3) (scalar_ne_void sb)
  obtain ⟨l, st5, e5, x5, z5⟩ := toVar_total (d := d) (T := .ulong) (v := d.sizeEV (d.tyOf a).target) x4.opened rfl
    (show ShapeEE d st4 .ulong (.const 8 _) from ⟨⟨_, rfl, by decide⟩, rfl⟩) (by intro h; cases h)
  have z := ((z3.mono x4).mono x5).2 rfl
  refine ⟨_, _, ev_ptrDiff d st a1 b1 e3 e4 e5, ?_, rfl, ⟨by show IsInt .long; decide, ?_⟩, False.elim⟩
  · exact (((((a2.trans o0 b2).trans o0 x3).trans o0 x4).trans o0 x5).trans o0 (ext_emit x5.opened _ _)).trans o0
      (ext_emit (emit_open x5.opened _ _) _ _)
  · refine ⟨Nat.lt_succ_self _, fun _ => ?_⟩
    exact (emit_size _ _ _).trans z

theorem assignTo_total {w : Option Nat} {l : EV} (h : LvEE w l) (n : Nat) {st : St} (ho : Open st) :
    ∃ st', assignTo l n st = .ok st' ∧ Ext st st' := by
  obtain ⟨ty, lv, ee⟩ := l
  rcases h.2.2 with ⟨p, hp⟩ | ⟨p, o, k, g, hp⟩
  · simp only at hp
    subst hp
    exact ⟨_, rfl, ext_emit ho _ (fun _ => .store p n (st.size n))⟩
  · simp only at hp
    subst hp
    exact ⟨_, rfl, ((ext_emit ho _ (fun k => .load k p (st.size n))).trans ho
      (ext_emit (emit_open ho _ _) _ (fun j => .setBits j st.next n o k (st.size n)))).trans ho
      (ext_emit (emit_open (emit_open ho _ _) _ _) 0 (fun _ => .store p (st.next + 1) (st.size n)))⟩

theorem assignEE_total {d : Decls} {w : Option Nat} {T : Ty} {l r : EV} {st : St} (ho : Open st) (hl : LvEE w l) (hlT : l.ty = T) (hr : r.ty = T)
    (hs : ShapeEE d st T l.ee) (hrs : ShapeEE d st T r.ee) (hv : IsValue T) : ∃ st', d.assignEE l r st = .ok st' ∧ Ext st st' := by
  unfold Decls.assignEE
  rw [hlT, hr, if_neg (fun h => h rfl)]
  by_cases h8 : d.size T ≤ 8
  · rw [if_pos h8]
    obtain ⟨n, st1, e1, x1, _⟩ := toVar_total (d := d) ho hr hrs (value_ne_void hv)
    obtain ⟨st2, e2, x2⟩ := assignTo_total hl n x1.opened
    exact ⟨st2, by simp only [e1, Res.bind_ok, e2], x1.trans ho x2⟩
  · rw [if_neg h8]
    obtain ⟨n, st1, e1, x1, _⟩ := toAddress_total (d := d) ho hr hrs (value_ne_void hv)
    have hp : ∃ p, l.ee = .ptr p := by
      rcases hl.2.2 with h | ⟨p, o, k, g, h⟩
      · exact h
      · rw [h] at hs
        obtain ⟨⟨s, rfl, hi⟩, _⟩ := hs
        have := osize_scalar d (t := .simple s) hi
        rw [← size_eq] at this
        have hb := bytes_cases hi
        exact absurd (show d.size (.simple s) ≤ 8 by rw [this]; show bytes .sysv s ≤ 8; omega) h8
    obtain ⟨p, hp⟩ := hp
    exact ⟨_, by simp only [e1, Res.bind_ok, hp]; rfl, x1.trans ho (ext_emit x1.opened _ _)⟩

theorem cond_total {d : Decls} {c a b : TE} (hc : Total d c False none) (ha : Total d a False none) (hb : Total d b False none)
    (sc : IsScalar (d.tyOf c)) (hab : d.tyOf a = d.tyOf b) : Total d (.cond c a b) False none := by
  intro st ho
  have o0 := ho.opened
  obtain ⟨v, st1, c1, c2, c3, c4, _⟩ := hc st ho
  obtain ⟨cn, st2, e2, x2, _⟩ := toVar_total (d := d) c2.opened c3 c4 (scalar_ne_void sc)
  have x02 := c2.trans o0 x2
  have r2 := ho.ext x02
  by_cases hv : d.tyOf a = .void
  · have o3 := newBlock_select_open x2.opened cn
    obtain ⟨av, st3, a1, a2, a3, a4, _⟩ := ha _ ⟨o3, fun x hx => ⟨by have := (r2.vars x hx).1; show x < st2.next + 4; omega, (r2.vars x hx).2⟩⟩
    obtain ⟨st4, e4, o4, _, n4, s4⟩ := void_open x2.opened cn a2
    have n3 : st2.next + 4 ≤ st3.next := a2.grow.next
    obtain ⟨bv, st5, b1, b2, b3, b4, _⟩ := hb (start st4 (st2.next + 2)) ⟨o4, fun x hx => by
      have := r2.vars x hx
      refine ⟨by have := this.1; show x < st4.next; omega, ?_⟩
      show st4.size x = 8
      rw [s4, a2.grow.size x (by have := this.1; show x < st2.next + 4; omega)]
      exact this.2⟩
    obtain ⟨st6, e6, j⟩ := joined_void x2.opened cn a2 e4 b2
    exact ⟨_, _, ev_cond_void d st c1 e2 hv a1 e4 b1 e6, x02.trans o0 ⟨j.opened, j.grow⟩, rfl, hv, False.elim⟩
  · have o3 := select_open x2.opened cn
    obtain ⟨av, st3, a1, a2, a3, a4, _⟩ := ha _ ⟨o3, fun x hx => ⟨by have := (r2.vars x hx).1; show x < st2.next + 3; omega, (r2.vars x hx).2⟩⟩
    obtain ⟨ap, st4, e4, x4, z4⟩ := toAddress_total (d := d) a2.opened a3 a4 hv
    have a2' := a2.trans o3 x4
    have n4 : st2.next + 3 ≤ st4.next := a2'.grow.next
    obtain ⟨o4, _⟩ := second_open x2.opened cn a2'
    obtain ⟨bv, st5, b1, b2, b3, b4, _⟩ := hb (start st4 (st2.next + 1)) ⟨o4, fun x hx => by
      have := r2.vars x hx
      refine ⟨by have := this.1; show x < st4.next; omega, ?_⟩
      show st4.size x = 8
      rw [a2'.grow.size x (by have := this.1; show x < st2.next + 3; omega)]
      exact this.2⟩
    obtain ⟨bp, st6, e6, x6, _⟩ := toAddress_total (d := d) b2.opened b3 b4 (by rw [← hab]; exact hv)
    have b26 := b2.trans o4 x6
    obtain ⟨st7, e7, j, _⟩ := joined x2.opened cn a2' b26
    have hs7 : st7.size ap = 8 := by
      rw [j.size ap (Nat.lt_of_lt_of_le z4.1 b26.grow.next), b26.grow.size ap z4.1]
      exact z4.2
    refine ⟨_, _, ev_cond d st c1 e2 hv a1 e4 b1 e6 e7, (x02.trans o0 ⟨j.opened, j.grow⟩).trans o0 (ext_emit j.opened _ _), rfl, ?_, False.elim⟩
    refine ⟨Nat.lt_succ_self _, ?_⟩
    rw [hs7]
    exact emit_size (start st7 st6.next) _ _

/-- The arguments are translated. -/
def TotalArgs (d : Decls) (e : TE) (ps : List Ty) : Prop :=
  ∀ st, Ready d st → ∃ l st', d.arguments ps e st = .ok (l, st') ∧ Ext st st' ∧ ∀ v ∈ l, IsValue v.ty ∧ ShapeEE d st' v.ty v.ee

theorem addresses_total {d : Decls} {l : List EV} : ∀ {st : St}, Open st → (∀ v ∈ l, IsValue v.ty ∧ ShapeEE d st v.ty v.ee) →
    ∃ as st', d.addresses l st = .ok (as, st') ∧ Ext st st' := by
  induction l with
  | nil => intro st ho _; exact ⟨_, _, rfl, Ext.refl ho⟩
  | cons v l ih =>
    intro st ho h
    obtain ⟨hv, hs⟩ := h v (List.mem_cons_self ..)
    obtain ⟨a, st1, e1, x1, _⟩ := toAddress_total (d := d) ho rfl hs (value_ne_void hv)
    obtain ⟨as, st2, e2, x2⟩ := ih x1.opened (fun v hv => ⟨(h v (List.mem_cons_of_mem _ hv)).1, (h v (List.mem_cons_of_mem _ hv)).2.mono x1⟩)
    exact ⟨_, _, by simp only [Decls.addresses, e1, e2, Res.bind_ok]; rfl, x1.trans ho x2⟩

theorem callIr_total {d : Decls} {c : EV} {s : Nat} {l : List EV} {st : St} (ho : Open st) (hc : c.ty = .ptr (.func s))
    (hs : ShapeEE d st (.ptr (.func s)) c.ee) (hl : ∀ v ∈ l, IsValue v.ty ∧ ShapeEE d st v.ty v.ee)
    (hr : (d.sigs s).ret = .void ∨ IsScalar (d.sigs s).ret) :
    ∃ ee st', d.callIr c l st = .ok (ee, st') ∧ Ext st st' ∧ ShapeEE d st' (d.sigs s).ret ee := by
  obtain ⟨as, st1, e1, x1⟩ := addresses_total (d := d) ho hl
  obtain ⟨f, st2, e2, x2, _⟩ := toVar_total (d := d) x1.opened hc (hs.mono x1) (by intro h; cases h)
  have x12 := x1.trans ho x2
  unfold Decls.callIr
  simp only [hc, e1, e2, Res.bind_ok]
  cases hret : (d.sigs s).ret with
  | simple r =>
    rw [hret] at hr
    by_cases hv : r = .void
    · subst hv
      exact ⟨_, _, rfl, x12.trans ho (ext_emit x2.opened _ _), rfl⟩
    · have hi : IsInt r := by
        rcases hr with h | h
        · injection h with h; exact absurd h hv
        · exact h
      have hii := (isInteger_iff r).mpr hi
      refine ⟨.var st2.next, (emit st2 (Simple.sizeOf .sysv r) (fun k => .call k f as (Simple.sizeOf .sysv r))).2, ?_,
        x12.trans ho (ext_emit x2.opened _ _), hi, nodeSz_emit _ _ (fun h8 => by
          rw [← h8, osize_scalar d (t := .simple r) hi]; exact sizeOf_bytes hi)⟩
      simp only [hii, if_true]
      revert hv
      cases r <;> first | (intro _; rfl) | (intro h; exact absurd rfl h)
  | ptr t => exact ⟨_, _, rfl, x12.trans ho (ext_emit x2.opened _ _), trivial, nodeSz_emit _ _ (fun _ => rfl)⟩
  | arr t n => rw [hret] at hr; rcases hr with h | h <;> cases h
  | struct i => rw [hret] at hr; rcases hr with h | h <;> cases h
  | func i => rw [hret] at hr; rcases hr with h | h <;> cases h

theorem promTo_castable {T T' : Ty} {w : Option Nat} (h : PromTo T w T') :
    decayed T = T' ∨ T' = .void ∨ IsScalar (decayed T) ∧ IsScalar T' := by
  rcases h with ⟨s, s', rfl, hg, hp, rfl⟩ | ⟨_, rfl⟩
  · exact .inr (.inr ⟨hg.1, promoted_scalar (promotion_promoted hg hp).1⟩)
  · exact .inl rfl

theorem prom_total {d : Decls} {e : TE} {L : Prop} {T T' : Ty} {w w' : Option Nat} (h : Total d e L w') (ht : d.tyOf e = T) (hp : PromTo T w T') :
    Total d (d.castTo e T') False none := castTo_total h (by rw [ht]; exact promTo_castable hp)

theorem const_total (d : Decls) {s : ST} (x : Nat) (hi : IsInt s) : Total d (.const s x) False none :=
  fun st ho => ⟨_, st, ev_const d st s x, Ext.refl ho.opened, rfl, ⟨⟨s, rfl, hi⟩, (sizeOf_bytes hi).trans (osize_scalar d (t := .simple s) hi).symm⟩, False.elim⟩

theorem deref_total {d : Decls} {e : TE} {t : Ty} (h : Total d e False none) (ht : d.tyOf e = .ptr t) (L : Prop) :
    Total d (.deref e) L none := by
  intro st ho
  obtain ⟨v, st1, h1, h2, h3, h4, _⟩ := h st ho
  rw [ht] at h4
  cases hee : v.ee with
  | void => rw [hee] at h4; cases h4
  | const n x => rw [hee] at h4; obtain ⟨⟨_, h, _⟩, _⟩ := h4; cases h
  | bits p o n g => rw [hee] at h4; obtain ⟨⟨_, h, _⟩, _⟩ := h4; cases h
  | var n => exact ⟨_, st1, ev_deref_var d st h1 hee, h2, rfl,
      by rw [hee] at h4; exact ⟨h4.2.1, h4.2.2 rfl⟩, fun _ => ⟨rfl, fun _ => ⟨_, rfl⟩, .inl ⟨_, rfl⟩⟩⟩
  | ptr p => exact ⟨_, _, ev_deref_ptr d st h1 hee, h2.trans ho.opened (ext_emit h2.opened _ _), rfl, addrSz_emit st1 (fun k => .load k p 8),
      fun _ => ⟨rfl, fun _ => ⟨_, rfl⟩, .inl ⟨_, rfl⟩⟩⟩

theorem getOffset_ext {st : St} (ho : Open st) (a off : Nat) : Ext st (getOffset st a off).2 :=
  (ext_emit ho 8 (fun k => .const k off)).trans ho (ext_emit (emit_open ho 8 (fun k => .const k off)) _
    (fun k => .op k .add a st.next ((emit st 8 (fun k => .const k off)).2.size a)))

theorem getOffset_sz {st : St} {a : Nat} (h : AddrSz st a) (ho : Open st) (off : Nat) : AddrSz (getOffset st a off).2 (getOffset st a off).1 := by
  have := h.mono (ext_emit ho 8 (fun k => .const k off))
  refine ⟨Nat.lt_succ_self _, ?_⟩
  exact (emit_size _ _ _).trans this.2

theorem addr_total {d : Decls} {e : TE} {L : Prop} (h : Total d e L none) (hl : L) : Total d (.addr e) False none := by
  intro st ho
  obtain ⟨v, st1, h1, h2, h3, h4, h5⟩ := h st ho
  obtain ⟨p, hp⟩ := (h5 hl).2.1 rfl
  rw [hp] at h4
  exact ⟨_, st1, ev_addr d st h1 hp, h2, rfl, ⟨trivial, h4.1, fun _ => h4.2⟩, False.elim⟩

theorem ir_total {t : ST} (h : Promoted t) (op : Op) : ∃ o, irFromTypeAndOp (some t) op = .ok o := by
  rw [ir_op_type h]
  cases op <;> exact ⟨_, rfl⟩

theorem ir_total_ptr (op : Op) : ∃ o, irFromTypeAndOp none op = .ok o := by
  cases op <;> exact ⟨_, rfl⟩

theorem arm {T T' : Ty} (hT : T = .void ∨ IsValue T) (h : T' = T ∨ IsScalar T' ∧ IsScalar T) :
    decayed T' = T ∨ T = .void ∨ IsScalar (decayed T') ∧ IsScalar T := by
  rcases h with rfl | ⟨h1, h2⟩
  · rcases hT with h | h
    · exact .inr (.inl h)
    · exact .inl (decayed_value h)
  · exact .inr (.inr ⟨by rw [decayed_scalar h1]; exact h1, h2⟩)

theorem cond_case {d : Decls} (hw : WellFormed d) {c a b : SE} {T Tc Ta Tb : Ty} {w wc wa wb : Option Nat} (h : HasType d True (.cond c a b) (.expr T w))
    (hc : HasType d True c (.expr Tc wc)) (ha : HasType d True a (.expr Ta wa)) (hb : HasType d True b (.expr Tb wb))
    (ihc : ∀ te, d.build c = .ok te → Total d te (IsLvalue c) wc) (iha : ∀ te, d.build a = .ok te → Total d te (IsLvalue a) wa)
    (ihb : ∀ te, d.build b = .ok te → Total d te (IsLvalue b) wb) {te : TE} (hbd : d.build (.cond c a b) = .ok te) :
    Total d te (IsLvalue (.cond c a b)) w := by
  obtain ⟨tc, ta, tb, Tc', Ta', Tb', wc', wa', wb', T1, T2, T3, hc', ha', hb', c1, a1, b1, h1, p1, p2, p3, sc, hT, q2, q3⟩ := cond_built hw h
  rw [hbd] at h1
  injection h1 with h1
  subst h1
  have tc2 := (built_type hw hc' c1).1
  have ta2 := (built_type hw ha' a1).1
  have tb2 := (built_type hw hb' b1).1
  refine (cond_total (prom_total (ihc _ c1) tc2 p1) (castTo_total (prom_total (iha _ a1) ta2 p2) ?_)
    (castTo_total (prom_total (ihb _ b1) tb2 p3) ?_) (by rw [tyOf_castTo]; exact promTo_scalar p1 sc) (by rw [tyOf_castTo, tyOf_castTo])).lift
  all_goals rw [tyOf_castTo]
  · exact arm hT q2
  · exact arm hT q3

theorem hasType_total {d : Decls} (hw : WellFormed d) {e : SE} {k : Kind} (h : HasType d True e k) :
    match k with
    | .expr _ w => ∀ te, d.build e = .ok te → Total d te (IsLvalue e) w
    | .args ps => ∀ te, d.build e = .ok te → TotalArgs d te ps := by
  have int0 : ∀ x, Total d (int x) False none := fun x => const_total d x (by decide)
  have u : ∀ {e : SE} {te te' : TE}, d.build e = .ok te' → d.build e = .ok te → te = te' := by
    intro e te te' h h'
    rw [h] at h'
    injection h' with h'
    exact h'.symm
  induction h with
  | @const s x hs hx =>
    intro te hb
    rw [u (e := .const s x) rfl hb]
    intro st ho
    exact ⟨_, st, ev_const d st s x, Ext.refl ho.opened, rfl, ⟨⟨s, rfl, promoted_scalar hs⟩,
      (sizeOf_bytes (promoted_scalar hs)).trans (osize_scalar d (t := .simple s) (promoted_scalar hs)).symm⟩, fun h => h.elim⟩
  | @var x hx =>
    intro te hb
    rw [u (e := .var x) rfl hb]
    intro st ho
    exact ⟨_, st, ev_sym d st x, Ext.refl ho.opened, rfl, ho.vars x hx, fun _ => ⟨rfl, fun _ => ⟨_, rfl⟩, .inl ⟨_, rfl⟩⟩⟩
  | @un op e s w s' h hi hp ih =>
    intro te hb
    obtain ⟨t1, h1, h2, h3⟩ := hasType_built hw h
    have g := (hasType_good hw h _ _ rfl).good hi
    have hp' := promoted_scalar (promotion_promoted g hp).1
    rw [u (e := .un op e) (by simp only [Decls.build, Decls.mkUn, h1, Res.bind_ok, (promote_int h2 h3 g hp).1]; rfl) hb]
    intro st ho
    obtain ⟨v, st', a1, a2, a3, a4, _⟩ := un_total (op := op) (castTo_total (ih _ h1) (by rw [h2]; exact .inr (.inr ⟨hi, hp'⟩))) (tyOf_castTo _ _ _) hp' st ho
    exact ⟨v, st', a1, a2, a3, a4, fun h => h.elim⟩
  | @not e T w h hs ih =>
    intro te hb
    obtain ⟨t1, hb1⟩ := hasType_built hw h
    obtain ⟨T1, h1, hp⟩ := not_built hb1 (hasType_good hw h _ _ rfl)
    rw [u h1 hb]
    exact (cond_total (prom_total (ih _ hb1.1) hb1.2.1 hp) (int0 0) (int0 1) (by rw [tyOf_castTo]; exact promTo_scalar hp hs) rfl).lift
  | @bin op a b sa wa sb wb sa' sb' t hop ha ia hb ib pa pb hc iha ihb =>
    intro te hbd
    obtain ⟨ta, a1, a2, a3⟩ := hasType_built hw ha
    obtain ⟨tb, b1, b2, b3⟩ := hasType_built hw hb
    have ga := (hasType_good hw ha _ _ rfl).good ia
    have gb := (hasType_good hw hb _ _ rfl).good ib
    have qa := (promotion_promoted ga pa).1
    have qb := (promotion_promoted gb pb).1
    have qt := common_promoted qa qb hc
    obtain ⟨o, ho⟩ := ir_total qt op
    rw [u (e := .bin op a b) (by simp only [Decls.build, a1, b1, Res.bind_ok]; exact mkBin_arith hop a2 b2 a3 b3 ga gb pa pb hc) hbd]
    exact (bin_total (conv2_total (iha _ a1) a2 ia (promoted_scalar qa) (promoted_scalar qt))
      (conv2_total (ihb _ b1) b2 ib (promoted_scalar qb) (promoted_scalar qt))
      (by rw [tyOf_conv2]; exact promoted_scalar qt) (by rw [tyOf_conv2]; exact promoted_scalar qt)
      (by rw [tyOf_conv2]; rfl) ho).lift
  | @shift op a b sa wa sb wb sa' hop ha ia hb ib pa iha ihb =>
    intro te hbd
    obtain ⟨ta, a1, a2, a3⟩ := hasType_built hw ha
    obtain ⟨tb, b1, b2, b3⟩ := hasType_built hw hb
    have ga := (hasType_good hw ha _ _ rfl).good ia
    have gb := (hasType_good hw hb _ _ rfl).good ib
    obtain ⟨sb', pb⟩ := promotion_exists sb (bitsOf sb wb)
    have qa := (promotion_promoted ga pa).1
    have qb := (promotion_promoted gb pb).1
    obtain ⟨o, ho⟩ := ir_total qa op
    rw [u (e := .bin op a b) (by simp only [Decls.build, a1, b1, Res.bind_ok]; exact mkBin_shift hop a2 b2 a3 b3 ga gb pa pb) hbd]
    exact (bin_total (castTo_total (iha _ a1) (by rw [a2]; exact .inr (.inr ⟨ia, promoted_scalar qa⟩)))
      (conv2_total (ihb _ b1) b2 ib (promoted_scalar qb) (promoted_scalar qa))
      (by rw [tyOf_castTo]; exact promoted_scalar qa) (by rw [tyOf_conv2]; exact promoted_scalar qa)
      (by rw [tyOf_castTo]; rfl) ho).lift
  | @ptrInt op a b Ta wa t sb wb hop ha hpa ho hb ib iha ihb =>
    intro te hbd
    obtain ⟨ta, a1, a2, a3⟩ := hasType_built hw ha
    obtain ⟨tb, b1, b2, b3⟩ := hasType_built hw hb
    have gb := (hasType_good hw hb _ _ rfl).good ib
    obtain ⟨sb', pb⟩ := promotion_exists sb (bitsOf sb wb)
    have qb := (promotion_promoted gb pb).1
    rw [u (e := .bin op a b) (by simp only [Decls.build, a1, b1, Res.bind_ok]; exact mkBin_ptrInt hop (by rw [a2]; exact hpa) b2 b3 gb pb) hbd]
    exact (ptrArith_total (t := t) (decay_total (iha _ a1)) (castTo_total (ihb _ b1) (by rw [b2]; exact .inr (.inr ⟨ib, promoted_scalar qb⟩)))
      (by rw [tyOf_decay, a2]; exact hpa) (tyOf_castTo _ _ _) (promoted_scalar qb)).lift
  | @intPtr a b Tb wb t sa wa ha ia hb hpb ho iha ihb =>
    intro te hbd
    obtain ⟨ta, a1, a2, a3⟩ := hasType_built hw ha
    obtain ⟨tb, b1, b2, b3⟩ := hasType_built hw hb
    have ga := (hasType_good hw ha _ _ rfl).good ia
    obtain ⟨sa', pa⟩ := promotion_exists sa (bitsOf sa wa)
    have qa := (promotion_promoted ga pa).1
    rw [u (e := .bin .add a b) (by simp only [Decls.build, a1, b1, Res.bind_ok]; exact mkBin_intPtr a2 a3 ga pa (by rw [b2]; exact hpb)) hbd]
    exact (ptrArith_total (t := t) (decay_total (ihb _ b1)) (castTo_total (iha _ a1) (by rw [a2]; exact .inr (.inr ⟨ia, promoted_scalar qa⟩)))
      (by rw [tyOf_decay, b2]; exact hpb) (tyOf_castTo _ _ _) (promoted_scalar qa)).lift
  | @ptrDiff a b Ta wa Tb wb t ha hpa hb hpb ho iha ihb =>
    intro te hbd
    obtain ⟨ta, a1, a2, a3⟩ := hasType_built hw ha
    obtain ⟨tb, b1, b2, b3⟩ := hasType_built hw hb
    rw [u (e := .bin .sub a b) (by simp only [Decls.build, a1, b1, Res.bind_ok]; exact mkBin_ptrDiff (by rw [a2]; exact hpa) (by rw [b2]; exact hpb)) hbd]
    exact (ptrDiff_total (decay_total (iha _ a1)) (decay_total (ihb _ b1)) (t := t) (by rw [tyOf_decay, a2, hpa])
      (by rw [tyOf_decay, b2, hpb]; trivial)).lift
  | @ptrCmp op a b Ta wa Tb wb t1 t2 hop ha hpa hb hpb iha ihb =>
    intro te hbd
    obtain ⟨ta, a1, a2, a3⟩ := hasType_built hw ha
    obtain ⟨tb, b1, b2, b3⟩ := hasType_built hw hb
    obtain ⟨o, ho⟩ := ir_total_ptr op
    rw [u (e := .bin op a b) (by simp only [Decls.build, a1, b1, Res.bind_ok]; exact mkBin_ptrCmp hop (by rw [a2]; exact hpa) (by rw [b2]; exact hpb)) hbd]
    exact (bin_total (decay_total (iha _ a1)) (decay_total (ihb _ b1)) (by rw [tyOf_decay, a2, hpa]; trivial)
      (by rw [tyOf_decay, b2, hpb]; trivial) (by rw [tyOf_decay, a2, hpa]; rfl) ho).lift
  | @ptrNull op a b Ta wa Tb wb t1 hop ha hpa hb hn iha ihb =>
    intro te hbd
    obtain ⟨ta, a1, a2, a3⟩ := hasType_built hw ha
    obtain ⟨s, rfl⟩ := isNull_const hn
    obtain ⟨o, ho⟩ := ir_total_ptr op
    cases hb with
    | const hs hx =>
      rw [u (e := .bin op a (.const s 0)) (by simp only [Decls.build, a1, Res.bind_ok]; exact mkBin_ptrNull hop (by rw [a2]; exact hpa) hs) hbd]
      have hcs : Total d (.cast (.ptr .void) (.const s 0)) False none := by
        have := castTo_total (t := .ptr .void) (const_total d 0 (promoted_scalar hs)) (.inr (.inr ⟨promoted_scalar hs, trivial⟩))
        rw [castTo_ne (by intro h; cases h), decay_id rfl] at this
        exact this
      exact (bin_total (decay_total (iha _ a1)) hcs (by rw [tyOf_decay, a2, hpa]; trivial) trivial
        (by rw [tyOf_decay, a2, hpa]; rfl) ho).lift
    | compArith hC => cases hC
    | compPtr hC => cases hC
  | @nullPtr op a b Ta wa Tb wb t1 hop ha hn hb hpb iha ihb =>
    intro te hbd
    obtain ⟨tb, b1, b2, b3⟩ := hasType_built hw hb
    obtain ⟨s, rfl⟩ := isNull_const hn
    obtain ⟨o, ho⟩ := ir_total_ptr op
    cases ha with
    | const hs hx =>
      rw [u (e := .bin op (.const s 0) b) (by simp only [Decls.build, b1, Res.bind_ok]; exact mkBin_nullPtr hop (by rw [b2]; exact hpb) hs) hbd]
      have hcs : Total d (.cast (.ptr .void) (.const s 0)) False none := by
        have := castTo_total (t := .ptr .void) (const_total d 0 (promoted_scalar hs)) (.inr (.inr ⟨promoted_scalar hs, trivial⟩))
        rw [castTo_ne (by intro h; cases h), decay_id rfl] at this
        exact this
      exact (bin_total hcs (decay_total (ihb _ b1)) trivial (by rw [tyOf_decay, b2, hpb]; trivial) rfl ho).lift
    | compArith hC => cases hC
    | compPtr hC => cases hC
  | @land a b Ta wa Tb wb ha sa hb sb iha ihb =>
    intro te hbd
    obtain ⟨ta, ha'⟩ := hasType_built hw ha
    obtain ⟨tb, hb'⟩ := hasType_built hw hb
    obtain ⟨T1, T2, h1, p1, p2⟩ := land_built ha' (hasType_good hw ha _ _ rfl) hb' (hasType_good hw hb _ _ rfl)
    rw [u h1 hbd]
    exact (cond_total (prom_total (iha _ ha'.1) ha'.2.1 p1)
      (cond_total (prom_total (ihb _ hb'.1) hb'.2.1 p2) (int0 1) (int0 0) (by rw [tyOf_castTo]; exact promTo_scalar p2 sb) rfl)
      (int0 0) (by rw [tyOf_castTo]; exact promTo_scalar p1 sa) rfl).lift
  | @lor a b Ta wa Tb wb ha sa hb sb iha ihb =>
    intro te hbd
    obtain ⟨ta, ha'⟩ := hasType_built hw ha
    obtain ⟨tb, hb'⟩ := hasType_built hw hb
    obtain ⟨T1, T2, h1, p1, p2⟩ := lor_built ha' (hasType_good hw ha _ _ rfl) hb' (hasType_good hw hb _ _ rfl)
    rw [u h1 hbd]
    exact (cond_total (prom_total (iha _ ha'.1) ha'.2.1 p1) (int0 1)
      (cond_total (prom_total (ihb _ hb'.1) hb'.2.1 p2) (int0 1) (int0 0) (by rw [tyOf_castTo]; exact promTo_scalar p2 sb) rfl)
      (by rw [tyOf_castTo]; exact promTo_scalar p1 sa) rfl).lift
  | @condArith c a b Tc wc sa wa sb wb sa' sb' t hc sc ha ia hb ib pa pb hcm ihc iha ihb =>
    intro te hbd
    exact cond_case hw (.condArith hc sc ha ia hb ib pa pb hcm) hc ha hb ihc iha ihb hbd
  | @condSame c a b Tc wc Ta wa Tb wb hc sc ha hb hsame hcl ihc iha ihb =>
    intro te hbd
    exact cond_case hw (.condSame hc sc ha hb hsame hcl) hc ha hb ihc iha ihb hbd
  | @condNullR c a b Tc wc Ta wa Tb wb t hc sc ha hpa hb hn ihc iha ihb =>
    intro te hbd
    exact cond_case hw (.condNullR hc sc ha hpa hb hn) hc ha hb ihc iha ihb hbd
  | @condNullL c a b Tc wc Ta wa Tb wb t hc sc ha hn hb hpb ihc iha ihb =>
    intro te hbd
    exact cond_case hw (.condNullL hc sc ha hn hb hpb) hc ha hb ihc iha ihb hbd
  | @comma a b Ta wa Tb wb ha hb iha ihb =>
    intro te hbd
    obtain ⟨ta, a1, a2, a3⟩ := hasType_built hw ha
    obtain ⟨tb, b1, b2, b3⟩ := hasType_built hw hb
    rw [u (e := .comma a b) (by simp only [Decls.build, a1, b1, Res.bind_ok]; rfl) hbd]
    intro st ho
    obtain ⟨v, st1, c1, c2, _⟩ := decay_total (iha _ a1) st ho
    obtain ⟨v', st2, c3, c4, c5, c6, _⟩ := decay_total (ihb _ b1) st1 (ho.ext c2)
    exact ⟨_, st2, ev_comma d st c1 c3, c2.trans ho.opened c4, rfl, c6, fun h => h.elim⟩
  | @cast t e T w h hs hl ih =>
    intro te hbd
    obtain ⟨t1, h1, h2, h3⟩ := hasType_built hw h
    rw [u (e := .cast t e) (by simp only [Decls.build, h1, Res.bind_ok]; rfl) hbd]
    exact (castTo_total (ih _ h1) (.inr (by rw [h2]; exact hs))).lift
  | @addr e T h hl ih =>
    intro te hbd
    obtain ⟨t1, h1, h2, h3⟩ := hasType_built hw h
    rw [u (e := .addr e) (by simp only [Decls.build, h1, Res.bind_ok]; rfl) hbd]
    exact (addr_total (ih _ h1) hl).lift
  | @deref e T w t h hp hv ih =>
    intro te hbd
    obtain ⟨t1, h1, h2, h3⟩ := hasType_built hw h
    rw [u (e := .deref e) (by simp only [Decls.build, h1, Res.bind_ok]; rfl) hbd]
    exact deref_total (t := t) (decay_total (ih _ h1)) (by rw [tyOf_decay, h2]; exact hp) _
  | @index a b o h ih =>
    cases o with
    | expr T w =>
      intro te hbd
      refine ih te ?_
      simp only [Decls.build, Res.bind_eq_ok] at hbd ⊢
      obtain ⟨ta, a1, tb, b1, s, hs, he⟩ := hbd
      exact ⟨s, ⟨ta, a1, tb, b1, hs⟩, he⟩
    | args ps => cases h
  | @member e s i f h hf ih =>
    intro te hbd
    obtain ⟨t1, h1, h2, h3⟩ := hasType_built hw h
    rw [u (e := .member e i) (by simp only [Decls.build, h1, Res.bind_ok]; rfl) hbd]
    intro st ho
    obtain ⟨v, st1, c1, c2, c3, c4, c5⟩ := ih _ h1 st ho
    rw [h2] at c3 c4
    have hfl : d.field v.ty i = some f := by rw [c3]; exact hf
    obtain ⟨p, st2, e2, x2, z2⟩ := toAddress_total (d := d) c2.opened c3 c4 (by intro h; cases h)
    have x3 := getOffset_ext x2.opened p f.offset
    have z3 := getOffset_sz z2 x2.opened f.offset
    cases hb : f.bits with
    | none =>
      refine ⟨_, _, ev_member d st c1 hfl e2 rfl hb, (c2.trans ho.opened x2).trans ho.opened x3, rfl, z3, fun hl => ?_⟩
      exact ⟨(c5 hl).1, fun _ => ⟨_, rfl⟩, .inl ⟨_, rfl⟩⟩
    | some on =>
      obtain ⟨o, n⟩ := on
      obtain ⟨t, ht, htt, _⟩ := ((hw s).2 f (List.mem_of_getElem? hf)).2 o n hb
      have hi : IsInt t := by rcases htt with rfl | rfl | rfl <;> decide
      refine ⟨_, _, ev_member_bits d st c1 hfl e2 rfl hb ht (isSigned_int t hi), (c2.trans ho.opened x2).trans ho.opened x3, rfl, ⟨⟨t, ?_, hi⟩, z3⟩, fun hl => ?_⟩
      · simp only [Decls.tyOf, h2, Decls.field, hf]; exact ht
      · refine ⟨(c5 hl).1, fun h => ?_, .inr ⟨_, _, _, _, rfl⟩⟩
        cases h
  | @arrow e i o h ih =>
    cases o with
    | expr T w =>
      intro te hbd
      have := ih te (by
        simp only [Decls.build, Res.bind_eq_ok] at hbd ⊢
        obtain ⟨ta, a1, he⟩ := hbd
        exact ⟨_, ⟨ta, a1, rfl⟩, he⟩)
      exact this
    | args ps => cases h
  | @assign a b T wa Tb wb ha hl hb has iha ihb =>
    intro te hbd
    obtain ⟨ta, a1, a2, a3⟩ := hasType_built hw ha
    obtain ⟨tb, b1, b2, b3⟩ := hasType_built hw hb
    rw [u (e := .assign a b) (by simp only [Decls.build, a1, b1, Res.bind_ok]; rfl) hbd]
    intro st ho
    obtain ⟨l, st1, c1, c2, c3, c4, c5⟩ := iha _ a1 st ho
    obtain ⟨r, st2, c6, c7, c8, c9, _⟩ := decay_total (ihb _ b1) st1 (ho.ext c2)
    rw [tyOf_decay, b2] at c8 c9
    rw [a2] at c3 c4
    obtain ⟨r', st3, e3, x3, t3, s3⟩ := castEV_total (d := d) (t := T) c7.opened c8 c9 (by
      rcases has.2 with h | h
      · exact .inl h
      · exact .inr (.inr h))
    obtain ⟨st4, e4, x4⟩ := assignEE_total (d := d) x3.opened (c5 hl) c3 t3 ((c4.mono c7).mono x3) s3 has.1
    refine ⟨_, st4, ev_assign d st c1 c6 (by rw [a2]; exact e3) (c5 hl).1 e4,
      ((c2.trans ho.opened c7).trans ho.opened x3).trans ho.opened x4, rfl, ?_, fun h => h.elim⟩
    simp only [Decls.tyOf, a2]
    exact s3.mono x4
  | @compArith E op a b post sa wa sb wb hC hop ha ia hl hb ib iha ihb =>
    intro te hbd
    obtain ⟨ta, a1, a2, a3⟩ := hasType_built hw ha
    obtain ⟨tb, b1, b2, b3⟩ := hasType_built hw hb
    have ga := (hasType_good hw ha _ _ rfl).good ia
    have gb := (hasType_good hw hb _ _ rfl).good ib
    obtain ⟨sa', pa⟩ := promotion_exists sa (bitsOf sa wa)
    obtain ⟨sb', pb⟩ := promotion_exists sb (bitsOf sb wb)
    have qa := (promotion_promoted ga pa).1
    have qb := (promotion_promoted gb pb).1
    obtain ⟨t, _, hc⟩ := common_exists qa qb
    have qt := common_promoted qa qb hc
    obtain ⟨o, hir⟩ := ir_total qt op
    rw [u ((compound_build hC a1 b1).trans (mkAssignOp_arith (lvalue_noCast hl a1) a2 b2 a3 b3 ga gb pa pb hc)) hbd]
    have hnl : ¬ IsLvalue E := by cases hC <;> exact id
    intro st ho
    obtain ⟨l, st1, c1, c2, c3, c4, c5⟩ := iha _ a1 st ho
    obtain ⟨r, st2, c6, c7, c8, c9, _⟩ := conv2_total (ihb _ b1) b2 ib (promoted_scalar qb) (promoted_scalar qt) st1 (ho.ext c2)
    rw [a2] at c3 c4
    rw [tyOf_conv2] at c8 c9
    obtain ⟨lv, st3, e3, x3, z3⟩ := toVar_total (d := d) c7.opened c3 (c4.mono c7) (scalar_ne_void (T := .simple sa) ia)
    obtain ⟨rv, st4, e4, x4, z4⟩ := toVar_total (d := d) x3.opened c8 (c9.mono x3) (scalar_ne_void (promoted_scalar qt))
    have x5 := castVar_total (d := d) x4.opened lv l.ty (.simple t)
    have x6 := ext_emit x5.opened ((d.castVar lv l.ty (.simple t) st4).2.size (d.castVar lv l.ty (.simple t) st4).1)
      (fun k => .op k (irBinaryOp o) (d.castVar lv l.ty (.simple t) st4).1 rv ((d.castVar lv l.ty (.simple t) st4).2.size (d.castVar lv l.ty (.simple t) st4).1))
    have x7 := castVar_total (d := d) x6.opened (d.castVar lv l.ty (.simple t) st4).2.next (.simple t) l.ty
    obtain ⟨st8, e8, x8⟩ := assignTo_total (c5 hl) (d.castVar (d.castVar lv l.ty (.simple t) st4).2.next (.simple t) l.ty _).1 x7.opened
    refine ⟨_, st8, ev_assignOp d st c1 c6 (s := some t) (by rw [tyOf_conv2]; rfl) hir e3 e4 (by rw [tyOf_conv2]) (by rw [tyOf_conv2]) e8, ?_, rfl, ?_, fun h => absurd h hnl⟩
    · exact ((((((c2.trans ho.opened c7).trans ho.opened x3).trans ho.opened x4).trans ho.opened x5).trans ho.opened x6).trans ho.opened x7).trans ho.opened x8
    · simp only [Decls.tyOf, a2]
      refine ⟨ia, ?_⟩
      split
      · exact ((((z3.mono x4).mono x5).mono x6).mono x7).mono x8
      · have z5 := castVar_sz (t := .simple t) (z3.mono x4) (T := .simple sa) ia (promoted_scalar qt)
        rw [← c3] at z5
        have z6 : NodeSz d (emit (d.castVar lv l.ty (.simple t) st4).2 ((d.castVar lv l.ty (.simple t) st4).2.size (d.castVar lv l.ty (.simple t) st4).1)
          (fun k => .op k (irBinaryOp o) (d.castVar lv l.ty (.simple t) st4).1 rv
            ((d.castVar lv l.ty (.simple t) st4).2.size (d.castVar lv l.ty (.simple t) st4).1))).2 (.simple t) (d.castVar lv l.ty (.simple t) st4).2.next :=
          nodeSz_emit _ _ z5.2
        have z7 := castVar_sz z6 (promoted_scalar qt) (t := l.ty) (by rw [c3]; exact ia)
        rw [← c3]
        exact z7.mono x8
  | @compPtr E op a b post t wa sb wb hC hop ha hl hob hb ib iha ihb =>
    intro te hbd
    obtain ⟨ta, a1, a2, a3⟩ := hasType_built hw ha
    obtain ⟨tb, b1, b2, b3⟩ := hasType_built hw hb
    have gb := (hasType_good hw hb _ _ rfl).good ib
    obtain ⟨sb', pb⟩ := promotion_exists sb (bitsOf sb wb)
    have qb := (promotion_promoted gb pb).1
    rw [u ((compound_build hC a1 b1).trans (mkAssignOp_ptr hop (lvalue_noCast hl a1) a2 b2 b3 gb pb)) hbd]
    have hnl : ¬ IsLvalue E := by cases hC <;> exact id
    intro st ho
    obtain ⟨l, st1, c1, c2, c3, c4, c5⟩ := iha _ a1 st ho
    obtain ⟨r, st2, c6, c7, c8, c9, _⟩ := castTo_total (t := .simple sb') (ihb _ b1) (by rw [b2]; exact .inr (.inr ⟨ib, promoted_scalar qb⟩)) st1 (ho.ext c2)
    rw [a2] at c3 c4
    rw [tyOf_castTo] at c8 c9
    obtain ⟨o, n, st3, e3, x3, z3, z4⟩ := pointerStep_total (d := d) (sub := op = .sub) c7.opened c3 (c4.mono c7) c9 c8 (promoted_scalar qb)
    obtain ⟨st4, e4, x4⟩ := assignTo_total (c5 hl) n x3.opened
    refine ⟨_, st4, ev_assignPtr d st c1 c6 e3 e4, ((c2.trans ho.opened c7).trans ho.opened x3).trans ho.opened x4, rfl, ?_, fun h => absurd h hnl⟩
    simp only [Decls.tyOf, a2]
    refine ⟨trivial, ?_⟩
    split
    · exact ⟨(z3.mono x4).1, fun _ => (z3.mono x4).2⟩
    · exact ⟨(z4.mono x4).1, fun _ => (z4.mono x4).2⟩
  | @call f args T w s hf hp ha hr ihf iha =>
    intro te hbd
    obtain ⟨tf, f1, f2, f3⟩ := hasType_built hw hf
    obtain ⟨ta, a1, a2⟩ := hasType_built hw ha
    have ht : d.tyOf (d.decay tf) = .ptr (.func s) := by rw [tyOf_decay, f2, hp]
    rw [u (e := .call f args) (by simp only [Decls.build, f1, a1, Res.bind_ok, ht]; rw [if_pos a2]) hbd]
    intro st ho
    obtain ⟨v, st1, c1, c2, c3, c4, _⟩ := decay_total (ihf _ f1) st ho
    obtain ⟨l, st2, c5, c6, c7⟩ := iha _ a1 st1 (ho.ext c2)
    rw [ht] at c3 c4
    obtain ⟨ee, st3, e3, x3, s3⟩ := callIr_total (d := d) c6.opened c3 (c4.mono c6) c7 hr
    refine ⟨_, st3, ev_call d st c1 c3 c5 e3, (c2.trans ho.opened c6).trans ho.opened x3, rfl, ?_, fun h => h.elim⟩
    simp only [Decls.tyOf, ht, Ty.target]
    exact s3
  | anil =>
    intro te hbd
    rw [u (e := .anil) rfl hbd]
    intro st ho
    exact ⟨_, st, args_nil d st [], Ext.refl ho.opened, fun v hv => by cases hv⟩
  | @acons a rest T w p ps ha hs hr iha ihr =>
    intro te hbd
    obtain ⟨ta, a1, a2, a3⟩ := hasType_built hw ha
    obtain ⟨tr, r1, r2⟩ := hasType_built hw hr
    rw [u (e := .acons a rest) (by simp only [Decls.build, a1, r1, Res.bind_ok]; rfl) hbd]
    intro st ho
    obtain ⟨v, st1, c1, c2, c3, c4, _⟩ := decay_total (iha _ a1) st ho
    rw [tyOf_decay, a2] at c3 c4
    obtain ⟨v', st2, e2, x2, t2, s2⟩ := castEV_total (d := d) (t := p) c2.opened c3 c4 (by
      rcases hs.2 with h | h
      · exact .inl h
      · exact .inr (.inr h))
    obtain ⟨l, st3, c5, c6, c7⟩ := ihr _ r1 st2 ((ho.ext c2).ext x2)
    refine ⟨_, st3, args_cons d st c1 e2 c5, (c2.trans ho.opened x2).trans ho.opened c6, fun u hu => ?_⟩
    cases hu with
    | head => rw [t2]; exact ⟨hs.1, s2.mono c6⟩
    | tail _ hu => exact c7 u hu

end Verif.ExprIr
