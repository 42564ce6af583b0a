import Verif.ExprIrPlace
/-!
Lemmas for C92: assignments.
-/
namespace Verif.ExprIr
open Verif.SimpleSpec Verif.ExprIrSpec
open Verif.Simple hiding Promoted
open Verif.CodegenSpec (bytes Promoted IsRel)
open Verif.Codegen (IrOp irFromTypeAndOp irBinaryOp bvOp)
open Verif.X86 (rd wr)

theorem replaced_unique {k u u1 u2 y o n : Nat} (h1 : Replaced k u u1 y o n) (h2 : Replaced k u u2 y o n) : u1 = u2 := by
  apply Nat.eq_of_testBit_eq
  intro i
  rw [h1.2, h2.2]

theorem setBits_replaced {k u y o n : Nat} (hk : 8 * k ≤ 64) (hu : u < 256 ^ k) (hn : 1 ≤ n) (ho : o + n ≤ 8 * k) :
    ∃ z, Bitfield.setBits (BitVec.ofNat (8 * k) u) (BitVec.ofNat (8 * k) y) o n = .ok z ∧ Replaced k u z.toNat y o n := by
  obtain ⟨z, h1, h2⟩ := Bitfield.set_bits_spec hk (BitVec.ofNat (8 * k) u) (BitVec.ofNat (8 * k) y) o n hn ho
  refine ⟨z, h1, by rw [pow256]; exact z.isLt, fun i => ?_⟩
  rw [pow256] at hu
  by_cases hi : i < 8 * k
  · have := h2 i hi
    rw [BitVec.getLsbD, BitVec.getLsbD_ofNat, BitVec.getLsbD_ofNat] at this
    rw [this]
    by_cases hc : o ≤ i ∧ i < o + n
    · rw [if_pos hc, if_pos hc]
      simp [show i - o < 8 * k by omega]
    · rw [if_neg hc, if_neg hc]
      simp [hi]
  · rw [if_neg (by omega), Nat.testBit_lt_two_pow (Nat.lt_of_lt_of_le z.isLt (Nat.pow_le_pow_right (by decide) (by omega))),
      Nat.testBit_lt_two_pow (Nat.lt_of_lt_of_le hu (Nat.pow_le_pow_right (by decide) (by omega)))]

/-- The machine with another memory. -/
def withMem (m : M) (mem : Mem) : M := { m with mem := mem }

theorem gen_store {W : World} {st : St} {m : M} {p v n y : Nat} {a : BitVec 64} (ho : Open st) (hp : m.vals p = some (.word a.toNat))
    (hv : m.vals v = some (.word y)) : Gen W st (emit st 0 (fun _ => .store p v n)).2 m (withMem m (wr m.mem a n y)) := by
  refine gen_emit ho 0 _ (fun _ => ?_) (fun k _ => ⟨rfl, rfl⟩)
  simp only [exec, hp, word_eq hv]
  show M.write m n y (.word a.toNat) = _
  simp only [M.write, BitVec.ofNat_toNat, BitVec.setWidth_eq]
  rfl

theorem assignTo_ok {d : Decls} {W : World} {st : St} {m : M} {T : Ty} {a : BitVec 64} {bits : Option (Nat × Nat)} {l : EV} {n y y' : Nat} {mem' : Mem}
    (ho : Open st) (hp : PlaceEE st m T a bits l.ee) (hv : NodeVal d st m T y False n) (hw : Write d T a bits m.mem y y' mem') :
    ∃ st' m', assignTo l n st = .ok st' ∧ Gen W st st' m m' ∧ m'.mem = mem' := by
  obtain ⟨p, h1, h2, h3, h4⟩ := hp
  have hs := hv.size id
  cases hw with
  | plain =>
    rcases h4 with ⟨_, h4⟩ | ⟨_, _, _, h, _⟩
    · refine ⟨_, _, ?_, gen_store ho h3 hv.2.1, rfl⟩
      unfold assignTo
      rw [h4]
      simp only [hs]
    · cases h
  | @bits s _ o K _ y u y' hr hy =>
    rcases h4 with ⟨h, _⟩ | ⟨o', K', s', h4, h5, h6, h7, h8, h9⟩
    · cases h
    · injection h4 with h4
      injection h4 with h4 h4'
      subst h4 h4'
      injection h6 with h6
      subst h6
      have hb := bytes_cases h7
      have hs : st.size n = bytes .sysv s := by rw [hs]; exact osize_scalar d (t := .simple s) h7
      have g1 := gen_put (W := W) (m := m) ho (bytes .sysv s) (fun k => .load k p (bytes .sysv s)) (.word (rd m.mem a (bytes .sysv s))) (fun _ => by
        simp only [exec, h3]
        show some (m.put st.next (.word (rd m.mem (BitVec.ofNat 64 a.toNat) (bytes .sysv s)))) = _
        rw [BitVec.ofNat_toNat, BitVec.setWidth_eq])
      obtain ⟨z, z1, z2⟩ := setBits_replaced (u := rd m.mem a (bytes .sysv s)) (y := y) (by omega) (X86.rd_lt _ _ _) h8 h9
      have hz := replaced_unique z2 hr
      have hvn : (m.put st.next (.word (rd m.mem a (bytes .sysv s)))).vals n = some (.word y) := (set_other _ _ (by have := hv.1; omega)).trans hv.2.1
      have g2 := gen_put (W := W) (m := m.put st.next (.word (rd m.mem a (bytes .sysv s)))) g1.opened (bytes .sysv s)
        (fun k => .setBits k st.next n o K (bytes .sysv s)) (.word u) (fun _ => by
          simp only [exec, put_word, word_eq hvn]
          simp only [bind, Option.bind, z1, hz])
      have hpn := ((g1.trans ho g2).keep p h1).1.trans h3
      have g3 := gen_store (W := W) (n := bytes .sysv s) g2.opened hpn (put_vals _ _ _)
      refine ⟨_, _, ?_, (g1.trans ho g2).trans ho g3, rfl⟩
      unfold assignTo
      rw [h5]
      simp only [hs]
      rfl

/-- A value is read from an object, or it does not depend on memory. -/
theorem Holds.source {d : Decls} {st : St} {m : M} {T : Ty} {x : Nat} {src : Option Src} {wd : Prop} {v : EV} (h : Holds d st m T x src wd v) :
    (∃ s, src = some s ∧ s.bits = false ∧ s.n = osize d T ∧ x = rd m.mem s.a s.n) ∨ (∃ s, src = some s ∧ s.bits = true) ∨
      Holds d st m T x none wd v := by
  have hv := h.val
  cases hee : v.ee with
  | void => rw [hee] at hv; exact .inr (.inr ⟨h.ty, by rw [hee]; exact hv, h.lt⟩)
  | const n y => rw [hee] at hv; exact .inr (.inr ⟨h.ty, by rw [hee]; exact hv, h.lt⟩)
  | var n => rw [hee] at hv; exact .inr (.inr ⟨h.ty, by rw [hee]; exact hv, h.lt⟩)
  | ptr p =>
    rw [hee] at hv
    obtain ⟨h0, h1, h2, u, h3, h4, h5⟩ := hv
    cases u with
    | word a => exact .inl ⟨_, h5.2, rfl, rfl, (Option.some.inj h4).symm⟩
    | slot k o => exact .inr (.inr ⟨h.ty, by rw [hee]; exact ⟨h0, h1, h2, _, h3, h4, h5⟩, h.lt⟩)
  | bits p o n g =>
    rw [hee] at hv
    obtain ⟨s, a, _, _, _, _, _, _, _, _, _, h10, _⟩ := hv
    exact .inr (.inl ⟨_, h10, rfl⟩)

theorem wr_self (m : Mem) (a : BitVec 64) (n : Nat) : wr m a n (rd m a n) = m := by
  rw [Memory.wr_rd]
  funext x
  unfold MemorySpec.copied
  split
  · congr 1
    rw [BitVec.add_comm, BitVec.sub_add_cancel]
  · rfl

theorem apart_kept {s : Src} {a : BitVec 64} {n u : Nat} (m : Mem) (h : Apart s.a s.n a n) : Kept (some s) m (wr m a n u) := by
  intro s' hs
  injection hs with hs
  subst hs
  exact X86.rd_wr_disj (fun i hi j hj => h i j hi hj)

theorem Holds.written {d : Decls} {W : World} {st st' : St} {m m' : M} {T : Ty} {y : Nat} {src : Option Src} {wd : Prop} {v : EV} {a : BitVec 64}
    {bits : Option (Nat × Nat)} {y' : Nat} (h : Holds d st m T y src wd v) (g : Gen W st st' m m') (hn : NoOverlap src a (osize d T) bits.isSome)
    (hi : bits ≠ none → IsScalar T)
    (hw : Write d T a bits m.mem y y' m'.mem) : Holds d st' m' T y src wd v := by
  have hwr : ∃ u, m'.mem = wr m.mem a (osize d T) u ∧ (bits = none → u = y) := by
    generalize hm' : m'.mem = mm at hw
    cases hw with
    | plain => exact ⟨y, rfl, fun _ => rfl⟩
    | @bits s _ o n _ _ u _ _ _ => exact ⟨u, by rw [osize_scalar d (hi (by simp))]; rfl, fun h => by cases h⟩
  obtain ⟨u, hu, hun⟩ := hwr
  rcases h.source with ⟨s, hs, hb, hsn, hx⟩ | ⟨s, hs, hb⟩ | h0
  · refine h.mono g ?_
    rcases hn s hs with hA | ⟨e1, e2, e3, e4⟩
    · rw [hs, hu]; exact apart_kept _ hA
    · have : bits = none := by cases bits with
        | none => rfl
        | some _ => cases e4
      refine kept_eq ?_
      rw [hu, hun this, hx, e1, e2, wr_self]
  · refine h.mono g ?_
    rcases hn s hs with hA | ⟨e1, e2, e3, e4⟩
    · rw [hs, hu]; exact apart_kept _ hA
    · rw [hb] at e3; cases e3
  · exact (h0.mono g (fun s hs => by cases hs)).none_any src

theorem gen_copy {W : World} {st : St} {m : M} {p q n y : Nat} {a : BitVec 64} {v : Val} (ho : Open st) (hp : m.vals p = some (.word a.toNat))
    (hv : m.vals q = some v) (hy : m.read n v = some y) : Gen W st (emit st 0 (fun _ => .copy p q n)).2 m (withMem m (wr m.mem a n y)) := by
  refine gen_emit ho 0 _ (fun _ => ?_) (fun k _ => ⟨rfl, rfl⟩)
  simp only [exec, word_eq hp, hv]
  show (m.read n v).bind (fun x => M.write m n x (.word a.toNat)) = _
  rw [hy]
  show M.write m n y (.word a.toNat) = _
  simp only [M.write, BitVec.ofNat_toNat, BitVec.setWidth_eq]
  rfl

theorem assignEE_ok {d : Decls} {W : World} {st : St} {m : M} {T : Ty} {a : BitVec 64} {bits : Option (Nat × Nat)} {l r : EV} {y y' : Nat} {mem' : Mem}
    {src : Option Src} {wd : Prop}
    (ho : Open st) (hl : l.ty = T) (hp : PlaceEE st m T a bits l.ee) (hr : Holds d st m T y src wd r) (hT : IsValue T) (hwd : osize d T = 4 → ¬ wd)
    (hw : Write d T a bits m.mem y y' mem') :
    ∃ st' m', d.assignEE l r st = .ok st' ∧ Gen W st st' m m' ∧ m'.mem = mem' := by
  unfold Decls.assignEE
  rw [hl, hr.ty, if_neg (fun h => h rfl), size_eq]
  by_cases h8 : osize d T ≤ 8
  · rw [if_pos h8]
    obtain ⟨n, st1, m1, e1, g1, hm1, nv⟩ := toVar_ok (W := W) ho hr (value_ne_void hT)
    have nv' : NodeVal d st1 m1 T y False n := ⟨nv.1, nv.2.1, .inl (by
      rcases nv.2.2 with h | ⟨h, _, h', _⟩
      · exact h
      · exact absurd h (hwd h'))⟩
    obtain ⟨st2, m2, e2, g2, hm2⟩ := assignTo_ok (W := W) (l := l) g1.opened (hp.mono g1) nv' (by rw [hm1]; exact hw)
    exact ⟨st2, m2, by rw [e1]; exact e2, g1.trans ho g2, hm2⟩
  · rw [if_neg h8]
    obtain ⟨q, st1, m1, e1, g1, hm1, k1, k2, v, k3, k4, k5⟩ := toAddress_ok (W := W) ho hr (value_ne_void hT) hwd
    obtain ⟨p, p1, p2, p3, p4⟩ := hp.mono g1
    rcases p4 with ⟨rfl, p4⟩ | ⟨o, n, s, _, _, hs, hi, _⟩
    · cases hw with
      | plain =>
        have g2 := gen_copy (W := W) (n := osize d T) g1.opened p3 k3 k4
        refine ⟨_, _, ?_, g1.trans ho g2, by rw [hm1]; rfl⟩
        rw [e1, Res.bind_ok, p4]
    · subst hs
      exact absurd (by rw [osize_scalar d (t := .simple s) hi]; have := bytes_cases hi; show bytes .sysv s ≤ 8; omega) h8

theorem Runs.assign {d : Decls} {W : World} {a b : TE} {mem mem1 mem2 mem3 : Mem} {T Tb : Ty} {p : BitVec 64} {bits : Option (Nat × Nat)} {x y y' : Nat}
    {src : Option Src} {wb : Prop} (ha : RunsPlace d W a mem T p bits mem1) (hb : Runs d W b mem1 Tb x src wb mem2) (hta : d.tyOf a = T)
    (hT : IsValue T) (hc : Conv Tb T x y) (hn : NoOverlap src p (osize d T) bits.isSome) (hw : Write d T p bits mem2 y y' mem3)
    (hwd : osize d T = 4 → ¬ wb) (wd : Prop) : Runs d W (.assign a b) mem T y src wd mem3 := by
  intro st m ho hv hm
  obtain ⟨l, st1, m1, e1, g1, hm1, hl1, hl2, hl3⟩ := ha st m ho hv hm
  obtain ⟨r, st2, m2, e2, g2, hm2, hr⟩ := hb st1 m1 g1.opened (HasVars.mono hv g1) hm1
  have main : ∀ src', (Tb = T → src' = src) → NoOverlap src' p (osize d T) bits.isSome → ∃ v st' m', d.evaluate (.assign a b) st = .ok (v, st') ∧
      Gen W st st' m m' ∧ m'.mem = mem3 ∧ Holds d st' m' T y src' wd v := by
    intro src' hs hn
    obtain ⟨r', st3, m3, e3, g3, hm3, hr'⟩ := castEV_ok (W := W) g2.opened hr (.inl (value_ne_void hT)) hc hs
    have hp3 := (hl3.mono g2).mono g3
    obtain ⟨st4, m4, e4, g4, hm4⟩ := assignEE_ok (W := W) (l := l) g3.opened hl1 hp3 hr' hT (fun h h' => hwd h h'.1) (by rw [hm3, hm2]; exact hw)
    have hfin := hr'.written (a := p) (bits := bits) (y' := y') g4 hn (by
      intro hne
      obtain ⟨_, _, _, _, h4⟩ := hl3
      rcases h4 with ⟨h, _⟩ | ⟨_, _, s, _, _, h, hi, _⟩
      · exact absurd h hne
      · rw [h]; exact hi) (by rw [hm3, hm2, hm4]; exact hw)
    exact ⟨_, st4, m4, ev_assign d st e1 e2 (by rw [hta]; exact e3) hl2 e4, ((g1.trans ho g2).trans ho g3).trans ho g4, hm4, hta,
      (hfin.wd_mono (fun h h4 => absurd h.1 (hwd h4))).val, hfin.lt⟩
  by_cases hne : Tb = T
  · exact main src (fun _ => rfl) hn
  · obtain ⟨v, st', m', h1, h2, h3, h4⟩ := main none (fun h => absurd h hne) (fun s hs => by cases hs)
    exact ⟨v, st', m', h1, h2, h3, h4.none_any src⟩

theorem not_rel_type {t : ST} {op : Op} (h : ¬ IsRel op) : opType t op = t := by
  unfold opType; unfold CodegenSpec.IsRel at h; rw [if_neg h]

/-- The result converted back to the type of the object. -/
theorem conv_back {t sa : ST} (ht : Promoted t) (hi : IsInt sa) {v r : Int} {zt z : Nat} (hz : Rep (.simple t) v zt) (hc : IsConversion .sysv sa v r)
    (hr : Rep (.simple sa) r z) : Conv (.simple t) (.simple sa) zt z := by
  have hti : IsInt t := promoted_scalar ht
  have hb := promoted_not_bool ht
  unfold Conv
  by_cases h : t = sa
  · subst h
    rw [if_pos rfl]
    have hin := (inRange_iff hti hb _).mpr (valueOf_inBits (t := .simple t) hti zt)
    rw [hz.2] at hin
    have := Simple.conversion_unique .sysv t hti _ _ _ hc (inRange_conversion hb hin)
    subst this
    exact rep_unique hr hz
  · rw [if_neg (fun e => h (by injection e))]
    exact ⟨r, hti, hi, by rw [hz.2]; exact hc, hr⟩

theorem Runs.assignOp {d : Decls} {W : World} {a b : TE} {mem mem1 mem2 mem3 : Mem} {sa t : ST} {p : BitVec 64} {bits : Option (Nat × Nat)}
    {x xt y z : Nat} {srcB : Option Src} {wb : Prop} {op : Op} {va vb v r : Int} {post : Bool}
    (ha : RunsPlace d W a mem (.simple sa) p bits mem1) (hb : Runs d W b mem1 (.simple t) y srcB wb mem2) (hta : d.tyOf a = .simple sa)
    (htb : d.tyOf b = .simple t) (hi : IsInt sa) (ht : Promoted t) (hop : ¬ IsRel op)
    (hr : Read d (.simple sa) p bits mem2 x) (c1 : Conv (.simple sa) (.simple t) x xt) (hx : Rep (.simple t) va xt) (hy : Rep (.simple t) vb y)
    (hv : opVal .sysv t op va vb = some v) (hd : DivOk op t va vb) (hc : IsConversion .sysv sa v r) (hz : Rep (.simple sa) r z)
    (hw : Write d (.simple sa) p bits mem2 z z mem3) (wd : Prop) :
    Runs d W (.assignOp op post a b) mem (.simple sa) (if post then x else z) none wd mem3 := by
  intro st m ho hvs hm
  obtain ⟨l, st1, m1, e1, g1, hm1, hl1, hl2, hl3⟩ := ha st m ho hvs hm
  obtain ⟨rr, st2, m2, e2, g2, hm2, hrr⟩ := hb st1 m1 g1.opened (HasVars.mono hvs g1) hm1
  have hp2 := hl3.mono g2
  have hl := hp2.holds (d := d) (v := l) hl1 (by rw [hm2]; exact hr) False
  have hxlt := hl.lt (isValue_scalar (T := .simple sa) hi)
  obtain ⟨lv, st3, m3, e3, g3, hm3, nl⟩ := toVar_ok (W := W) g2.opened hl (scalar_ne_void (T := .simple sa) hi)
  obtain ⟨rv, st4, m4, e4, g4, hm4, nr⟩ := toVar_ok (W := W) g3.opened (hrr.mono g3 (kept_eq hm3)) (scalar_ne_void (promoted_scalar ht))
  have nl4 := nl.mono g4
  obtain ⟨n5, st5, m5, e5, g5, hm5, n5v⟩ := castVar_ok (W := W) g4.opened nl4 hi (promoted_scalar ht) hxlt c1
  have hs5 : st5.size n5 = bytes .sysv t := by rw [n5v.size (fun h => h.1)]; exact osize_scalar d (t := .simple t) (promoted_scalar ht)
  obtain ⟨o, ho1, z', ho2, ho3, _⟩ := op_node ht op hx hy hv hd
  rw [not_rel_type hop] at ho3
  have g6 := op_put (W := W) g5.opened (promoted_bytes ht) n5v.2.1 (nr.mono g5).2.1 ho2
  have n6 : NodeVal d (emit st5 (bytes .sysv t) (fun k => .op k (irBinaryOp o) n5 rv (bytes .sysv t))).2 (m5.put st5.next (.word z'.toNat)) (.simple t) z'.toNat
      False st5.next :=
    nodeVal_put (fun k => .op k (irBinaryOp o) n5 rv (bytes .sysv t)) (osize_scalar d (t := .simple t) (promoted_scalar ht)).symm False
  obtain ⟨n7, st7, m7, e7, g7, hm7, n7v⟩ := castVar_ok (W := W) g6.opened n6 (promoted_scalar ht) (t := .simple sa) hi
    (by rw [osize_scalar d (t := .simple t) (promoted_scalar ht)]; exact ho3.1) (conv_back ht hi ho3 hc hz)
  have n7v' : NodeVal d st7 m7 (.simple sa) z False n7 := ⟨n7v.1, n7v.2.1, .inl (n7v.size (fun h => h.1))⟩
  have hm7' : m7.mem = mem2 := hm7.trans (hm5.trans (hm4.trans (hm3.trans hm2)))
  have gm := (((g3.trans g2.opened g4).trans g2.opened g5).trans g2.opened g6).trans g2.opened g7
  obtain ⟨st8, m8, e8, g8, hm8⟩ := assignTo_ok (W := W) (l := l) g7.opened (hp2.mono gm) n7v' (by rw [hm7']; exact hw)
  have hev := ev_assignOp d st (post := post) (x := n5) (st5 := st5) e1 e2 (by rw [htb]; rfl) ho1 e3 e4 (by rw [hl1, htb]; exact e5) (by rw [hl1, htb, hs5]; exact e7) e8
  refine ⟨_, st8, m8, hev, ((g1.trans ho g2).trans ho gm).trans ho g8, hm8, hta, ?_, ?_⟩
  · cases post with
    | false => exact ⟨hi, (n7v'.mono g8).1, (n7v'.mono g8).2.1, .inl ((n7v'.mono g8).size id)⟩
    | true =>
      have nl8 := (((((nl4.mono g5).mono g6).mono g7).mono g8))
      exact ⟨hi, nl8.1, nl8.2.1, .inl (nl8.size id)⟩
  · intro _
    cases post with
    | false => rw [osize_scalar d (t := .simple sa) hi]; exact hz.1
    | true => exact hxlt

theorem Runs.assignPtr {d : Decls} {W : World} {a b : TE} {mem mem1 mem2 : Mem} {t : Ty} {s : ST} {p : BitVec 64} {y z : Nat} {srcB : Option Src} {wb : Prop}
    {sub post : Bool} (ha : RunsPlace d W a mem (.ptr t) p none mem1) (hb : Runs d W b mem1 (.simple s) y srcB wb mem2)
    (hta : d.tyOf a = .ptr t) (hs : IsInt s) (hz : z < 2 ^ 64)
    (hd : (2 ^ 64 : Int) ∣ (z : Int) - stepped d sub t (rd mem2 p 8) (valueOf (.simple s) y)) (wd : Prop) :
    Runs d W (.assignPtr sub post a b) mem (.ptr t) (if post then rd mem2 p 8 else z) none wd (wr mem2 p 8 z) := by
  intro st m ho hvs hm
  obtain ⟨l, st1, m1, e1, g1, hm1, hl1, hl2, hl3⟩ := ha st m ho hvs hm
  obtain ⟨r, st2, m2, e2, g2, hm2, hr⟩ := hb st1 m1 g1.opened (HasVars.mono hvs g1) hm1
  have hp2 := hl3.mono g2
  have hl := hp2.holds (d := d) (v := l) hl1 (.plain (m := m2.mem) (T := .ptr t) trivial) False
  have hlt := hl.lt trivial
  rw [hm2] at hl hlt
  obtain ⟨o, n, st3, m3, e3, g3, hm3, no, nz⟩ := pointerStep_ok (W := W) (sub := sub) g2.opened hl hr hs hz hd
  obtain ⟨st4, m4, e4, g4, hm4⟩ := assignTo_ok (W := W) (l := l) g3.opened (hp2.mono g3) nz (y' := z) (.plain (T := .ptr t))
  refine ⟨_, st4, m4, ev_assignPtr d st (post := post) e1 e2 e3 e4, ((g1.trans ho g2).trans ho g3).trans ho g4, ?_, hta, ?_, ?_⟩
  · rw [hm4, hm3, hm2]; rfl
  · cases post with
    | false => exact ⟨trivial, (nz.mono g4).eight rfl _⟩
    | true => exact ⟨trivial, (no.mono g4).eight rfl _⟩
  · intro _
    cases post with
    | false => exact hz
    | true => exact hlt

end Verif.ExprIr
