import Verif.ExprIrRun
/-!
Lemmas for C92: pointers, objects, members.
-/
namespace Verif.ExprIr
open Verif.SimpleSpec Verif.ExprIrSpec
open Verif.Simple hiding Promoted
open Verif.CodegenSpec (bytes Promoted IsRel)
open Verif.Codegen (IrOp irFromTypeAndOp irBinaryOp bvOp)
open Verif.X86 (rd wr)

/-! ### Pointer arithmetic -/

theorem ofInt_congr {a b : Int} (h : (2 ^ 64 : Int) ∣ a - b) : BitVec.ofInt 64 a = BitVec.ofInt 64 b := by
  apply BitVec.eq_of_toNat_eq
  rw [BitVec.toNat_ofInt, BitVec.toNat_ofInt]
  congr 1
  have : ((2 ^ 64 : Nat) : Int) = 2 ^ 64 := by decide
  rw [this]
  obtain ⟨k, hk⟩ := h
  omega

theorem conv_ulong {s : ST} (hs : IsInt s) {y : Nat} (hy : y < 256 ^ bytes .sysv s) :
    ∃ yi, Conv (.simple s) .ulong y yi ∧ yi < 2 ^ 64 ∧ BitVec.ofNat 64 yi = BitVec.ofInt 64 (valueOf (.simple s) y) := by
  have hu : Promoted .ulong := by decide
  obtain ⟨yi, h1, h2⟩ := conv_of_conversion hs hu hy (va := valueOf (.simple s) y % 2 ^ 64) (by
    unfold IsConversion
    rw [if_neg (by decide)]
    refine ⟨?_, ?_⟩
    · have a1 : signed .ulong = false := by decide
      have a2 : width .sysv .ulong = 64 := by decide
      unfold InRange
      rw [a1, a2]
      simp only [inBits, Bool.false_eq_true, if_false]
      omega
    · have a2 : width .sysv .ulong = 64 := by decide
      rw [a2]
      refine ⟨-(valueOf (.simple s) y / 2 ^ 64), ?_⟩
      omega)
  have hlt : yi < 2 ^ 64 := h1.1
  refine ⟨yi, h2, hlt, ?_⟩
  have h3 := valueOf_unsigned (t := .ulong) (by decide) h1.1
  rw [h1.2] at h3
  rw [← BitVec.ofInt_natCast, ← h3]
  refine ofInt_congr ⟨-(valueOf (.simple s) y / 2 ^ 64), ?_⟩
  omega

theorem NodeVal.eight {d : Decls} {st : St} {m : M} {T : Ty} {x : Nat} {wd : Prop} {n : Nat} (h : NodeVal d st m T x wd n)
    (h8 : osize d T = 8) (wd' : Prop) : NodeVal d st m T x wd' n := by
  refine ⟨h.1, h.2.1, ?_⟩
  rcases h.2.2 with h | h
  · exact .inl h
  · omega

/-- The pointer moved by a number of objects. -/
def stepped (d : Decls) (sub : Bool) (t : Ty) (p : Nat) (v : Int) : Int := if sub then (p : Int) - v * osize d t else p + v * osize d t

theorem pointerStep_ok {d : Decls} {W : World} {st : St} {m : M} {sub : Bool} {t : Ty} {s : ST} {p y z : Nat} {srcP srcI : Option Src} {wp wi : Prop}
    {pe ie : EV} (ho : Open st) (hp : Holds d st m (.ptr t) p srcP wp pe) (hi : Holds d st m (.simple s) y srcI wi ie) (hs : IsInt s)
    (hz : z < 2 ^ 64) (hd : (2 ^ 64 : Int) ∣ (z : Int) - stepped d sub t p (valueOf (.simple s) y)) :
    ∃ o r st' m', d.pointerStep sub pe ie st = .ok (o, r, st') ∧ Gen W st st' m m' ∧ m'.mem = m.mem ∧
      NodeVal d st' m' (.ptr t) p False o ∧ NodeVal d st' m' (.ptr t) z False r := by
  have hy := hi.lt (isValue_scalar (T := .simple s) hs)
  rw [osize_scalar d (t := .simple s) hs] at hy
  obtain ⟨yi, c1, c2, c3⟩ := conv_ulong hs hy
  obtain ⟨ie', st1, m1, e1, g1, hm1, hi1⟩ := castEV_ok (W := W) (t := .ulong) (src' := srcI) ho hi (.inl (by intro h; cases h)) c1 (fun _ => rfl)
  obtain ⟨pn, st2, m2, e2, g2, hm2, np⟩ := toVar_ok (W := W) g1.opened (hp.mono g1 (kept_eq hm1)) (by intro h; cases h)
  obtain ⟨jn, st3, m3, e3, g3, hm3, nj⟩ := toVar_ok (W := W) g2.opened (hi1.mono g2 (kept_eq hm2)) (by intro h; cases h)
  have g4 := gen_put (W := W) (m := m3) g3.opened 8 (fun k => .const k (d.size t)) (.word (d.size t)) (fun _ => rfl)
  have nj := (nj.eight (d := d) (T := .ulong) rfl False).mono g4
  have np := ((np.eight (d := d) (T := .ptr t) rfl False).mono g3).mono g4
  have sj : (emit st3 8 (fun k => .const k (d.size t))).2.size jn = 8 := nj.size id
  have sp : (emit st3 8 (fun k => .const k (d.size t))).2.size pn = 8 := np.size id
  have g5 := op_put (W := W) (o := .mul) g4.opened (.inr rfl) nj.2.1 (put_vals m3 st3.next (.word (d.size t))) rfl
  have np5 := np.mono g5
  have sp5 : (emit (emit st3 8 (fun k => .const k (d.size t))).2 8 (fun k => .op k .mul jn st3.next 8)).2.size pn = 8 := np5.size id
  have key : ∀ o : IrOp, o = (if sub then .sub else .add) → bvOp o (BitVec.ofNat (8 * 8) p)
      (BitVec.ofNat (8 * 8) (BitVec.ofNat (8 * 8) yi * BitVec.ofNat (8 * 8) (d.size t)).toNat) = some (BitVec.ofNat (8 * 8) z) := by
    intro o ho
    rw [BitVec.ofNat_toNat, BitVec.setWidth_eq]
    change bvOp o (BitVec.ofNat 64 p) (BitVec.ofNat 64 yi * BitVec.ofNat 64 (d.size t)) = some (BitVec.ofNat 64 z)
    rw [c3, ← BitVec.ofInt_natCast 64 z, ofInt_congr hd, ← BitVec.ofInt_natCast 64 p, ← BitVec.ofInt_natCast 64 (d.size t), ← BitVec.ofInt_mul,
      size_eq]
    unfold stepped
    cases sub
    · simp only [Bool.false_eq_true, if_false] at ho ⊢
      subst ho
      simp only [bvOp, BitVec.ofInt_add]
    · simp only [if_true] at ho ⊢
      subst ho
      simp only [bvOp, Int.sub_eq_add_neg, BitVec.ofInt_add, BitVec.ofInt_neg, BitVec.sub_eq_add_neg]
  have g6 := op_put (W := W) (o := if sub then .sub else .add) g5.opened (.inr rfl) np5.2.1 (put_vals _ _ _) (key _ rfl)
  have gAll := ((((g1.trans ho g2).trans ho g3).trans ho g4).trans ho g5).trans ho g6
  refine ⟨pn, (emit (emit st3 8 (fun k => .const k (d.size t))).2 8 (fun k => .op k .mul jn st3.next 8)).2.next, _, _, ?_, gAll,
    hm3.trans (hm2.trans hm1), np5.mono g6, ?_⟩
  · unfold Decls.pointerStep
    simp only [e1, Res.bind_ok, e2, e3]
    have e4 : d.toVar (d.sizeEV pe.ty.target) st3 = .ok (emit st3 8 (fun k => .const k (d.size t))) := by
      rw [hp.ty]; rfl
    rw [e4]
    simp only [Res.bind_ok]
    rw [sj]
    show Res.ok (pn, emit _ ((emit (emit st3 8 (fun k => .const k (d.size t))).2 8 (fun k => .op k .mul jn st3.next 8)).2.size pn)
      (fun k => .op k (if sub then .sub else .add) pn _ ((emit (emit st3 8 (fun k => .const k (d.size t))).2 8 (fun k => .op k .mul jn st3.next 8)).2.size pn))) = _
    rw [sp5]
    rfl
  · refine ⟨Nat.lt_succ_self _, ?_, .inl (emit_size _ _ _)⟩
    rw [put_vals, BitVec.toNat_ofNat, Nat.mod_eq_of_lt hz]

theorem Runs.ptrArith {d : Decls} {W : World} {a b : TE} {mem mem1 mem2 : Mem} {t : Ty} {s : ST} {p y z : Nat} {srcA srcB : Option Src} {wa wb : Prop}
    {sub : Bool} (ha : Runs d W a mem (.ptr t) p srcA wa mem1) (hb : Runs d W b mem1 (.simple s) y srcB wb mem2) (hk : Kept srcA mem1 mem2)
    (hta : d.tyOf a = .ptr t) (hs : IsInt s)
    (hz : z < 2 ^ 64) (hd : (2 ^ 64 : Int) ∣ (z : Int) - stepped d sub t p (valueOf (.simple s) y)) (wd : Prop) :
    Runs d W (.ptrArith sub a b) mem (.ptr t) z none wd mem2 := by
  intro st m ho hv hm
  obtain ⟨l, st1, m1, e1, g1, hm1, hl⟩ := ha st m ho hv hm
  obtain ⟨r, st2, m2, e2, g2, hm2, hr⟩ := hb st1 m1 g1.opened (HasVars.mono hv g1) hm1
  obtain ⟨o, n, st3, m3, e3, g3, hm3, _, nz⟩ := pointerStep_ok (W := W) (sub := sub) g2.opened (hl.mono g2 (by rw [hm1, hm2]; exact hk)) hr hs hz hd
  exact ⟨_, st3, m3, ev_ptrArith d st e1 e2 e3, (g1.trans ho g2).trans ho g3, hm3.trans hm2, hta, ⟨trivial, nz.eight rfl wd⟩, fun _ => hz⟩

theorem Runs.ptrDiff {d : Decls} {W : World} {a b : TE} {mem mem1 mem2 : Mem} {t : Ty} {p q z : Nat} {k : Int} {srcA srcB : Option Src} {wa wb : Prop}
    (ha : Runs d W a mem (.ptr t) p srcA wa mem1) (hb : Runs d W b mem1 (.ptr t) q srcB wb mem2) (hk : Kept srcA mem1 mem2)
    (hta : d.tyOf a = .ptr t) (hob : IsObject d t)
    (h1 : (p : Int) - q = k * osize d t) (h2 : -2 ^ 63 ≤ (p : Int) - q) (h3 : (p : Int) - q < 2 ^ 63) (hz : Rep (.simple .long) k z) (wd : Prop) :
    Runs d W (.ptrDiff a b) mem (.simple .long) z none wd mem2 := by
  intro st m ho hvs hm
  obtain ⟨l, r, st1, st2, st3, st4, m4, lv, rv, e1, e2, e3, e4, g, hm4, nl, nr, _, _⟩ :=
    Runs.two ha hb hk (by intro h; cases h) (by intro h; cases h) ho hvs hm
  have g5 := gen_put (W := W) (m := m4) g.opened 8 (fun k => .const k (d.size t)) (.word (d.size t)) (fun _ => rfl)
  have nl5 := (nl.eight (d := d) (T := .ptr t) rfl False).mono g5
  have nr5 := (nr.eight (d := d) (T := .ptr t) rfl False).mono g5
  have sl : (emit st4 8 (fun k => .const k (d.size t))).2.size lv = 8 := nl5.size id
  have g6 := op_put (W := W) (o := .sub) g5.opened (.inr rfl) nl5.2.1 nr5.2.1 rfl
  have hsz : ((m4.put st4.next (.word (d.size t))).put (emit st4 8 (fun k => .const k (d.size t))).2.next
      (.word (BitVec.ofNat (8 * 8) p - BitVec.ofNat (8 * 8) q).toNat)).vals st4.next = some (.word (d.size t)) := by
    have := (g6.keep st4.next (Nat.lt_succ_self _)).1
    rw [this, put_vals]
  have key : bvOp .idiv (BitVec.ofNat (8 * 8) (BitVec.ofNat (8 * 8) p - BitVec.ofNat (8 * 8) q).toNat) (BitVec.ofNat (8 * 8) (d.size t)) =
      some (BitVec.ofInt (8 * 8) k) := by
    rw [BitVec.ofNat_toNat, BitVec.setWidth_eq]
    change bvOp .idiv (BitVec.ofNat 64 p - BitVec.ofNat 64 q) (BitVec.ofNat 64 (d.size t)) = some (BitVec.ofInt 64 k)
    have hb1 : (BitVec.ofNat 64 (d.size t)).toInt = osize d t := by
      rw [size_eq, BitVec.toInt_eq_toNat_cond, BitVec.toNat_ofNat, Nat.mod_eq_of_lt (by have := hob.2; omega), if_pos (by have := hob.2; omega)]
    have hb2 : (BitVec.ofNat 64 p - BitVec.ofNat 64 q).toInt = k * osize d t := by
      rw [← h1, ← BitVec.ofInt_natCast, ← BitVec.ofInt_natCast, BitVec.sub_eq_add_neg, ← BitVec.ofInt_neg, ← BitVec.ofInt_add,
        ← Int.sub_eq_add_neg, BitVec.toInt_ofInt]
      exact Codegen.bmod_inRange (w := 64) (.inr rfl) ⟨by omega, by omega⟩
    have h0 := hob.1
    have hq : (k * (osize d t : Int)).tdiv (osize d t : Int) = k := Int.mul_tdiv_cancel k (by omega)
    simp only [bvOp, hb1, hb2, hq]
    have hzr := valueOf_inBits (t := .simple .long) (by show IsInt .long; decide) z
    rw [hz.2] at hzr
    have hzr : -(2 ^ 63) ≤ k ∧ k < 2 ^ 63 := hzr
    rw [if_neg (by omega), if_pos hzr]
  have g7 := op_put (W := W) (o := .idiv) g6.opened (.inr rfl) (put_vals _ _ _) hsz key
  have hk2 : (BitVec.ofInt (8 * 8) k).toNat = z := by
    refine rep_unique (t := .simple .long) (v := k) ⟨BitVec.isLt _, ?_⟩ hz
    show (BitVec.ofNat 64 (BitVec.ofInt 64 k).toNat).toInt = k
    rw [BitVec.ofNat_toNat, BitVec.setWidth_eq, BitVec.toInt_ofInt]
    have hzr := valueOf_inBits (t := .simple .long) (by show IsInt .long; decide) z
    rw [hz.2] at hzr
    exact Codegen.bmod_inRange (w := 64) (.inr rfl) hzr
  have e5 : d.toVar (d.sizeEV (d.tyOf a).target) st4 = .ok (emit st4 8 (fun k => .const k (d.size t))) := by
    rw [hta]; rfl
  have ev := ev_ptrDiff d st e1 e2 e3 e4 (show _ = Res.ok ((emit st4 8 (fun k => .const k (d.size t))).1, (emit st4 8 (fun k => .const k (d.size t))).2) from e5)
  rw [sl] at ev
  refine ⟨_, _, _, ev, ((g.trans ho g5).trans ho g6).trans ho g7, hm4, rfl, ⟨by show IsInt .long; decide, Nat.lt_succ_self _, ?_, .inl (emit_size _ _ _)⟩, fun _ => hz.1⟩
  rw [← hk2]
  exact put_vals _ _ _

/-! ### Objects -/

theorem RunsPlace.deref {d : Decls} {W : World} {e : TE} {mem mem' : Mem} {t : Ty} {p : Nat} {src : Option Src} {wd : Prop}
    (h : Runs d W e mem (.ptr t) p src wd mem') (ht : d.tyOf e = .ptr t) :
    RunsPlace d W (.deref e) mem t (BitVec.ofNat 64 p) none mem' := by
  intro st m ho hv hm
  obtain ⟨v, st1, m1, e1, g1, hm1, hh⟩ := h st m ho hv hm
  have hlt : p < 2 ^ 64 := hh.lt trivial
  have hty : d.tyOf (.deref e) = t := by simp only [Decls.tyOf, ht, Ty.target]
  have hval := hh.val
  have hp : (BitVec.ofNat 64 p).toNat = p := by rw [BitVec.toNat_ofNat, Nat.mod_eq_of_lt hlt]
  cases hee : v.ee with
  | void => rw [hee] at hval; cases hval
  | const n x => rw [hee] at hval; obtain ⟨⟨_, h, _⟩, _⟩ := hval; cases h
  | bits p o n g => rw [hee] at hval; obtain ⟨_, _, h, _⟩ := hval; cases h
  | var n =>
    rw [hee] at hval
    have nv := hval.2.eight rfl False
    exact ⟨_, st1, m1, ev_deref_var d st e1 hee, g1, hm1, hty, rfl, n, nv.1, nv.size id, by rw [hp]; exact nv.2.1, .inl ⟨rfl, rfl⟩⟩
  | ptr q =>
    rw [hee] at hval
    obtain ⟨_, h1, h2, u, h3, h4, h5⟩ := hval
    have g2 := gen_put (W := W) (m := m1) g1.opened 8 (fun k => .load k q 8) (.word p) (fun _ => by
      simp only [exec, h3]
      show (m1.read 8 u).bind _ = _
      have h4 : m1.read 8 u = some p := h4
      rw [h4]
      rfl)
    refine ⟨_, _, _, ev_deref_ptr d st e1 hee, g1.trans ho g2, hm1, hty, rfl, st1.next, Nat.lt_succ_self _, emit_size _ _ _, ?_, .inl ⟨rfl, rfl⟩⟩
    rw [hp]
    exact put_vals _ _ _

theorem RunsPlace.addr {d : Decls} {W : World} {e : TE} {mem mem' : Mem} {T : Ty} {a : BitVec 64}
    (h : RunsPlace d W e mem T a none mem') (ht : d.tyOf e = T) (wd : Prop) : Runs d W (.addr e) mem (.ptr T) a.toNat none wd mem' := by
  intro st m ho hv hm
  obtain ⟨v, st1, m1, e1, g1, hm1, _, _, p, h1, h2, h3, h4⟩ := h st m ho hv hm
  rcases h4 with ⟨_, h4⟩ | ⟨_, _, _, h, _⟩
  · exact ⟨_, st1, m1, ev_addr d st e1 h4, g1, hm1, by rw [ht], ⟨trivial, h1, h3, .inl h2⟩, fun _ => a.isLt⟩
  · cases h

theorem RunsPlace.decay {d : Decls} {W : World} {e : TE} {mem mem' : Mem} {T : Ty} {a : BitVec 64}
    (h : RunsPlace d W e mem T a none mem') (ht : d.tyOf e = T) (hd : decayed T ≠ T) (wd : Prop) :
    Runs d W (d.decay e) mem (decayed T) a.toNat none wd mem' := by
  cases hT : T with
  | arr t n =>
    subst hT
    have : d.decay e = .decay e := by unfold Decls.decay; rw [ht]
    rw [this]
    intro st m ho hv hm
    obtain ⟨v, st1, m1, e1, g1, hm1, _, _, p, h1, h2, h3, h4⟩ := h st m ho hv hm
    rcases h4 with ⟨_, h4⟩ | ⟨_, _, _, h, _⟩
    · exact ⟨_, st1, m1, ev_decay d st e1 h4, g1, hm1, by simp only [Decls.tyOf, ht]; rfl, ⟨trivial, h1, h3, .inl h2⟩, fun _ => a.isLt⟩
    · cases h
  | func s =>
    subst hT
    have : d.decay e = .addr e := by unfold Decls.decay; rw [ht]
    rw [this]
    exact h.addr ht wd
  | simple s => subst hT; exact absurd rfl hd
  | ptr s => subst hT; exact absurd rfl hd
  | struct s => subst hT; exact absurd rfl hd

theorem PlaceEE.holds {d : Decls} {st : St} {m : M} {T : Ty} {a : BitVec 64} {bits : Option (Nat × Nat)} {v : EV} {x : Nat}
    (h : PlaceEE st m T a bits v.ee) (hty : v.ty = T) (hr : Read d T a bits m.mem x) (wd : Prop) :
    Holds d st m T x (some ⟨a, osize d T, bits.isSome⟩) wd v := by
  obtain ⟨p, h1, h2, h3, h4⟩ := h
  cases hr with
  | plain hv =>
    rcases h4 with ⟨_, h4⟩ | ⟨_, _, _, h, _⟩
    · refine ⟨hty, ?_, fun _ => X86.rd_lt _ _ _⟩
      rw [h4]
      refine ⟨hv, h1, h2, _, h3, ?_, a.isLt, ?_⟩
      · simp only [M.read, BitVec.ofNat_toNat, BitVec.setWidth_eq]
      · simp only [BitVec.ofNat_toNat, BitVec.setWidth_eq]; rfl
    · cases h
  | @bits s _ o n _ x hrep =>
    rcases h4 with ⟨h, _⟩ | ⟨o', n', s', h4, h5, h6, h7, h8, h9⟩
    · cases h
    · injection h4 with h4
      injection h4 with h4 h4'
      subst h4 h4'
      injection h6 with h6
      subst h6
      refine ⟨hty, ?_, fun _ => by rw [osize_scalar d (t := .simple s) h7]; exact hrep.1⟩
      rw [h5]
      refine ⟨s, a.toNat, rfl, h7, rfl, h8, h9, h1, h2, h3, a.isLt, ?_, ?_⟩
      · simp only [BitVec.ofNat_toNat, BitVec.setWidth_eq]; rfl
      · simp only [BitVec.ofNat_toNat, BitVec.setWidth_eq]; exact hrep

theorem RunsPlace.read {d : Decls} {W : World} {e : TE} {mem mem' : Mem} {T : Ty} {a : BitVec 64} {bits : Option (Nat × Nat)} {x : Nat}
    (h : RunsPlace d W e mem T a bits mem') (hr : Read d T a bits mem' x) (wd : Prop) :
    Runs d W e mem T x (some ⟨a, osize d T, bits.isSome⟩) wd mem' := by
  intro st m ho hv hm
  obtain ⟨v, st1, m1, e1, g1, hm1, h1, _, h2⟩ := h st m ho hv hm
  exact ⟨v, st1, m1, e1, g1, hm1, h2.holds h1 (by rw [hm1]; exact hr) wd⟩

theorem fieldVal_inBits {s : ST} (u o : Nat) {n : Nat} (hn : 1 ≤ n) : inBits (signed s) n (fieldVal s u o n) := by
  unfold fieldVal bitsVal inBits
  split
  · have := X86.toInt_bounds ((BitVec.ofNat (8 * bytes .sysv s) u).extractLsb' o n) (by omega)
    exact ⟨by omega, by omega⟩
  · have := ((BitVec.ofNat (8 * bytes .sysv s) u).extractLsb' o n).isLt
    refine ⟨by omega, ?_⟩
    exact_mod_cast this

theorem read_value {d : Decls} {T : Ty} {a : BitVec 64} {bits : Option (Nat × Nat)} {m : Mem} {x : Nat} (h : Read d T a bits m x)
    (hi : ∀ o n, bits = some (o, n) → ∃ s, T = .simple s ∧ IsInt s) : IsValue T := by
  cases h with
  | plain h => exact h
  | bits _ => obtain ⟨s, h1, h2⟩ := hi _ _ rfl; rw [h1]; exact h2

/-! ### Members -/

theorem getOffset_word {W : World} {st : St} {m : M} {p off : Nat} {a : BitVec 64} (ho : Open st) (h1 : p < st.next) (h2 : st.size p = 8)
    (h3 : m.vals p = some (.word a.toNat)) : ∃ q st' m', getOffset st p off = (q, st') ∧ Gen W st st' m m' ∧ m'.mem = m.mem ∧ q < st'.next ∧
      st'.size q = 8 ∧ m'.vals q = some (.word (a + BitVec.ofNat 64 off).toNat) := by
  have g1 := gen_put (W := W) (m := m) ho 8 (fun k => .const k off) (.word off) (fun _ => rfl)
  have hs : (emit st 8 (fun k => .const k off)).2.size p = 8 := (set_other _ _ (by omega)).trans h2
  have hv : (m.put st.next (.word off)).vals p = some (.word a.toNat) := (set_other _ _ (by omega)).trans h3
  have g2 := op_put (W := W) (o := .add) g1.opened (.inr rfl) hv (put_vals _ _ _) rfl
  refine ⟨_, _, _, ?_, g1.trans ho g2, rfl, Nat.lt_succ_self _, emit_size _ _ _, ?_⟩
  · unfold getOffset
    simp only [hs]
    rfl
  · rw [put_vals, BitVec.ofNat_toNat, BitVec.setWidth_eq]

theorem getOffset_slot {W : World} {st : St} {m : M} {p off k o : Nat} (ho : Open st) (h1 : p < st.next) (h2 : st.size p = 8)
    (h3 : m.vals p = some (.slot k o)) : ∃ q st' m', getOffset st p off = (q, st') ∧ Gen W st st' m m' ∧ m'.mem = m.mem ∧ q < st'.next ∧
      st'.size q = 8 ∧ m'.vals q = some (.slot k (o + off)) ∧ m'.slots = m.slots := by
  have g1 := gen_put (W := W) (m := m) ho 8 (fun k => .const k off) (.word off) (fun _ => rfl)
  have hs : (emit st 8 (fun k => .const k off)).2.size p = 8 := (set_other _ _ (by omega)).trans h2
  have hv : (m.put st.next (.word off)).vals p = some (.slot k o) := (set_other _ _ (by omega)).trans h3
  have g2 := gen_put (W := W) (m := m.put st.next (.word off)) g1.opened 8 (fun k => .op k .add p st.next 8) (.slot k (o + off)) (fun e => by
    simp only [exec, hv, put_word]
    rfl)
  refine ⟨_, _, _, ?_, g1.trans ho g2, rfl, Nat.lt_succ_self _, emit_size _ _ _, put_vals _ _ _, rfl⟩
  unfold getOffset
  simp only [hs]
  rfl

theorem RunsPlace.member {d : Decls} {W : World} {e : TE} {mem mem' : Mem} {s i : Nat} {f : Field} {a : BitVec 64}
    (hw : WellFormed d) (h : RunsPlace d W e mem (.struct s) a none mem') (ht : d.tyOf e = .struct s) (hf : (d.structs s).fields[i]? = some f) :
    RunsPlace d W (.member e i) mem f.ty (a + BitVec.ofNat 64 f.offset) f.bits mem' := by
  intro st m ho hv hm
  obtain ⟨v, st1, m1, e1, g1, hm1, hty, hlv, p, h1, h2, h3, h4⟩ := h st m ho hv hm
  rcases h4 with ⟨_, h4⟩ | ⟨_, _, _, h, _⟩
  case inr => cases h
  have hfl : d.field v.ty i = some f := by rw [hty]; exact hf
  have e2 : d.toAddress v st1 = .ok (p, st1) := by unfold Decls.toAddress; rw [h4]
  obtain ⟨q, st2, m2, e3, g2, hm2, k1, k2, k3⟩ := getOffset_word (W := W) (off := f.offset) g1.opened h1 h2 h3
  have hT : d.tyOf (.member e i) = f.ty := by simp only [Decls.tyOf, ht, Decls.field, hf]
  cases hb : f.bits with
  | none => exact ⟨_, st2, m2, ev_member d st e1 hfl e2 e3 hb, g1.trans ho g2, hm2.trans hm1, hT, hlv, q, k1, k2, k3, .inl ⟨rfl, rfl⟩⟩
  | some on =>
    obtain ⟨o, n⟩ := on
    obtain ⟨t, ht1, ht2, ht3, ht4, ht5⟩ := ((hw s).2 f (List.mem_of_getElem? hf)).2 o n hb
    have hi : IsInt t := by rcases ht2 with rfl | rfl | rfl <;> decide
    exact ⟨_, st2, m2, ev_member_bits d st e1 hfl e2 e3 hb ht1 (isSigned_int t hi), g1.trans ho g2, hm2.trans hm1, hT, hlv, q, k1, k2, k3,
      .inr ⟨o, n, t, rfl, rfl, ht1, hi, ht3, ht5⟩⟩

theorem part_eq (X S f n : Nat) (h : f + n ≤ S) : X % 256 ^ S / 256 ^ f % 256 ^ n = X / 256 ^ f % 256 ^ n := by
  rw [show 256 ^ S = 256 ^ f * 256 ^ (S - f) by rw [← Nat.pow_add]; congr 1; omega, Nat.mod_mul_right_div_self]
  refine Nat.mod_mod_of_dvd _ (Nat.pow_dvd_pow _ (by omega))

theorem rd_off (m : Mem) (a : BitVec 64) (f n : Nat) : rd m (a + BitVec.ofNat 64 f) n = rd m a (f + n) / 256 ^ f := by
  induction f generalizing a with
  | zero => simp
  | succ f ih =>
    have : a + BitVec.ofNat 64 (f + 1) = a + 1 + BitVec.ofNat 64 f := by
      rw [show BitVec.ofNat 64 (f + 1) = BitVec.ofNat 64 f + 1 by simp [BitVec.ofNat_add]]
      ac_rfl
    rw [this, ih, show f + 1 + n = f + n + 1 by omega]
    show _ = ((m a).toNat + 256 * rd m (a + 1) (f + n)) / 256 ^ (f + 1)
    rw [Nat.pow_succ, Nat.mul_comm (256 ^ f), ← Nat.div_div_eq_div_mul]
    congr 1
    have := (m a).isLt
    omega

theorem rd_part (m : Mem) (a : BitVec 64) {S f n : Nat} (h : f + n ≤ S) : rd m (a + BitVec.ofNat 64 f) n = rd m a S / 256 ^ f % 256 ^ n := by
  rw [rd_off, Codegen.rd_low m a S (f + n) h, ← part_eq (rd m a S) (f + n) f n (Nat.le_refl _)]
  symm
  apply Nat.mod_eq_of_lt
  rw [Nat.div_lt_iff_lt_mul (Nat.pow_pos (by decide)), ← Nat.pow_add, Nat.add_comm]
  exact Nat.mod_lt _ (Nat.pow_pos (by decide))

theorem Runs.member {d : Decls} {W : World} {e : TE} {mem mem' : Mem} {s i : Nat} {f : Field} {x : Nat} {src : Option Src} {wd : Prop}
    (hw : WellFormed d) (h : Runs d W e mem (.struct s) x src wd mem') (ht : d.tyOf e = .struct s) (hf : (d.structs s).fields[i]? = some f)
    (hb : f.bits = none) (hv : IsValue f.ty) (wd' : Prop) :
    Runs d W (.member e i) mem f.ty (x / 256 ^ f.offset % 256 ^ osize d f.ty)
      (src.map fun s => ⟨s.a + BitVec.ofNat 64 f.offset, osize d f.ty, false⟩) wd' mem' := by
  intro st m ho hvs hm
  obtain ⟨v, st1, m1, e1, g1, hm1, hh⟩ := h st m ho hvs hm
  have hfl : d.field v.ty i = some f := by rw [hh.ty]; exact hf
  have hT : d.tyOf (.member e i) = f.ty := by simp only [Decls.tyOf, ht, Decls.field, hf]
  have hfit := ((hw s).2 f (List.mem_of_getElem? hf)).1
  have hh' : Holds d st1 m1 (.struct s) x src False v := hh.struct_wd id
  obtain ⟨p, st2, m2, e2, g2, hm2, k1, k2, u, k3, k4, k5⟩ := toAddress_ok (W := W) g1.opened hh' (by intro h; cases h) (fun _ => id)
  have hlt : x / 256 ^ f.offset % 256 ^ osize d f.ty < 256 ^ osize d f.ty := Nat.mod_lt _ (Nat.pow_pos (by decide))
  cases u with
  | word a =>
    obtain ⟨ka, kb⟩ := k5
    have hA : (BitVec.ofNat 64 a).toNat = a := by rw [BitVec.toNat_ofNat, Nat.mod_eq_of_lt ka]
    obtain ⟨q, st3, m3, e3, g3, hm3, j1, j2, j3⟩ := getOffset_word (W := W) (off := f.offset) (a := BitVec.ofNat 64 a) g2.opened k1 k2 (by rw [hA]; exact k3)
    refine ⟨_, st3, m3, ev_member d st e1 hfl e2 e3 hb, (g1.trans ho g2).trans ho g3, hm3.trans (hm2.trans hm1), hT, ?_, fun _ => hlt⟩
    refine ⟨hv, j1, j2, _, j3, ?_, BitVec.isLt _, ?_⟩
    · simp only [M.read, BitVec.ofNat_toNat, BitVec.setWidth_eq] at k4 ⊢
      injection k4 with k4
      rw [rd_part _ _ hfit, hm3]
      rw [show osize d (.struct s) = (d.structs s).size from rfl] at k4
      rw [k4]
    · rw [kb]
      simp only [Option.map_some, BitVec.ofNat_toNat, BitVec.setWidth_eq]
  | slot k o =>
    obtain ⟨q, st3, m3, e3, g3, hm3, j1, j2, j3, j4⟩ := getOffset_slot (W := W) (off := f.offset) g2.opened k1 k2 k3
    refine ⟨_, st3, m3, ev_member d st e1 hfl e2 e3 hb, (g1.trans ho g2).trans ho g3, hm3.trans (hm2.trans hm1), hT, ?_, fun _ => hlt⟩
    refine ⟨hv, j1, j2, _, j3, ?_, Nat.lt_of_lt_of_le k5 g3.grow.next⟩
    simp only [M.read, j4] at k4 ⊢
    split at k4
    · rename_i S X hS
      split at k4
      · rename_i hle
        injection k4 with k4
        change o + (d.structs s).size ≤ S at hle
        change X / 256 ^ o % 256 ^ (d.structs s).size = x at k4
        rw [if_pos (by omega), ← k4, part_eq _ _ _ _ hfit, Nat.div_div_eq_div_mul, Nat.pow_add]
      · cases k4
    · cases k4

end Verif.ExprIr
