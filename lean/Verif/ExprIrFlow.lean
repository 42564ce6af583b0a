import Verif.ExprIrStore
/-!
Lemmas for C92: conditional expressions, the comma operator, calls.
-/
namespace Verif.ExprIr
open Verif.SimpleSpec Verif.ExprIrSpec
open Verif.Simple hiding Promoted
open Verif.CodegenSpec (bytes Promoted IsRel)
open Verif.Codegen (IrOp irFromTypeAndOp irBinaryOp bvOp)
open Verif.X86 (rd wr)

theorem hasVars_ext {d : Decls} {W : World} {st st' : St} {m : M} (h : HasVars d W st m) (h1 : st.next ≤ st'.next)
    (h2 : ∀ n, n < st.next → st'.size n = st.size n) : HasVars d W st' m :=
  ⟨Nat.le_trans h.1 h1, fun x hx => ⟨(h.2 x hx).1, by rw [h2 x (Nat.lt_of_lt_of_le hx h.1)]; exact (h.2 x hx).2⟩⟩

theorem hasVars_ready {d : Decls} {W : World} {st : St} {m : M} (h : HasVars d W st m) (ho : Open st) : Ready d st :=
  ⟨ho, fun x hx => ⟨Nat.lt_of_lt_of_le hx h.1, (h.2 x hx).2⟩⟩

theorem ready_ext {d : Decls} {st st' : St} (h : Ready d st) (ho : Open st') (h1 : st.next ≤ st'.next)
    (h2 : ∀ n, n < st.next → st'.size n = st.size n) : Ready d st' :=
  ⟨ho, fun x hx => ⟨Nat.lt_of_lt_of_le (h.vars x hx).1 h1, by rw [h2 x (h.vars x hx).1]; exact (h.vars x hx).2⟩⟩

/-- The value of a conditional expression: the address of the value of the arm. -/
theorem AddrVal.phi {d : Decls} {st st' : St} {m : M} {T : Ty} {x : Nat} {src : Option Src} {p k : Nat} {v : Val}
    (hn : st.next ≤ st'.next) (hv : m.vals p = some v) (h : AddrVal d st m T x src p) (hk : k < st'.next) (hs : st'.size k = 8) :
    AddrVal d st' (m.put k v) T x src k := by
  obtain ⟨h1, h2, u, h3, h4, h5⟩ := h
  rw [hv] at h3
  injection h3 with h3
  subst h3
  refine ⟨hk, hs, v, put_vals _ _ _, ?_, ?_⟩
  · cases v <;> exact h4
  · cases v with
    | word a => exact h5
    | slot k o => exact Nat.lt_of_lt_of_le h5 hn

theorem Runs.condTrue {d : Decls} {W : World} {c a b : TE} {mem mem1 mem2 : Mem} {Tc T : Ty} {x y : Nat} {srcC src : Option Src} {wc wa : Prop}
    (hc : Runs d W c mem Tc x srcC wc mem1) (hx : x ≠ 0) (ha : Runs d W a mem1 T y src wa mem2) (hb : Total d b False none)
    (sc : IsScalar Tc) (hta : d.tyOf a = T) (htb : d.tyOf b = T) (hT : T = .void ∨ IsValue T) (hwa : osize d T = 4 → ¬ wa) (wd : Prop) :
    Runs d W (.cond c a b) mem T y src wd mem2 := by
  intro st m ho hvs hm
  obtain ⟨cv, st1, m1, e1, g1, hm1, hcv⟩ := hc st m ho hvs hm
  obtain ⟨cn, st2, m2, e2, g2, hm2, nc⟩ := toVar_ok (W := W) g1.opened hcv (scalar_ne_void sc)
  have hv2 := HasVars.mono (HasVars.mono hvs g1) g2
  have g12 := g1.trans ho g2
  have r2 := hasVars_ready hv2 g2.opened
  by_cases hv : T = .void
  · have o3 := newBlock_select_open g2.opened cn
    obtain ⟨av, st3, m3, a1, g3, hm3, hav⟩ := ha _ m2 o3 (hasVars_ext hv2 (by show st2.next ≤ st2.next + 4; omega) (fun _ _ => rfl)) (hm2.trans hm1)
    obtain ⟨st4, e4, o4, c4, n4, s4⟩ := void_open g2.opened cn g3.ext
    have n3 : st2.next + 4 ≤ st3.next := g3.ext.grow.next
    obtain ⟨bv, st5, b1, b2, b3, b4, _⟩ := hb (start st4 (st2.next + 2)) (ready_ext r2 o4 (by show st2.next ≤ st4.next; omega) (fun n hn => by
      show st4.size n = _
      rw [s4]
      exact g3.ext.grow.size n (by show n < st2.next + 4; omega)))
    obtain ⟨st6, e6, j⟩ := joined_void g2.opened cn g3.ext e4 b2
    have gj := j.gen (j.first (st0 := start (select (newBlock st2).2 cn).2.2 (st2.next + 3)) (word_eq nc.2.1) hx rfl ((g2.opened.2.2 _ (by show st2.next ≤ st2.next + 3; omega)).1) g3 (by show st2.next ≤ st2.next + 4; omega))
    refine ⟨_, _, _, ev_cond_void d st e1 e2 (hta.trans hv) a1 e4 b1 e6, g12.trans ho gj, hm3, hta, hv, ?_⟩
    intro h
    exact absurd hv (value_ne_void h)
  · have hT := hT.resolve_left hv
    have o3 := select_open g2.opened cn
    obtain ⟨av, st3, m3, a1, g3, hm3, hav⟩ := ha _ m2 o3 (hasVars_ext hv2 (by show st2.next ≤ st2.next + 3; omega) (fun _ _ => rfl)) (hm2.trans hm1)
    obtain ⟨ap, st4, m4, e4, g4, hm4, aA⟩ := toAddress_ok (W := W) g3.opened hav hv hwa
    have g34 := g3.trans o3 g4
    obtain ⟨o4, _⟩ := second_open g2.opened cn g34.ext
    have n4 : st2.next + 3 ≤ st4.next := g34.ext.grow.next
    obtain ⟨bv, st5, b1, b2, b3, b4, _⟩ := hb (start st4 (st2.next + 1)) (ready_ext r2 o4 (by show st2.next ≤ st4.next; omega) (fun n hn =>
      g34.ext.grow.size n (by show n < st2.next + 3; omega)))
    obtain ⟨bp, st6, e6, x6, _⟩ := toAddress_total (d := d) b2.opened b3 b4 (by rw [htb]; exact hv)
    have b26 := b2.trans o4 x6
    obtain ⟨st7, e7, j, hn7⟩ := joined g2.opened cn g34.ext b26
    obtain ⟨k1, k2, v, k3, k4, k5⟩ := aA
    have gj := j.phi g2.opened (s := st7.size ap) (a := ap) (b := bp) (v := v)
      (j.first (st0 := start (select st2 cn).2.2 (st2.next + 2)) (word_eq nc.2.1) hx rfl ((g2.opened.2.2 _ (by show st2.next ≤ st2.next + 2; omega)).1) g34 (by show st2.next ≤ st2.next + 3; omega)) k3
    have n46 : st4.next ≤ st6.next := b26.grow.next
    have hs7 : st7.size ap = 8 := by
      rw [j.size ap (Nat.lt_of_lt_of_le k1 n46), b26.grow.size ap k1]
      exact k2
    refine ⟨_, _, _, ev_cond d st e1 e2 (by rw [hta]; exact hv) a1 e4 b1 e6 e7, g12.trans ho gj, hm4.trans hm3, hta, ?_, hav.lt⟩
    have := AddrVal.phi (st' := (emit (start st7 st6.next) (st7.size ap) (fun k => .phi k ap bp)).2) (k := st7.next)
      (by show st4.next ≤ st7.next + 1; omega) k3 ⟨k1, k2, v, k3, k4, k5⟩ (Nat.lt_succ_self _) (by
        rw [hs7]; exact emit_size (start st7 st6.next) _ _)
    exact ⟨hT, this.1, this.2.1, this.2.2⟩

theorem Runs.condFalse {d : Decls} {W : World} {c a b : TE} {mem mem1 mem2 : Mem} {Tc T : Ty} {y : Nat} {srcC src : Option Src} {wc wb : Prop}
    (hc : Runs d W c mem Tc 0 srcC wc mem1) (ha : Total d a False none) (hb : Runs d W b mem1 T y src wb mem2)
    (sc : IsScalar Tc) (hta : d.tyOf a = T) (hT : T = .void ∨ IsValue T) (hwb : osize d T = 4 → ¬ wb) (wd : Prop) :
    Runs d W (.cond c a b) mem T y src wd mem2 := by
  intro st m ho hvs hm
  obtain ⟨cv, st1, m1, e1, g1, hm1, hcv⟩ := hc st m ho hvs hm
  obtain ⟨cn, st2, m2, e2, g2, hm2, nc⟩ := toVar_ok (W := W) g1.opened hcv (scalar_ne_void sc)
  have hv2 := HasVars.mono (HasVars.mono hvs g1) g2
  have g12 := g1.trans ho g2
  have r2 := hasVars_ready hv2 g2.opened
  by_cases hv : T = .void
  · have o3 := newBlock_select_open g2.opened cn
    obtain ⟨av, st3, a1, a2, a3, a4, _⟩ := ha _ (ready_ext r2 o3 (by show st2.next ≤ st2.next + 4; omega) (fun _ _ => rfl))
    obtain ⟨st4, e4, o4, c4, n4, s4⟩ := void_open g2.opened cn a2
    have n3 : st2.next + 4 ≤ st3.next := a2.grow.next
    obtain ⟨bv, st5, m5, b1, g5, hm5, hbv⟩ := hb (start st4 (st2.next + 2)) m2 o4 (hasVars_ext hv2 (by show st2.next ≤ st4.next; omega) (fun n hn => by
      show st4.size n = _
      rw [s4]
      exact a2.grow.size n (by show n < st2.next + 4; omega))) (hm2.trans hm1)
    obtain ⟨st6, e6, j⟩ := joined_void g2.opened cn a2 e4 g5.ext
    have gj := j.gen (j.second (st0 := start st4 (st2.next + 2)) (word_eq nc.2.1) rfl c4 g5 (by show st2.next ≤ st4.next; omega))
    refine ⟨_, _, _, ev_cond_void d st e1 e2 (hta.trans hv) a1 e4 b1 e6, g12.trans ho gj, hm5, hta, hv, ?_⟩
    intro h
    exact absurd hv (value_ne_void h)
  · have hT := hT.resolve_left hv
    have o3 := select_open g2.opened cn
    obtain ⟨av, st3, a1, a2, a3, a4, _⟩ := ha _ (ready_ext r2 o3 (by show st2.next ≤ st2.next + 3; omega) (fun _ _ => rfl))
    obtain ⟨ap, st4, e4, x4, z4⟩ := toAddress_total (d := d) a2.opened a3 a4 (by rw [hta]; exact hv)
    have a24 := a2.trans o3 x4
    have n4 : st2.next + 3 ≤ st4.next := a24.grow.next
    obtain ⟨o4, c4⟩ := second_open g2.opened cn a24
    obtain ⟨bv, st5, m5, b1, g5, hm5, hbv⟩ := hb (start st4 (st2.next + 1)) m2 o4 (hasVars_ext hv2 (by show st2.next ≤ st4.next; omega) (fun n hn =>
      a24.grow.size n (by show n < st2.next + 3; omega))) (hm2.trans hm1)
    obtain ⟨bp, st6, m6, e6, g6, hm6, aB⟩ := toAddress_ok (W := W) g5.opened hbv hv hwb
    have g56 := g5.trans o4 g6
    obtain ⟨st7, e7, j, hn7⟩ := joined g2.opened cn a24 g56.ext
    obtain ⟨k1, k2, v, k3, k4, k5⟩ := aB
    have gj := j.phi g2.opened (s := st7.size ap) (a := ap) (b := bp) (v := v) (j.second (st0 := start st4 (st2.next + 1)) (word_eq nc.2.1) rfl c4 g56 (by show st2.next ≤ st4.next; omega)) k3
    refine ⟨_, _, _, ev_cond d st e1 e2 (by rw [hta]; exact hv) a1 e4 b1 e6 e7, g12.trans ho gj, hm6.trans hm5, hta, ?_, hbv.lt⟩
    have hs7 : st7.size ap = 8 := by
      rw [j.size ap (Nat.lt_of_lt_of_le z4.1 g56.ext.grow.next), g56.ext.grow.size ap z4.1]
      exact z4.2
    have n67 : st6.next ≤ st7.next := by omega
    have := AddrVal.phi (st' := (emit (start st7 st6.next) (st7.size ap) (fun k => .phi k ap bp)).2) (k := st7.next)
      (by show st6.next ≤ st7.next + 1; omega) k3 ⟨k1, k2, v, k3, k4, k5⟩ (Nat.lt_succ_self _) (by
        rw [hs7]; exact emit_size (start st7 st6.next) _ _)
    exact ⟨hT, this.1, this.2.1, this.2.2⟩

end Verif.ExprIr
