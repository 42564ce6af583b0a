import Verif.ExprIrEval
/-!
The nodes compute one result only; what an expression gives when its value is not the one C asks
for.
-/
namespace Verif.ExprIr
open Verif Simple SimpleSpec
open Verif.CodegenSpec (bytes Promoted IsRel)
open Verif.ExprIrSpec
open Verif.Codegen (IrOp irFromTypeAndOp irBinaryOp)

theorem step_det {W : World} {G : St} {c c1 c2 : Conf} (h1 : Step W G c c1) (h2 : Step W G c c2) : c1 = c2 := by
  cases h1 with
  | @ins b pos entry m i m' hi he =>
    cases h2 with
    | ins hi' he' =>
      rw [hi] at hi'
      injection hi' with hi'
      subst hi'
      rw [he] at he'
      injection he' with he'
      rw [he']
    | goto hu => rw [List.getElem?_eq_none (Nat.le_refl _)] at hi; cases hi
    | branch hu hx => rw [List.getElem?_eq_none (Nat.le_refl _)] at hi; cases hi
  | @goto b entry m r i hu =>
    cases h2 with
    | ins hi' he' => rw [List.getElem?_eq_none (Nat.le_refl _)] at hi'; cases hi'
    | goto hu' => rw [hu] at hu'; cases hu'; rfl
    | branch hu' hx => rw [hu] at hu'; cases hu'
  | @branch b entry m c t f x hu hx =>
    cases h2 with
    | ins hi' he' => rw [List.getElem?_eq_none (Nat.le_refl _)] at hi'; cases hi'
    | goto hu' => rw [hu] at hu'; cases hu'
    | branch hu' hx' =>
      rw [hu] at hu'
      cases hu'
      rw [hx] at hx'
      injection hx' with hx'
      rw [hx']

/-- The end of the current block: nothing follows. -/
theorem open_stuck {W : World} {st : St} (ho : Open st) {e : Nat} {m : M} {c : Conf} :
    ¬ Step W st ⟨st.cur, (st.code st.cur).length, e, m⟩ c := by
  intro h
  cases h with
  | ins hi he => rw [List.getElem?_eq_none (Nat.le_refl _)] at hi; cases hi
  | goto hu => rw [ho.2.1] at hu; cases hu
  | branch hu hx => rw [ho.2.1] at hu; cases hu

theorem steps_det {W : World} {G : St} {c c1 c2 : Conf} (h1 : Steps W G c c1) (h2 : Steps W G c c2)
    (s1 : ∀ c', ¬ Step W G c1 c') (s2 : ∀ c', ¬ Step W G c2 c') : c1 = c2 := by
  induction h1 with
  | refl =>
    cases h2 with
    | refl => rfl
    | step h _ => exact absurd h (s1 _)
  | step h h' ih =>
    cases h2 with
    | refl => exact absurd h (s2 _)
    | step h'' h3 =>
      have := step_det h h''
      subst this
      exact ih h3 s1

/-- What a value is translated to computes this value and no other. -/
theorem Runs.unique {d : Decls} {W : World} {e : TE} {mem mem' mem2 : Mem} {T : Ty} {x y : Nat} {src : Option Src} {wd : Prop}
    (h : Runs d W e mem T x src wd mem') (hT : T ≠ .void) {st : St} {m : M} (ho : Open st) (hv : HasVars d W st m) (hm : m.mem = mem)
    (h2 : ∃ n st' m', d.expressionToIr e st = .ok (n, st') ∧
      (∀ G, Contains G st' → ∀ entry, ∃ entry', Steps W G ⟨st.cur, (st.code st.cur).length, entry, m⟩
        ⟨st'.cur, (st'.code st'.cur).length, entry', m'⟩) ∧ m'.vals n = some (.word y) ∧ m'.mem = mem2) :
    x = y ∧ mem' = mem2 := by
  obtain ⟨v, st1, m1, e1, g1, hm1, h1⟩ := h st m ho hv hm
  obtain ⟨n, st2, m2, e2, g2, hm2, nv⟩ := toVar_ok (W := W) g1.opened h1 hT
  obtain ⟨n', st', m', e3, hs, hx, hmm⟩ := h2
  have he : d.expressionToIr e st = .ok (n, st2) := by
    unfold Decls.expressionToIr
    rw [e1]
    exact e2
  rw [he] at e3
  injection e3 with e3
  injection e3 with e4 e5
  subst e4
  subst e5
  obtain ⟨_, s1⟩ := (g1.trans ho g2).run st2 (contains_refl st2) 0
  obtain ⟨_, s2⟩ := hs st2 (contains_refl st2) 0
  have := steps_det s1 s2 (fun _ => open_stuck g2.opened) (fun _ => open_stuck g2.opened)
  injection this with _ _ _ hmm'
  subst hmm'
  rw [nv.2.1] at hx
  injection hx with hx
  injection hx with hx
  exact ⟨hx, by rw [← hmm, hm2, hm1]⟩

/-- The node that `expression_to_ir` gives for an expression. -/
theorem Runs.toIr {d : Decls} {W : World} {e : TE} {mem mem' : Mem} {T : Ty} {x : Nat} {src : Option Src} {wd : Prop}
    (h : Runs d W e mem T x src wd mem') (hT : T ≠ .void) {st : St} {m : M} (ho : Open st) (hv : HasVars d W st m) (hm : m.mem = mem) :
    ∃ n st' m', d.expressionToIr e st = .ok (n, st') ∧
      (∀ G, Contains G st' → ∀ entry, ∃ entry', Steps W G ⟨st.cur, (st.code st.cur).length, entry, m⟩
        ⟨st'.cur, (st'.code st'.cur).length, entry', m'⟩) ∧ m'.vals n = some (.word x) ∧ m'.mem = mem' ∧ (¬ wd → st'.size n = osize d T) ∧
      Open st' ∧ HasVars d W st' m' := by
  obtain ⟨v, st1, m1, e1, g1, hm1, h1⟩ := h st m ho hv hm
  obtain ⟨n, st2, m2, e2, g2, hm2, nv⟩ := toVar_ok (W := W) g1.opened h1 hT
  refine ⟨n, st2, m2, ?_, (g1.trans ho g2).run, nv.2.1, hm2.trans hm1, ?_, g2.opened, (HasVars.mono (HasVars.mono hv g1) g2)⟩
  · unfold Decls.expressionToIr
    rw [e1]
    exact e2
  · intro hw
    rcases nv.2.2 with h | h
    · exact h
    · exact absurd h.1 hw

/-- The evaluated expression is the object, although it may not be an lvalue: its value is read
when it is used. -/
def RunsLate (d : Decls) (W : World) (e : TE) (mem : Mem) (T : Ty) (a : BitVec 64) (mem' : Mem) : Prop :=
  ∀ st m, Open st → HasVars d W st m → m.mem = mem → ∃ v st' m', d.evaluate e st = .ok (v, st') ∧ Gen W st st' m m' ∧
    m'.mem = mem' ∧ v.ty = T ∧ PlaceEE st' m' T a none v.ee

/-- The value of an assignment of one object to another is the object that was read. -/
theorem assign_late {d : Decls} {W : World} {a b : TE} {mem mem1 mem2 : Mem} {T : Ty} {p q : BitVec 64}
    (ha : RunsPlace d W a mem T p none mem1) (hb : RunsPlace d W b mem1 T q none mem2) (hta : d.tyOf a = T) (hT : IsValue T) :
    RunsLate d W (.assign a b) mem T q (X86.wr mem2 p (osize d T) (X86.rd mem2 q (osize d T))) := by
  intro st m ho hv hm
  obtain ⟨l, st1, m1, e1, g1, hm1, hl1, hl2, hl3⟩ := ha st m ho hv hm
  obtain ⟨r, st2, m2, e2, g2, hm2, hr1, hr2, hr3⟩ := hb st1 m1 g1.opened (HasVars.mono hv g1) hm1
  have hr := hr3.holds (d := d) (v := r) hr1 (.plain hT) False
  obtain ⟨st3, m3, e3, g3, hm3⟩ := assignEE_ok (W := W) (l := l) (y' := X86.rd m2.mem q (osize d T)) g2.opened hl1 (hl3.mono g2) hr hT (fun _ h => h) .plain
  refine ⟨_, st3, m3, ev_assign d st e1 e2 (r' := r) (st3 := st2) (by unfold Decls.castEV; rw [hta, if_pos hr1]) hl2 e3,
    (g1.trans ho g2).trans ho g3, ?_, hta, hr3.mono g3⟩
  rw [hm3, hm2]

/-- A sum whose left operand is read late. -/
theorem add_late {d : Decls} {W : World} {a b : TE} {mem mem1 mem2 : Mem} {q : BitVec 64} {y z : Nat} {srcB : Option Src} {wb : Prop} {va vb v : Int}
    (ha : RunsLate d W a mem .int q mem1) (hb : Runs d W b mem1 .int y srcB wb mem2) (hta : d.tyOf a = .int)
    (hx : Rep .int va (X86.rd mem2 q 4)) (hy : Rep .int vb y) (hv : opVal .sysv .int .add va vb = some v)
    (hty : d.tyOf (.bin .add a b) = .int) (hz : Rep .int v z) :
    Runs d W (.bin .add a b) mem .int z none False mem2 := by
  have ht : CodegenSpec.Promoted .int := by decide
  have hi : IsInt .int := by decide
  intro st m ho hvs hm
  obtain ⟨l, st1, m1, e1, g1, hm1, hl1, hl2⟩ := ha st m ho hvs hm
  obtain ⟨r, st2, m2, e2, g2, hm2, hr⟩ := hb st1 m1 g1.opened (HasVars.mono hvs g1) hm1
  have hl := (hl2.mono g2).holds (d := d) (v := l) hl1 (.plain (T := .int) hi) False
  obtain ⟨lv, st3, m3, e3, g3, hm3, nl⟩ := toVar_ok (W := W) g2.opened hl (by decide)
  obtain ⟨rv, st4, m4, e4, g4, hm4, nr⟩ := toVar_ok (W := W) g3.opened (hr.mono g3 (kept_eq hm3)) (by decide)
  obtain ⟨o, h1, z', h2, h3, _⟩ := op_node ht .add hx hy hv (fun h => by cases h)
  have hz' : z'.toNat = z := rep_unique h3 hz
  have nl4 := nl.mono g4
  have hsz : st4.size lv = 4 := nl4.size id
  rw [hm2] at nl4
  have g5 := op_put (W := W) (n := 4) g4.opened (.inl rfl) nl4.2.1 nr.2.1 h2
  refine ⟨_, _, _, ev_bin d st e1 e2 e3 e4 (by rw [hta]; rfl) h1,
    (((g1.trans ho g2).trans ho g3).trans ho g4).trans ho (show Gen W st4 _ m4 (m4.put st4.next (.word z'.toNat)) by rw [hsz]; exact g5),
    hm4.trans (hm3.trans hm2), hty, ?_, fun _ => hz.1⟩
  exact ⟨hi, Nat.lt_succ_self _, by rw [put_vals, hz'], .inl (by rw [emit_size, hsz]; rfl)⟩

end Verif.ExprIr
