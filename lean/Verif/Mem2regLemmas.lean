import Verif.Mem2reg
import Verif.Mem2regSpec
import Verif.IrReplaceLemmas
import Verif.ScheduleOrderLemmas
/-!
Lemmas about the removal of variables from memory.
-/
namespace Verif.Ir
open Verif Verif.IrSpec

/-- What setting operands of nodes does not change, if only the nodes `t` gain or lose users. -/
structure Frame (t : Nat → Prop) (g h : Graph) : Prop where
  projIdx : ∀ m, (h.node m).projIdx = (g.node m).projIdx
  kind : ∀ m, (h.node m).kind = (g.node m).kind
  sealing : ∀ m, (g.node m).isSealed = true → (h.node m).isSealed = true
  users : ∀ m, ¬t m → (h.node m).uses = (g.node m).uses ∧ (h.node m).useSize = (g.node m).useSize

theorem Frame.refl {t : Nat → Prop} (g : Graph) : Frame t g g := ⟨fun _ => rfl, fun _ => rfl, fun _ h => h, fun _ _ => ⟨rfl, rfl⟩⟩

theorem Frame.trans {t : Nat → Prop} {g h k : Graph} (h1 : Frame t g h) (h2 : Frame t h k) : Frame t g k :=
  ⟨fun m => (h2.projIdx m).trans (h1.projIdx m), fun m => (h2.kind m).trans (h1.kind m), fun m h => h2.sealing m (h1.sealing m h), fun m hm => ⟨((h2.users m hm).1).trans (h1.users m hm).1, ((h2.users m hm).2).trans (h1.users m hm).2⟩⟩

theorem Frame.mono {t t' : Nat → Prop} {g h : Graph} (h1 : Frame t g h) (ht : ∀ m, t m → t' m) : Frame t' g h :=
  ⟨h1.projIdx, h1.kind, h1.sealing, fun m hm => h1.users m fun h => hm (ht m h)⟩

theorem frame_upd {t : Nat → Prop} {g : Graph} {n : Nat} {f : Node → Node} (h : ∀ q, (f q).projIdx = q.projIdx ∧ (f q).kind = q.kind ∧ (q.isSealed = true → (f q).isSealed = true))
    (hu : ¬t n → ∀ q, (f q).uses = q.uses ∧ (f q).useSize = q.useSize) : Frame t g (g.upd n f) := by
  refine ⟨fun m => ?_, fun m => ?_, fun m hm => ?_, fun m hm => ?_⟩
  · rw [upd_node]
    split
    · rename_i e; subst e; exact (h _).1
    · rfl
  · rw [upd_node]
    split
    · rename_i e; subst e; exact (h _).2.1
    · rfl
  · rw [upd_node]
    split
    · rename_i e; subst e; exact (h _).2.2 hm
    · exact hm
  · rw [upd_node]
    split
    · rename_i e; subst e; exact hu hm _
    · exact ⟨rfl, rfl⟩

theorem res_bind_ok {α β : Type} {x : Res α} {f : α → Res β} {b : β} (h : (x >>= f) = .ok b) : ∃ a, x = .ok a ∧ f a = .ok b := by
  cases x with
  | ok a => exact ⟨a, rfl, h⟩
  | fail => cases h
  | ub => cases h

theorem frame_setArg0 {g h : Graph} {n i : Nat} {a : Option Nat} (e : setArg0 g n i a = .ok h) :
    Frame (fun m => a = some m ∨ (g.node n).args i = some m) g h := by
  unfold setArg0 at e
  split at e
  · cases e
  · split at e
    · injection e with e
      subst e
      exact .refl _
    · obtain ⟨g1, e1, e⟩ := res_bind_ok e
      have f1 : Frame (fun m => a = some m ∨ (g.node n).args i = some m) g g1 := by
        unfold dropUse at e1
        split at e1
        · injection e1 with e1
          subst e1
          exact .refl _
        · rename_i p hp
          dsimp only at e1
          split at e1
          · split at e1
            · cases e1
            · injection e1 with e1
              subst e1
              exact frame_upd (fun q => ⟨rfl, rfl, id⟩) fun hn => absurd (Or.inr hp) hn
          · cases e1
      have f2 : Frame (fun m => a = some m ∨ (g.node n).args i = some m) g1 (addUse g1 n a) := by
        unfold addUse
        split
        · exact .refl _
        · exact frame_upd (fun q => ⟨rfl, rfl, id⟩) fun hn => absurd (Or.inl rfl) hn
      have f3 := frame_upd (t := fun m => a = some m ∨ (g.node n).args i = some m) (g := addUse g1 n a) (n := n)
        (f := fun q => { q with args := fun j => if j = i then a else q.args j }) (fun q => ⟨rfl, rfl, id⟩) fun _ q => ⟨rfl, rfl⟩
      refine ((f1.trans f2).trans f3).trans ?_
      dsimp only at e
      generalize ((addUse g1 n a).upd n fun q => { q with args := fun j => if j = i then a else q.args j }) = g3 at e
      unfold addProject at e
      split at e
      · split at e
        · cases e
        · split at e
          · cases e
          · injection e with e
            rw [← e]
            exact frame_upd (fun q => ⟨rfl, rfl, id⟩) fun _ q => ⟨rfl, rfl⟩
      · injection e with e
        rw [← e]
        exact .refl _

theorem frame_setArg {fuel : Nat} {g h : Graph} (hd : Done g) {n i : Nat} {a : Option Nat} (e : setArg fuel g n i a = .ok h) :
    Frame (fun m => a = some m ∨ (g.node n).args i = some m) g h := by
  unfold setArg at e
  split at e
  · injection e with e
    subst e
    exact .refl _
  · rename_i hne
    obtain ⟨g1, e1, e⟩ := run_bind_ok e
    have e1 := ofRes_eq_ok e1
    refine (frame_setArg0 e1).trans ?_
    unfold afterSet at e
    obtain ⟨c, hcc, e⟩ := run_bind_ok e
    split at e
    · split at e
      · injection e with e
        subst e
        exact frame_upd (fun q => ⟨rfl, rfl, fun _ => rfl⟩) fun _ q => ⟨rfl, rfl⟩
      · split at e
        · unfold sealBlock at e
          dsimp only at e
          split at e
          · injection e with e
            subst e
            exact ⟨fun m => rfl, fun m => rfl, fun m h => h, fun m _ => ⟨rfl, rfl⟩⟩
          · rename_i hc hk _ hs
            exfalso
            have f := frame_setArg0 e1
            refine hs (f.sealing n (hd.isSealed n ?_))
            rw [← f.kind]
            have hc' := ofRes_eq_ok hcc
            unfold isControl at hc'
            split at hc'
            · assumption
            · exact absurd (by assumption) hk
            · injection hc' with hc'
              rw [hc'.symm] at hc
              cases hc
        · injection e with e
          subst e
          exact .refl _
    · injection e with e
      subst e
      exact .refl _


theorem frame_replaceIn {fuel o r use : Nat} (hor : o ≠ r) : ∀ {k j : Nat} {g h : Graph}, Inv g → Done g → r < g.size → j + k = 4 →
    replaceIn fuel g o r use j k = .ok h → Frame (fun m => m = o ∨ m = r) g h := by
  intro k
  induction k with
  | zero =>
    intro j g h _ _ _ _ e
    injection e with e
    rw [← e]
    exact .refl _
  | succ k ih =>
    intro j g h hg hd hr hj e
    rw [replaceIn] at e
    split at e
    · rename_i ha
      have hus := (hg.closed _ _ _ ha).2.1
      obtain ⟨g', e', hm, -⟩ := setArg_done (fuel := fuel) hg hd hus (by omega : j < 4) hr
        (by rw [ha]; intro h; injection h with h; exact hor h)
      rw [e', Run.bind_ok] at e
      refine ((frame_setArg hd e').mono ?_).trans (ih hm.inv hm.done (by rw [hm.size]; exact hr) (by omega) e)
      rintro m (h | h)
      · injection h with h
        exact .inr h.symm
      · rw [ha] at h
        injection h with h
        exact .inl h.symm
    · exact ih hg hd hr (by omega) e

theorem frame_replaceFrom {fuel o r : Nat} (hor : o ≠ r) : ∀ {i : Nat} {g h : Graph}, Inv g → Done g → o < g.size → r < g.size →
    replaceFrom fuel g o r i = .ok h → Frame (fun m => m = o ∨ m = r) g h := by
  intro i
  induction i with
  | zero =>
    intro g h _ _ _ _ e
    injection e with e
    rw [← e]
    exact .refl _
  | succ i ih =>
    intro g h hg hd ho hr e
    rw [replaceFrom] at e
    split at e
    · cases e
    · rename_i use _
      obtain ⟨h', e', hm, -⟩ := replaceIn_done (fuel := fuel) (use := use) hor hg hd ho hr (by omega : 0 + 4 = 4)
      rw [e', Run.bind_ok] at e
      exact (frame_replaceIn hor hg hd hr (by omega) e').trans (ih hm.inv hm.done (by rw [hm.size]; exact ho) (by rw [hm.size]; exact hr) e)

theorem replaceNode_done {fuel o r : Nat} {g h : Graph} (hor : o ≠ r) (hg : Inv g) (hd : Done g) (ho : o < g.size) (hr : r < g.size)
    (e : replaceNode fuel g o r = .ok h) : Maps (fun m j => swap o r ((g.node m).args j)) g h ∧ Frame (fun m => m = o ∨ m = r) g h := by
  obtain ⟨h', e', hm⟩ := replaceFrom_done (fuel := fuel) hor hg hd ho hr (Nat.le_refl _) (hg.cap o)
  unfold replaceNode at e
  rw [e'] at e
  injection e with e
  subst e
  exact ⟨hm, frame_replaceFrom hor hg hd ho hr e'⟩

/-! ### A new phi and other new nodes -/

/-- The graph `h` has one node more than `g`. -/
structure Adds (g : Graph) (k : Kind) (arg : Option Nat) (h : Graph) : Prop where
  inv : Inv h
  done : Done h
  size : h.size = g.size + 1
  kind : (h.node g.size).kind = k
  args : ∀ i, (h.node g.size).args i = if i = 0 then arg else none
  old : ∀ m, m < g.size → (h.node m).kind = (g.node m).kind ∧ (h.node m).args = (g.node m).args ∧ (h.node m).projIdx = (g.node m).projIdx
  users : ∀ m, m < g.size → arg ≠ some m → (h.node m).uses = (g.node m).uses ∧ (h.node m).useSize = (g.node m).useSize

theorem new_adds {g : Graph} (hg : Inv g) (hd : Done g) {k : Kind} (hk : k ≠ .region) (hp : k ≠ .project) (b : Nat) : Adds g k none (new g k b).1 := by
  have hn : ∀ m, ((new g k b).1.node m) = if m = g.size then { kind := k, bytes := b, parent := g.fn } else g.node m := fun m => rfl
  refine ⟨inv_new hg k b, ⟨?_, ?_, ?_⟩, rfl, ?_, ?_, ?_, ?_⟩
  · intro m h
    rw [hn] at h ⊢
    split at h
    · exact absurd h hk
    · rename_i hm
      rw [if_neg hm]
      exact hd.isSealed m h
  · intro m h
    rw [hn] at h ⊢
    split at h
    · exact absurd h hp
    · rename_i hm
      rw [if_neg hm]
      exact hd.operand m h
  · intro m h
    rw [hn] at h ⊢
    split at h
    · exact absurd h hp
    · rename_i hm
      rw [if_neg hm]
      exact hd.index m h
  · rw [hn, if_pos rfl]
  · intro i
    rw [hn, if_pos rfl]
    simp
  · intro m hm
    rw [hn, if_neg (by omega)]
    exact ⟨rfl, rfl, rfl⟩
  · intro m hm _
    rw [hn, if_neg (by omega)]
    exact ⟨rfl, rfl⟩

theorem newPhi_adds {fuel : Nat} {g : Graph} {r : Graph × Nat} (hg : Inv g) (hd : Done g) {b z : Nat} (hb : b < g.size)
    (e : newWith fuel g .phi [some b, none] z = .ok r) : r.2 = g.size ∧ Adds g .phi (some b) r.1 := by
  unfold newWith at e
  obtain ⟨h, e1, e⟩ := run_bind_ok e
  injection e with e
  subst e
  refine ⟨rfl, ?_⟩
  have ha := new_adds hg hd (k := .phi) (by simp) (by simp) z
  unfold setArgs at e1
  obtain ⟨h1, e2, e1⟩ := run_bind_ok e1
  unfold setArgs at e1
  obtain ⟨h2, e3, e1⟩ := run_bind_ok e1
  unfold setArgs at e1
  injection e1 with e1
  subst e1
  have hs : (new g .phi z).2 = g.size := rfl
  rw [hs] at e2 e3
  have hs1 : (new g .phi z).1.size = g.size + 1 := rfl
  obtain ⟨h1', e2', hm, -⟩ := setArg_any (fuel := fuel) ha.inv ha.done (n := g.size) (i := 0) (a := some b) (by omega) (by omega)
    (by intro x hx; cases hx; omega) (by simp) (by rw [ha.args]; simp)
  have hf := frame_setArg ha.done e2
  rw [e2'] at e2
  injection e2 with e2
  subst e2
  have hargs : ∀ i, (h1'.node g.size).args i = if i = 0 then some b else none := by
    intro i
    rw [hm.args, ha.args]
    by_cases h : i = 0 <;> simp [h]
  have e4 : h1' = h2 := by
    unfold setArg at e3
    rw [if_pos ⟨by omega, by rw [hm.size]; omega, by rw [hargs]; simp⟩] at e3
    injection e3
  subst e4
  refine ⟨hm.inv, hm.done, by rw [hm.size, ha.size], by rw [hm.kind, ha.kind], hargs, ?_, ?_⟩
  · intro m hlt
    refine ⟨by rw [hm.kind]; exact (ha.old m hlt).1, ?_, by rw [hf.projIdx]; exact (ha.old m hlt).2.2⟩
    funext j
    rw [hm.args, if_neg (by omega), (ha.old m hlt).2.1]
  · intro m hlt hne
    have h1 := hf.users m (by rintro (h | h); exact hne h; rw [ha.args] at h; simp at h)
    have h2 := ha.users m hlt (by simp)
    exact ⟨h1.1.trans h2.1, h1.2.trans h2.2⟩

end Verif.Ir
