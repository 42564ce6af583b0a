import Verif.StatementSimLemmas
/-!
A whole function, and runs of trees and graphs that can be computed.
-/
namespace Verif.Statement
open Verif.StatementSpec
variable {E S V : Type}

/-- The invariant holds before the body is read. -/
theorem Inv.initial : Inv (fun _ => False) ⟨none, none, none, none, none⟩ (St.initial : St E) := by
  refine ⟨⟨⟨Nat.one_pos, ?_, fun _ _ => ⟨rfl, rfl⟩, fun _ => .inl rfl, ?_, ?_⟩, Nat.one_pos, ?_, ?_⟩, ?_,
    ?_, ?_, ?_, ?_⟩
  · intro r b h; simp [St.initial] at h
  · intro b r r' h; simp [St.initial] at h
  · rintro b (h | h | ⟨l, a, h, -⟩)
    · exact h.elim
    · cases h
    · simp [St.initial, findLabel] at h
  · exact ⟨rfl, fun r h => by simp [St.initial] at h⟩
  · rintro (h | h | ⟨l, a, h, -⟩)
    · exact h.elim
    · cases h
    · simp [St.initial, findLabel] at h
  · exact fun _ h => h.elim
  · intro b l h; cases h
  · rintro l l' b ⟨a, h, -⟩; simp [St.initial, findLabel] at h
  · intro l a h; simp [St.initial, findLabel] at h
  · exact ⟨fun _ => rfl, fun _ => rfl⟩

/-- The graph of a function is where the tree is, at the beginning. -/
theorem function_whole {const : E → Option Int} {kind : Kind} {body : Items E} {n : Nat}
    {rest rest' : List (STok E)} {G : Cfg E} (ht : body.Tidy) (hn : body.size ≤ n)
    (hl : body.NoneInLoops const) (hd : body.Distinct const) (h0 : body.defaults = 0)
    (hg : ∀ l, l ∈ body.gotos → l ∈ body.labels)
    (h : function const kind n ((Stmt.block body).tokens ++ rest) = .ok (rest', G)) :
    rest' = rest ∧ One G ∧ ∃ L env, Whole G const L kind body ∧
      KM G const L kind env (.seq body .stop) (0, 0) := by
  rw [function_tokens const kind body ht n hn rest] at h
  obtain ⟨⟨j', st'⟩, h1, h⟩ := bindOk h
  simp only [Run.ok.injEq, Prod.mk.injEq] at h
  obtain ⟨rfl, rfl⟩ := h
  have P := good_items const body hl hd (by omega) _ _ _ _ _ Inv.initial h1
  obtain ⟨tbl, t1, t2, t3, t4⟩ := P.frag
  have hw : One (finish st' kind).g ∧ Extends st'.g (finish st' kind).g ∧
      Ending (finish st' kind).g kind (here st') := by
    cases kind with
    | main =>
      obtain ⟨a1, a2, a3, a4⟩ := ret_ok P.inv.w .zero
      exact ⟨⟨a1.one, a1.det⟩, a2, a4 _ (.refl _)⟩
    | void =>
      obtain ⟨a1, a2, a3, a4⟩ := ret_ok P.inv.w .nothing
      exact ⟨⟨a1.one, a1.det⟩, a2, a4 _ (.refl _)⟩
    | value =>
      exact ⟨⟨P.inv.w.one, P.inv.w.det⟩, .refl _, rfl, P.inv.w.cur⟩
  obtain ⟨w1, w2, w3⟩ := hw
  have hF := t4 (finish st' kind).g
    ⟨fun l => match findLabel l st'.labels with | some a => a.endBlock | none => 0,
      fun l => l ∈ body.labels⟩ ⟨none, none, tbl, j'.dflt⟩ w2
    (fun l a ha => by simp [ha]) ⟨(fun a ha => nomatch ha), (fun a ha => nomatch ha)⟩
    (fun x hx => hx) (fun _ => rfl) hg
  have hs : here (St.initial : St E) = (0, 0) := rfl
  rw [hs] at hF
  refine ⟨rfl, w1, _, _, ⟨⟨_, _, _, _, hF, .refl _, .stop w3⟩, fun l h => h⟩,
    .seq hF (.refl _) (.stop w3)⟩

/-! ### Computed runs -/

/-- Some steps of a tree. -/
def crun (M : Sem E S V) (kind : Kind) (body : Items E) : Nat → CState E S V → CState E S V
  | 0, c => c
  | n + 1, c =>
    match cstep M kind body c with
    | some d => crun M kind body n d
    | none => c

theorem crun_steps (M : Sem E S V) (kind : Kind) (body : Items E) : ∀ n c,
    CSteps M kind body c (crun M kind body n c)
  | 0, c => .refl c
  | n + 1, c => by
    simp only [crun]
    cases h : cstep M kind body c with
    | some d => exact .step h (crun_steps M kind body n d)
    | none => exact .refl c

/-- A tree has one result. -/
theorem CSteps.det {M : Sem E S V} {kind : Kind} {body : Items E} {c : CState E S V}
    {r r' : Result V} {σ σ' : S} (h : CSteps M kind body c (.done r σ))
    (h' : CSteps M kind body c (.done r' σ')) : r = r' ∧ σ = σ' := by
  generalize hd : CState.done r σ = d at h
  induction h with
  | refl =>
    subst hd
    cases h' with
    | refl => exact ⟨rfl, rfl⟩
    | step h => simp [cstep] at h
  | step h _ ih =>
    cases h' with
    | refl => simp [cstep] at h
    | step h1 h2 => rw [h] at h1; cases h1; exact ih h2 hd

/-- Whether a condition holds, if its value is known. -/
def holds (M : Sem E S V) (vals : Nat → Option V) : Cond → Option Bool
  | .truth k => (vals k).map M.truth
  | .equal k c => (vals k).map fun v => decide (M.int v = c)

/-- The first region a block leads to. -/
def exit (G : Cfg E) (b : Nat) : Option Nat :=
  (List.range G.size).find? fun r => decide (b ∈ G.preds r)

/-- One step of a graph. -/
def gstep (M : Sem E S V) (G : Cfg E) : Conf E S V → Option (Conf E S V)
  | .at b ((k, e) :: rest) σ vals =>
    (M.ev e σ).map fun r => .at b rest r.1 (record vals k r.2)
  | .at b [] σ vals =>
    match G.ends b with
    | .branch c t f :: _ =>
      (holds M vals c).map fun x =>
        let n := if x then t else f
        .at n (G.code n) σ vals
    | .ret .nothing :: _ => some (.done .nothing σ)
    | .ret .zero :: _ => some (.done .zero σ)
    | .ret (.value k) :: _ => (vals k).map fun v => .done (.value v) σ
    | [] => (exit G b).map fun r => .at r (G.code r) σ vals
  | .done _ _ => none

theorem gstep_step {M : Sem E S V} {G : Cfg E} {x y : Conf E S V} (h : gstep M G x = some y) :
    Step M G x y := by
  cases x with
  | done r σ => cases h
  | «at» b rest σ vals =>
    cases rest with
    | cons a rest =>
      obtain ⟨k, e⟩ := a
      simp only [gstep] at h
      cases he : M.ev e σ with
      | none => rw [he] at h; cases h
      | some r => rw [he] at h; cases h; exact .eval he
    | nil =>
      simp only [gstep] at h
      split at h
      · next c t f l he =>
        cases hc : holds M vals c with
        | none => rw [hc] at h; cases h
        | some x =>
          rw [hc] at h; cases h
          have : Holds M vals c x := by
            cases c <;> simp only [holds, Option.map_eq_some_iff] at hc <;> exact hc
          cases x with
          | true => exact .yes (t := t) (f := f) (by rw [he]; simp) this
          | false => exact .no (t := t) (f := f) (by rw [he]; simp) this
      · next l he => cases h; exact .ret (x := .nothing) (by rw [he]; simp) rfl
      · next l he => cases h; exact .ret (x := .zero) (by rw [he]; simp) rfl
      · next k l he =>
        simp only [Option.map_eq_some_iff] at h
        obtain ⟨v, h1, rfl⟩ := h
        exact .ret (x := .value k) (by rw [he]; simp) ⟨v, h1, rfl⟩
      · simp only [Option.map_eq_some_iff] at h
        obtain ⟨r, h1, rfl⟩ := h
        have := List.find?_some h1
        exact .jump (by simpa using this)

/-- Some steps of a graph. -/
def grun (M : Sem E S V) (G : Cfg E) : Nat → Conf E S V → Conf E S V
  | 0, x => x
  | n + 1, x =>
    match gstep M G x with
    | some y => grun M G n y
    | none => x

theorem grun_steps (M : Sem E S V) (G : Cfg E) : ∀ n x, Steps M G x (grun M G n x)
  | 0, x => .refl x
  | n + 1, x => by
    simp only [grun]
    cases h : gstep M G x with
    | some y => exact .step (gstep_step h) (grun_steps M G n y)
    | none => exact .refl x

end Verif.Statement
