import Verif.StatementInvLemmas
/-!
The parser makes the blocks of every statement as `Frag` says.
-/
namespace Verif.Statement
open Verif.StatementSpec
variable {E : Type}

theorem Post.map {R : Nat → Prop} {F F' : Cfg E → Names → Env → Pt → Pt → Prop}
    {cs : List (Option Int)} {nd : Nat} {gs : List Str} {j j' : Jumps}
    {st st' : St E} (h : Post R F cs nd gs j st j' st')
    (hF : ∀ G L env p q, F G L env p q → F' G L env p q) :
    Post R F' cs nd gs j st j' st' := by
  obtain ⟨tbl, a1, a2, a3, a4⟩ := h.frag
  exact ⟨h.inv, h.ext, h.lab, h.ctl, h.aims, h.same, h.some', tbl, a1, a2, a3,
    fun G L env h1 h2 h3 h4 h5 h6 => hF _ _ _ _ _ (a4 G L env h1 h2 h3 h4 h5 h6)⟩

theorem Inv.jumps {R : Nat → Prop} {j j' : Jumps} {st : St E} (i : Inv R j st)
    (he : j.entry = j'.entry) (hc : j.ctl = j'.ctl) : Inv R j' st :=
  ⟨he ▸ i.w, he ▸ i.sep, he ▸ i.entry, i.labels, i.lead, by rw [← hc, ← he]; exact i.ctl⟩

theorem jumpStep_ok {R : Nat → Prop} {j : Jumps} {st st' : St E} (i : Inv R j st)
    {x : Option Nat} {step : Nat} (h : jumpStep st x = .ok (step, st')) :
    ∃ y, x = some y ∧ Inv R j st' ∧ Extends st.g st'.g ∧ st'.labels = st.labels ∧
      ∀ G, Extends st'.g G → GoesOn G (here st) (step, 0) ∧ GoesOn G (step, 0) (y, 0) := by
  unfold jumpStep at h
  obtain ⟨s1, h1, h⟩ := bindOk h
  obtain ⟨s2, h2, h⟩ := bindOk h
  simp only [Run.ok.injEq, Prod.mk.injEq] at h
  obtain ⟨rfl, rfl⟩ := h
  cases x with
  | none => cases h2
  | some y =>
    obtain ⟨a1, a2, a3, a4⟩ := i.block
    obtain ⟨b1, b2, b3, b4⟩ := a1.go h1 (.inr rfl)
    obtain ⟨c1, c2, c3⟩ := b1.leave h2
    have l1 := (connect_eq h1).1
    have l2 := (connect_eq h2).1
    refine ⟨y, rfl, c1.weaken ?_, (a2.trans b2).trans c2, l2.trans l1, fun G hG => ?_⟩
    · intro b hb
      have := i.lt hb
      exact ⟨.inl hb, by rintro rfl; omega⟩
    · have := c3 G hG
      rw [b3] at this
      exact ⟨a3 ▸ b4 G (c2.trans hG), this⟩

theorem post_brk {const : E → Option Int} {R : Nat → Prop} {j j' : Jumps} {st st' : St E}
    (i : Inv R j st) (h : comp const .brk j st = .ok (j', st')) :
    Post R (fun G L env => Frag G const L env .brk) [] 0 [] j st j' st' := by
  simp only [comp] at h
  obtain ⟨⟨step, s1⟩, h1, h⟩ := bindOk h
  simp only [Run.ok.injEq, Prod.mk.injEq] at h
  obtain ⟨rfl, rfl⟩ := h
  obtain ⟨y, hy, a1, a2, a3, a4⟩ := jumpStep_ok i h1
  refine ⟨a1.jumps rfl rfl, a2, by rw [a3]; exact .refl _, rfl, ?_, fun _ => rfl,
    fun h => absurd h (Nat.lt_irrefl _), [], rfl, fun _ => rfl,
    fun e he => ⟨e, he, fun _ _ _ _ => .nil _⟩, ?_⟩
  · intro env hA
    refine ⟨?_, hA.2.mono a2⟩
    intro a ha
    simp only [Option.some.injEq] at ha
    subst ha
    obtain ⟨d, h1, h2⟩ := hA.1 y hy
    exact ⟨d, h1, fun G hG => (a4 G hG).2.goes.trans (h2 G (a2.trans hG))⟩
  · intro G L env hG _ hA _ _ _
    obtain ⟨d, h1, h2⟩ := hA.1 y hy
    exact ⟨d, h1, ((a4 G hG).1.trans (a4 G hG).2.goes).goes.trans (h2 G (a2.trans hG))⟩

theorem post_cont {const : E → Option Int} {R : Nat → Prop} {j j' : Jumps} {st st' : St E}
    (i : Inv R j st) (h : comp const .cont j st = .ok (j', st')) :
    Post R (fun G L env => Frag G const L env .cont) [] 0 [] j st j' st' := by
  simp only [comp] at h
  obtain ⟨⟨step, s1⟩, h1, h⟩ := bindOk h
  simp only [Run.ok.injEq, Prod.mk.injEq] at h
  obtain ⟨rfl, rfl⟩ := h
  obtain ⟨y, hy, a1, a2, a3, a4⟩ := jumpStep_ok i h1
  refine ⟨a1.jumps rfl rfl, a2, by rw [a3]; exact .refl _, rfl, ?_, fun _ => rfl,
    fun h => absurd h (Nat.lt_irrefl _), [], rfl, fun _ => rfl,
    fun e he => ⟨e, he, fun _ _ _ _ => .nil _⟩, ?_⟩
  · intro env hA
    refine ⟨hA.1.mono a2, ?_⟩
    intro a ha
    simp only [Option.some.injEq] at ha
    subst ha
    obtain ⟨d, h1, h2⟩ := hA.2 y hy
    exact ⟨d, h1, fun G hG => (a4 G hG).2.goes.trans (h2 G (a2.trans hG))⟩
  · intro G L env hG _ hA _ _ _
    obtain ⟨d, h1, h2⟩ := hA.2 y hy
    exact ⟨d, h1, ((a4 G hG).1.trans (a4 G hG).2.goes).goes.trans (h2 G (a2.trans hG))⟩

theorem post_ret {const : E → Option Int} {R : Nat → Prop} {j j' : Jumps} {st st' : St E}
    {o : Option E} (i : Inv R j st) (h : comp const (.ret o) j st = .ok (j', st')) :
    Post R (fun G L env => Frag G const L env (.ret o)) [] 0 [] j st j' st' := by
  simp only [comp, Run.ok.injEq, Prod.mk.injEq] at h
  obtain ⟨rfl, rfl⟩ := h
  cases o with
  | none =>
    obtain ⟨a1, a2, a3⟩ := i.ret .nothing
    exact .simple a1 a2 (.refl _) fun G L env hG _ _ _ => a3 G hG
  | some e =>
    obtain ⟨b1, b2, b3⟩ := i.eval e
    obtain ⟨a1, a2, a3⟩ := b1.ret (.value (evaluate st e).1)
    exact .simple a1 (b2.trans a2) (.refl _) fun G L env hG _ _ _ =>
      ⟨_, _, b3 G (a2.trans hG), a3 G hG⟩

/-! ### Labels -/

theorem post_place {R : Nat → Prop} {j : Jumps} {st st' : St E} {l : Str} (i : Inv R j st)
    (h : placeLabel st l = .ok st') :
    Post R (fun G L _ p q => Goes G p (L.loc l, 0) ∧ q = (L.loc l, 0)) [] 0 [] j st j st' := by
  unfold placeLabel at h
  split at h
  · next a ha =>
    split at h
    · cases h
    · next hu =>
      obtain ⟨s1, h1, h⟩ := bindOk h
      simp only [Run.ok.injEq] at h
      subst h
      have hf : ∀ m, findLabel m (setLabel l (fun a => { a with used := true }) st.labels) =
          if m = l then (findLabel m st.labels).map (fun a => { a with used := true })
          else findLabel m st.labels :=
        fun m => findLabel_set (f := fun a => { a with used := true }) (fun _ => rfl) _
      have hul : Unplaced st.labels l a.endBlock := ⟨a, ha, by simpa using hu, rfl⟩
      have hun : ∀ m b, Unplaced (setLabel l (fun a => { a with used := true }) st.labels) m b →
          m ≠ l ∧ Unplaced st.labels m b := by
        rintro m b ⟨x, hx, hx2, hx3⟩
        rw [hf] at hx
        split at hx
        · next hm =>
          subst hm
          rw [ha] at hx
          simp at hx; subst hx; simp at hx2
        · next hm => exact ⟨hm, x, hx, hx2, hx3⟩
      obtain ⟨b1, b2, b3, b4⟩ := goto_ok (P := fun b => R b ∨ Role j.entry st.labels b) h1 i.w
      have hP : (fun b => R b ∨ Role j.entry st.labels b) a.endBlock := .inr (.inr ⟨l, hul⟩)
      have hhere := here_start b1 hP
      refine .simple ⟨(b1.begin hP).mono ?_, ?_, ?_, ?_, ?_, i.ctl⟩ b2 ?_ ?_
      · show ∀ b, _
        simp only [start]
        rw [b3]
        rintro b (hb | hb | ⟨m, hb⟩)
        · exact ⟨.inl hb, by rintro rfl; exact i.sep _ hb (.inr ⟨l, hul⟩)⟩
        · exact ⟨.inr (.inl hb), by rintro rfl; exact i.entry _ l hb hul⟩
        · obtain ⟨h1, h2⟩ := hun m b hb
          exact ⟨.inr (.inr ⟨m, h2⟩), by rintro rfl; exact h1 (i.labels _ _ _ h2 hul)⟩
      · simp only [start]
        rw [b3]
        rintro b hb (hr | ⟨m, hr⟩)
        · exact i.sep b hb (.inl hr)
        · exact i.sep b hb (.inr ⟨m, (hun m b hr).2⟩)
      · simp only [start]
        rw [b3]
        exact fun b m hb hm => i.entry b m hb (hun m b hm).2
      · simp only [start]
        rw [b3]
        exact fun m m' b hm hm' => i.labels m m' b (hun m b hm).2 (hun m' b hm').2
      · simp only [start]
        rw [b3]
        intro m x hx G hG
        rw [hf] at hx
        split at hx
        · next hm =>
          subst hm
          rw [ha] at hx
          simp at hx; subst hx
          exact i.lead m a ha G (b2.trans hG)
        · exact i.lead m x hx G (b2.trans hG)
      · simp only [start]
        rw [b3]
        intro m x hx
        simp only [hf]
        split
        · next hm => subst hm; rw [hx]; exact ⟨_, rfl, rfl⟩
        · exact ⟨x, hx, rfl⟩
      · intro G L env hG hL _ _
        have : L.loc l = a.endBlock := by
          refine hL l { a with used := true } ?_
          simp only [start]
          rw [b3, hf, if_pos rfl, ha]
          rfl
        rw [this]
        exact ⟨(b4 G hG).goes, hhere⟩
  · next ha =>
    obtain ⟨s1, h1, h⟩ := bindOk h
    simp only [Run.ok.injEq] at h
    subst h
    obtain ⟨c1, c2, c3, c4⟩ := i.block
    have hf : ∀ m, findLabel m (st.labels ++ [⟨l, (newBlock st).1, (newBlock st).1, true⟩]) =
        if m = l then some ⟨l, (newBlock st).1, (newBlock st).1, true⟩
        else findLabel m st.labels := fun m => findLabel_add rfl ha
    have hun : ∀ m b, Unplaced (st.labels ++ [⟨l, (newBlock st).1, (newBlock st).1, true⟩]) m b →
        Unplaced st.labels m b := by
      rintro m b ⟨x, hx, hx2, hx3⟩
      rw [hf] at hx
      split at hx
      · simp at hx; subst hx; simp at hx2
      · exact ⟨x, hx, hx2, hx3⟩
    obtain ⟨b1, b2, b3, b4⟩ := goto_ok (P := fun b => (R b ∨ b = (newBlock st).1) ∨
      Role j.entry st.labels b) h1 c1.w
    have hP : (fun b => (R b ∨ b = (newBlock st).1) ∨ Role j.entry st.labels b)
      (newBlock st).1 := .inl (.inr rfl)
    have hhere := here_start b1 hP
    have b3' : s1.labels = st.labels ++ [⟨l, (newBlock st).1, (newBlock st).1, true⟩] := b3
    refine .simple ⟨(b1.begin hP).mono ?_, ?_, ?_, ?_, ?_, i.ctl⟩ (c2.trans b2) ?_ ?_
    · show ∀ b, _
      simp only [start]
      rw [b3']
      rintro b (hb | hb | ⟨m, hb⟩)
      · exact ⟨.inl (.inl hb), by rintro rfl; have := i.lt hb; omega⟩
      · exact ⟨.inr (.inl hb), by rintro rfl; have := i.role_lt (.inl hb); omega⟩
      · exact ⟨.inr (.inr ⟨m, hun m b hb⟩), by
          rintro rfl; have := i.role_lt (.inr ⟨m, hun m _ hb⟩); omega⟩
    · simp only [start]
      rw [b3']
      rintro b hb (hr | ⟨m, hr⟩)
      · exact i.sep b hb (.inl hr)
      · exact i.sep b hb (.inr ⟨m, hun m b hr⟩)
    · simp only [start]
      rw [b3']
      exact fun b m hb hm => i.entry b m hb (hun m b hm)
    · simp only [start]
      rw [b3']
      exact fun m m' b hm hm' => i.labels m m' b (hun m b hm) (hun m' b hm')
    · simp only [start]
      rw [b3']
      intro m x hx G hG
      rw [hf] at hx
      split at hx
      · simp at hx; subst hx; exact .refl _
      · exact i.lead m x hx G (c2.trans (b2.trans hG))
    · simp only [start]
      rw [b3']
      intro m x hx
      simp only [hf]
      split
      · next hm => subst hm; rw [ha] at hx; cases hx
      · exact ⟨x, hx, rfl⟩
    · intro G L env hG hL _ _
      have : L.loc l = (newBlock st).1 := by
        refine hL l ⟨l, (newBlock st).1, (newBlock st).1, true⟩ ?_
        simp only [start]
        rw [b3', hf, if_pos rfl]
      rw [this]
      exact ⟨c3 ▸ (b4 G hG).goes, hhere⟩

theorem post_goto {const : E → Option Int} {R : Nat → Prop} {j j' : Jumps} {st st' : St E}
    {l : Str} (i : Inv R j st) (h : comp const (.goto l) j st = .ok (j', st')) :
    Post R (fun G L env => Frag G const L env (.goto l)) [] 0 [l] j st j' st' := by
  simp only [comp] at h
  obtain ⟨s1, h1, h⟩ := bindOk h
  simp only [Run.ok.injEq, Prod.mk.injEq] at h
  obtain ⟨rfl, rfl⟩ := h
  unfold gotoLabel at h1
  split at h1
  · next a ha =>
    obtain ⟨⟨step, s2⟩, h2, h1⟩ := bindOk h1
    simp only [Run.ok.injEq] at h1
    subst h1
    obtain ⟨y, hy, a1, a2, a3, a4⟩ := jumpStep_ok i h2
    simp only [Option.some.injEq] at hy
    subst hy
    have hf : ∀ m, findLabel m (setLabel l (fun a => { a with block := step }) s2.labels) =
        if m = l then (findLabel m s2.labels).map (fun a => { a with block := step })
        else findLabel m s2.labels :=
      fun m => findLabel_set (f := fun a => { a with block := step }) (fun _ => rfl) _
    have hun : ∀ m b, Unplaced (setLabel l (fun a => { a with block := step }) s2.labels) m b →
        Unplaced s2.labels m b := by
      rintro m b ⟨x, hx, hx2, hx3⟩
      rw [hf] at hx
      split at hx
      · cases hm : findLabel m s2.labels with
        | none => rw [hm] at hx; simp at hx
        | some z => rw [hm] at hx; simp at hx; subst hx; exact ⟨z, hm, hx2, hx3⟩
      · exact ⟨x, hx, hx2, hx3⟩
    refine .simple ⟨a1.w.mono ?_, ?_, ?_, ?_, ?_, a1.ctl⟩ a2 ?_ ?_
    · rintro b (hb | hb | ⟨m, hb⟩)
      · exact .inl hb
      · exact .inr (.inl hb)
      · exact .inr (.inr ⟨m, hun m b hb⟩)
    · rintro b hb (hr | ⟨m, hr⟩)
      · exact a1.sep b hb (.inl hr)
      · exact a1.sep b hb (.inr ⟨m, hun m b hr⟩)
    · exact fun b m hb hm => a1.entry b m hb (hun m b hm)
    · exact fun m m' b hm hm' => a1.labels m m' b (hun m b hm) (hun m' b hm')
    · intro m x hx G hG
      simp only [hf] at hx
      split at hx
      · next hm =>
        subst hm
        rw [a3, ha] at hx
        simp at hx; subst hx
        exact (a4 G hG).2.goes.trans (i.lead m a ha G (a2.trans hG))
      · exact a1.lead m x hx G hG
    · intro m x hx
      simp only [hf]
      rw [a3]
      split
      · next hm => subst hm; rw [hx]; exact ⟨_, rfl, rfl⟩
      · exact ⟨x, hx, rfl⟩
    · intro G L env hG hL _ hgs
      have : L.loc l = a.endBlock := by
        refine hL l { a with block := step } ?_
        simp only [hf, if_pos]
        rw [a3, ha]
        rfl
      refine ⟨hgs l (by simp), ?_⟩
      rw [this]
      exact ((a4 G hG).1.trans (a4 G hG).2.goes).trans (i.lead l a ha G (a2.trans hG))
  · next ha =>
    obtain ⟨s2, h2, h1⟩ := bindOk h1
    obtain ⟨s3, h3, h1⟩ := bindOk h1
    simp only [Run.ok.injEq] at h1
    subst h1
    obtain ⟨c1, c2, c3, c4⟩ := i.block
    obtain ⟨d1, d2, d3, d4⟩ := c1.block
    have l2 : (newBlock (newBlock st).2).2.labels = st.labels := rfl
    have hne : st.g.size < st.g.size + 1 := Nat.lt_succ_self _
    obtain ⟨e1, e2, e3, e4⟩ := goto_ok (P := fun b => ((R b ∨ b = st.g.size) ∨ b = (st.g.size + 1)) ∨
      Role j.entry (newBlock (newBlock st).2).2.labels b) h2 d1.w
    have hP : (fun b => ((R b ∨ b = st.g.size) ∨ b = (st.g.size + 1)) ∨ Role j.entry (newBlock (newBlock st).2).2.labels b) (st.g.size + 1) :=
      .inl (.inr rfl)
    have w2 := e1.begin hP
    have hh := here_start e1 hP
    obtain ⟨f1, f2, f3, f4⟩ := goto_ok h3 w2
    obtain ⟨g1, g2, g3⟩ := newBlock_ok' f1
    have hl3 : s3.labels = st.labels ++ [⟨l, (st.g.size + 1), st.g.size, false⟩] := by
      rw [f3]; exact e3
    have hl4 : (newBlock s3).2.labels = st.labels ++ [⟨l, (st.g.size + 1), st.g.size, false⟩] := hl3
    have hf : ∀ m, findLabel m (st.labels ++ [⟨l, (st.g.size + 1), st.g.size, false⟩]) =
        if m = l then some ⟨l, (st.g.size + 1), st.g.size, false⟩ else findLabel m st.labels :=
      fun m => findLabel_add rfl ha
    have hun : ∀ m b, Unplaced (st.labels ++ [⟨l, (st.g.size + 1), st.g.size, false⟩]) m b →
        (m = l ∧ b = st.g.size) ∨ (m ≠ l ∧ Unplaced st.labels m b) := by
      rintro m b ⟨x, hx, hx2, hx3⟩
      rw [hf] at hx
      split at hx
      · next hm => simp at hx; subst hx; exact .inl ⟨hm, hx3⟩
      · next hm => exact .inr ⟨hm, x, hx, hx2, hx3⟩
    have hlt : ∀ b, R b ∨ Role j.entry st.labels b → b < st.g.size := by
      intro b hb
      have := (i.w.pend b hb).1
      omega
    have hext : Extends st.g (newBlock s3).2.g := c2.trans (d2.trans (e2.trans (f2.trans g2)))
    have hwd : ∀ b, (R b ∨ Role j.entry st.labels b) ∨ b = st.g.size →
        (((((R b ∨ b = st.g.size) ∨ b = (st.g.size + 1)) ∨ Role j.entry (newBlock (newBlock st).2).2.labels b) ∧ b ≠ (st.g.size + 1)) ∨
          b = (newBlock s3).1) ∧ b ≠ (newBlock s3).1 := by
      intro b hb
      have h1 : b < (st.g.size + 1) := by
        rcases hb with hb | rfl
        · have := hlt b hb; omega
        · exact hne
      have h2 : ((((R b ∨ b = st.g.size) ∨ b = (st.g.size + 1)) ∨ Role j.entry (newBlock (newBlock st).2).2.labels b) ∧ b ≠ (st.g.size + 1)) := by
        refine ⟨?_, by omega⟩
        rw [l2]
        rcases hb with (hb | hb) | hb
        · exact .inl (.inl (.inl hb))
        · exact .inr hb
        · exact .inl (.inl (.inr hb))
      refine ⟨.inl h2, ?_⟩
      rintro rfl
      have := (f1.pend _ h2).1
      omega
    refine .simple ⟨(g1.begin (.inr rfl)).mono ?_, ?_, ?_, ?_, ?_, i.ctl⟩ hext ?_ ?_
    · simp only [start]
      rw [hl4]
      rintro b (hb | hb | ⟨m, hb⟩)
      · exact hwd b (.inl (.inl hb))
      · exact hwd b (.inl (.inr (.inl hb)))
      · rcases hun m b hb with ⟨rfl, h0⟩ | ⟨hm, hb⟩
        · exact hwd b (.inr h0)
        · exact hwd b (.inl (.inr (.inr ⟨m, hb⟩)))
    · simp only [start]
      rw [hl4]
      rintro b hb (hr | ⟨m, hr⟩)
      · exact i.sep b hb (.inl hr)
      · rcases hun m b hr with ⟨rfl, h00⟩ | ⟨hm, hr⟩
        · have := hlt b (.inl hb); omega
        · exact i.sep b hb (.inr ⟨m, hr⟩)
    · simp only [start]
      rw [hl4]
      intro b m hb hm
      rcases hun m b hm with ⟨rfl, h00⟩ | ⟨_, hr⟩
      · have := hlt b (.inr (.inl hb)); omega
      · exact i.entry b m hb hr
    · simp only [start]
      rw [hl4]
      intro m m' b hm hm'
      rcases hun m b hm with ⟨rfl, h00⟩ | ⟨_, hr⟩ <;>
        rcases hun m' b hm' with ⟨rfl, h0⟩ | ⟨_, hr'⟩
      · rfl
      · have := hlt b (.inr (.inr ⟨m', hr'⟩)); omega
      · have := hlt b (.inr (.inr ⟨m, hr⟩)); omega
      · exact i.labels m m' b hr hr'
    · simp only [start]
      rw [hl4]
      intro m x hx G hG
      rw [hf] at hx
      split at hx
      · simp at hx; subst hx
        have := f4 G (g2.trans hG)
        rw [hh] at this
        exact this.goes
      · exact i.lead m x hx G (hext.trans hG)
    · simp only [start]
      rw [hl4]
      intro m x hx
      simp only [hf]
      split
      · next hm => subst hm; rw [ha] at hx; cases hx
      · exact ⟨x, hx, rfl⟩
    · intro G L env hG hL _ hgs
      have : L.loc l = st.g.size := by
        refine hL l ⟨l, (st.g.size + 1), st.g.size, false⟩ ?_
        simp only [start]
        rw [hl4, hf, if_pos rfl]
      refine ⟨hgs l (by simp), ?_⟩
      rw [this]
      have h5 := e4 G (f2.trans (g2.trans hG))
      have h6 := f4 G (g2.trans hG)
      rw [hh] at h6
      have h7 := h5.trans h6.goes
      have h8 : here (newBlock (newBlock st).2).2 = here st := d3.trans c3
      rw [← h8]
      exact h7

/-! ### Case labels and default -/

theorem post_placeCase {R : Nat → Prop} {j j' : Jumps} {st st' : St E} {ctl : Nat} {v : Int}
    (i : Inv R j st) (hc : j.ctl = some ctl) (h : placeCase st j ctl v = .ok (j', st')) :
    Post R (fun G _ env p q => ∃ cb, (v, cb) ∈ env.cases ∧ Goes G p (cb, 0) ∧ q = (cb, 0))
      [some v] 0 [] j st j' st' := by
  unfold placeCase at h
  obtain ⟨s1, h1, h⟩ := bindOk h
  split at h
  · cases h
  · next en hen =>
    obtain ⟨s2, h2, h⟩ := bindOk h
    obtain ⟨s3, h3, h⟩ := bindOk h
    simp only [Run.ok.injEq, Prod.mk.injEq] at h
    obtain ⟨rfl, rfl⟩ := h
    obtain ⟨a1, a2, a3, a4⟩ := i.block
    obtain ⟨b1, b2, b3, b4⟩ := a1.block
    obtain ⟨c1, c2, c3, c4⟩ := goto_ok (P := fun b => ((R b ∨ b = st.g.size) ∨
      b = st.g.size + 1) ∨ Role j.entry st.labels b) h1 b1.w
    have hP : (fun b => ((R b ∨ b = st.g.size) ∨ b = st.g.size + 1) ∨
      Role j.entry st.labels b) en := .inr (.inl hen)
    have hh := here_start c1 hP
    obtain ⟨d1, d2, d3, d4, d5, d6, d7⟩ := select_ok (st := start s1 en) (c1.begin hP)
      (.equal ctl v)
    obtain ⟨e1, e2, e3, e4⟩ := join_ok h2 d1 (.inr (.inl rfl))
    obtain ⟨f1, f2, f3, f4⟩ := join_ok h3 e1 ⟨.inr (.inr rfl), fun h => d4 h.symm⟩
    have hsz : st.g.size + 2 ≤ s1.g.size := c2.size
    have hlt : ∀ b, R b ∨ Role j.entry st.labels b → b < st.g.size := fun b hb =>
      (i.w.pend b hb).1
    have henlt := hlt en (.inr (.inl hen))
    have hext : Extends st.g s3.g :=
      a2.trans (b2.trans (c2.trans (d2.trans (e2.trans f2))))
    have key : ∀ b, ((R b ∨ Role j.entry st.labels b) ∧ b ≠ en) ∨ b = st.g.size ∨
        b = st.g.size + 1 →
        ((((((R b ∨ b = st.g.size) ∨ b = st.g.size + 1) ∨ Role j.entry st.labels b) ∧ b ≠ en) ∨
          b = (select (start s1 en) (.equal ctl v)).1 ∨
          b = (select (start s1 en) (.equal ctl v)).2.1) ∧
          b ≠ (select (start s1 en) (.equal ctl v)).1) ∧
          b ≠ (select (start s1 en) (.equal ctl v)).2.1 := by
      intro b hb
      have hb' : b < s1.g.size ∧
          ((((R b ∨ b = st.g.size) ∨ b = st.g.size + 1) ∨ Role j.entry st.labels b) ∧ b ≠ en) := by
        rcases hb with ⟨hb, hn⟩ | rfl | rfl
        · have := hlt b hb
          refine ⟨by omega, ?_, hn⟩
          rcases hb with hb | hb
          · exact .inl (.inl (.inl hb))
          · exact .inr hb
        · exact ⟨by omega, .inl (.inl (.inr rfl)), by omega⟩
        · exact ⟨by omega, .inl (.inr rfl), by omega⟩
      have d5' : s1.g.size ≤ (select (start s1 en) (.equal ctl v)).1 := d5
      have d6' : s1.g.size ≤ (select (start s1 en) (.equal ctl v)).2.1 := d6
      refine ⟨⟨.inl hb'.2, ?_⟩, ?_⟩
      · rintro rfl; omega
      · rintro rfl; omega
    have hl : s3.labels = st.labels := f3.trans (e3.trans (d3.trans c3))
    have hw : Wn s3.g (fun b => ((R b ∨ Role j.entry st.labels b) ∧ b ≠ en) ∨ b = st.g.size ∨
        b = st.g.size + 1) := f1.mono key
    have hcb := here_start hw (d := st.g.size) (.inr (.inl rfl))
    refine ⟨⟨(hw.begin (d := st.g.size) (.inr (.inl rfl))).mono ?_, ?_, ?_, ?_, ?_, ?_⟩, hext, ?_,
      rfl, ?_, fun _ => rfl, fun h => absurd h (Nat.lt_irrefl _),
      [(v, st.g.size)], rfl, fun h => by simp at h, ?_, ?_⟩
    · simp only [start]
      rw [hl]
      rintro b (hb | hb | ⟨m, hb⟩)
      · have := hlt b (.inl hb)
        exact ⟨.inl ⟨.inl hb, by rintro rfl; exact i.sep _ hb (.inl hen)⟩, by omega⟩
      · simp only [Option.some.injEq] at hb
        have : b = st.g.size + 1 := hb.symm
        exact ⟨.inr (.inr this), by omega⟩
      · have := hlt b (.inr (.inr ⟨m, hb⟩))
        exact ⟨.inl ⟨.inr (.inr ⟨m, hb⟩), by rintro rfl; exact i.entry _ m hen hb⟩, by omega⟩
    · simp only [start]
      rw [hl]
      rintro b hb (hr | ⟨m, hr⟩)
      · simp only [Option.some.injEq] at hr
        have h1 := hlt b (.inl hb)
        have h2 : b = st.g.size + 1 := hr.symm
        omega
      · exact i.sep b hb (.inr ⟨m, hr⟩)
    · simp only [start]
      rw [hl]
      intro b m hb hm
      simp only [Option.some.injEq] at hb
      have h1 := hlt b (.inr (.inr ⟨m, hm⟩))
      have h2 : b = st.g.size + 1 := hb.symm
      omega
    · simp only [start]
      rw [hl]
      exact i.labels
    · simp only [start]
      rw [hl]
      exact fun m x hx G hG => i.lead m x hx G (hext.trans hG)
    · simp [hc]
    · simp only [start]
      rw [hl]
      exact .refl _
    · exact fun env hA => hA.mono hext
    · intro e he
      rw [hen] at he
      simp only [Option.some.injEq] at he
      subst he
      refine ⟨_, rfl, fun G k hG hk => ?_⟩
      rw [hc] at hk
      simp only [Option.some.injEq] at hk
      subst hk
      have := d7 G (e2.trans (f2.trans hG))
      rw [hh] at this
      exact .cons this (e4 G (f2.trans hG)).goes (f4 G hG).goes (.nil _)
    · intro G L env hG _ _ htbl _ _
      refine ⟨st.g.size, htbl _ (by simp), ?_, hcb⟩
      have := c4 G (d2.trans (e2.trans (f2.trans hG)))
      have h8 : here (newBlock (newBlock st).2).2 = here st := rfl
      exact this.goes

theorem post_placeDefault {R : Nat → Prop} {j j' : Jumps} {st st' : St E}
    (i : Inv R j st) (h : placeDefault st j = .ok (j', st')) :
    Post R (fun G _ env p q => ∃ cb, env.dflt = some cb ∧ Goes G p (cb, 0) ∧ q = (cb, 0))
      [] 1 [] j st j' st' := by
  unfold placeDefault at h
  obtain ⟨s1, h1, h⟩ := bindOk h
  simp only at h
  split at h
  · cases h
  · next en hen =>
    simp only [Run.ok.injEq, Prod.mk.injEq] at h
    obtain ⟨rfl, rfl⟩ := h
    obtain ⟨a1, a2, a3, a4⟩ := i.block
    obtain ⟨b1, b2, b3, b4⟩ := a1.go h1 (.inr rfl)
    have hl : s1.labels = st.labels := (connect_eq h1).1
    refine ⟨(b1.weaken ?_).jumps rfl rfl, a2.trans b2, ?_, rfl,
      fun env hA => hA.mono (a2.trans b2), fun h => by simp at h, fun _ => by simp,
      [], rfl, fun _ => rfl, fun e he => ⟨e, he, fun _ _ _ _ => .nil _⟩, ?_⟩
    · intro b hb
      have := i.lt hb
      exact ⟨.inl hb, by rintro rfl; omega⟩
    · simp only [start]
      rw [hl]
      exact .refl _
    · intro G L env hG _ _ _ hd _
      exact ⟨_, hd (by omega), a3 ▸ (b4 G hG).goes, b3⟩

/-! ### if -/

/-- The parser makes the blocks of the statement as `Frag` says. -/
def Good (const : E → Option Int) (s : Stmt E) : Prop :=
  ∀ (R : Nat → Prop) (j j' : Jumps) (st st' : St E), Inv R j st →
    comp const s j st = .ok (j', st') →
    Post R (fun G L env => Frag G const L env s) (s.cases const) s.defaults s.gotos j st j' st'

theorem good_ite {const : E → Option Int} {e : E} {s : Stmt E} (ih : Good const s) :
    Good const (.ite e s) := by
  intro R j j' st st' i h
  simp only [comp] at h
  obtain ⟨⟨j1, s1⟩, h1, h⟩ := bindOk h
  obtain ⟨s2, h2, h⟩ := bindOk h
  obtain ⟨s3, h3, h⟩ := bindOk h
  simp only [Run.ok.injEq, Prod.mk.injEq] at h
  obtain ⟨rfl, rfl⟩ := h
  obtain ⟨a1, a2, a3⟩ := i.eval e
  obtain ⟨b1, b2, b3, b4, b5⟩ := a1.select (.truth (evaluate st e).1)
  have P := ih _ _ _ _ _ b1 h1
  obtain ⟨c1, c2, c3, c4⟩ := P.inv.block
  obtain ⟨d1, d2, d3, d4⟩ := c1.go h2 (d := (select (evaluate st e).2
    (.truth (evaluate st e).1)).2.1) (.inl (.inr rfl))
  have hfs : (select (evaluate st e).2 (.truth (evaluate st e).1)).2.1 < s1.g.size :=
    P.inv.lt (.inr rfl)
  have hss := P.ext.size
  have hes := a2.size
  simp only [start] at hss
  obtain ⟨e1, e2, e3, e4⟩ := d1.go h3 (d := (newBlock s1).1) ⟨.inr rfl, by omega⟩
  have hss' := b2.size
  have hl : (start s3 (newBlock s1).1).labels = s1.labels :=
    (connect_eq h3).1.trans (connect_eq h2).1
  have hext := a2.trans (b2.trans (P.ext.trans (c2.trans (d2.trans e2))))
  obtain ⟨tbl, t1, t2, t3, t4⟩ := P.frag
  refine ⟨e1.weaken ?_, hext, ?_, P.ctl, ?_, P.same, P.some', tbl, t1, t2, ?_, ?_⟩
  · intro b hb
    have := i.lt hb
    exact ⟨⟨.inl (.inl hb), by rintro rfl; omega⟩, by rintro rfl; omega⟩
  · rw [hl]; exact P.lab
  · exact fun env hA => (P.aims env (hA.mono (a2.trans b2))).mono (c2.trans (d2.trans e2))
  · intro x hx
    obtain ⟨x', h1, h2⟩ := t3 x hx
    exact ⟨x', h1, fun G k hG hk => h2 G k (c2.trans (d2.trans (e2.trans hG))) hk⟩
  · intro G L env hG hL hA hc hd hg
    have hG1 : Extends s1.g G := c2.trans (d2.trans (e2.trans hG))
    have hF := t4 G L env hG1 (hl ▸ hL) (hA.mono (a2.trans b2)) hc hd hg
    rw [b3] at hF
    have g1 := d4 G (e2.trans hG)
    have g2 := e4 G hG
    rw [d3] at g2
    rw [c3] at g1
    exact ⟨_, _, _, _, _, _, a3 G (b2.trans (P.ext.trans hG1)), b5 G (P.ext.trans hG1), hF,
      g1.goes, g2.goes, e3⟩

theorem good_iteElse {const : E → Option Int} {e : E} {s t : Stmt E} (ih : Good const s)
    (ih' : Good const t) (hd : s.defaults + t.defaults ≤ 1) : Good const (.iteElse e s t) := by
  intro R j j' st st' i h
  simp only [comp] at h
  obtain ⟨⟨j1, s1⟩, h1, h⟩ := bindOk h
  obtain ⟨s2, h2, h⟩ := bindOk h
  obtain ⟨⟨j2, s3⟩, h3, h⟩ := bindOk h
  obtain ⟨s4, h4, h⟩ := bindOk h
  simp only [Run.ok.injEq, Prod.mk.injEq] at h
  obtain ⟨rfl, rfl⟩ := h
  obtain ⟨a1, a2, a3⟩ := i.eval e
  obtain ⟨b1, b2, b3, b4, b5⟩ := a1.select (.truth (evaluate st e).1)
  have P := ih _ _ _ _ _ b1 h1
  obtain ⟨c1, c2, c3, c4⟩ := P.inv.block
  obtain ⟨d1, d2, d3, d4⟩ := c1.go h2 (d := (select (evaluate st e).2
    (.truth (evaluate st e).1)).2.1) (.inl (.inr rfl))
  have hfs : (select (evaluate st e).2 (.truth (evaluate st e).1)).2.1 < s1.g.size :=
    P.inv.lt (.inr rfl)
  have hss := P.ext.size
  have hes := a2.size
  simp only [start] at hss
  have hss' := b2.size
  have Q := ih' _ _ _ _ _ d1 h3
  obtain ⟨e1, e2, e3, e4⟩ := Q.inv.go h4 (d := (newBlock s1).1) ⟨.inr rfl, by omega⟩
  have hl2 : (start s4 (newBlock s1).1).labels = s3.labels := (connect_eq h4).1
  have hl1 : (start s2 (select (evaluate st e).2 (.truth (evaluate st e).1)).2.1).labels =
    s1.labels := (connect_eq h2).1
  have hx1 := a2.trans b2
  have hx2 : Extends s1.g s2.g := c2.trans d2
  have hx3 : Extends s1.g s3.g := hx2.trans Q.ext
  have hext : Extends st.g s4.g := hx1.trans (P.ext.trans (hx3.trans e2))
  have hlab : LabExt s1.labels s3.labels := by
    have := Q.lab; rwa [hl1] at this
  obtain ⟨tbl, t1, t2, t3, t4⟩ := P.frag
  obtain ⟨tbl', u1, u2, u3, u4⟩ := Q.frag
  refine ⟨e1.weaken ?_, hext, ?_, Q.ctl.trans P.ctl, ?_, ?_, ?_, tbl ++ tbl', ?_, ?_, ?_, ?_⟩
  · intro b hb
    have := i.lt hb
    exact ⟨⟨.inl (.inl hb), by rintro rfl; omega⟩, by rintro rfl; omega⟩
  · rw [hl2]; exact P.lab.trans hlab
  · exact fun env hA => (Q.aims env ((P.aims env (hA.mono hx1)).mono hx2)).mono e2
  · intro h0
    have h0 : s.defaults + t.defaults = 0 := h0
    rw [Q.same (by omega), P.same (by omega)]
  · intro h0
    have h0 : 0 < s.defaults + t.defaults := h0
    by_cases hn : t.defaults = 0
    · rw [Q.same hn]; exact P.some' (by omega)
    · exact Q.some' (by omega)
  · simp [t1, u1, Stmt.cases]
  · intro ht
    simp only [List.append_eq_nil_iff] at ht
    rw [u2 ht.2, t2 ht.1]
  · intro x hx
    obtain ⟨x', h1, h2⟩ := t3 x hx
    obtain ⟨x'', h3, h4⟩ := u3 x' h1
    exact ⟨x'', h3, fun G k hG hk => (h2 G k (hx3.trans (e2.trans hG)) hk).append
      (h4 G k (e2.trans hG) (P.ctl.trans hk))⟩
  · intro G L env hG hL hA hc hdf hg
    have hG3 : Extends s3.g G := e2.trans hG
    have hG1 : Extends s1.g G := hx3.trans hG3
    have hF := t4 G L env hG1 ((hl2 ▸ hL : Agree L s3.labels).back hlab)
      (hA.mono hx1) (fun x hx => hc x (by simp [hx]))
      (fun h0 => by
        rw [hdf (by show 0 < s.defaults + t.defaults; omega), Q.same (by omega)])
      (fun l hl => hg l (by simp [Stmt.gotos, hl]))
    have hF' := u4 G L env hG3 (hl2 ▸ hL) ((P.aims env (hA.mono hx1)).mono hx2)
      (fun x hx => hc x (by simp [hx]))
      (fun h0 => hdf (by show 0 < s.defaults + t.defaults; omega))
      (fun l hl => hg l (by simp [Stmt.gotos, hl]))
    rw [b3] at hF
    rw [d3] at hF'
    have g1 := d4 G (Q.ext.trans hG3)
    have g2 := e4 G hG
    rw [c3] at g1
    exact ⟨_, _, _, _, _, _, _, a3 G (b2.trans (P.ext.trans hG1)), b5 G (P.ext.trans hG1), hF,
      g1.goes, hF', g2.goes, e3⟩

/-! ### Loops -/

theorem loopTest_labels {st st' : St E} {k b d : Nat} (h : loopTest st k b d = .ok st') :
    st'.labels = st.labels := by
  unfold loopTest at h
  obtain ⟨s1, h1, h⟩ := bindOk h
  exact (connect_eq h).1.trans (connect_eq h1).1

theorem contOk {st st' : St E} {o : Option Nat} (h : goto st o = .ok st') : ∃ y, o = some y := by
  cases o with
  | none => cases h
  | some y => exact ⟨y, rfl⟩

theorem good_while {const : E → Option Int} {e : E} {s : Stmt E} (ih : Good const s)
    (hc : s.cases const = []) (hd : s.defaults = 0) : Good const (.while e s) := by
  intro R j j' st st' i h
  have hcs : (Stmt.while e s).cases const = [] := hc
  have hds : (Stmt.while e s).defaults = 0 := hd
  rw [hcs, hds]
  simp only [comp] at h
  obtain ⟨s1, h1, h⟩ := bindOk h
  obtain ⟨s2, h2, h⟩ := bindOk h
  obtain ⟨⟨j1, s3⟩, h3, h⟩ := bindOk h
  obtain ⟨s4, h4, h⟩ := bindOk h
  simp only [Run.ok.injEq, Prod.mk.injEq] at h
  obtain ⟨rfl, rfl⟩ := h
  obtain ⟨a1, a2, a3, a4⟩ := i.block
  obtain ⟨b1, b2, b3, b4⟩ := a1.block
  obtain ⟨c1, c2, c3, c4⟩ := b1.block
  have eb : (newBlock st).1 = st.g.size := rfl
  have ec : (newBlock (newBlock st).2).1 = st.g.size + 1 := rfl
  have ed : (newBlock (newBlock (newBlock st).2).2).1 = st.g.size + 2 := rfl
  have l0 : (newBlock (newBlock (newBlock st).2).2).2.labels = st.labels := rfl
  have ehere : here (newBlock (newBlock (newBlock st).2).2).2 = here st := rfl
  rw [eb, ec, ed] at *
  have ex3 := a2.trans (b2.trans c2)
  clear a2 a3 a4 b2 b3 b4 c2 c3 c4 a1 b1
  generalize (newBlock (newBlock (newBlock st).2).2).2 = n3 at *
  obtain ⟨d1, d2, d3, d4⟩ := c1.go h1 (d := st.g.size + 1) (.inl (.inr rfl))
  obtain ⟨e1, e2, e3⟩ := d1.eval e
  obtain ⟨f1, f2, f3, f4⟩ := e1.test h2 (x := st.g.size)
    ⟨.inl (.inl (.inr rfl)), by omega⟩
  have P := ih _ _ _ _ _ (f1.jumps (j' := { j with brk := some (st.g.size + 2), cont := some (st.g.size + 1) })
    rfl rfl) h3
  obtain ⟨tbl, t1, t2, t3, t4⟩ := P.frag
  have htbl : tbl = [] := by rw [hc] at t1; simpa using t1
  subst htbl
  have hj : j1.entry = j.entry := t2 rfl
  obtain ⟨y, hy⟩ := contOk h4
  rw [hy] at h4
  obtain ⟨g1, g2, g3, g4⟩ := P.inv.go h4 (d := st.g.size + 2)
    ⟨⟨.inr rfl, by omega⟩, by omega⟩
  have l1 : s2.labels = st.labels :=
    (loopTest_labels h2).trans ((connect_eq h1).1.trans l0)
  have l2 : s4.labels = s3.labels := (connect_eq h4).1
  refine .simple ((g1.jumps hj P.ctl).weaken ?_) (ex3.trans (d2.trans (e2.trans (f2.trans (P.ext.trans g2))))) ?_ ?_
  · intro b hb
    have := i.lt hb
    exact ⟨⟨⟨.inl (.inl (.inl hb)), by omega⟩, by omega⟩, by omega⟩
  · show LabExt st.labels s4.labels
    rw [l2, ← l1]; exact P.lab
  · intro G L env hG hL hA hg
    have hA' : Aims s2.g { j with brk := some (st.g.size + 2), cont := some (st.g.size + 1) }
      { env with brk := some (st.g.size + 2), cont := some (st.g.size + 1) } :=
      ⟨Aim.self _ _, Aim.self _ _⟩
    have hG3 : Extends s3.g G := g2.trans hG
    have hG2 : Extends s2.g G := P.ext.trans hG3
    have hF := t4 G L _ hG3 (l2 ▸ hL) hA' (fun x hx => by simp at hx) (fun h => by omega)
      (fun l hl => hg l hl)
    obtain ⟨y', hy1, hy2⟩ := (P.aims _ hA').2 y hy
    simp only [Option.some.injEq] at hy1
    subst hy1
    obtain ⟨t, f, k1, k2, k3⟩ := f4 G hG2
    have hev := e3 G (f2.trans hG2)
    rw [d3] at hev
    rw [f3] at hF
    refine ⟨_, _, _, _, ?_, ⟨_, _, _, _, hev, k1, k2, k3⟩, hF,
      (g4 G hG).goes.trans (hy2 G hG3), g3⟩
    have := (d4 G (e2.trans (f2.trans hG2))).goes
    rwa [ehere] at this

theorem good_do {const : E → Option Int} {e : E} {s : Stmt E} (ih : Good const s)
    (hc : s.cases const = []) (hd : s.defaults = 0) : Good const (.doWhile s e) := by
  intro R j j' st st' i h
  have hcs : (Stmt.doWhile s e).cases const = [] := hc
  have hds : (Stmt.doWhile s e).defaults = 0 := hd
  rw [hcs, hds]
  simp only [comp] at h
  obtain ⟨s1, h1, h⟩ := bindOk h
  obtain ⟨⟨j1, s3⟩, h3, h⟩ := bindOk h
  obtain ⟨s4, h4, h⟩ := bindOk h
  obtain ⟨s5, h5, h⟩ := bindOk h
  simp only [Run.ok.injEq, Prod.mk.injEq] at h
  obtain ⟨rfl, rfl⟩ := h
  obtain ⟨a1, a2, a3, a4⟩ := i.block
  obtain ⟨b1, b2, b3, b4⟩ := a1.block
  obtain ⟨c1, c2, c3, c4⟩ := b1.block
  have eb : (newBlock st).1 = st.g.size := rfl
  have ec : (newBlock (newBlock st).2).1 = st.g.size + 1 := rfl
  have ed : (newBlock (newBlock (newBlock st).2).2).1 = st.g.size + 2 := rfl
  have l0 : (newBlock (newBlock (newBlock st).2).2).2.labels = st.labels := rfl
  have ehere : here (newBlock (newBlock (newBlock st).2).2).2 = here st := rfl
  rw [eb, ec, ed] at *
  have ex3 := a2.trans (b2.trans c2)
  clear a2 a3 a4 b2 b3 b4 c2 c3 c4 a1 b1
  generalize (newBlock (newBlock (newBlock st).2).2).2 = n3 at *
  obtain ⟨d1, d2, d3, d4⟩ := c1.go h1 (d := st.g.size) (.inl (.inl (.inr rfl)))
  have P := ih _ _ _ _ _ (d1.jumps (j' := { j with brk := some (st.g.size + 2), cont := some (st.g.size + 1) })
    rfl rfl) h3
  obtain ⟨tbl, t1, t2, t3, t4⟩ := P.frag
  have htbl : tbl = [] := by rw [hc] at t1; simpa using t1
  subst htbl
  have hj : j1.entry = j.entry := t2 rfl
  obtain ⟨g1, g2, g3, g4⟩ := P.inv.go h4 (d := st.g.size + 1)
    ⟨.inl (.inr rfl), by omega⟩
  obtain ⟨e1, e2, e3⟩ := g1.eval e
  obtain ⟨f1, f2, f3, f4⟩ := e1.test h5 (x := st.g.size + 2)
    ⟨⟨.inr rfl, by omega⟩, by omega⟩
  have l1 : s1.labels = st.labels := (connect_eq h1).1.trans l0
  have l2 : s5.labels = s3.labels := (loopTest_labels h5).trans (connect_eq h4).1
  refine .simple ((f1.jumps hj P.ctl).weaken ?_) (ex3.trans (d2.trans (P.ext.trans
    (g2.trans (e2.trans f2))))) ?_ ?_
  · intro b hb
    have := i.lt hb
    exact ⟨⟨⟨.inl (.inl (.inl hb)), by omega⟩, by omega⟩, by omega⟩
  · show LabExt st.labels s5.labels
    rw [l2, ← l1]; exact P.lab
  · intro G L env hG hL hA hg
    have hA' : Aims s1.g { j with brk := some (st.g.size + 2), cont := some (st.g.size + 1) }
      { env with brk := some (st.g.size + 2), cont := some (st.g.size + 1) } :=
      ⟨Aim.self _ _, Aim.self _ _⟩
    have hG4 : Extends s4.g G := e2.trans (f2.trans hG)
    have hG3 : Extends s3.g G := g2.trans hG4
    have hF := t4 G L _ hG3 (l2 ▸ hL) hA' (fun x hx => by simp at hx) (fun h => by omega)
      (fun l hl => hg l hl)
    obtain ⟨t, f, k1, k2, k3⟩ := f4 G hG
    have hev := e3 G (f2.trans hG)
    rw [g3] at hev
    rw [d3] at hF
    refine ⟨_, _, _, _, ?_, hF, (g4 G hG4).goes, ⟨_, _, _, _, hev, k1, k2, k3⟩, f3⟩
    have := (d4 G (P.ext.trans hG3)).goes
    rwa [ehere] at this

theorem compInit_ok {R : Nat → Prop} {j : Jumps} {st : St E} (i : Inv R j st) (a : Init E) :
    Inv R j (compInit a st) ∧ Extends st.g (compInit a st).g ∧
      (compInit a st).labels = st.labels ∧
      ∀ G, Extends (compInit a st).g G → FInit G a (here st) (here (compInit a st)) := by
  cases a with
  | none => exact ⟨i, .refl _, rfl, fun _ _ => rfl⟩
  | decl d =>
    obtain ⟨h1, h2, h3⟩ := i.eval d
    exact ⟨h1, h2, rfl, fun G hG => ⟨_, h3 G hG⟩⟩
  | expr d =>
    obtain ⟨h1, h2, h3⟩ := i.eval d
    exact ⟨h1, h2, rfl, fun G hG => ⟨_, h3 G hG⟩⟩

theorem compAdv_ok {R : Nat → Prop} {j : Jumps} {st : St E} (i : Inv R j st) (a : Option E) :
    Inv R j (compAdv a st) ∧ Extends st.g (compAdv a st).g ∧
      (compAdv a st).labels = st.labels ∧
      ∀ G, Extends (compAdv a st).g G → FAdv G a (here st) (here (compAdv a st)) := by
  cases a with
  | none => exact ⟨i, .refl _, rfl, fun _ _ => rfl⟩
  | some d =>
    obtain ⟨h1, h2, h3⟩ := i.eval d
    exact ⟨h1, h2, rfl, fun G hG => ⟨_, h3 G hG⟩⟩

theorem compTest_ok {R : Nat → Prop} {j : Jumps} {st st' : St E} (i : Inv R j st) (c : Option E)
    {b d x : Nat} (h : compTest c st b d = .ok st') (hx : R x) :
    Inv (fun y => R y ∧ y ≠ x) j (start st' x) ∧ Extends st.g st'.g ∧
      st'.labels = st.labels ∧
      here (start st' x) = (x, 0) ∧
      ∀ G, Extends st'.g G → FTest G c (here st) b d := by
  cases c with
  | none =>
    obtain ⟨h1, h2, h3, h4⟩ := i.go h hx
    exact ⟨h1, h2, (connect_eq h).1, h3, fun G hG => h4 G hG⟩
  | some e =>
    obtain ⟨a1, a2, a3⟩ := i.eval e
    obtain ⟨h1, h2, h3, h4⟩ := a1.test h hx
    refine ⟨h1, a2.trans h2, loopTest_labels (st := (evaluate st e).2) h, h3, fun G hG => ?_⟩
    obtain ⟨t, f, k1, k2, k3⟩ := h4 G hG
    exact ⟨_, _, _, _, a3 G (h2.trans hG), k1, k2, k3⟩

theorem good_for {const : E → Option Int} {ini : Init E} {c a : Option E} {s : Stmt E}
    (ih : Good const s) (hc : s.cases const = []) (hd : s.defaults = 0) :
    Good const (.for ini c a s) := by
  intro R j j' st st' i h
  have hcs : (Stmt.for ini c a s).cases const = [] := hc
  have hds : (Stmt.for ini c a s).defaults = 0 := hd
  rw [hcs, hds]
  simp only [comp] at h
  obtain ⟨s1, h1, h⟩ := bindOk h
  obtain ⟨s2, h2, h⟩ := bindOk h
  obtain ⟨s3, h3, h⟩ := bindOk h
  obtain ⟨s4, h4, h⟩ := bindOk h
  obtain ⟨⟨j1, s5⟩, h5, h⟩ := bindOk h
  obtain ⟨s6, h6, h⟩ := bindOk h
  simp only [Run.ok.injEq, Prod.mk.injEq] at h
  obtain ⟨rfl, rfl⟩ := h
  obtain ⟨a1, a2, -, -⟩ := i.block
  obtain ⟨b1, b2, -, -⟩ := a1.block
  obtain ⟨c1, c2, -, -⟩ := b1.block
  obtain ⟨x1, x2, -, -⟩ := c1.block
  obtain ⟨y1, y2, -, -⟩ := x1.block
  have e0 : (newBlock st).1 = st.g.size := rfl
  have e1 : (newBlock (newBlock st).2).1 = st.g.size + 1 := rfl
  have e2 : (newBlock (newBlock (newBlock st).2).2).1 = st.g.size + 2 := rfl
  have e3 : (newBlock (newBlock (newBlock (newBlock st).2).2).2).1 = st.g.size + 3 := rfl
  have e4 : (newBlock (newBlock (newBlock (newBlock (newBlock st).2).2).2).2).1 =
    st.g.size + 4 := rfl
  have l0 : (newBlock (newBlock (newBlock (newBlock (newBlock st).2).2).2).2).2.labels =
    st.labels := rfl
  have ehere : here (newBlock (newBlock (newBlock (newBlock (newBlock st).2).2).2).2).2 =
    here st := rfl
  rw [e0, e1, e2, e3, e4] at *
  have ex := a2.trans (b2.trans (c2.trans (x2.trans y2)))
  clear a2 b2 c2 x2 y2 a1 b1 c1 x1 e0 e1 e2 e3 e4
  generalize (newBlock (newBlock (newBlock (newBlock (newBlock st).2).2).2).2).2 = n at *
  obtain ⟨d1, d2, d3, d4⟩ := y1.go h1 (d := st.g.size) (.inl (.inl (.inl (.inl (.inr rfl)))))
  obtain ⟨i1, i2, i3, i4⟩ := compInit_ok d1 ini
  obtain ⟨m1, m2, m3, m4⟩ := i1.go h2 (d := st.g.size + 1)
    ⟨.inl (.inl (.inl (.inr rfl))), by omega⟩
  obtain ⟨o1, o2, o3, o4, o5⟩ := compTest_ok m1 c h3 (x := st.g.size + 2)
    ⟨⟨.inl (.inl (.inr rfl)), by omega⟩, by omega⟩
  obtain ⟨p1, p2, p3, p4⟩ := compAdv_ok o1 a
  obtain ⟨q1, q2, q3, q4⟩ := p1.go h4 (d := st.g.size + 3)
    ⟨⟨⟨.inl (.inr rfl), by omega⟩, by omega⟩, by omega⟩
  have P := ih _ _ _ _ _ (q1.jumps (j' := { j with brk := some (st.g.size + 4), cont := some (st.g.size + 2) })
    rfl rfl) h5
  obtain ⟨tbl, t1, t2, t3, t4⟩ := P.frag
  have htbl : tbl = [] := by rw [hc] at t1; simpa using t1
  subst htbl
  have hj : j1.entry = j.entry := t2 rfl
  obtain ⟨r1, r2, r3, r4⟩ := P.inv.go h6 (d := st.g.size + 4)
    ⟨⟨⟨⟨.inr rfl, by omega⟩, by omega⟩, by omega⟩, by omega⟩
  have l1 : s4.labels = st.labels :=
    (connect_eq h4).1.trans (p3.trans (o3.trans ((connect_eq h2).1.trans
      (i3.trans ((connect_eq h1).1.trans l0)))))
  have l2 : s6.labels = s5.labels := (connect_eq h6).1
  refine .simple ((r1.jumps hj P.ctl).weaken ?_) (ex.trans (d2.trans (i2.trans (m2.trans
    (o2.trans (p2.trans (q2.trans (P.ext.trans r2)))))))) ?_ ?_
  · intro b hb
    have := i.lt hb
    exact ⟨⟨⟨⟨⟨.inl (.inl (.inl (.inl (.inl hb)))), by omega⟩, by omega⟩, by omega⟩, by omega⟩,
      by omega⟩
  · show LabExt st.labels s6.labels
    rw [l2, ← l1]; exact P.lab
  · intro G L env hG hL hA hg
    have hA' : Aims s4.g { j with brk := some (st.g.size + 4), cont := some (st.g.size + 2) }
      { env with brk := some (st.g.size + 4), cont := some (st.g.size + 2) } :=
      ⟨Aim.self _ _, Aim.self _ _⟩
    have hG5 : Extends s5.g G := r2.trans hG
    have hG4 : Extends s4.g G := P.ext.trans hG5
    have hG3' := q2.trans hG4
    have hG3 : Extends s3.g G := p2.trans hG3'
    have hG2 : Extends s2.g G := o2.trans hG3
    have hG1' := m2.trans hG2
    have hG1 : Extends s1.g G := i2.trans hG1'
    have hF := t4 G L _ hG5 (l2 ▸ hL) hA' (fun x hx => by simp at hx) (fun h => by omega)
      (fun l hl => hg l hl)
    have k1 := (d4 G hG1).goes
    rw [ehere] at k1
    have k2 := i4 G hG1'
    rw [d3] at k2
    have k3 := o5 G hG3
    rw [m3] at k3
    have k4 := p4 G hG3'
    rw [o4] at k4
    rw [q3] at hF
    exact ⟨_, _, _, _, _, _, _, _, k1, k2, (m4 G hG2).goes, k3, k4, q4 G hG4, hF,
      (r4 G hG).goes, r3⟩

/-! ### switch -/

/-- Begin a switch: the comparisons go to the block `c`, and the block of the switch around
it is kept. -/
theorem Inv.enter {R : Nat → Prop} {j j' : Jumps} {st : St E} (i : Inv R j st) {c : Nat}
    (hc : R c) (he : j'.entry = some c) (hk : j'.ctl ≠ none) :
    Inv (fun x => (R x ∧ x ≠ c) ∨ j.entry = some x) j' st := by
  refine ⟨i.w.mono ?_, ?_, ?_, i.labels, i.lead, ?_⟩
  · rintro b ((hb | hb) | hb | hb)
    · exact .inl hb.1
    · exact .inr (.inl hb)
    · rw [he] at hb; cases hb; exact .inl hc
    · exact .inr (.inr hb)
  · rintro b (hb | hb) (hr | ⟨l, hr⟩)
    · rw [he] at hr; cases hr; exact hb.2 rfl
    · exact i.sep b hb.1 (.inr ⟨l, hr⟩)
    · rw [he] at hr; cases hr; exact i.sep _ hc (.inl hb)
    · exact i.entry b l hb hr
  · intro b l hb hu
    rw [he] at hb; cases hb
    exact i.sep _ hc (.inr ⟨l, hu⟩)
  · rw [he]; simp [hk]

/-- End a switch: the last comparison leads to `b`. -/
theorem Inv.exit {R : Nat → Prop} {j j0 : Jumps} {st st' : St E} (i : Inv R j st) {e b : Nat}
    (he : j.entry = some e) (h : connect st e b = .ok st')
    (h0 : ∀ x, j0.entry = some x → R x) (hk : j0.ctl = none ↔ j0.entry = none) :
    Inv (fun x => R x ∧ j0.entry ≠ some x) j0 st' ∧ Extends st.g st'.g ∧
      st'.labels = st.labels ∧ here st' = here st ∧
      ∀ G, Extends st'.g G → GoesOn G (e, 0) (b, 0) := by
  have hp : ∀ x, R x ∨ Role j.entry st.labels x → x ≠ e →
      (R x ∨ Role j.entry st.labels x) ∧ x ≠ e := fun x hx hn => ⟨hx, hn⟩
  obtain ⟨a1, a2, a3, a4⟩ := join_ok h i.w.toWn (.inr (.inl he))
  obtain ⟨q1, q2, q3, q4, q5, q6⟩ := connect_eq h
  have hce : st.cur ≠ e := by
    intro hc
    apply i.w.sep
    rw [hc]; exact .inr (.inl he)
  have hRe : ∀ x, R x → x ≠ e := by
    rintro x hx rfl
    exact i.sep _ hx (.inl he)
  refine ⟨⟨⟨a1.mono ?_, ?_, ?_, ?_⟩, ?_, ?_, ?_, ?_, hk⟩, a2, a3, ?_, a4⟩
  · rintro x (hx | hx | ⟨l, hx⟩)
    · exact ⟨.inl hx.1, hRe x hx.1⟩
    · exact ⟨.inl (h0 x hx), hRe x (h0 x hx)⟩
    · rw [a3] at hx
      refine ⟨.inr (.inr ⟨l, hx⟩), ?_⟩
      rintro rfl
      exact i.entry _ l he hx
  · rw [q2, q3]; exact i.w.lt
  · rw [q2]
    refine ⟨q5 ▸ i.w.cur.1, fun r hr => ?_⟩
    exact ((q6 r _).1 hr).elim (i.w.cur.2 r) fun hr => hce hr.2
  · rw [q2]
    rintro (hx | hx | ⟨l, hx⟩)
    · exact i.w.sep (.inl hx.1)
    · exact i.w.sep (.inl (h0 _ hx))
    · rw [a3] at hx
      exact i.w.sep (.inr (.inr ⟨l, hx⟩))
  · rintro x hx (hr | ⟨l, hr⟩)
    · exact hx.2 hr
    · rw [a3] at hr
      exact i.sep x hx.1 (.inr ⟨l, hr⟩)
  · intro x l hx hu
    rw [a3] at hu
    exact i.sep x (h0 x hx) (.inr ⟨l, hu⟩)
  · rw [a3]; exact i.labels
  · rw [a3]
    exact fun l a h G hG => i.lead l a h G (a2.trans hG)
  · simp only [here, q2, q4]

theorem good_switch {const : E → Option Int} {e : E} {s : Stmt E} (ih : Good const s)
    (hn : (s.cases const).Nodup) : Good const (.switch e s) := by
  intro R j j' st st' i h
  have hcs : (Stmt.switch e s).cases const = [] := rfl
  have hds : (Stmt.switch e s).defaults = 0 := rfl
  rw [hcs, hds]
  simp only [comp] at h
  obtain ⟨s1, h1, h⟩ := bindOk h
  obtain ⟨⟨j1, s2⟩, h2, h⟩ := bindOk h
  obtain ⟨s3, h3, h⟩ := bindOk h
  simp only [Run.ok.injEq, Prod.mk.injEq] at h
  obtain ⟨rfl, rfl⟩ := h
  obtain ⟨z1, z2, z3⟩ := i.eval e
  obtain ⟨a1, a2, -, -⟩ := z1.block
  obtain ⟨b1, b2, -, -⟩ := a1.block
  obtain ⟨c1, c2, -, -⟩ := b1.block
  have hsz := z2.size
  have eb : (newBlock (evaluate st e).2).1 = (evaluate st e).2.g.size := rfl
  have ec : (newBlock (newBlock (evaluate st e).2).2).1 = (evaluate st e).2.g.size + 1 := rfl
  have ed : (newBlock (newBlock (newBlock (evaluate st e).2).2).2).1 = (evaluate st e).2.g.size + 2 := rfl
  have h3 : endSwitch s2 j1 ((evaluate st e).2.g.size + 2) = .ok s3 := h3
  have l0 : (newBlock (newBlock (newBlock (evaluate st e).2).2).2).2.labels = st.labels := rfl
  have ehere : here (newBlock (newBlock (newBlock (evaluate st e).2).2).2).2 =
    here (evaluate st e).2 := rfl
  rw [eb, ec, ed] at *
  have ex3 := a2.trans (b2.trans c2)
  clear a2 b2 c2 a1 b1
  generalize (newBlock (newBlock (newBlock (evaluate st e).2).2).2).2 = n3 at *
  obtain ⟨d1, d2, d3, d4⟩ := c1.go h1 (d := (evaluate st e).2.g.size) (.inl (.inl (.inr rfl)))
  have P := ih _ _ _ _ _ (d1.enter (j' := { j with
    entry := some ((evaluate st e).2.g.size + 1), brk := some ((evaluate st e).2.g.size + 2), ctl := some (evaluate st e).1,
    dflt := none }) (c := (evaluate st e).2.g.size + 1) ⟨.inl (.inr rfl), by omega⟩ rfl (by simp)) h2
  obtain ⟨tbl, t1, t2, t3, t4⟩ := P.frag
  obtain ⟨en', hen, hch⟩ := t3 _ rfl
  have hb : ∃ x s4 s5, (match j1.dflt with | some d => some d | none => j1.brk) = some x ∧
      connect s2 en' x = .ok s4 ∧ goto s4 (some ((evaluate st e).2.g.size + 2)) = .ok s5 ∧
      s3 = start s5 ((evaluate st e).2.g.size + 2) := by
    unfold endSwitch at h3
    rw [hen] at h3
    split at h3
    · next en b h1 h2 =>
      cases h1
      obtain ⟨s4, h4, h3⟩ := bindOk h3
      obtain ⟨s5, h5, h3⟩ := bindOk h3
      simp only [Run.ok.injEq] at h3
      exact ⟨_, _, _, h2, h4, h5, h3.symm⟩
    · cases h3
  obtain ⟨x, s4, s5, hx, h4, h5, rfl⟩ := hb
  obtain ⟨f1, f2, f3, f4, f5⟩ := P.inv.exit hen h4 (j0 := j) (fun x hx => .inr hx) i.ctl
  have hent : ∀ b, j.entry = some b → b < st.g.size := fun b hb => i.role_lt (.inl hb)
  obtain ⟨g1, g2, g3, g4⟩ := f1.go h5 (d := (evaluate st e).2.g.size + 2)
    ⟨.inl ⟨⟨.inr rfl, by omega⟩, by omega⟩, fun hb => by have := hent _ hb; omega⟩
  have l1 : s1.labels = st.labels := (connect_eq h1).1.trans l0
  have l2 : s5.labels = s2.labels := (connect_eq h5).1.trans f3
  refine .simple (g1.weaken ?_) (z2.trans (ex3.trans (d2.trans (P.ext.trans (f2.trans g2))))) ?_ ?_
  · intro b hb
    have := i.lt hb
    exact ⟨⟨.inl ⟨⟨.inl (.inl (.inl hb)), by omega⟩, by omega⟩,
      fun he => i.sep b hb (.inl he)⟩, by omega⟩
  · show LabExt st.labels s5.labels
    rw [l2, ← l1]; exact P.lab
  · intro G L env hG hL hA hg
    have hG4 : Extends s4.g G := g2.trans hG
    have hG2 : Extends s2.g G := f2.trans hG4
    have hG1 : Extends s1.g G := P.ext.trans hG2
    have hA' : Aims s1.g { j with
        entry := some ((evaluate st e).2.g.size + 1), brk := some ((evaluate st e).2.g.size + 2), ctl := some (evaluate st e).1,
        dflt := none }
      { env with brk := some ((evaluate st e).2.g.size + 2), cases := tbl, dflt := j1.dflt } :=
      ⟨Aim.self _ _, hA.2.mono (z2.trans (ex3.trans d2))⟩
    have hF := t4 G L _ hG2 (l2 ▸ hL) hA' (fun x hx => hx) (fun h => rfl)
      (fun l hl => hg l hl)
    have hch' := hch G _ hG2 rfl
    have k1 := (d4 G hG1).goes
    rw [ehere] at k1
    have k2 := (g4 G hG).goes
    rw [f4] at k2
    have hF : Frag G const L _ s (here (start s1 (evaluate st e).2.g.size)) (here s2) := hF
    rw [d3] at hF
    refine ⟨_, _, _, _, _, _, _, _, _, z3 G (ex3.trans (d2.trans hG1)), k1, hch', hn, t1, ?_, ?_, hF,
      k2, g3⟩
    · constructor
      · intro hn
        by_cases h0 : s.defaults = 0
        · exact h0
        · exact absurd hn (P.some' (by omega))
      · intro h0
        rw [P.same h0]
    · have k3 := (f5 G hG4).goes
      cases hdf : j1.dflt with
      | some d =>
        rw [hdf] at hx
        simp only [Option.some.injEq] at hx
        subst hx
        exact k3
      | none =>
        rw [hdf] at hx
        simp only at hx
        obtain ⟨y, hy1, hy2⟩ := (P.aims _ hA').1 x hx
        simp only [Option.some.injEq] at hy1
        subst hy1
        exact k3.trans (hy2 G hG2)

/-! ### Labels -/

theorem good_label {const : E → Option Int} {l : Str} {s : Stmt E} (ih : Good const s)
    (hd : s.defaults ≤ 1) : Good const (.label l s) := by
  intro R j j' st st' i h
  simp only [comp] at h
  obtain ⟨s1, h1, h⟩ := bindOk h
  have P := post_place i h1
  have Q := P.seq (ih _ _ _ _ _ P.inv h) (by omega)
  have Q := Q.map (F' := fun G L env => Frag G const L env (.label l s)) ?_
  · simpa [Stmt.cases, Stmt.defaults, Stmt.gotos] using Q
  · rintro G L env p q ⟨p1, ⟨k1, k2⟩, k3⟩
    subst k2
    exact ⟨k1, k3⟩

theorem good_case {const : E → Option Int} {e : E} {s : Stmt E} (ih : Good const s)
    (hd : s.defaults ≤ 1) : Good const (.case e s) := by
  intro R j j' st st' i h
  simp only [comp] at h
  split at h
  · cases h
  next v hv =>
  split at h
  · cases h
  next ctl hctl =>
  obtain ⟨⟨j1, s1⟩, h1, h⟩ := bindOk h
  have P := post_placeCase i hctl h1
  have Q := P.seq (ih _ _ _ _ _ P.inv h) (by omega)
  have Q := Q.map (F' := fun G L env => Frag G const L env (.case e s)) ?_
  · simpa [Stmt.cases, Stmt.defaults, Stmt.gotos, hv] using Q
  · rintro G L env p q ⟨p1, ⟨cb, k0, k1, k2⟩, k3⟩
    subst k2
    exact ⟨v, cb, hv, k0, k1, k3⟩

theorem good_dflt {const : E → Option Int} {s : Stmt E} (ih : Good const s)
    (hd : s.defaults = 0) : Good const (.dflt s) := by
  intro R j j' st st' i h
  simp only [comp] at h
  obtain ⟨⟨j1, s1⟩, h1, h⟩ := bindOk h
  have P := post_placeDefault i h1
  have Q := P.seq (ih _ _ _ _ _ P.inv h) (by omega)
  have Q := Q.map (F' := fun G L env => Frag G const L env (.dflt s)) ?_
  · simpa [Stmt.cases, Stmt.defaults, Stmt.gotos, Nat.add_comm] using Q
  · rintro G L env p q ⟨p1, ⟨cb, k0, k1, k2⟩, k3⟩
    subst k2
    exact ⟨cb, k0, k1, k3⟩

/-- As `Good`, for items. -/
def GoodItems (const : E → Option Int) (b : Items E) : Prop :=
  ∀ (R : Nat → Prop) (j j' : Jumps) (st st' : St E), Inv R j st →
    compItems const b j st = .ok (j', st') →
    Post R (fun G L env => FragItems G const L env b) (b.cases const) b.defaults b.gotos j st j' st'

mutual
/-- The parser makes the blocks of every statement as `Frag` says. -/
theorem good_all (const : E → Option Int) : (s : Stmt E) → s.NoneInLoops const →
    s.Distinct const → s.defaults ≤ 1 → Good const s
  | .empty, _, _, _ => by
    intro R j j' st st' i h
    simp only [comp, Run.ok.injEq, Prod.mk.injEq] at h
    obtain ⟨rfl, rfl⟩ := h
    exact .simple i (.refl _) (.refl _) fun _ _ _ _ _ _ _ => rfl
  | .expr e, _, _, _ => by
    intro R j j' st st' i h
    simp only [comp, Run.ok.injEq, Prod.mk.injEq] at h
    obtain ⟨rfl, rfl⟩ := h
    obtain ⟨h1, h2, h3⟩ := i.eval e
    exact .simple h1 h2 (.refl _) fun G _ _ hG _ _ _ => ⟨_, h3 G hG⟩
  | .block b, h1, h2, h3 => fun R j j' st st' i h =>
    (good_items const b h1 h2 h3 R j j' st st' i h : _)
  | .ite _ s, h1, h2, h3 => good_ite (good_all const s h1 h2 h3)
  | .iteElse _ s t, h1, h2, h3 =>
    have h3 : s.defaults + t.defaults ≤ 1 := h3
    good_iteElse (good_all const s h1.1 h2.1 (by omega)) (good_all const t h1.2 h2.2 (by omega)) h3
  | .while _ s, h1, h2, h3 => good_while (good_all const s h1.2.2 h2 h3) h1.1 h1.2.1
  | .doWhile s _, h1, h2, h3 => good_do (good_all const s h1.2.2 h2 h3) h1.1 h1.2.1
  | .for _ _ _ s, h1, h2, h3 => good_for (good_all const s h1.2.2 h2 h3) h1.1 h1.2.1
  | .switch _ s, h1, h2, _ => good_switch (good_all const s h1 h2.2.2 h2.2.1) h2.1
  | .case _ s, h1, h2, h3 => good_case (good_all const s h1 h2 h3) h3
  | .dflt s, h1, h2, h3 =>
    have h3 : s.defaults + 1 ≤ 1 := h3
    good_dflt (good_all const s h1 h2 (by omega)) (by omega)
  | .label _ s, h1, h2, h3 => good_label (good_all const s h1 h2 h3) h3
  | .goto _, _, _, _ => fun _ _ _ _ _ i h => post_goto i h
  | .brk, _, _, _ => fun _ _ _ _ _ i h => post_brk i h
  | .cont, _, _, _ => fun _ _ _ _ _ i h => post_cont i h
  | .ret _, _, _, _ => fun _ _ _ _ _ i h => post_ret i h
/-- As `good_all`, for items. -/
theorem good_items (const : E → Option Int) : (b : Items E) → b.NoneInLoops const →
    b.Distinct const → b.defaults ≤ 1 → GoodItems const b
  | .nil, _, _, _ => by
    intro R j j' st st' i h
    simp only [compItems, Run.ok.injEq, Prod.mk.injEq] at h
    obtain ⟨rfl, rfl⟩ := h
    exact .simple i (.refl _) (.refl _) fun _ _ _ _ _ _ _ => rfl
  | .decl d r, h1, h2, h3 => by
    intro R j j' st st' i h
    simp only [compItems] at h
    obtain ⟨a1, a2, a3⟩ := i.eval d
    have P : Post R (fun G _ _ p q => ∃ k, Evals G p k d q) [] 0 [] j st j (evaluate st d).2 :=
      .simple a1 a2 (.refl _) fun G _ _ hG _ _ _ => ⟨_, a3 G hG⟩
    have h3 : r.defaults ≤ 1 := h3
    have Q := P.seq (good_items const r h1 h2 h3 _ _ _ _ _ a1 h) (by omega)
    have Q := Q.map (F' := fun G L env => FragItems G const L env (.decl d r)) ?_
    · simpa [Items.cases, Items.defaults, Items.gotos] using Q
    · rintro G L env p q ⟨p1, ⟨k, k1⟩, k2⟩
      exact ⟨k, p1, k1, k2⟩
  | .cons s r, h1, h2, h3 => by
    intro R j j' st st' i h
    simp only [compItems] at h
    obtain ⟨⟨j1, s1⟩, g1, g2⟩ := bindOk h
    have h3 : s.defaults + r.defaults ≤ 1 := h3
    have P := good_all const s h1.1 h2.1 (by omega) _ _ _ _ _ i g1
    exact P.seq (good_items const r h1.2 h2.2 (by omega) _ _ _ _ _ P.inv g2) h3
end

end Verif.Statement
