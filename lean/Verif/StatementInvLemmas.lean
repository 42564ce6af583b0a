import Verif.StatementFragLemmas
/-!
The invariant of the statement parser, and the operations on blocks in terms of it.
-/
namespace Verif.Statement
open Verif.StatementSpec
variable {E : Type}

/-- The block waits for the definition of the label. -/
def Unplaced (ls : List Label) (l : Str) (b : Nat) : Prop :=
  ∃ a, findLabel l ls = some a ∧ a.used = false ∧ b = a.endBlock

/-- The block is the one where the next comparison of the switch goes, or waits for the
definition of a label. -/
def Role (entry : Option Nat) (ls : List Label) (b : Nat) : Prop :=
  entry = some b ∨ ∃ l, Unplaced ls l b

/-- The graph is in order; the blocks of `R` are blank and kept for later. -/
structure Inv (R : Nat → Prop) (j : Jumps) (st : St E) : Prop where
  w : Wc st.g st.cur (fun b => R b ∨ Role j.entry st.labels b)
  sep : ∀ b, R b → ¬ Role j.entry st.labels b
  entry : ∀ b l, j.entry = some b → ¬ Unplaced st.labels l b
  labels : ∀ l l' b, Unplaced st.labels l b → Unplaced st.labels l' b → l = l'
  lead : ∀ l a, findLabel l st.labels = some a → ∀ G, Extends st.g G →
    Goes G (a.block, 0) (a.endBlock, 0)
  ctl : j.ctl = none ↔ j.entry = none

theorem Inv.lt {R : Nat → Prop} {j : Jumps} {st : St E} (i : Inv R j st) {b : Nat} (h : R b) :
    b < st.g.size := (i.w.pend b (.inl h)).1

theorem Inv.role_lt {R : Nat → Prop} {j : Jumps} {st : St E} (i : Inv R j st) {b : Nat}
    (h : Role j.entry st.labels b) : b < st.g.size := (i.w.pend b (.inr h)).1

/-- The invariant after a step that does not touch labels. -/
theorem Inv.next {R R' : Nat → Prop} {j : Jumps} {st st' : St E} (i : Inv R j st)
    (hl : st'.labels = st.labels) (he : Extends st.g st'.g)
    (w : Wc st'.g st'.cur (fun b => R' b ∨ Role j.entry st.labels b))
    (sep : ∀ b, R' b → ¬ Role j.entry st.labels b) : Inv R' j st' := by
  refine ⟨by rw [hl]; exact w, by rw [hl]; exact sep, by rw [hl]; exact i.entry,
    by rw [hl]; exact i.labels, ?_, i.ctl⟩
  rw [hl]
  exact fun l a h G hG => i.lead l a h G (he.trans hG)

theorem Inv.weaken {R R' : Nat → Prop} {j : Jumps} {st : St E} (i : Inv R j st)
    (h : ∀ b, R' b → R b) : Inv R' j st :=
  i.next rfl (.refl _) (i.w.mono fun b hb => hb.imp (h b) id) fun b hb => i.sep b (h b hb)

theorem Inv.eval {R : Nat → Prop} {j : Jumps} {st : St E} (i : Inv R j st) (e : E) :
    Inv R j (evaluate st e).2 ∧ Extends st.g (evaluate st e).2.g ∧
      ∀ G, Extends (evaluate st e).2.g G →
        Evals G (here st) (evaluate st e).1 e (here (evaluate st e).2) := by
  obtain ⟨h1, h2, h3⟩ := evaluate_ok i.w e
  exact ⟨i.next rfl h2 h1 i.sep, h2, h3⟩

theorem Inv.block {R : Nat → Prop} {j : Jumps} {st : St E} (i : Inv R j st) :
    Inv (fun b => R b ∨ b = (newBlock st).1) j (newBlock st).2 ∧
      Extends st.g (newBlock st).2.g ∧ here (newBlock st).2 = here st ∧
      st.g.size ≤ (newBlock st).1 := by
  obtain ⟨h1, h2, h3, h4⟩ := newBlock_ok i.w
  refine ⟨i.next rfl h2 (h1.mono ?_) ?_, h2, h3, h4⟩
  · rintro b ((hb | hb) | hb)
    · exact .inl (.inl hb)
    · exact .inr hb
    · exact .inl (.inr hb)
  · rintro b (hb | rfl) hr
    · exact i.sep b hb hr
    · have := i.role_lt hr
      omega

/-- Go to a block, and begin to fill one of those kept. -/
theorem Inv.go {R : Nat → Prop} {j : Jumps} {st st' : St E} (i : Inv R j st) {b d : Nat}
    (h : goto st (some b) = .ok st') (hd : R d) :
    Inv (fun x => R x ∧ x ≠ d) j (start st' d) ∧ Extends st.g st'.g ∧
      here (start st' d) = (d, 0) ∧ ∀ G, Extends st'.g G → GoesOn G (here st) (b, 0) := by
  obtain ⟨h1, h2, h3, h4⟩ := goto_ok h i.w
  refine ⟨i.next (by simp [start, h3]) h2 ((h1.begin (d := d) (.inl hd)).mono ?_) ?_, h2,
    here_start h1 (.inl hd), h4⟩
  · rintro b (hb | hb)
    · exact ⟨.inl hb.1, hb.2⟩
    · exact ⟨.inr hb, by rintro rfl; exact i.sep _ hd hb⟩
  · exact fun b hb => i.sep b hb.1

/-- Go to a block, and begin a new one nothing leads to. -/
theorem Inv.leave {R : Nat → Prop} {j : Jumps} {st st' : St E} (i : Inv R j st) {b : Nat}
    (h : goto st (some b) = .ok st') :
    Inv R j (start (newBlock st').2 (newBlock st').1) ∧ Extends st.g (newBlock st').2.g ∧
      ∀ G, Extends (newBlock st').2.g G → GoesOn G (here st) (b, 0) := by
  obtain ⟨h1, h2, h3, h4⟩ := goto_ok h i.w
  obtain ⟨h5, h6, h7⟩ := newBlock_ok' h1
  refine ⟨i.next (by simpa [start, newBlock] using h3) (h2.trans h6)
    ((h5.begin (.inr rfl)).mono ?_) i.sep, h2.trans h6, fun G hG => h4 G (h6.trans hG)⟩
  intro x hx
  refine ⟨.inl hx, ?_⟩
  rintro rfl
  have := (h1.pend _ hx).1
  omega

/-- Return, and begin a new block nothing leads to. -/
theorem Inv.ret {R : Nat → Prop} {j : Jumps} {st : St E} (i : Inv R j st) (r : Ret) :
    Inv R j (start (newBlock (ret st r)).2 (newBlock (ret st r)).1) ∧
      Extends st.g (newBlock (Statement.ret st r)).2.g ∧
      ∀ G, Extends (newBlock (Statement.ret st r)).2.g G → Rets G (here st) r := by
  obtain ⟨h1, h2, h3, h4⟩ := ret_ok i.w r
  obtain ⟨h5, h6, h7⟩ := newBlock_ok' h1
  refine ⟨i.next rfl (h2.trans h6)
    ((h5.begin (.inr rfl)).mono ?_) i.sep, h2.trans h6, fun G hG => h4 G (h6.trans hG)⟩
  intro x hx
  refine ⟨.inl hx, ?_⟩
  rintro rfl
  have := (h1.pend _ hx).1
  omega

/-- Choose, and begin with the true side; the false side is kept. -/
theorem Inv.select {R : Nat → Prop} {j : Jumps} {st : St E} (i : Inv R j st) (c : Cond) :
    Inv (fun b => R b ∨ b = (select st c).2.1) j (start (select st c).2.2 (select st c).1) ∧
      Extends st.g (select st c).2.2.g ∧
      here (start (Statement.select st c).2.2 (Statement.select st c).1) =
        ((Statement.select st c).1, 0) ∧
      st.g.size ≤ (Statement.select st c).2.1 ∧
      ∀ G, Extends (Statement.select st c).2.2.g G →
        Branches G (here st) c (Statement.select st c).1 (Statement.select st c).2.1 := by
  obtain ⟨h1, h2, h3, h4, h5, h6, h7⟩ := select_ok i.w c
  refine ⟨i.next rfl h2 ((h1.begin (.inr (.inl rfl))).mono ?_) ?_, h2,
    here_start h1 (.inr (.inl rfl)), h6, h7⟩
  · rintro b ((hb | rfl) | hb)
    · refine ⟨.inl (.inl hb), ?_⟩
      rintro rfl
      have := i.lt hb
      omega
    · exact ⟨.inr (.inr rfl), fun h => h4 h.symm⟩
    · refine ⟨.inl (.inr hb), ?_⟩
      rintro rfl
      have := i.role_lt hb
      omega
  · rintro b (hb | rfl) hr
    · exact i.sep b hb hr
    · have := i.role_lt hr
      omega

theorem bindOk {α β : Type} {x : Run α} {f : α → Run β} {b : β} (h : (x >>= f) = .ok b) :
    ∃ a, x = .ok a ∧ f a = .ok b := by
  cases x with
  | ok a => exact ⟨a, rfl, h⟩
  | fail => cases h
  | ub => cases h
  | more => cases h

/-- The test of a loop, and begin one of the blocks kept. -/
theorem Inv.test {R : Nat → Prop} {j : Jumps} {st st' : St E} (i : Inv R j st) {k b d x : Nat}
    (h : loopTest st k b d = .ok st') (hx : R x) :
    Inv (fun y => R y ∧ y ≠ x) j (start st' x) ∧ Extends st.g st'.g ∧
      here (start st' x) = (x, 0) ∧ ∀ G, Extends st'.g G →
        ∃ t f, Branches G (here st) (.truth k) t f ∧ Goes G (t, 0) (b, 0) ∧
          Goes G (f, 0) (d, 0) := by
  unfold loopTest at h
  obtain ⟨s1, hs1, h⟩ := bindOk h
  obtain ⟨h1, h2, h3, h4, h5, h6, h7⟩ := select_ok i.w (.truth k)
  obtain ⟨c1, c2, c3, c4⟩ := join_ok hs1 h1 (.inr (.inl rfl))
  obtain ⟨d1, d2, d3, d4⟩ := join_ok h c1 ⟨.inr (.inr rfl), fun h => h4 h.symm⟩
  have hne : ∀ y, R y ∨ Role j.entry st.labels y →
      y ≠ (Statement.select st (.truth k)).1 ∧ y ≠ (Statement.select st (.truth k)).2.1 := by
    intro y hy
    have := (i.w.pend y hy).1
    constructor <;> (rintro rfl; omega)
  have hb : ∀ y, R y ∨ Role j.entry st.labels y → ((R y ∨ Role j.entry st.labels y) ∨
      y = (Statement.select st (.truth k)).1 ∨ y = (Statement.select st (.truth k)).2.1) ∧
      y ≠ (Statement.select st (.truth k)).1 ∧ y ≠ (Statement.select st (.truth k)).2.1 :=
    fun y hy => ⟨.inl hy, hne y hy⟩
  have hd1 : Wn st'.g (fun y => R y ∨ Role j.entry st.labels y) :=
    d1.mono fun y hy => ⟨⟨(hb y hy).1, (hb y hy).2.1⟩, (hb y hy).2.2⟩
  refine ⟨i.next (d3.trans (c3.trans h3)) ((h2.trans c2).trans d2)
    ((hd1.begin (.inl hx)).mono ?_) (fun y hy => i.sep y hy.1), (h2.trans c2).trans d2,
    here_start hd1 (.inl hx), ?_⟩
  · rintro y (hy | hy)
    · exact ⟨.inl hy.1, hy.2⟩
    · exact ⟨.inr hy, by rintro rfl; exact i.sep _ hx hy⟩
  · intro G hG
    exact ⟨_, _, h7 G (c2.trans (d2.trans hG)), (c4 G (d2.trans hG)).goes, (d4 G hG).goes⟩

/-! ### Labels -/

theorem findLabel_name {l : Str} {ls : List Label} {a : Label} (h : findLabel l ls = some a) :
    a.name = l := by
  induction ls with
  | nil => simp [findLabel] at h
  | cons x r ih =>
    simp only [findLabel] at h
    split at h
    · next hx => simp at h; subst h; exact hx
    · exact ih h

theorem findLabel_set {l m : Str} {f : Label → Label} (hf : ∀ a, (f a).name = a.name)
    (ls : List Label) :
    findLabel m (setLabel l f ls) =
      if m = l then (findLabel m ls).map f else findLabel m ls := by
  induction ls with
  | nil => simp [setLabel, findLabel]
  | cons x r ih =>
    simp only [setLabel]
    by_cases hx : x.name = l
    · simp only [hx, if_true, findLabel, hf]
      by_cases hm : l = m
      · subst hm; simp
      · simp [hm, Ne.symm hm]
    · simp only [hx, if_false, findLabel]
      by_cases hxm : x.name = m
      · have : ¬ m = l := by rintro rfl; exact hx hxm
        simp [hxm, this]
      · simp [hxm, ih]

theorem findLabel_add {l m : Str} {a : Label} (ha : a.name = l) {ls : List Label}
    (hn : findLabel l ls = none) :
    findLabel m (ls ++ [a]) = if m = l then some a else findLabel m ls := by
  induction ls with
  | nil =>
    simp only [List.nil_append, findLabel, ha]
    by_cases h : l = m
    · simp [h]
    · simp [h, Ne.symm h]
  | cons x r ih =>
    simp only [findLabel] at hn
    split at hn
    · cases hn
    · next hx =>
      simp only [List.cons_append, findLabel]
      by_cases hxm : x.name = m
      · have : ¬ m = l := by rintro rfl; exact hx hxm
        simp [hxm, this]
      · simp [hxm, ih hn]

/-- Labels are kept, at the same place. -/
def LabExt (ls ls' : List Label) : Prop :=
  ∀ l a, findLabel l ls = some a → ∃ a', findLabel l ls' = some a' ∧ a'.endBlock = a.endBlock

theorem LabExt.refl (ls : List Label) : LabExt ls ls := fun _ a h => ⟨a, h, rfl⟩

theorem LabExt.trans {a b c : List Label} (h : LabExt a b) (h' : LabExt b c) : LabExt a c := by
  intro l x hx
  obtain ⟨y, hy, e⟩ := h l x hx
  obtain ⟨z, hz, e'⟩ := h' l y hy
  exact ⟨z, hz, e'.trans e⟩

/-- The names agree with the labels. -/
def Agree (L : Names) (ls : List Label) : Prop :=
  ∀ l a, findLabel l ls = some a → L.loc l = a.endBlock

theorem Agree.back {L : Names} {ls ls' : List Label} (h : Agree L ls') (he : LabExt ls ls') :
    Agree L ls := by
  intro l a ha
  obtain ⟨a', h1, h2⟩ := he l a ha
  rw [h l a' h1, h2]

/-- The blocks of `break` and `continue` lead where they should. -/
def Aim (g : Cfg E) (x : Option Nat) (y : Option Nat) : Prop :=
  ∀ a, x = some a → ∃ d, y = some d ∧ ∀ G, Extends g G → Goes G (a, 0) (d, 0)

/-- `Aim` for both. -/
def Aims (g : Cfg E) (j : Jumps) (env : Env) : Prop :=
  Aim g j.brk env.brk ∧ Aim g j.cont env.cont

theorem Aim.mono {g g' : Cfg E} {x y : Option Nat} (h : Aim g x y) (he : Extends g g') :
    Aim g' x y := by
  intro a ha
  obtain ⟨d, h1, h2⟩ := h a ha
  exact ⟨d, h1, fun G hG => h2 G (he.trans hG)⟩

theorem Aims.mono {g g' : Cfg E} {j : Jumps} {env : Env} (h : Aims g j env)
    (he : Extends g g') : Aims g' j env := ⟨h.1.mono he, h.2.mono he⟩

/-- A block aims at itself. -/
theorem Aim.self (g : Cfg E) (b : Nat) : Aim g (some b) (some b) := by
  intro a ha
  simp only [Option.some.injEq] at ha
  subst ha
  exact ⟨b, rfl, fun _ _ => .refl _⟩

/-- What is shown of a piece of a function: `F` is what the finished graph has of it, `cs` and
`nd` its case labels and number of defaults, `gs` the labels it jumps to. -/
structure Post (R : Nat → Prop) (F : Cfg E → Names → Env → Pt → Pt → Prop)
    (cs : List (Option Int)) (nd : Nat) (gs : List Str) (j : Jumps) (st : St E) (j' : Jumps)
    (st' : St E) : Prop where
  inv : Inv R j' st'
  ext : Extends st.g st'.g
  lab : LabExt st.labels st'.labels
  ctl : j'.ctl = j.ctl
  aims : ∀ env, Aims st.g j env → Aims st'.g j' env
  same : nd = 0 → j'.dflt = j.dflt
  some' : 0 < nd → j'.dflt ≠ none
  frag : ∃ tbl : List (Int × Nat), tbl.map (fun x => some x.1) = cs ∧
    (tbl = [] → j'.entry = j.entry) ∧
    (∀ e, j.entry = some e → ∃ e', j'.entry = some e' ∧
      ∀ G k, Extends st'.g G → j.ctl = some k → Chain G k (e, 0) tbl (e', 0)) ∧
    ∀ G L env, Extends st'.g G → Agree L st'.labels → Aims st.g j env →
      (∀ x, x ∈ tbl → x ∈ env.cases) → (0 < nd → env.dflt = j'.dflt) →
      (∀ l, l ∈ gs → L.is l) → F G L env (here st) (here st')

/-- A piece without case labels and defaults that leaves the jumps alone. -/
theorem Post.simple {R : Nat → Prop} {F : Cfg E → Names → Env → Pt → Pt → Prop}
    {gs : List Str} {j : Jumps} {st st' : St E} (hi : Inv R j st') (he : Extends st.g st'.g)
    (hl : LabExt st.labels st'.labels)
    (hF : ∀ G L env, Extends st'.g G → Agree L st'.labels → Aims st.g j env →
      (∀ l, l ∈ gs → L.is l) → F G L env (here st) (here st')) :
    Post R F [] 0 gs j st j st' :=
  ⟨hi, he, hl, rfl, fun _ h => h.mono he, fun _ => rfl, fun h => absurd h (Nat.lt_irrefl _),
    [], rfl, fun _ => rfl, fun e he => ⟨e, he, fun _ _ _ _ => .nil _⟩,
    fun G L env h1 h2 h3 _ _ h4 => hF G L env h1 h2 h3 h4⟩

/-- One piece after another. -/
theorem Post.seq {R : Nat → Prop} {F F' : Cfg E → Names → Env → Pt → Pt → Prop}
    {cs cs' : List (Option Int)} {nd nd' : Nat} {gs gs' : List Str} {j j1 j2 : Jumps}
    {st st1 st2 : St E} (h : Post R F cs nd gs j st j1 st1)
    (h' : Post R F' cs' nd' gs' j1 st1 j2 st2) (hd : nd + nd' ≤ 1) :
    Post R (fun G L env p q => ∃ p1, F G L env p p1 ∧ F' G L env p1 q) (cs ++ cs') (nd + nd')
      (gs ++ gs') j st j2 st2 := by
  obtain ⟨tbl, a1, a2, a3, a4⟩ := h.frag
  obtain ⟨tbl', b1, b2, b3, b4⟩ := h'.frag
  refine ⟨h'.inv, h.ext.trans h'.ext, h.lab.trans h'.lab, h'.ctl.trans h.ctl,
    fun env he => h'.aims env (h.aims env he), fun h0 => ?_, fun h0 => ?_, tbl ++ tbl', ?_, ?_,
    ?_, ?_⟩
  · rw [h'.same (by omega), h.same (by omega)]
  · by_cases hn : nd' = 0
    · rw [h'.same hn]; exact h.some' (by omega)
    · exact h'.some' (by omega)
  · simp [a1, b1]
  · intro ht
    simp only [List.append_eq_nil_iff] at ht
    rw [b2 ht.2, a2 ht.1]
  · intro e he
    obtain ⟨e1, he1, c1⟩ := a3 e he
    obtain ⟨e2, he2, c2⟩ := b3 e1 he1
    exact ⟨e2, he2, fun G k hG hk => (c1 G k (h'.ext.trans hG) hk).append
      (c2 G k hG (h.ctl.trans hk))⟩
  · intro G L env hG hL hA hc hdf hgs
    refine ⟨here st1, a4 G L env (h'.ext.trans hG) (hL.back h'.lab) hA
      (fun x hx => hc x (by simp [hx])) (fun h0 => ?_) (fun l hl => hgs l (by simp [hl])),
      b4 G L env hG hL (h.aims env hA) (fun x hx => hc x (by simp [hx])) (fun h0 => ?_)
      (fun l hl => hgs l (by simp [hl]))⟩
    · rw [hdf (by omega), h'.same (by omega)]
    · exact hdf (by omega)

end Verif.Statement
