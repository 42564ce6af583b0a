import Verif.StatementParseLemmas
/-!
What the blocks made for a statement look like in the finished graph, and that the parser
makes them so.
-/
namespace Verif.Statement
open Verif.StatementSpec
variable {E : Type}

/-- A place in the graph: a block and how many of its actions are done. -/
abbrev Pt := Nat × Nat

/-- All actions of the block are done and control goes on at the region. -/
def Edge (G : Cfg E) (p : Pt) (r : Nat) : Prop := (G.code p.1).length = p.2 ∧ p.1 ∈ G.preds r

/-- Control goes from one place to another without doing anything. -/
inductive Goes (G : Cfg E) : Pt → Pt → Prop
  | refl (p) : Goes G p p
  | step {p r q} : Edge G p r → Goes G (r, 0) q → Goes G p q

theorem Goes.trans {G : Cfg E} {p q r : Pt} (h : Goes G p q) (h' : Goes G q r) : Goes G p r := by
  induction h with
  | refl => exact h'
  | step e _ ih => exact .step e (ih h')

/-- As `Goes`, in at least one step. -/
def GoesOn (G : Cfg E) (p q : Pt) : Prop := ∃ r, Edge G p r ∧ Goes G (r, 0) q

theorem GoesOn.goes {G : Cfg E} {p q : Pt} (h : GoesOn G p q) : Goes G p q := by
  obtain ⟨r, h1, h2⟩ := h; exact .step h1 h2

theorem GoesOn.trans {G : Cfg E} {p q r : Pt} (h : GoesOn G p q) (h' : Goes G q r) :
    GoesOn G p r := by
  obtain ⟨x, h1, h2⟩ := h; exact ⟨x, h1, h2.trans h'⟩

theorem Goes.trans_on {G : Cfg E} {p q r : Pt} (h : Goes G p q) (h' : GoesOn G q r) :
    GoesOn G p r := by
  cases h with
  | refl => exact h'
  | step e h => exact ⟨_, e, h.trans h'.goes⟩

/-- The next action at the place evaluates `e`. -/
def Evals (G : Cfg E) (p : Pt) (k : Nat) (e : E) (q : Pt) : Prop :=
  (G.code p.1)[p.2]? = some (k, e) ∧ q = (p.1, p.2 + 1)

/-- All actions are done and the block ends in a choice. -/
def Branches (G : Cfg E) (p : Pt) (c : Cond) (t f : Nat) : Prop :=
  (G.code p.1).length = p.2 ∧ End.branch c t f ∈ G.ends p.1

/-- All actions are done and the block returns. -/
def Rets (G : Cfg E) (p : Pt) (r : Ret) : Prop :=
  (G.code p.1).length = p.2 ∧ End.ret r ∈ G.ends p.1

/-- The test of a loop with the body `b` and the end `d`. -/
def Test (G : Cfg E) (p : Pt) (e : E) (b d : Nat) : Prop :=
  ∃ k p1 t f, Evals G p k e p1 ∧ Branches G p1 (.truth k) t f ∧ Goes G (t, 0) (b, 0) ∧
    Goes G (f, 0) (d, 0)

/-- The comparisons of a switch. -/
inductive Chain (G : Cfg E) (k : Nat) : Pt → List (Int × Nat) → Pt → Prop
  | nil (p) : Chain G k p [] p
  | cons {p v cb t f p' tbl q} : Branches G p (.equal k v) t f → Goes G (t, 0) (cb, 0) →
      Goes G (f, 0) p' → Chain G k p' tbl q → Chain G k p ((v, cb) :: tbl) q

theorem Chain.append {G : Cfg E} {k : Nat} {p q r : Pt} {a b : List (Int × Nat)}
    (h : Chain G k p a q) (h' : Chain G k q b r) : Chain G k p (a ++ b) r := by
  induction h with
  | nil => exact h'
  | cons h1 h2 h3 _ ih => exact .cons h1 h2 h3 (ih h')

/-- Where the jumps of a statement go: the end of the loop or switch, the place to continue,
the case labels of the switch and its default. -/
structure Env where
  brk : Option Nat
  cont : Option Nat
  cases : List (Int × Nat)
  dflt : Option Nat

/-- The blocks of the first part of a for statement. -/
def FInit (G : Cfg E) : Init E → Pt → Pt → Prop
  | .none, p, q => p = q
  | .decl d, p, q => ∃ k, Evals G p k d q
  | .expr e, p, q => ∃ k, Evals G p k e q

/-- The blocks of the second part of a for statement. -/
def FTest (G : Cfg E) : Option E → Pt → Nat → Nat → Prop
  | none, p, b, _ => GoesOn G p (b, 0)
  | some e, p, b, d => Test G p e b d

/-- The blocks of the third part of a for statement. -/
def FAdv (G : Cfg E) : Option E → Pt → Pt → Prop
  | none, p, q => p = q
  | some e, p, q => ∃ k, Evals G p k e q

/-- The labels: where they are, and which there are. -/
structure Names where
  loc : Str → Nat
  is : Str → Prop

mutual
/-- The blocks of a statement lie between the two places. -/
def Frag (G : Cfg E) (const : E → Option Int) (L : Names) (env : Env) :
    Stmt E → Pt → Pt → Prop
  | .empty, p, q => p = q
  | .expr e, p, q => ∃ k, Evals G p k e q
  | .block b, p, q => FragItems G const L env b p q
  | .ite e s, p, q => ∃ k p1 t f q1 d, Evals G p k e p1 ∧ Branches G p1 (.truth k) t f ∧
      Frag G const L env s (t, 0) q1 ∧ Goes G q1 (d, 0) ∧ Goes G (f, 0) (d, 0) ∧ q = (d, 0)
  | .iteElse e s u, p, q => ∃ k p1 t f q1 q2 d, Evals G p k e p1 ∧
      Branches G p1 (.truth k) t f ∧ Frag G const L env s (t, 0) q1 ∧ Goes G q1 (d, 0) ∧
      Frag G const L env u (f, 0) q2 ∧ Goes G q2 (d, 0) ∧ q = (d, 0)
  | .while e s, p, q => ∃ b c d q1, Goes G p (c, 0) ∧ Test G (c, 0) e b d ∧
      Frag G const L { env with brk := some d, cont := some c } s (b, 0) q1 ∧
      Goes G q1 (c, 0) ∧ q = (d, 0)
  | .doWhile s e, p, q => ∃ b c d q1, Goes G p (b, 0) ∧
      Frag G const L { env with brk := some d, cont := some c } s (b, 0) q1 ∧
      Goes G q1 (c, 0) ∧ Test G (c, 0) e b d ∧ q = (d, 0)
  | .for i c a s, p, q => ∃ i0 p1 ctl adv p2 b d q1, Goes G p (i0, 0) ∧ FInit G i (i0, 0) p1 ∧
      Goes G p1 (ctl, 0) ∧ FTest G c (ctl, 0) b d ∧ FAdv G a (adv, 0) p2 ∧
      GoesOn G p2 (ctl, 0) ∧
      Frag G const L { env with brk := some d, cont := some adv } s (b, 0) q1 ∧
      Goes G q1 (adv, 0) ∧ q = (d, 0)
  | .switch e s, p, q => ∃ k p1 en en' b d q1 tbl df, Evals G p k e p1 ∧ Goes G p1 (en, 0) ∧
      Chain G k (en, 0) tbl (en', 0) ∧ (s.cases const).Nodup ∧ tbl.map (fun x => some x.1) = s.cases const ∧
      (df = none ↔ s.defaults = 0) ∧ Goes G (en', 0) (df.getD d, 0) ∧
      Frag G const L { env with brk := some d, cases := tbl, dflt := df } s (b, 0) q1 ∧
      Goes G q1 (d, 0) ∧ q = (d, 0)
  | .case e s, p, q => ∃ v cb, const e = some v ∧ (v, cb) ∈ env.cases ∧ Goes G p (cb, 0) ∧
      Frag G const L env s (cb, 0) q
  | .dflt s, p, q => ∃ cb, env.dflt = some cb ∧ Goes G p (cb, 0) ∧ Frag G const L env s (cb, 0) q
  | .label l s, p, q => Goes G p (L.loc l, 0) ∧ Frag G const L env s (L.loc l, 0) q
  | .goto l, p, _ => L.is l ∧ GoesOn G p (L.loc l, 0)
  | .brk, p, _ => ∃ d, env.brk = some d ∧ Goes G p (d, 0)
  | .cont, p, _ => ∃ d, env.cont = some d ∧ Goes G p (d, 0)
  | .ret none, p, _ => Rets G p .nothing
  | .ret (some e), p, _ => ∃ k p1, Evals G p k e p1 ∧ Rets G p1 (.value k)
/-- The blocks of items lie between the two places. -/
def FragItems (G : Cfg E) (const : E → Option Int) (L : Names) (env : Env) :
    Items E → Pt → Pt → Prop
  | .nil, p, q => p = q
  | .decl d r, p, q => ∃ k p1, Evals G p k d p1 ∧ FragItems G const L env r p1 q
  | .cons s r, p, q => ∃ p1, Frag G const L env s p p1 ∧ FragItems G const L env r p1 q
end

/-! ### Growth of the graph -/

/-- Nothing leaves the block yet. -/
def Open (g : Cfg E) (b : Nat) : Prop := g.ends b = [] ∧ ∀ r, b ∉ g.preds r

/-- The block has been made but nothing put in it. -/
def Blank (g : Cfg E) (b : Nat) : Prop := g.code b = [] ∧ Open g b

/-- The second graph is a later state of the first. -/
structure Extends (g g' : Cfg E) : Prop where
  size : g.size ≤ g'.size
  preds : ∀ r b, b ∈ g.preds r → b ∈ g'.preds r
  ends : ∀ b e, e ∈ g.ends b → e ∈ g'.ends b
  code : ∀ b, ∃ l, g'.code b = g.code b ++ l
  closed : ∀ b, ¬ Open g b → g'.code b = g.code b

theorem Extends.refl (g : Cfg E) : Extends g g :=
  ⟨Nat.le_refl _, fun _ _ h => h, fun _ _ h => h, fun _ => ⟨[], by simp⟩, fun _ _ => rfl⟩

theorem Extends.open {g g' : Cfg E} (h : Extends g g') {b : Nat} (ho : Open g' b) : Open g b := by
  refine ⟨List.eq_nil_iff_forall_not_mem.2 fun e he => ?_, fun r hr => ho.2 r (h.preds r b hr)⟩
  have := h.ends b e he
  rw [ho.1] at this; simp at this

theorem Extends.trans {g g' g'' : Cfg E} (h : Extends g g') (h' : Extends g' g'') :
    Extends g g'' := by
  refine ⟨Nat.le_trans h.size h'.size, fun r b hb => h'.preds r b (h.preds r b hb),
    fun b e he => h'.ends b e (h.ends b e he), fun b => ?_, fun b hb => ?_⟩
  · obtain ⟨l, hl⟩ := h.code b
    obtain ⟨l', hl'⟩ := h'.code b
    exact ⟨l ++ l', by rw [hl', hl, List.append_assoc]⟩
  · rw [h'.closed b (fun ho => hb (h.open ho)), h.closed b hb]

/-- The graph is in order, and the blocks of `P` are still blank. -/
structure Wn (g : Cfg E) (P : Nat → Prop) : Prop where
  pos : 0 < g.size
  preds : ∀ r b, b ∈ g.preds r → b < g.size
  new : ∀ b, g.size ≤ b → g.code b = [] ∧ g.ends b = []
  one : ∀ b, g.ends b = [] ∨ (∃ e, g.ends b = [e]) ∧ ∀ r, b ∉ g.preds r
  det : ∀ b r r', b ∈ g.preds r → b ∈ g.preds r' → r = r'
  pend : ∀ b, P b → b < g.size ∧ Blank g b

/-- As `Wn`, and the block `c` is being filled. -/
structure Wc (g : Cfg E) (c : Nat) (P : Nat → Prop) : Prop extends Wn g P where
  lt : c < g.size
  cur : Open g c
  sep : ¬ P c

theorem Wn.mono {g : Cfg E} {P Q : Nat → Prop} (h : Wn g P) (hs : ∀ b, Q b → P b) : Wn g Q :=
  ⟨h.pos, h.preds, h.new, h.one, h.det, fun b hb => h.pend b (hs b hb)⟩

theorem Wc.mono {g : Cfg E} {c : Nat} {P Q : Nat → Prop} (h : Wc g c P)
    (hs : ∀ b, Q b → P b) : Wc g c Q :=
  ⟨h.toWn.mono hs, h.lt, h.cur, fun hc => h.sep (hs c hc)⟩

/-- Begin to fill a blank block. -/
theorem Wn.begin {g : Cfg E} {P : Nat → Prop} (h : Wn g P) {d : Nat} (hd : P d) :
    Wc g d (fun b => P b ∧ b ≠ d) :=
  ⟨h.mono fun _ hb => hb.1, (h.pend d hd).1, (h.pend d hd).2.2, fun hc => hc.2 rfl⟩

/-- Where the parser is. -/
def here (st : St E) : Pt := (st.cur, (st.g.code st.cur).length)

theorem here_start {st : St E} {P : Nat → Prop} (h : Wn st.g P) {d : Nat} (hd : P d) :
    here (start st d) = (d, 0) := by
  simp [here, start, (h.pend d hd).2.1]

theorem newBlock_ok {st : St E} {P : Nat → Prop} (h : Wc st.g st.cur P) :
    Wc (newBlock st).2.g (newBlock st).2.cur (fun b => P b ∨ b = (newBlock st).1) ∧
      Extends st.g (newBlock st).2.g ∧ here (newBlock st).2 = here st ∧
      st.g.size ≤ (newBlock st).1 := by
  refine ⟨⟨⟨?_, ?_, ?_, h.one, h.det, ?_⟩, ?_, h.cur, ?_⟩,
    ⟨?_, fun _ _ h => h, fun _ _ h => h, fun _ => ⟨[], by simp [newBlock]⟩, fun _ _ => rfl⟩, rfl,
    Nat.le_refl _⟩
  · show 0 < st.g.size + 1; omega
  · intro r b hb
    have := h.preds r b hb
    show b < st.g.size + 1; omega
  · intro b hb
    exact h.new b (by simp [newBlock] at hb; omega)
  · rintro b (hb | rfl)
    · exact ⟨Nat.lt_succ_of_lt (h.pend b hb).1, (h.pend b hb).2⟩
    · refine ⟨by simp [newBlock], (h.new st.g.size (Nat.le_refl _)).1,
        (h.new st.g.size (Nat.le_refl _)).2, fun r hr => ?_⟩
      exact absurd (h.preds r _ hr) (Nat.lt_irrefl _)
  · exact Nat.lt_succ_of_lt h.lt
  · rintro (hb | hb)
    · exact h.sep hb
    · have := h.lt
      simp [newBlock] at hb
      omega
  · simp [newBlock]

/-- As `newBlock_ok` when no block is being filled. -/
theorem newBlock_ok' {st : St E} {P : Nat → Prop} (h : Wn st.g P) :
    Wn (newBlock st).2.g (fun b => P b ∨ b = (newBlock st).1) ∧
      Extends st.g (newBlock st).2.g ∧ st.g.size ≤ (newBlock st).1 := by
  refine ⟨⟨?_, ?_, ?_, h.one, h.det, ?_⟩,
    ⟨?_, fun _ _ h => h, fun _ _ h => h, fun _ => ⟨[], by simp [newBlock]⟩, fun _ _ => rfl⟩,
    Nat.le_refl _⟩
  · show 0 < st.g.size + 1; omega
  · intro r b hb
    have := h.preds r b hb
    show b < st.g.size + 1; omega
  · intro b hb
    exact h.new b (by simp [newBlock] at hb; omega)
  · rintro b (hb | rfl)
    · exact ⟨Nat.lt_succ_of_lt (h.pend b hb).1, (h.pend b hb).2⟩
    · refine ⟨by simp [newBlock], (h.new st.g.size (Nat.le_refl _)).1,
        (h.new st.g.size (Nat.le_refl _)).2, fun r hr => ?_⟩
      exact absurd (h.preds r _ hr) (Nat.lt_irrefl _)
  · simp [newBlock]

theorem evaluate_ok {st : St E} {P : Nat → Prop} (h : Wc st.g st.cur P) (e : E) :
    Wc (evaluate st e).2.g (evaluate st e).2.cur P ∧ Extends st.g (evaluate st e).2.g ∧
      ∀ G, Extends (evaluate st e).2.g G →
        Evals G (here st) (evaluate st e).1 e (here (evaluate st e).2) := by
  have hcode : ∀ b, (evaluate st e).2.g.code b =
      if b = st.cur then st.g.code st.cur ++ [(st.g.size, e)] else st.g.code b := fun b => rfl
  refine ⟨⟨⟨?_, ?_, ?_, h.one, h.det, ?_⟩, ?_, h.cur, h.sep⟩,
    ⟨?_, fun _ _ h => h, fun _ _ h => h, fun b => ?_, fun b hb => ?_⟩, fun G hG => ?_⟩
  · show 0 < st.g.size + 1; omega
  · intro r b hb
    exact Nat.lt_succ_of_lt (h.preds r b hb)
  · intro b hb
    have hb' : st.g.size + 1 ≤ b := hb
    have hl := h.lt
    refine ⟨?_, (h.new b (by omega)).2⟩
    rw [hcode, if_neg (by omega)]
    exact (h.new b (by omega)).1
  · intro b hb
    refine ⟨Nat.lt_succ_of_lt (h.pend b hb).1, ?_, (h.pend b hb).2.2⟩
    rw [hcode, if_neg (by rintro rfl; exact h.sep hb)]
    exact (h.pend b hb).2.1
  · exact Nat.lt_succ_of_lt h.lt
  · simp [evaluate]
  · rw [hcode]
    split
    · next hb => subst hb; exact ⟨_, rfl⟩
    · exact ⟨[], by simp⟩
  · rw [hcode, if_neg (by rintro rfl; exact hb h.cur)]
  · obtain ⟨l, hl⟩ := hG.code st.cur
    rw [hcode, if_pos rfl] at hl
    refine ⟨?_, ?_⟩
    · simp [here, hl, evaluate]
    · show (_, _) = _
      simp only [here]
      rw [hcode]
      simp [evaluate]

theorem connect_eq {st st' : St E} {a b : Nat} (h : connect st a b = .ok st') :
    st'.labels = st.labels ∧ st'.cur = st.cur ∧ st'.g.size = st.g.size ∧
      st'.g.code = st.g.code ∧ st'.g.ends = st.g.ends ∧
      (∀ r x, x ∈ st'.g.preds r ↔ x ∈ st.g.preds r ∨ (r = b ∧ x = a)) := by
  unfold connect at h
  split at h
  · simp only [Run.ok.injEq] at h
    subst h
    refine ⟨rfl, rfl, rfl, rfl, rfl, fun r x => ?_⟩
    simp only [connect.set1]
    split
    · next hr => subst hr; simp
    · next hr => simp [hr]
  · cases h

/-- An edge from an open block of the graph. -/
theorem connect_ok {st st' : St E} {a b : Nat} {P : Nat → Prop} (h : connect st a b = .ok st')
    (w : Wn st.g P) (ha : Open st.g a) (hl : a < st.g.size) (hP : ¬ P a) :
    Wn st'.g P ∧ Extends st.g st'.g ∧
      ∀ G, Extends st'.g G → GoesOn G (a, (st.g.code a).length) (b, 0) := by
  obtain ⟨-, -, hs, hc, he, hp⟩ := connect_eq h
  have hop : ∀ x, x ≠ a → (Open st.g x ↔ Open st'.g x) := by
    intro x hx
    unfold Open
    rw [he]
    constructor
    · rintro ⟨h1, h2⟩
      exact ⟨h1, fun r hr => ((hp r x).1 hr).elim (h2 r) fun hr => hx hr.2⟩
    · rintro ⟨h1, h2⟩
      exact ⟨h1, fun r hr => h2 r ((hp r x).2 (.inl hr))⟩
  refine ⟨⟨hs ▸ w.pos, ?_, ?_, ?_, ?_, ?_⟩, ⟨hs ▸ Nat.le_refl _, ?_, ?_, ?_, ?_⟩, ?_⟩
  · intro r x hx
    rw [hs]
    rcases (hp r x).1 hx with hx | ⟨-, rfl⟩
    · exact w.preds r x hx
    · exact hl
  · rw [hs, hc, he]; exact w.new
  · intro x
    rw [he]
    by_cases hx : x = a
    · subst hx; exact .inl ha.1
    · refine (w.one x).imp id fun ⟨h1, h2⟩ => ⟨h1, fun r hr => ?_⟩
      exact ((hp r x).1 hr).elim (h2 r) fun hr => hx hr.2
  · intro x r r' hr hr'
    rcases (hp r x).1 hr with h1 | ⟨h1, h1'⟩ <;> rcases (hp r' x).1 hr' with h2 | ⟨h2, h2'⟩
    · exact w.det x r r' h1 h2
    · subst h2'; exact absurd h1 (ha.2 r)
    · subst h1'; exact absurd h2 (ha.2 r')
    · rw [h1, h2]
  · intro x hx
    have hxa : x ≠ a := by rintro rfl; exact hP hx
    refine ⟨hs ▸ (w.pend x hx).1, ?_, (hop x hxa).1 (w.pend x hx).2.2⟩
    rw [hc]; exact (w.pend x hx).2.1
  · intro r x hx; exact (hp r x).2 (.inl hx)
  · intro x e hx; rw [he]; exact hx
  · intro x; rw [hc]; exact ⟨[], by simp⟩
  · intro x _; rw [hc]
  · intro G hG
    refine ⟨b, ⟨?_, hG.preds b a ((hp b a).2 (.inr ⟨rfl, rfl⟩))⟩, .refl _⟩
    have : ¬ Open st'.g a := fun ho => ho.2 b ((hp b a).2 (.inr ⟨rfl, rfl⟩))
    rw [hG.closed a this, hc]

/-- `ir_goto` from the block being filled. -/
theorem goto_ok {st st' : St E} {b : Nat} {P : Nat → Prop} (h : goto st (some b) = .ok st')
    (w : Wc st.g st.cur P) :
    Wn st'.g P ∧ Extends st.g st'.g ∧ st'.labels = st.labels ∧
      ∀ G, Extends st'.g G → GoesOn G (here st) (b, 0) := by
  obtain ⟨h1, h2, h3⟩ := connect_ok (show connect st st.cur b = .ok st' from h) w.toWn w.cur w.lt
    w.sep
  exact ⟨h1, h2, (connect_eq h).1, h3⟩

/-- `ir_connect` from a blank block. -/
theorem join_ok {st st' : St E} {a b : Nat} {P : Nat → Prop} (h : connect st a b = .ok st')
    (w : Wn st.g P) (ha : P a) :
    Wn st'.g (fun x => P x ∧ x ≠ a) ∧ Extends st.g st'.g ∧ st'.labels = st.labels ∧
      ∀ G, Extends st'.g G → GoesOn G (a, 0) (b, 0) := by
  obtain ⟨h1, h2, h3⟩ := connect_ok h (w.mono (Q := fun x => P x ∧ x ≠ a) fun _ h => h.1)
    (w.pend a ha).2.2 (w.pend a ha).1 (fun h => h.2 rfl)
  refine ⟨h1, h2, (connect_eq h).1, fun G hG => ?_⟩
  have := h3 G hG
  rwa [(w.pend a ha).2.1] at this

/-- A block ended by an IF or RETURN node. -/
theorem ends_ok {g g' : Cfg E} {c : Nat} {P : Nat → Prop} (w : Wc g c P) {e : End} {k : Nat}
    (hs : g'.size = g.size + k) (hp : g'.preds = g.preds) (hc : g'.code = g.code)
    (he : g'.ends = connect.set1 g.ends c (g.ends c ++ [e])) :
    Wn g' (fun b => P b ∨ (g.size ≤ b ∧ b < g.size + k)) ∧ Extends g g' := by
  have hee : ∀ b, g'.ends b = if b = c then [e] else g.ends b := by
    intro b; rw [he]; simp only [connect.set1, w.cur.1, List.nil_append]
  have hlt := w.lt
  refine ⟨⟨by have := w.pos; omega, ?_, ?_, ?_, ?_, ?_⟩, ⟨by omega, ?_, ?_, ?_, ?_⟩⟩
  · intro r b hb
    rw [hp] at hb
    have := w.preds r b hb
    omega
  · intro b hb
    rw [hc, hee, if_neg (by omega)]
    exact w.new b (by omega)
  · intro b
    rw [hee, hp]
    split
    · next h => subst h; exact .inr ⟨⟨e, rfl⟩, w.cur.2⟩
    · exact w.one b
  · rw [hp]; exact w.det
  · rintro b (hb | ⟨h1, h2⟩)
    · have hbc : b ≠ c := by rintro rfl; exact w.sep hb
      obtain ⟨h1, h2, h3, h4⟩ := w.pend b hb
      exact ⟨by omega, by rw [hc]; exact h2, by rw [hee, if_neg hbc]; exact h3,
        by rw [hp]; exact h4⟩
    · refine ⟨by omega, by rw [hc]; exact (w.new b h1).1,
        by rw [hee, if_neg (by omega)]; exact (w.new b h1).2, fun r hr => ?_⟩
      rw [hp] at hr
      have := w.preds r b hr
      omega
  · intro r b hb; rw [hp]; exact hb
  · intro b x hx
    rw [hee]
    split
    · next h => subst h; rw [w.cur.1] at hx; simp at hx
    · exact hx
  · intro b; rw [hc]; exact ⟨[], by simp⟩
  · intro b _; rw [hc]

theorem select_ok {st : St E} {P : Nat → Prop} (w : Wc st.g st.cur P) (c : Cond) :
    Wn (select st c).2.2.g (fun b => P b ∨ b = (select st c).1 ∨ b = (select st c).2.1) ∧
      Extends st.g (select st c).2.2.g ∧ (select st c).2.2.labels = st.labels ∧
      (select st c).1 ≠ (select st c).2.1 ∧
      st.g.size ≤ (select st c).1 ∧ st.g.size ≤ (select st c).2.1 ∧
      ∀ G, Extends (select st c).2.2.g G →
        Branches G (here st) c (select st c).1 (select st c).2.1 := by
  obtain ⟨h1, h2⟩ := ends_ok (g' := (select st c).2.2.g)
    (e := .branch c (select st c).1 (select st c).2.1) (k := 3) w rfl rfl rfl rfl
  refine ⟨h1.mono ?_, h2, rfl, by simp [select], by simp [select], by simp [select], ?_⟩
  · rintro b (hb | rfl | rfl)
    · exact .inl hb
    · exact .inr (by simp [select])
    · exact .inr (by simp [select])
  · intro G hG
    have hm : End.branch c (select st c).1 (select st c).2.1 ∈
        (select st c).2.2.g.ends st.cur := by simp [select, connect.set1]
    refine ⟨?_, hG.ends _ _ hm⟩
    have hno : ¬ Open (select st c).2.2.g st.cur := fun ho => by rw [ho.1] at hm; simp at hm
    show (G.code st.cur).length = _
    rw [hG.closed _ hno]
    rfl

theorem ret_ok {st : St E} {P : Nat → Prop} (w : Wc st.g st.cur P) (r : Ret) :
    Wn (ret st r).g P ∧ Extends st.g (ret st r).g ∧ (ret st r).labels = st.labels ∧
      ∀ G, Extends (ret st r).g G → Rets G (here st) r := by
  obtain ⟨h1, h2⟩ := ends_ok (g' := (ret st r).g) (e := .ret r) (k := 1) w rfl rfl rfl rfl
  refine ⟨h1.mono fun b hb => .inl hb, h2, rfl, fun G hG => ?_⟩
  have hm : End.ret r ∈ (ret st r).g.ends st.cur := by simp [ret, connect.set1]
  refine ⟨?_, hG.ends _ _ hm⟩
  have hno : ¬ Open (ret st r).g st.cur := fun ho => by rw [ho.1] at hm; simp at hm
  show (G.code st.cur).length = _
  rw [hG.closed _ hno]
  rfl

end Verif.Statement
