import Verif.StatementCompLemmas
/-!
A graph made of the blocks `Frag` describes does what the tree says.
-/
namespace Verif.Statement
open Verif.StatementSpec
variable {E S V : Type}

/-! ### Steps of the graph -/

/-- A step of the graph that evaluates nothing. -/
inductive QStep (M : Sem E S V) (G : Cfg E) : Conf E S V → Conf E S V → Prop
  | yes {b c t f σ vals} : End.branch c t f ∈ G.ends b → Holds M vals c true →
      QStep M G (.at b [] σ vals) (.at t (G.code t) σ vals)
  | no {b c t f σ vals} : End.branch c t f ∈ G.ends b → Holds M vals c false →
      QStep M G (.at b [] σ vals) (.at f (G.code f) σ vals)
  | jump {b r σ vals} : b ∈ G.preds r → QStep M G (.at b [] σ vals) (.at r (G.code r) σ vals)
  | ret {b x r σ vals} : End.ret x ∈ G.ends b → Gives vals x r →
      QStep M G (.at b [] σ vals) (.done r σ)

theorem QStep.step {M : Sem E S V} {G : Cfg E} {a b : Conf E S V} (h : QStep M G a b) :
    Step M G a b := by
  cases h with
  | yes h1 h2 => exact .yes h1 h2
  | no h1 h2 => exact .no h1 h2
  | jump h1 => exact .jump h1
  | ret h1 h2 => exact .ret h1 h2

/-- Some steps that evaluate nothing. -/
def QN (M : Sem E S V) (G : Cfg E) : Nat → Conf E S V → Conf E S V → Prop
  | 0, a, b => a = b
  | n + 1, a, b => ∃ c, QStep M G a c ∧ QN M G n c b

/-- Some steps. -/
def SN (M : Sem E S V) (G : Cfg E) : Nat → Conf E S V → Conf E S V → Prop
  | 0, a, b => a = b
  | n + 1, a, b => ∃ c, Step M G a c ∧ SN M G n c b

theorem QN.trans {M : Sem E S V} {G : Cfg E} : ∀ {n m : Nat} {a b c : Conf E S V},
    QN M G n a b → QN M G m b c → QN M G (n + m) a c
  | 0, m, a, b, c, h, h' => by cases h; rwa [Nat.zero_add]
  | n + 1, m, a, b, c, ⟨x, h1, h2⟩, h' => by
    rw [Nat.add_right_comm]; exact ⟨x, h1, h2.trans h'⟩

theorem QN.steps {M : Sem E S V} {G : Cfg E} : ∀ {n : Nat} {a b : Conf E S V},
    QN M G n a b → Steps M G a b
  | 0, a, b, h => by cases h; exact .refl _
  | n + 1, a, b, ⟨x, h1, h2⟩ => .step h1.step h2.steps

theorem Steps.count {M : Sem E S V} {G : Cfg E} {a b : Conf E S V} (h : Steps M G a b) :
    ∃ n, SN M G n a b := by
  induction h with
  | refl => exact ⟨0, rfl⟩
  | step h _ ih => obtain ⟨n, hn⟩ := ih; exact ⟨n + 1, _, h, hn⟩

theorem Steps.trans {M : Sem E S V} {G : Cfg E} {a b c : Conf E S V} (h : Steps M G a b)
    (h' : Steps M G b c) : Steps M G a c := by
  induction h with
  | refl => exact h'
  | step h _ ih => exact .step h (ih h')

/-- Every block ends in one way. -/
structure One (G : Cfg E) : Prop where
  one : ∀ b, G.ends b = [] ∨ (∃ e, G.ends b = [e]) ∧ ∀ r, b ∉ G.preds r
  det : ∀ b r r', b ∈ G.preds r → b ∈ G.preds r' → r = r'

theorem One.end {G : Cfg E} (h : One G) {b : Nat} {e e' : End} (he : e ∈ G.ends b)
    (he' : e' ∈ G.ends b) : e = e' := by
  rcases h.one b with h0 | ⟨⟨x, hx⟩, -⟩
  · rw [h0] at he; simp at he
  · rw [hx] at he he'; simp at he he'; rw [he, he']

theorem One.no {G : Cfg E} (h : One G) {b r : Nat} {e : End} (he : e ∈ G.ends b)
    (hr : b ∈ G.preds r) : False := by
  rcases h.one b with h0 | ⟨-, hn⟩
  · rw [h0] at he; simp at he
  · exact hn r hr

theorem holds_det {M : Sem E S V} {vals : Nat → Option V} {c : Cond} {x y : Bool}
    (h : Holds M vals c x) (h' : Holds M vals c y) : x = y := by
  cases c <;> (obtain ⟨v, h1, h2⟩ := h; obtain ⟨v', h1', h2'⟩ := h'; rw [h1] at h1'; cases h1'
               exact h2.symm.trans h2')

theorem gives_det {vals : Nat → Option V} {x : Ret} {r r' : Result V}
    (h : Gives vals x r) (h' : Gives vals x r') : r = r' := by
  cases x with
  | nothing => exact Eq.trans h (Eq.symm h')
  | zero => exact Eq.trans h (Eq.symm h')
  | value k =>
    obtain ⟨v, h1, h2⟩ := h; obtain ⟨v', h1', h2'⟩ := h'
    rw [h1] at h1'; cases h1'; rw [h2, h2']

theorem QStep.det {M : Sem E S V} {G : Cfg E} (h1 : One G) {a b c : Conf E S V}
    (h : QStep M G a b) (h' : Step M G a c) : b = c := by
  cases h with
  | yes he hh =>
    cases h' with
    | yes he' hh' => cases h1.end he he'; rfl
    | no he' hh' => cases h1.end he he'; cases holds_det hh hh'
    | jump hr => exact (h1.no he hr).elim
    | ret he' => cases h1.end he he'
  | no he hh =>
    cases h' with
    | yes he' hh' => cases h1.end he he'; cases holds_det hh hh'
    | no he' hh' => cases h1.end he he'; rfl
    | jump hr => exact (h1.no he hr).elim
    | ret he' => cases h1.end he he'
  | jump hr =>
    cases h' with
    | yes he' hh' => exact (h1.no he' hr).elim
    | no he' hh' => exact (h1.no he' hr).elim
    | jump hr' => rw [h1.det _ _ _ hr hr']
    | ret he' => exact (h1.no he' hr).elim
  | ret he hg =>
    cases h' with
    | yes he' hh' => cases h1.end he he'
    | no he' hh' => cases h1.end he he'
    | jump hr => exact (h1.no he hr).elim
    | ret he' hg' => cases h1.end he he'; rw [gives_det hg hg']

/-- A state one can see: an evaluation is next, or the function has returned. -/
def Seen : Conf E S V → Prop
  | .at _ [] _ _ => False
  | _ => True

theorem Seen.quiet {M : Sem E S V} {G : Cfg E} {a b : Conf E S V} (h : Seen a)
    (h' : QStep M G a b) : False := by
  cases h' <;> exact h

/-- Steps that evaluate nothing are passed on the way to anything one can see. -/
theorem QN.peel {M : Sem E S V} {G : Cfg E} (h1 : One G) : ∀ {m n : Nat} {a b x : Conf E S V},
    QN M G m a b → SN M G n a x → Seen x → ∃ n', n = m + n' ∧ SN M G n' b x
  | 0, n, a, b, x, h, h', _ => by cases h; exact ⟨n, by omega, h'⟩
  | m + 1, 0, a, b, x, ⟨c, hc, h⟩, h', hs => by cases h'; exact (hs.quiet hc).elim
  | m + 1, n + 1, a, b, x, ⟨c, hc, h⟩, ⟨c', hc', h'⟩, hs => by
    cases hc.det h1 hc'
    obtain ⟨n', e, hn⟩ := QN.peel h1 h h' hs
    exact ⟨n', by omega, hn⟩

/-! ### Places -/

/-- The state of the graph at a place. -/
def conf (G : Cfg E) (p : Pt) (σ : S) (vals : Nat → Option V) : Conf E S V :=
  .at p.1 ((G.code p.1).drop p.2) σ vals

theorem conf_end {G : Cfg E} {p : Pt} (h : (G.code p.1).length = p.2) (σ : S)
    (vals : Nat → Option V) : conf G p σ vals = .at p.1 [] σ vals := by
  simp [conf, ← h]

theorem conf_zero (G : Cfg E) (b : Nat) (σ : S) (vals : Nat → Option V) :
    conf G (b, 0) σ vals = .at b (G.code b) σ vals := by simp [conf]

theorem Edge.quiet {G : Cfg E} {p : Pt} {r : Nat} (h : Edge G p r) (M : Sem E S V) (σ : S)
    (vals : Nat → Option V) : QStep M G (conf G p σ vals) (conf G (r, 0) σ vals) := by
  rw [conf_end h.1, conf_zero]; exact .jump h.2

theorem Goes.quiet {G : Cfg E} {p q : Pt} (h : Goes G p q) (M : Sem E S V) (σ : S)
    (vals : Nat → Option V) : ∃ n, QN M G n (conf G p σ vals) (conf G q σ vals) := by
  induction h with
  | refl => exact ⟨0, rfl⟩
  | step e _ ih => obtain ⟨n, hn⟩ := ih; exact ⟨n + 1, _, e.quiet M σ vals, hn⟩

theorem GoesOn.quiet {G : Cfg E} {p q : Pt} (h : GoesOn G p q) (M : Sem E S V) (σ : S)
    (vals : Nat → Option V) : ∃ n, QN M G (n + 1) (conf G p σ vals) (conf G q σ vals) := by
  obtain ⟨r, e, h⟩ := h
  obtain ⟨n, hn⟩ := h.quiet M σ vals
  exact ⟨n, _, e.quiet M σ vals, hn⟩

theorem evals_conf {G : Cfg E} {p q : Pt} {k : Nat} {e : E} (h : Evals G p k e q) (σ : S)
    (vals : Nat → Option V) : conf G p σ vals = .at p.1 ((k, e) :: (G.code p.1).drop q.2) σ vals ∧
      ∀ σ' vals', (.at p.1 ((G.code p.1).drop q.2) σ' vals' : Conf E S V) =
        conf G q σ' vals' := by
  obtain ⟨h1, rfl⟩ := h
  constructor
  · simp only [conf]
    rw [List.getElem?_eq_some_iff] at h1
    obtain ⟨hl, h1⟩ := h1
    rw [List.drop_eq_getElem_cons hl, h1]
  · intro σ' vals'; rfl

theorem Branches.quiet {G : Cfg E} {p : Pt} {c : Cond} {t f : Nat} (h : Branches G p c t f)
    (M : Sem E S V) (σ : S) {vals : Nat → Option V} {b : Bool} (hb : Holds M vals c b) :
    QStep M G (conf G p σ vals) (conf G (if b then t else f, 0) σ vals) := by
  rw [conf_end h.1, conf_zero]
  cases b
  · exact .no h.2 hb
  · exact .yes h.2 hb

theorem Rets.quiet {G : Cfg E} {p : Pt} {x : Ret} (h : Rets G p x)
    (M : Sem E S V) (σ : S) {vals : Nat → Option V} {r : Result V} (hr : Gives vals x r) :
    QStep M G (conf G p σ vals) (.done r σ) := by
  rw [conf_end h.1]
  exact .ret h.2 hr

/-- The comparisons of a switch find the first case with the value, if there is one. -/
theorem Chain.quiet {G : Cfg E} {k : Nat} {p q : Pt} {tbl : List (Int × Nat)}
    (h : Chain G k p tbl q) (M : Sem E S V) (σ : S) {vals : Nat → Option V} {v : V}
    (hv : vals k = some v) :
    (∃ cb n, (M.int v, cb) ∈ tbl ∧ QN M G n (conf G p σ vals) (conf G (cb, 0) σ vals)) ∨
      (∀ cb, (M.int v, cb) ∉ tbl) ∧ ∃ n, QN M G n (conf G p σ vals) (conf G q σ vals) := by
  induction h with
  | nil => exact .inr ⟨by simp, 0, rfl⟩
  | @cons p c cb t f p' tbl q h1 h2 h3 _ ih =>
    by_cases hc : M.int v = c
    · have := h1.quiet M σ (b := true) (vals := vals) ⟨v, hv, by simpa using hc⟩
      obtain ⟨n, hn⟩ := h2.quiet M σ vals
      exact .inl ⟨cb, n + 1, by simp [hc], _, this, hn⟩
    · have := h1.quiet M σ (b := false) (vals := vals) ⟨v, hv, by simpa using hc⟩
      obtain ⟨n, hn⟩ := h3.quiet M σ vals
      have hp : ∃ n, QN M G n (conf G p σ vals) (conf G p' σ vals) := ⟨n + 1, _, this, hn⟩
      obtain ⟨m, hm⟩ := hp
      rcases ih with ⟨cb', n', h4, h5⟩ | ⟨h4, n', h5⟩
      · exact .inl ⟨cb', _, by simp [h4], hm.trans h5⟩
      · refine .inr ⟨fun cb' hx => ?_, _, hm.trans h5⟩
        simp only [List.mem_cons, Prod.mk.injEq] at hx
        rcases hx with hx | hx
        · exact hc hx.1
        · exact h4 cb' hx

/-! ### The rest of an execution -/

/-- The end of the function. -/
def Ending (G : Cfg E) : Kind → Pt → Prop
  | .main, p => Rets G p .zero
  | .void, p => Rets G p .nothing
  | .value, p => (G.code p.1).length = p.2 ∧ Open G p.1

/-- The place is where the rest of an execution begins. -/
inductive KM (G : Cfg E) (const : E → Option Int) (L : Names) (kind : Kind) :
    Env → Kont E → Pt → Prop
  | stop {cases dflt q} : Ending G kind q → KM G const L kind ⟨none, none, cases, dflt⟩ .stop q
  | seq {env b k q q1 q2} : FragItems G const L env b q q1 → Goes G q1 q2 →
      KM G const L kind env k q2 → KM G const L kind env (.seq b k) q
  | whileK {env e s k c b d q1 q2} : Test G (c, 0) e b d →
      Frag G const L { env with brk := some d, cont := some c } s (b, 0) q1 →
      Goes G q1 (c, 0) → Goes G (d, 0) q2 → KM G const L kind env k q2 →
      KM G const L kind { env with brk := some d, cont := some c } (.whileK e s k) (c, 0)
  | doK {env e s k c b d q1 q2} : Test G (c, 0) e b d →
      Frag G const L { env with brk := some d, cont := some c } s (b, 0) q1 →
      Goes G q1 (c, 0) → Goes G (d, 0) q2 → KM G const L kind env k q2 →
      KM G const L kind { env with brk := some d, cont := some c } (.doK s e k) (c, 0)
  | forK {env c a s k ctl b d adv p2 q1 q2} : FTest G c (ctl, 0) b d →
      FAdv G a (adv, 0) p2 → GoesOn G p2 (ctl, 0) →
      Frag G const L { env with brk := some d, cont := some adv } s (b, 0) q1 →
      Goes G q1 (adv, 0) → Goes G (d, 0) q2 → KM G const L kind env k q2 →
      KM G const L kind env (.forK c a s k) (ctl, 0)
  | advK {env c a s k ctl b d adv p2 q1 q2} : FTest G c (ctl, 0) b d →
      FAdv G a (adv, 0) p2 → GoesOn G p2 (ctl, 0) →
      Frag G const L { env with brk := some d, cont := some adv } s (b, 0) q1 →
      Goes G q1 (adv, 0) → Goes G (d, 0) q2 → KM G const L kind env k q2 →
      KM G const L kind { env with brk := some d, cont := some adv } (.advK c a s k) (adv, 0)
  | switchK {env tbl df k d q2} : Goes G (d, 0) q2 → KM G const L kind env k q2 →
      KM G const L kind { env with brk := some d, cases := tbl, dflt := df } (.switchK k) (d, 0)

/-- The statement lies at the place, and the rest of the execution after it. -/
def At (G : Cfg E) (const : E → Option Int) (L : Names) (kind : Kind) (env : Env) (s : Stmt E)
    (k : Kont E) (p : Pt) : Prop :=
  ∃ q q2, Frag G const L env s p q ∧ Goes G q q2 ∧ KM G const L kind env k q2

/-- How much of the text is left. -/
def Kont.left : Kont E → Nat
  | .stop => 1
  | .seq b k => 2 * b.size + left k
  | .whileK _ _ k | .doK _ _ k | .forK _ _ _ k | .advK _ _ _ k | .switchK k => left k + 1

theorem KM.break {G : Cfg E} {const : E → Option Int} {L : Names} {kind : Kind} {env : Env}
    {k : Kont E} {q : Pt} (h : KM G const L kind env k q) {d : Nat} (hd : env.brk = some d) :
    ∃ k' env' q', k.break = some k' ∧ Goes G (d, 0) q' ∧ KM G const L kind env' k' q' ∧
      Kont.left k' ≤ Kont.left k := by
  induction h with
  | stop => cases hd
  | seq _ _ _ ih =>
    obtain ⟨k', env', q', h1, h2, h3, h4⟩ := ih hd
    exact ⟨k', env', q', h1, h2, h3, by simp only [Kont.left]; omega⟩
  | forK _ _ _ _ _ _ _ ih =>
    obtain ⟨k', env', q', h1, h2, h3, h4⟩ := ih hd
    exact ⟨k', env', q', h1, h2, h3, by simp only [Kont.left]; omega⟩
  | whileK _ _ _ h1 h2 | doK _ _ _ h1 h2 | advK _ _ _ _ _ h1 h2 | switchK h1 h2 =>
    cases hd; exact ⟨_, _, _, rfl, h1, h2, by simp only [Kont.left]; omega⟩

theorem KM.continue {G : Cfg E} {const : E → Option Int} {L : Names} {kind : Kind} {env : Env}
    {k : Kont E} {q : Pt} (h : KM G const L kind env k q) {d : Nat} (hd : env.cont = some d) :
    ∃ k' env', k.continue = some k' ∧ KM G const L kind env' k' (d, 0) ∧
      Kont.left k' ≤ Kont.left k := by
  induction h with
  | stop => cases hd
  | seq _ _ _ ih =>
    obtain ⟨k', env', h1, h3, h4⟩ := ih hd
    exact ⟨k', env', h1, h3, by simp only [Kont.left]; omega⟩
  | forK _ _ _ _ _ _ _ ih =>
    obtain ⟨k', env', h1, h3, h4⟩ := ih hd
    exact ⟨k', env', h1, h3, by simp only [Kont.left]; omega⟩
  | switchK _ _ ih =>
    obtain ⟨k', env', h1, h3, h4⟩ := ih hd
    exact ⟨k', env', h1, h3, by simp only [Kont.left]; omega⟩
  | whileK h1 h2 h3 h4 h5 => cases hd; exact ⟨_, _, rfl, .whileK h1 h2 h3 h4 h5, Nat.le_refl _⟩
  | doK h1 h2 h3 h4 h5 => cases hd; exact ⟨_, _, rfl, .doK h1 h2 h3 h4 h5, Nat.le_refl _⟩
  | advK h1 h2 h3 h4 h5 h6 h7 =>
    cases hd; exact ⟨_, _, rfl, .advK h1 h2 h3 h4 h5 h6 h7, Nat.le_refl _⟩

/-! ### Labels -/

/-- Where a jump to the target lands. -/
def Lands (L : Names) (env : Env) : Target → Nat → Prop
  | .label l, b => b = L.loc l
  | .case v, b => (v, b) ∈ env.cases
  | .dflt, b => env.dflt = some b

theorem first_some {α : Type} {a b : Option α} {x : α} (h : first a b = some x) :
    a = some x ∨ b = some x := by
  cases a with
  | none => exact .inr h
  | some y => exact .inl h

theorem Lands.same {L : Names} {env env' : Env} {t : Target} {b : Nat} (h : Lands L env' t b)
    (hs : t.entersSwitch = false → env'.cases = env.cases ∧ env'.dflt = env.dflt) :
    Lands L env t b := by
  cases t with
  | label l => exact h
  | case v => simp only [Lands] at h ⊢; rwa [(hs rfl).1] at h
  | dflt => simp only [Lands] at h ⊢; rwa [(hs rfl).2] at h

mutual
/-- A labelled statement lies where a jump to it lands. -/
theorem find_at {G : Cfg E} {const : E → Option Int} {L : Names} {kind : Kind} {t : Target} :
    (s : Stmt E) → {env : Env} → {k : Kont E} → {p q q2 : Pt} → {s' : Stmt E} → {k' : Kont E} →
    Frag G const L env s p q → Goes G q q2 → KM G const L kind env k q2 →
    s.find const t k = some (s', k') →
    ∃ env' b, Lands L env t b ∧ At G const L kind env' s' k' (b, 0)
  | .block b, _, _, _, _, _, _, _, h, hg, hk, hf => finds_at b h hg hk hf
  | .ite _ s, _, _, _, _, _, _, _, h, hg, hk, hf => by
    obtain ⟨_, _, _, _, _, _, _, _, h3, h4, _, h6⟩ := h
    subst h6
    exact find_at s h3 (h4.trans hg) hk hf
  | .iteElse _ s u, _, _, _, _, _, _, _, h, hg, hk, hf => by
    obtain ⟨_, _, _, _, _, _, _, _, _, h3, h4, h5, h6, h7⟩ := h
    subst h7
    rcases first_some hf with hf | hf
    · exact find_at s h3 (h4.trans hg) hk hf
    · exact find_at u h5 (h6.trans hg) hk hf
  | .while e s, _, _, _, _, _, _, _, h, hg, hk, hf => by
    obtain ⟨_, _, _, _, h1, h2, h3, h4, h5⟩ := h
    subst h5
    obtain ⟨env', b, k1, k2⟩ := find_at s h3 h4 (.whileK h2 h3 h4 hg hk) hf
    exact ⟨env', b, k1.same fun _ => ⟨rfl, rfl⟩, k2⟩
  | .doWhile s e, _, _, _, _, _, _, _, h, hg, hk, hf => by
    obtain ⟨_, _, _, _, h1, h2, h3, h4, h5⟩ := h
    subst h5
    obtain ⟨env', b, k1, k2⟩ := find_at s h2 h3 (.doK h4 h2 h3 hg hk) hf
    exact ⟨env', b, k1.same fun _ => ⟨rfl, rfl⟩, k2⟩
  | .for _ c a s, _, _, _, _, _, _, _, h, hg, hk, hf => by
    obtain ⟨_, _, _, _, _, _, _, _, h1, h2, h3, h4, h5, h6, h7, h8, h9⟩ := h
    subst h9
    obtain ⟨env', b, k1, k2⟩ := find_at s h7 h8 (.advK h4 h5 h6 h7 h8 hg hk) hf
    exact ⟨env', b, k1.same fun _ => ⟨rfl, rfl⟩, k2⟩
  | .switch _ s, _, _, _, _, _, _, _, h, hg, hk, hf => by
    simp only [Stmt.find] at hf
    split at hf
    · next ht =>
      obtain ⟨_, _, _, _, _, _, _, _, _, h1, h2, h3, h4, h5, h6, h7, h8, h9, h10⟩ := h
      subst h10
      obtain ⟨env', b, k1, k2⟩ := find_at s h8 h9 (.switchK hg hk) hf
      exact ⟨env', b, k1.same (fun h => by rw [ht] at h; cases h), k2⟩
    · cases hf
  | .case e s, _, _, _, _, _, _, _, h, hg, hk, hf => by
    obtain ⟨v, cb, h1, h2, h3, h4⟩ := h
    simp only [Stmt.find] at hf
    split at hf
    · next ht =>
      rw [h1] at ht
      simp only [Option.map_some, Option.some.injEq] at ht
      subst ht
      cases hf
      exact ⟨_, cb, h2, _, _, h4, hg, hk⟩
    · exact find_at s h4 hg hk hf
  | .dflt s, _, _, _, _, _, _, _, h, hg, hk, hf => by
    obtain ⟨cb, h1, h2, h3⟩ := h
    simp only [Stmt.find] at hf
    split at hf
    · next ht =>
      subst ht
      cases hf
      exact ⟨_, cb, h1, _, _, h3, hg, hk⟩
    · exact find_at s h3 hg hk hf
  | .label l s, _, _, _, _, _, _, _, h, hg, hk, hf => by
    obtain ⟨h1, h2⟩ := h
    simp only [Stmt.find] at hf
    split at hf
    · next ht =>
      subst ht
      cases hf
      exact ⟨_, _, rfl, _, _, h2, hg, hk⟩
    · exact find_at s h2 hg hk hf
  | .empty, _, _, _, _, _, _, _, _, _, _, hf => by cases hf
  | .expr _, _, _, _, _, _, _, _, _, _, _, hf => by cases hf
  | .goto _, _, _, _, _, _, _, _, _, _, _, hf => by cases hf
  | .brk, _, _, _, _, _, _, _, _, _, _, hf => by cases hf
  | .cont, _, _, _, _, _, _, _, _, _, _, hf => by cases hf
  | .ret _, _, _, _, _, _, _, _, _, _, _, hf => by cases hf
/-- As `find_at`, for items. -/
theorem finds_at {G : Cfg E} {const : E → Option Int} {L : Names} {kind : Kind} {t : Target} :
    (b : Items E) → {env : Env} → {k : Kont E} → {p q q2 : Pt} → {s' : Stmt E} → {k' : Kont E} →
    FragItems G const L env b p q → Goes G q q2 → KM G const L kind env k q2 →
    b.find const t k = some (s', k') →
    ∃ env' b, Lands L env t b ∧ At G const L kind env' s' k' (b, 0)
  | .nil, _, _, _, _, _, _, _, _, _, _, hf => by cases hf
  | .decl _ r, _, _, _, _, _, _, _, h, hg, hk, hf => by
    obtain ⟨_, _, _, h⟩ := h
    exact finds_at r h hg hk hf
  | .cons s r, _, _, _, _, _, _, _, h, hg, hk, hf => by
    obtain ⟨_, h1, h2⟩ := h
    rcases first_some hf with hf | hf
    · exact find_at s h1 (.refl _) (.seq h2 hg hk) hf
    · exact finds_at r h2 hg hk hf
end

theorem first_none {α : Type} {a b : Option α} (h : first a b = none) : a = none ∧ b = none := by
  cases a with
  | none => exact ⟨rfl, h⟩
  | some y => cases h

/-- Whether the target is among the labels of a statement. -/
def Among (ls : List Str) (cs : List (Option Int)) (nd : Nat) : Target → Prop
  | .label l => l ∈ ls
  | .case v => some v ∈ cs
  | .dflt => 0 < nd

theorem Among.mono {ls ls' : List Str} {cs cs' : List (Option Int)} {nd nd' : Nat} {t : Target}
    (h : ¬ Among ls cs nd t) (h1 : ls' ⊆ ls) (h2 : cs' ⊆ cs) (h3 : nd' ≤ nd) :
    ¬ Among ls' cs' nd' t := by
  intro h'
  apply h
  cases t with
  | label l => exact h1 h'
  | case v => exact h2 h'
  | dflt => exact Nat.lt_of_lt_of_le h' h3

mutual
/-- The search for a label finds it if it is there. -/
theorem find_none {const : E → Option Int} {t : Target} :
    (s : Stmt E) → {k : Kont E} → s.find const t k = none →
      ¬ Among s.labels (s.cases const) s.defaults t
  | .block b, _, h => finds_none b h
  | .ite _ s, _, h => find_none s h
  | .iteElse _ s u, _, h => by
    obtain ⟨h1, h2⟩ := first_none h
    have h1 := find_none s h1
    have h2 := find_none u h2
    cases t <;> simp_all [Among, Stmt.labels, Stmt.cases, Stmt.defaults]
  | .while _ s, _, h => find_none s h
  | .doWhile s _, _, h => find_none s h
  | .for _ _ _ s, _, h => find_none s h
  | .switch _ s, _, h => by
    simp only [Stmt.find] at h
    split at h
    · next ht =>
      have h := find_none s h
      cases t <;> simp_all [Among, Stmt.labels, Target.entersSwitch]
    · next ht =>
      cases t <;> simp_all [Among, Stmt.cases, Stmt.defaults, Target.entersSwitch]
  | .case e s, _, h => by
    simp only [Stmt.find] at h
    split at h
    · cases h
    · next ht =>
      have h := find_none s h
      cases t with
      | label l => exact h
      | dflt => exact h
      | case v =>
        intro h'
        simp only [Among, Stmt.cases, List.mem_cons] at h'
        rcases h' with h' | h'
        · rw [← h'] at ht; exact ht rfl
        · exact h h'
  | .dflt s, _, h => by
    simp only [Stmt.find] at h
    split at h
    · cases h
    · next ht =>
      have h := find_none s h
      cases t with
      | label l => exact h
      | dflt => exact absurd rfl ht
      | case v => exact h
  | .label l s, _, h => by
    simp only [Stmt.find] at h
    split at h
    · cases h
    · next ht =>
      have h := find_none s h
      cases t with
      | case l => exact h
      | dflt => exact h
      | label m =>
        intro h'
        simp only [Among, Stmt.labels, List.mem_cons] at h'
        rcases h' with h' | h'
        · exact ht (by rw [h'])
        · exact h h'
  | .empty, _, _ => by cases t <;> simp [Among, Stmt.labels, Stmt.cases, Stmt.defaults]
  | .expr _, _, _ => by cases t <;> simp [Among, Stmt.labels, Stmt.cases, Stmt.defaults]
  | .goto _, _, _ => by cases t <;> simp [Among, Stmt.labels, Stmt.cases, Stmt.defaults]
  | .brk, _, _ => by cases t <;> simp [Among, Stmt.labels, Stmt.cases, Stmt.defaults]
  | .cont, _, _ => by cases t <;> simp [Among, Stmt.labels, Stmt.cases, Stmt.defaults]
  | .ret _, _, _ => by cases t <;> simp [Among, Stmt.labels, Stmt.cases, Stmt.defaults]
/-- As `find_none`, for items. -/
theorem finds_none {const : E → Option Int} {t : Target} :
    (b : Items E) → {k : Kont E} → b.find const t k = none →
      ¬ Among b.labels (b.cases const) b.defaults t
  | .nil, _, _ => by cases t <;> simp [Among, Items.labels, Items.cases, Items.defaults]
  | .decl _ r, _, h => finds_none r h
  | .cons s r, _, h => by
    obtain ⟨h1, h2⟩ := first_none h
    have h1 := find_none s h1
    have h2 := finds_none r h2
    cases t <;> simp_all [Among, Items.labels, Items.cases, Items.defaults]
end

/-! ### The simulation -/

/-- The graph is where the execution of the tree is. -/
inductive Rel (G : Cfg E) (const : E → Option Int) (L : Names) (kind : Kind) :
    CState E S V → Conf E S V → Prop
  | stmt {env s k p} (σ vals) : At G const L kind env s k p →
      Rel G const L kind (.stmt s k σ) (conf G p σ vals)
  | next {env k q} (σ vals) : KM G const L kind env k q →
      Rel G const L kind (.next k σ) (conf G q σ vals)
  | stuck {b} (σ vals) : Open G b → Rel G const L kind (.done .unspecified σ) (.at b [] σ vals)
  | done (r σ) : r ≠ .unspecified → Rel G const L kind (.done r σ) (.done r σ)

/-- How much of the text is left. -/
def CState.left : CState E S V → Nat
  | .stmt s k _ => 2 * s.size + Kont.left k
  | .next k _ => Kont.left k
  | .done _ _ => 0

/-- What the graph does while the tree makes one step. -/
inductive Sim (M : Sem E S V) (G : Cfg E) (L : Names) (kind : Kind) (body : Items E)
    (c : CState E S V) (x : Conf E S V) : Prop
  | quiet {d y n} : c.asks = none → cstep M kind body c = some d → QN M G n x y →
      (0 < n ∨ CState.left d < CState.left c) → Rel G M.const L kind d y →
      Sim M G L kind body c x
  | eval {e σ n b k rest vals} : c.asks = some (e, σ) →
      QN M G n x (.at b ((k, e) :: rest) σ vals) →
      (M.ev e σ = none → cstep M kind body c = none) →
      (∀ σ' v, M.ev e σ = some (σ', v) → ∃ d m y, cstep M kind body c = some d ∧
        QN M G m (.at b rest σ' (record vals k v)) y ∧ Rel G M.const L kind d y) →
      Sim M G L kind body c x

theorem Evals.sim {M : Sem E S V} {G : Cfg E} {L : Names} {kind : Kind} {body : Items E}
    {c : CState E S V} {p p1 : Pt} {k : Nat} {e : E} (h : Evals G p k e p1) {σ : S}
    {x : Conf E S V} {n : Nat}
    {vals : Nat → Option V} (ha : c.asks = some (e, σ)) (hx : QN M G n x (conf G p σ vals))
    {f : S × V → CState E S V}
    (hc : cstep M kind body c = (M.ev e σ).map f)
    (hf : ∀ σ' v, M.ev e σ = some (σ', v) → ∃ m y,
      QN M G m (conf G p1 σ' (record vals k v)) y ∧ Rel G M.const L kind (f (σ', v)) y) :
    Sim M G L kind body c x := by
  obtain ⟨h1, h2⟩ := evals_conf h σ vals
  rw [h1] at hx
  refine .eval ha hx (fun he => by rw [hc, he]; rfl) fun σ' v he => ?_
  obtain ⟨m, y, h3, h4⟩ := hf σ' v he
  refine ⟨_, m, y, by rw [hc, he]; rfl, ?_, h4⟩
  rw [h2]; exact h3

theorem record_self (vals : Nat → Option V) (k : Nat) (v : V) : record vals k v k = some v := by
  simp [record]

theorem Branches.truth {M : Sem E S V} {G : Cfg E} {p : Pt} {k t f : Nat}
    (h : Branches G p (.truth k) t f) (σ : S) (vals : Nat → Option V) (v : V) :
    QStep M G (conf G p σ (record vals k v))
      (conf G (if M.truth v then t else f, 0) σ (record vals k v)) :=
  h.quiet M σ ⟨v, record_self _ _ _, rfl⟩

theorem Test.sim {M : Sem E S V} {G : Cfg E} {L : Names} {kind : Kind} {body : Items E}
    {c : CState E S V} {p : Pt} {b d : Nat} {e : E} (h : Test G p e b d) {σ : S}
    {vals : Nat → Option V} {x : Conf E S V} {n : Nat} (ha : c.asks = some (e, σ))
    (hx : QN M G n x (conf G p σ vals))
    {yes no : S → CState E S V}
    (hc : cstep M kind body c = branch M e σ yes no)
    (hy : ∀ σ' vals', ∃ m y, QN M G m (conf G (b, 0) σ' vals') y ∧
      Rel G M.const L kind (yes σ') y)
    (hn : ∀ σ' vals', ∃ m y, QN M G m (conf G (d, 0) σ' vals') y ∧
      Rel G M.const L kind (no σ') y) : Sim M G L kind body c x := by
  obtain ⟨k, p1, t, f, h1, h2, h3, h4⟩ := h
  refine h1.sim ha hx hc fun σ' v _ => ?_
  have hb := h2.truth (M := M) σ' vals v
  cases ht : M.truth v with
  | true =>
    rw [ht] at hb
    obtain ⟨m, hm⟩ := h3.quiet M σ' (record vals k v)
    obtain ⟨m', y, hy1, hy2⟩ := hy σ' (record vals k v)
    exact ⟨_ + 1, y, ⟨_, hb, hm.trans hy1⟩, by simpa [ht] using hy2⟩
  | false =>
    rw [ht] at hb
    obtain ⟨m, hm⟩ := h4.quiet M σ' (record vals k v)
    obtain ⟨m', y, hy1, hy2⟩ := hn σ' (record vals k v)
    exact ⟨_ + 1, y, ⟨_, hb, hm.trans hy1⟩, by simpa [ht] using hy2⟩

/-- Nothing to evaluate, some steps that evaluate nothing. -/
theorem Rel.after {M : Sem E S V} {G : Cfg E} {L : Names} {kind : Kind} {env : Env} {k : Kont E}
    {q q2 : Pt} (hg : Goes G q q2) (hk : KM G M.const L kind env k q2) (σ : S)
    (vals : Nat → Option V) :
    ∃ m y, QN M G m (conf G q σ vals) y ∧ Rel G M.const L kind (.next k σ) y := by
  obtain ⟨m, hm⟩ := hg.quiet M σ vals
  exact ⟨m, _, hm, .next σ vals hk⟩

theorem Rel.begin {M : Sem E S V} {G : Cfg E} {L : Names} {kind : Kind} {env : Env} {s : Stmt E}
    {k : Kont E} {p : Pt} (h : At G M.const L kind env s k p) (σ : S) (vals : Nat → Option V) :
    ∃ m y, QN M G m (conf G p σ vals) y ∧ Rel G M.const L kind (.stmt s k σ) y :=
  ⟨0, _, rfl, .stmt σ vals h⟩

theorem size_pos (s : Stmt E) : 0 < s.size := by cases s <;> simp [Stmt.size]

theorem sizes_pos (b : Items E) : 0 < b.size := by cases b <;> simp [Items.size]

/-- The start of the body of the function, where labels are looked for. -/
structure Whole (G : Cfg E) (const : E → Option Int) (L : Names) (kind : Kind) (body : Items E) :
    Prop where
  frag : ∃ env p q q2, FragItems G const L env body p q ∧ Goes G q q2 ∧
    KM G const L kind env .stop q2
  is : ∀ l, L.is l → l ∈ body.labels

theorem sim_stmt {M : Sem E S V} {G : Cfg E} {L : Names} {kind : Kind} {body : Items E}
    (W : Whole G M.const L kind body) {env : Env} {s : Stmt E} {k : Kont E} {p : Pt}
    (h : At G M.const L kind env s k p) (σ : S) (vals : Nat → Option V) :
    Sim M G L kind body (.stmt s k σ) (conf G p σ vals) := by
  obtain ⟨q, q2, hF, hg, hk⟩ := h
  cases s with
  | empty =>
    cases hF
    obtain ⟨m, y, h1, h2⟩ := Rel.after hg hk σ vals
    exact .quiet rfl rfl h1 (.inr (by simp [CState.left, Stmt.size])) h2
  | expr e =>
    obtain ⟨i, hF⟩ := hF
    exact hF.sim (n := 0) rfl rfl rfl fun σ' v _ => Rel.after hg hk σ' _
  | block b =>
    exact .quiet (n := 0) rfl rfl rfl (.inr (by simp [CState.left, Kont.left, Stmt.size]))
      (.next σ vals (.seq hF hg hk))
  | ite e s =>
    obtain ⟨i, p1, t, f, q1, d, h1, h2, h3, h4, h5, h6⟩ := hF
    subst h6
    exact Test.sim (n := 0) ⟨i, p1, t, f, h1, h2, .refl _, h5⟩ rfl rfl rfl
      (fun σ' v' => Rel.begin ⟨_, _, h3, h4.trans hg, hk⟩ σ' v')
      (fun σ' v' => Rel.after hg hk σ' v')
  | iteElse e s u =>
    obtain ⟨i, p1, t, f, q1, q2, d, h1, h2, h3, h4, h5, h6, h7⟩ := hF
    subst h7
    exact Test.sim (n := 0) ⟨i, p1, t, f, h1, h2, .refl _, .refl _⟩ rfl rfl rfl
      (fun σ' v' => Rel.begin ⟨_, _, h3, h4.trans hg, hk⟩ σ' v')
      (fun σ' v' => Rel.begin ⟨_, _, h5, h6.trans hg, hk⟩ σ' v')
  | «while» e s =>
    obtain ⟨b, c, d, q1, h1, h2, h3, h4, h5⟩ := hF
    subst h5
    obtain ⟨n, hn⟩ := h1.quiet M σ vals
    exact h2.sim rfl hn rfl
      (fun σ' v' => Rel.begin ⟨_, _, h3, h4, .whileK h2 h3 h4 hg hk⟩ σ' v')
      (fun σ' v' => Rel.after hg hk σ' v')
  | doWhile s e =>
    obtain ⟨b, c, d, q1, h1, h2, h3, h4, h5⟩ := hF
    subst h5
    obtain ⟨n, hn⟩ := h1.quiet M σ vals
    exact .quiet rfl rfl hn (.inr (by simp [CState.left, Kont.left, Stmt.size]; omega))
      (.stmt σ vals ⟨_, _, h2, h3, .doK h4 h2 h3 hg hk⟩)
  | «for» i c a s =>
    obtain ⟨i0, p1, ctl, adv, p2, b, d, q1, h1, h2, h3, h4, h5, h6, h7, h8, h9⟩ := hF
    subst h9
    obtain ⟨n, hn⟩ := h1.quiet M σ vals
    have hK : KM G M.const L kind env (.forK c a s k) (ctl, 0) := .forK h4 h5 h6 h7 h8 hg hk
    cases i with
    | none =>
      cases h2
      obtain ⟨m, y, hm, hy⟩ := Rel.after h3 hK σ vals
      exact .quiet rfl rfl (hn.trans hm)
        (.inr (by have := size_pos s; simp [CState.left, Kont.left, Stmt.size]; omega)) hy
    | decl e =>
      obtain ⟨i, h2⟩ := h2
      exact h2.sim rfl hn rfl fun σ' v _ => Rel.after h3 hK σ' _
    | expr e =>
      obtain ⟨i, h2⟩ := h2
      exact h2.sim rfl hn rfl fun σ' v _ => Rel.after h3 hK σ' _
  | switch e s =>
    obtain ⟨i, p1, en, en', b, d, q1, tbl, df, h1, h2, h3, h4, h5, h6, h7, h8, h9, h10⟩ := hF
    subst h10
    have hK : KM G M.const L kind { env with brk := some d, cases := tbl, dflt := df }
      (.switchK k) (d, 0) := .switchK hg hk
    refine h1.sim (n := 0) rfl rfl rfl fun σ' v _ => ?_
    obtain ⟨m, hm⟩ := h2.quiet M σ' (record vals i v)
    have hcase : ∀ cb, (M.int v, cb) ∈ tbl → some (M.int v) ∈ s.cases M.const := by
      intro cb hcb
      rw [← h5]
      exact List.mem_map.2 ⟨_, hcb, rfl⟩
    simp only [dispatch]
    rcases h3.quiet M σ' (vals := record vals i v) (record_self _ _ _) with
      ⟨cb, m', hc1, hc2⟩ | ⟨hc1, m', hc2⟩
    · cases hf : s.find M.const (.case (M.int v)) (.switchK k) with
      | none => exact absurd (hcase cb hc1) (find_none s hf)
      | some r =>
        obtain ⟨s', k'⟩ := r
        obtain ⟨env', b', hl, ha⟩ := find_at s h8 h9 hK hf
        have : b' = cb := by
          have hl : (M.int v, b') ∈ tbl := hl
          have hnd : (tbl.map (fun x => some x.1)).Nodup := h5 ▸ h4
          clear h3 hcase hK h8 h5
          induction tbl with
          | nil => cases hl
          | cons x tbl ih =>
            simp only [List.map_cons, List.nodup_cons, List.mem_map, not_exists, not_and] at hnd
            simp only [List.mem_cons] at hl hc1
            rcases hl with hl | hl <;> rcases hc1 with hc1 | hc1
            · rw [← hl] at hc1; cases hc1; rfl
            · exact absurd (by rw [← hl]) (hnd.1 _ hc1)
            · exact absurd (by rw [← hc1]) (hnd.1 _ hl)
            · exact ih hc1 hl hl hnd.2
        subst this
        exact ⟨_, _, hm.trans hc2, .stmt σ' _ ha⟩
    · cases hf : s.find M.const (.case (M.int v)) (.switchK k) with
      | some r =>
        obtain ⟨s', k'⟩ := r
        obtain ⟨env', b', hl, ha⟩ := find_at s h8 h9 hK hf
        exact absurd hl (hc1 b')
      | none =>
        obtain ⟨m2, hm2⟩ := h7.quiet M σ' (record vals i v)
        cases hf : s.find M.const .dflt (.switchK k) with
        | some r =>
          obtain ⟨s', k'⟩ := r
          obtain ⟨env', b', hl, ha⟩ := find_at s h8 h9 hK hf
          have hl : df = some b' := hl
          subst hl
          exact ⟨_, _, (hm.trans hc2).trans hm2, .stmt σ' _ ha⟩
        | none =>
          have h0 : ¬ 0 < s.defaults := find_none s hf
          have hdf : df = none := h6.2 (by omega)
          subst hdf
          obtain ⟨m3, y, hy1, hy2⟩ := Rel.after hg hk σ' (record vals i v)
          exact ⟨_, _, ((hm.trans hc2).trans hm2).trans hy1, hy2⟩
  | case e s =>
    obtain ⟨v, cb, h1, h2, h3, h4⟩ := hF
    obtain ⟨n, hn⟩ := h3.quiet M σ vals
    exact .quiet rfl rfl hn (.inr (by simp [CState.left, Stmt.size]))
      (.stmt σ vals ⟨_, _, h4, hg, hk⟩)
  | dflt s =>
    obtain ⟨cb, h2, h3, h4⟩ := hF
    obtain ⟨n, hn⟩ := h3.quiet M σ vals
    exact .quiet rfl rfl hn (.inr (by simp [CState.left, Stmt.size]))
      (.stmt σ vals ⟨_, _, h4, hg, hk⟩)
  | label l s =>
    obtain ⟨h3, h4⟩ := hF
    obtain ⟨n, hn⟩ := h3.quiet M σ vals
    exact .quiet rfl rfl hn (.inr (by simp [CState.left, Stmt.size]))
      (.stmt σ vals ⟨_, _, h4, hg, hk⟩)
  | goto l =>
    obtain ⟨h1, h2⟩ := hF
    obtain ⟨n, hn⟩ := h2.quiet M σ vals
    obtain ⟨env0, p0, q0, q3, f1, f2, f3⟩ := W.frag
    cases hf : body.find M.const (.label l) .stop with
    | none => exact absurd (W.is l h1) (finds_none body hf)
    | some r =>
      obtain ⟨s', k'⟩ := r
      obtain ⟨env', b', hl, ha⟩ := finds_at body f1 f2 f3 hf
      have hl : b' = L.loc l := hl
      subst hl
      exact .quiet rfl (by simp [cstep, hf]) hn (.inl (by omega)) (.stmt σ vals ha)
  | brk =>
    obtain ⟨d, h1, h2⟩ := hF
    obtain ⟨k', env', q', g1, g2, g3, g4⟩ := hk.break h1
    obtain ⟨n, hn⟩ := (h2.trans g2).quiet M σ vals
    exact .quiet rfl (by simp [cstep, g1]) hn
      (.inr (by simp [CState.left, Stmt.size]; omega)) (.next σ vals g3)
  | cont =>
    obtain ⟨d, h1, h2⟩ := hF
    obtain ⟨k', env', g1, g3, g4⟩ := hk.continue h1
    obtain ⟨n, hn⟩ := h2.quiet M σ vals
    exact .quiet rfl (by simp [cstep, g1]) hn
      (.inr (by simp [CState.left, Stmt.size]; omega)) (.next σ vals g3)
  | ret o =>
    cases o with
    | none =>
      exact .quiet (n := 1) rfl rfl ⟨_, Rets.quiet hF M σ rfl, rfl⟩ (.inl (by omega))
        (.done _ σ (by simp))
    | some e =>
      obtain ⟨i, p1, h1, h2⟩ := hF
      exact h1.sim (n := 0) rfl rfl rfl fun σ' v _ =>
        ⟨1, _, ⟨_, h2.quiet M σ' ⟨v, record_self _ _ _, rfl⟩, rfl⟩, .done _ σ' (by simp)⟩

theorem sim_next {M : Sem E S V} {G : Cfg E} {L : Names} {kind : Kind} {body : Items E}
    {env : Env} {k : Kont E} {q : Pt}
    (h : KM G M.const L kind env k q) (σ : S) (vals : Nat → Option V) :
    Sim M G L kind body (.next k σ) (conf G q σ vals) := by
  cases h with
  | stop h =>
    cases kind with
    | main =>
      exact .quiet (n := 1) rfl rfl ⟨_, Rets.quiet h M σ rfl, rfl⟩ (.inl (by omega))
        (.done _ σ (by simp [atEnd]))
    | void =>
      exact .quiet (n := 1) rfl rfl ⟨_, Rets.quiet h M σ rfl, rfl⟩ (.inl (by omega))
        (.done _ σ (by simp [atEnd]))
    | value =>
      exact .quiet (n := 0) rfl rfl rfl (.inr (by simp [CState.left, Kont.left]))
        (by rw [conf_end h.1]; exact .stuck σ vals h.2)
  | @seq _ b k _ q1 q2 h1 h2 h3 =>
    cases b with
    | nil =>
      cases h1
      obtain ⟨m, y, h1, h2⟩ := Rel.after h2 h3 σ vals
      exact .quiet rfl rfl h1 (.inr (by simp [CState.left, Kont.left, Items.size])) h2
    | decl d r =>
      obtain ⟨i, p1, h1, h1'⟩ := h1
      exact h1.sim (n := 0) rfl rfl rfl fun σ' v _ => ⟨0, _, rfl, .next σ' _ (.seq h1' h2 h3)⟩
    | cons s r =>
      obtain ⟨p1, h1, h1'⟩ := h1
      exact .quiet (n := 0) rfl rfl rfl
        (.inr (by simp [CState.left, Kont.left, Items.size]; omega))
        (.stmt σ vals ⟨_, _, h1, .refl _, .seq h1' h2 h3⟩)
  | whileK h1 h2 h3 h4 h5 =>
    exact h1.sim (n := 0) rfl rfl rfl
      (fun σ' v' => Rel.begin ⟨_, _, h2, h3, .whileK h1 h2 h3 h4 h5⟩ σ' v')
      (fun σ' v' => Rel.after h4 h5 σ' v')
  | doK h1 h2 h3 h4 h5 =>
    exact h1.sim (n := 0) rfl rfl rfl
      (fun σ' v' => Rel.begin ⟨_, _, h2, h3, .doK h1 h2 h3 h4 h5⟩ σ' v')
      (fun σ' v' => Rel.after h4 h5 σ' v')
  | @forK _ c a s k ctl b d adv p2 q1 q2 h1 h2 h3 h4 h5 h6 h7 =>
    cases c with
    | none =>
      obtain ⟨n, hn⟩ := GoesOn.quiet h1 M σ vals
      exact .quiet rfl rfl hn (.inl (by omega))
        (.stmt σ vals ⟨_, _, h4, h5, .advK h1 h2 h3 h4 h5 h6 h7⟩)
    | some e =>
      exact Test.sim h1 (n := 0) rfl rfl rfl
        (fun σ' v' => Rel.begin ⟨_, _, h4, h5, .advK h1 h2 h3 h4 h5 h6 h7⟩ σ' v')
        (fun σ' v' => Rel.after h6 h7 σ' v')
  | @advK _ c a s k ctl b d adv p2 q1 q2 h1 h2 h3 h4 h5 h6 h7 =>
    cases a with
    | none =>
      cases h2
      obtain ⟨n, hn⟩ := h3.quiet M σ vals
      exact .quiet rfl rfl hn (.inl (by omega)) (.next σ vals (.forK h1 rfl h3 h4 h5 h6 h7))
    | some e =>
      obtain ⟨i, h2'⟩ := h2
      exact h2'.sim (n := 0) rfl rfl rfl fun σ' v _ =>
        Rel.after h3.goes (.forK h1 (a := some e) ⟨i, h2'⟩ h3 h4 h5 h6 h7) σ' _
  | switchK h1 h2 =>
    obtain ⟨m, y, h1, h2⟩ := Rel.after h1 h2 σ vals
    exact .quiet rfl rfl h1 (.inr (by simp [CState.left, Kont.left])) h2

/-! ### Both directions -/

theorem Rel.sim {M : Sem E S V} {G : Cfg E} {L : Names} {kind : Kind} {body : Items E}
    (W : Whole G M.const L kind body) {c : CState E S V} {x : Conf E S V}
    (h : Rel G M.const L kind c x) :
    Sim M G L kind body c x ∨ ∃ r σ, c = .done r σ := by
  cases h with
  | stmt σ vals h => exact .inl (sim_stmt W h σ vals)
  | next σ vals h => exact .inl (sim_next h σ vals)
  | stuck σ vals h => exact .inr ⟨_, _, rfl⟩
  | done r σ h => exact .inr ⟨_, _, rfl⟩

/-- The graph follows the tree. -/
theorem follows {M : Sem E S V} {G : Cfg E} {L : Names} {kind : Kind} {body : Items E}
    (W : Whole G M.const L kind body) {c d : CState E S V} (h : CSteps M kind body c d)
    {x : Conf E S V} (hr : Rel G M.const L kind c x) :
    ∃ y, Steps M G x y ∧ Rel G M.const L kind d y := by
  induction h generalizing x with
  | refl => exact ⟨x, .refl _, hr⟩
  | step h _ ih =>
    rcases hr.sim W with hs | ⟨r, σ, rfl⟩
    · cases hs with
      | quiet h1 h2 h3 _ h5 =>
        rw [h] at h2; cases h2
        obtain ⟨y, hy1, hy2⟩ := ih h5
        exact ⟨y, Steps.trans h3.steps hy1, hy2⟩
      | @eval e σ n b k rest vals h1 h2 h3 h4 =>
        cases he : M.ev e σ with
        | none => rw [h3 he] at h; cases h
        | some r =>
          obtain ⟨σ', v⟩ := r
          obtain ⟨d', m, y, g1, g2, g3⟩ := h4 σ' v he
          rw [h] at g1; cases g1
          obtain ⟨z, hz1, hz2⟩ := ih g3
          exact ⟨z, Steps.trans h2.steps (.step (.eval he) (Steps.trans g2.steps hz1)), hz2⟩
    · simp [cstep] at h

/-- The tree follows the graph. -/
theorem followed {M : Sem E S V} {G : Cfg E} {L : Names} {kind : Kind} {body : Items E}
    (W : Whole G M.const L kind body) (h1 : One G) : ∀ (n w : Nat) {c : CState E S V}
    {x y : Conf E S V}, CState.left c = w → Rel G M.const L kind c x → SN M G n x y → Seen y →
    ∃ d, CSteps M kind body c d ∧
      ((∃ r σ, d = .done r σ ∧ y = .done r σ ∧ r ≠ .unspecified) ∨
        ∃ e σ b k rest vals, d.asks = some (e, σ) ∧ y = .at b ((k, e) :: rest) σ vals) := by
  intro n
  induction n using Nat.strongRecOn with
  | ind n ihn =>
  intro w
  induction w using Nat.strongRecOn with
  | ind w ihw =>
  intro c x y hw hr hn hs
  rcases hr.sim W with hsim | ⟨r, σ, rfl⟩
  · cases hsim with
    | @quiet d z m g1 g2 g3 g4 g5 =>
      obtain ⟨n', e, hn'⟩ := g3.peel h1 hn hs
      have : ∃ d', CSteps M kind body d d' ∧
          ((∃ r σ, d' = .done r σ ∧ y = .done r σ ∧ r ≠ .unspecified) ∨
            ∃ e σ b k rest vals, d'.asks = some (e, σ) ∧ y = .at b ((k, e) :: rest) σ vals) := by
        by_cases hm : m = 0
        · subst hm
          have : n' = n := by omega
          subst this
          exact ihw _ (by omega) rfl g5 hn' hs
        · exact ihn n' (by omega) _ rfl g5 hn' hs
      obtain ⟨d', k1, k2⟩ := this
      exact ⟨d', .step g2 k1, k2⟩
    | @eval e σ m b k rest vals g1 g2 g3 g4 =>
      obtain ⟨n', he, hn'⟩ := g2.peel h1 hn hs
      cases n' with
      | zero => exact ⟨c, .refl _, .inr ⟨e, σ, b, k, rest, vals, g1, hn'.symm⟩⟩
      | succ n' =>
        obtain ⟨z, hz, hn'⟩ := hn'
        cases hz with
        | @eval _ _ _ _ _ _ σ' v hev =>
          obtain ⟨d, m', z, k1, k2, k3⟩ := g4 σ' v hev
          obtain ⟨n'', he', hn''⟩ := k2.peel h1 hn' hs
          obtain ⟨d', k4, k5⟩ := ihn n'' (by omega) _ rfl k3 hn'' hs
          exact ⟨d', .step k1 k4, k5⟩
  · cases hr with
    | stuck _ vals ho =>
      cases n with
      | zero => cases hn; exact hs.elim
      | succ n =>
        obtain ⟨z, hz, -⟩ := hn
        cases hz with
        | yes he | no he | ret he => rw [ho.1] at he; simp at he
        | jump hj => exact absurd hj (ho.2 _)
    | done _ _ hne =>
      cases n with
      | zero => cases hn; exact ⟨_, .refl _, .inl ⟨r, σ, rfl, rfl, hne⟩⟩
      | succ n => obtain ⟨z, hz, -⟩ := hn; cases hz

end Verif.Statement
