import Verif.InitialLemmas
/-! The parser of initialisers puts the values where C says. -/
namespace Verif.Initial
open Verif Simple

/-- With enough fuel the function ends well. -/
def Ends {α : Type} (g : Nat → Run α) (P : α → Prop) : Prop := ∃ N, ∀ f, N ≤ f → ∃ a, g f = .ok a ∧ P a

theorem Ends.succ {α : Type} {g : Nat → Run α} {P : α → Prop} (h : Ends (fun f => g (f + 1)) P) : Ends g P := by
  obtain ⟨N, h⟩ := h
  refine ⟨N + 1, fun f hf => ?_⟩
  cases f with
  | zero => omega
  | succ f => exact h f (by omega)

theorem Ends.ok {α : Type} {P : α → Prop} (a : α) (h : P a) : Ends (fun _ => Run.ok a) P :=
  ⟨0, fun _ _ => ⟨a, rfl, h⟩⟩

theorem Ends.eq {α : Type} (a : α) : Ends (fun _ => Run.ok a) (· = a) := .ok a rfl

theorem Ends.congr {α : Type} {g g' : Nat → Run α} {P : α → Prop} (h : Ends g P) (e : ∀ f, g' f = g f) : Ends g' P := by
  obtain ⟨N, h⟩ := h
  exact ⟨N, fun f hf => by rw [e]; exact h f hf⟩

theorem Ends.bind {α β : Type} {g : Nat → Run α} {k : Nat → α → Run β} {P : α → Prop} {Q : β → Prop}
    (h : Ends g P) (hk : ∀ a, P a → Ends (fun f => k f a) Q) (one : ∀ a b, P a → P b → a = b) :
    Ends (fun f => g f >>= k f) Q := by
  obtain ⟨N, h⟩ := h
  obtain ⟨a0, _, ha0⟩ := h N (Nat.le_refl _)
  obtain ⟨M, hk⟩ := hk a0 ha0
  refine ⟨max N M, fun f hf => ?_⟩
  obtain ⟨a, ha, hp⟩ := h f (by omega)
  cases one a a0 hp ha0
  obtain ⟨b, hb, hq⟩ := hk f (by omega)
  exact ⟨b, by show (g f >>= k f) = _; rw [ha]; exact hb, hq⟩

/-- The same, where the next step depends on only a part of the result. -/
theorem Ends.bind' {α β : Type} {g : Nat → Run α} {k : Nat → α → Run β} {P : α → Prop} {Q : β → Prop}
    (h : Ends g P) (hk : ∃ M, ∀ f, M ≤ f → ∀ a, P a → ∃ b, k f a = .ok b ∧ Q b) :
    Ends (fun f => g f >>= k f) Q := by
  obtain ⟨N, h⟩ := h
  obtain ⟨M, hk⟩ := hk
  refine ⟨max N M, fun f hf => ?_⟩
  obtain ⟨a, ha, hp⟩ := h f (by omega)
  obtain ⟨b, hb, hq⟩ := hk f (by omega) a hp
  exact ⟨b, by show (g f >>= k f) = _; rw [ha]; exact hb, hq⟩

theorem Ends.mono {α : Type} {g : Nat → Run α} {P Q : α → Prop} (h : Ends g P) (hi : ∀ a, P a → Q a) : Ends g Q := by
  obtain ⟨N, h⟩ := h
  exact ⟨N, fun f hf => let ⟨a, ha, hp⟩ := h f hf; ⟨a, ha, hi a hp⟩⟩

/-! ### The loop -/

/-- What follows the initialiser of an entry in the loop. -/
def cont (f : Nat) (ty : T) (max : Option Nat) (init : Init) (idx : Nat) (inside : Bool) (toks : List Tk) :
    Run (Init × List Tk) :=
  if atDesignator toks then parseLoop f ty max init idx inside none toks
  else if inside && decide (max = some (idx + 1)) then .ok (init, toks)
  else
    match toks with
    | .comma :: .rbrace :: r => .ok (init, .rbrace :: r)
    | .comma :: r => parseLoop f ty max init (idx + 1) inside none r
    | toks => .ok (init, toks)

theorem parseLoop_eq (f : Nat) (ty : T) (max : Option Nat) (init : Init) (idx : Nat) (inside : Bool)
    (x : Option E) (toks : List Tk) :
    parseLoop (f + 1) ty max init idx inside x toks =
      if inside && atDesignator toks then .ok (init, toks)
      else (do
        let (ds, toks) ← designators ty toks
        let toks ← (if ds = [] then Run.ok toks else expect .assign toks)
        let child ← select ty (ds.headD idx)
        let l ← entries init
        let (_, c, toks) ← parseRec f child (entry l (ds.headD idx)) x ds.isEmpty ds.tail toks
        cont f ty max (.brace (setEntry l (ds.headD idx) c)) (ds.headD idx) inside toks) := by
  rw [parseLoop]; rfl

theorem parseLoop_brace : ∀ (f : Nat) (ty : T) (max : Option Nat) (l : List Init) (idx : Nat) (inside : Bool)
    (x : Option E) (toks : List Tk) (c : Init) (toks' : List Tk),
    parseLoop f ty max (.brace l) idx inside x toks = .ok (c, toks') → ∃ l', c = .brace l' := by
  intro f
  induction f with
  | zero => intro ty max l idx inside x toks c toks' h; simp [parseLoop] at h
  | succ f ih =>
    intro ty max l idx inside x toks c toks' h
    rw [parseLoop_eq] at h
    split at h
    · simp at h; exact ⟨l, h.1.symm⟩
    · cases h1 : designators ty toks with
      | ok a =>
        rw [h1] at h; simp only [Run.bind_ok] at h
        cases h2 : (if a.1 = [] then Run.ok a.2 else expect .assign a.2) with
        | ok tk =>
          rw [h2] at h; simp only [Run.bind_ok] at h
          cases h3 : select ty (a.1.headD idx) with
          | ok child =>
            rw [h3] at h; simp only [Run.bind_ok, entries] at h
            cases h4 : parseRec f child (entry l (a.1.headD idx)) x a.1.isEmpty a.1.tail tk with
            | ok b =>
              rw [h4] at h; simp only [Run.bind_ok, cont] at h
              split at h
              · exact ih _ _ _ _ _ _ _ _ _ h
              · split at h
                · simp at h; exact ⟨_, h.1.symm⟩
                · split at h
                  · simp at h; exact ⟨_, h.1.symm⟩
                  · exact ih _ _ _ _ _ _ _ _ _ h
                  · simp at h; exact ⟨_, h.1.symm⟩
            | fail => rw [h4] at h; simp at h
            | ub => rw [h4] at h; simp at h
            | more => rw [h4] at h; simp at h
          | fail => rw [h3] at h; simp at h
          | ub => rw [h3] at h; simp at h
          | more => rw [h3] at h; simp at h
        | fail => rw [h2] at h; simp at h
        | ub => rw [h2] at h; simp at h
        | more => rw [h2] at h; simp at h
      | fail => rw [h1] at h; simp at h
      | ub => rw [h1] at h; simp at h
      | more => rw [h1] at h; simp at h

theorem Ends.brace {ty max c0 idx inside x toks c toks'} (l : List Init) (hc0 : c0 = .brace l)
    (h : Ends (fun f => parseLoop f ty max c0 idx inside x toks) (· = (c, toks'))) : ∃ l', c = .brace l' := by
  obtain ⟨N, h⟩ := h
  obtain ⟨a, ha, hp⟩ := h N (Nat.le_refl _)
  subst hc0 hp
  exact parseLoop_brace _ _ _ _ _ _ _ _ _ _ ha

/-! ### Tokens -/

theorem ini_head (i : Ini) : ∃ tk r, i.write = tk :: r ∧ (∀ s, atDesignator (tk :: s) = false) ∧
    tk ≠ .rbrace ∧ tk ≠ .comma := by
  cases i with
  | expr e rc => exact ⟨_, _, by rw [Ini.write], fun _ => rfl, by simp, by simp⟩
  | str k s n => exact ⟨_, _, by rw [Ini.write], fun _ => rfl, by simp, by simp⟩
  | brace items => exact ⟨_, _, by rw [Ini.write], fun _ => rfl, by simp, by simp⟩

theorem ini_length (i : Ini) : 1 ≤ i.write.length := by
  obtain ⟨tk, r, h, _⟩ := ini_head i; rw [h]; simp

theorem desig_head {ds : List Desig} (h : ds ≠ []) : ∃ tk r, writeDesignation ds = tk :: r ∧
    (∀ s, atDesignator (tk :: s) = true) ∧ tk ≠ .rbrace ∧ tk ≠ .comma := by
  cases ds with
  | nil => exact absurd rfl h
  | cons d ds =>
    cases d with
    | index n => exact ⟨_, _, by simp [writeDesignation, writeDesigs]; exact ⟨rfl, rfl⟩, fun _ => rfl, by simp, by simp⟩
    | member n => exact ⟨_, _, by simp [writeDesignation, writeDesigs]; exact ⟨rfl, rfl⟩, fun _ => rfl, by simp, by simp⟩

theorem items_head (items : Items) : ∃ tk r, items.write = tk :: r ∧
    (∀ s, atDesignator (tk :: s) = items.designated) ∧ tk ≠ .rbrace ∧ tk ≠ .comma := by
  have key : ∀ (ds : List Desig) (i : Ini) (s : List Tk), ∃ tk r, writeDesignation ds ++ (i.write ++ s) = tk :: r ∧
      (∀ s, atDesignator (tk :: s) = !ds.isEmpty) ∧ tk ≠ .rbrace ∧ tk ≠ .comma := by
    intro ds i s
    by_cases h : ds = []
    · subst h
      obtain ⟨tk, r, h1, h2, h3⟩ := ini_head i
      exact ⟨tk, r ++ s, by simp [writeDesignation, h1], by simpa using h2, h3⟩
    · obtain ⟨tk, r, h1, h2, h3⟩ := desig_head h
      refine ⟨tk, r ++ (i.write ++ s), by rw [h1]; rfl, ?_, h3⟩
      intro s; rw [h2]; simp [h]
  cases items with
  | one ds i c => rw [Items.write]; exact key ds i _
  | more ds i rest => rw [Items.write]; exact key ds i _

theorem items_length (items : Items) : 1 ≤ items.write.length := by
  obtain ⟨tk, r, h, _⟩ := items_head items; rw [h]; simp

/-- How the first initialiser is given to a function: as tokens, or as an expression that has been
read. -/
def Entry (i : Ini) (x : Option E) (toks r : List Tk) : Prop :=
  (x = none ∧ toks = i.write ++ r) ∨
  (∃ e rc, i = .expr e rc ∧ x = some ⟨.expr e, rc⟩ ∧ toks = r)

/-! ### The state between two initialisers -/

/-- The initialisers that remain; the comma in front of them has not been read. -/
inductive Rem (root : T) (n : Nat) (r : List Tk) : Option Path → List Tk → List Ev → Bool → Prop where
  | done {cur} (c : Bool) : Rem root n r cur ((if c then [.comma] else []) ++ (.rbrace :: r)) [] true
  | more {cur rest evs} : InitItems true root cur rest evs → rest.write.length ≤ n →
      Rem root n r cur (.comma :: (rest.write ++ (.rbrace :: r))) evs rest.designated

/-- The same, when the comma may have been read. -/
inductive Out (root : T) (n : Nat) (r : List Tk) (q : Path) : List Tk → List Ev → Bool → Prop where
  | rem {toks evs d} : Rem root n r (next root q) toks evs d → Out root n r q toks evs d
  | closed : Out root n r q (.rbrace :: r) [] true
  | head {cur rest evs} : rest.designated = true → InitItems true root cur rest evs → rest.write.length ≤ n →
      Out root n r q (rest.write ++ (.rbrace :: r)) evs true

theorem Rem.mono {root n m r cur toks evs d} (h : Rem root n r cur toks evs d) (hm : n ≤ m) :
    Rem root m r cur toks evs d := by
  cases h with
  | done c => exact .done c
  | more h1 h2 => exact .more h1 (by omega)

theorem Out.mono {root n m r q toks evs d} (h : Out root n r q toks evs d) (hm : n ≤ m) :
    Out root m r q toks evs d := by
  cases h with
  | rem h => exact .rem (h.mono hm)
  | closed => exact .closed
  | head h1 h2 h3 => exact .head h1 h2 (by omega)

theorem Rem.head {root n r cur toks evs d} (h : Rem root n r cur toks evs d) : atDesignator toks = false := by
  cases h with
  | done c => cases c <;> rfl
  | more => rfl

theorem designated_any {root cur cur' rest evs} (hd : rest.designated = true) (h : InitItems true root cur rest evs) :
    InitItems true root cur' rest evs := by
  cases h with
  | one ht ha hp =>
    cases ht with
    | current => simp [Items.designated] at hd
    | designated h1 h2 => exact .one (.designated h1 h2) ha hp
  | more ht ha hp hr hx =>
    cases ht with
    | current => simp [Items.designated] at hd
    | designated h1 h2 => exact .more (.designated h1 h2) ha hp hr hx

/-- The type of an object after its initialiser. -/
def resType (t : T) (i : Ini) (c : Init) : T :=
  match t with
  | .unknown u =>
    let len := match c with
      | .brace l => .array l.length u
      | _ => t
    match i with
    | .str _ _ n => .array n u
    | .brace (.one [] (.str k _ n) _) => if isCharArray k t then .array n u else len
    | _ => len
  | t => t

def ObjOK (t : T) (i : Ini) (evs : List Ev) : Prop :=
  ∀ c c' inside x toks r, Entry i x toks r → applyAll evs c = some c' →
    Ends (fun f => parseRec f t c x inside [] toks) (· = (resType t i c', c', r))

def HObj (n : Nat) : Prop := ∀ i, i.write.length ≤ n → ∀ t evs, InitObj true t i evs → ObjOK t i evs

theorem InitObj.ne_nil {plain t i evs} (h : InitObj plain t i evs) : evs ≠ [] := by cases h <;> simp

theorem Puts.ne_nil {plain t i p evs} (h : Puts plain t i p evs) : evs ≠ [] := by
  induction p generalizing t evs with
  | nil => cases h with | here h => exact h.ne_nil
  | cons j p ih => cases h with | down _ _ _ h => simp [ih h]

/-- Inside the part at `q`. -/
def LoopOK (root : T) (r : List Tk) (m : Nat) : Prop :=
  ∀ q u i rest evs, root.at q = some u → InParts u i → rest.designated = false →
    InitItems true root (some (q ++ [i])) rest evs → rest.write.length ≤ m →
    ∃ evs1 evs2 toks' d', evs1 ≠ [] ∧ evs = evs1.map (Ev.under q) ++ evs2 ∧ Out root m r q toks' evs2 d' ∧
      ∀ c c', applyAll evs1 c = some c' →
        Ends (fun f => parseLoop f u u.parts (opened c) i true none (rest.write ++ (.rbrace :: r))) (· = (c', toks'))

def ContOK (root : T) (r : List Tk) (m : Nat) : Prop :=
  ∀ q u i toks evs d, root.at q = some u → InParts u i → (∃ v, u.sub i = some v) → Out root m r (q ++ [i]) toks evs d →
    ∃ evs1 evs2 toks' d', evs = evs1.map (Ev.under q) ++ evs2 ∧ Out root m r q toks' evs2 d' ∧ (d = true → d' = true) ∧
      ∀ l c', applyAll evs1 (.brace l) = some c' →
        Ends (fun f => cont f u u.parts (.brace l) i true toks) (· = (c', toks'))

theorem cont_of_loop {root r m} (HL : LoopOK root r m) : ContOK root r m := by
  intro q u i toks evs d hq hi hs ho
  cases ho with
  | rem hr =>
    have hn := next_snoc root q u i hq hs
    have hat := hr.head
    by_cases hmax : u.hasNext i = true
    · rw [hmax] at hn; simp only [if_true] at hn
      have hne : ¬ (u.parts = some (i + 1)) := fun e => by
        have := (hasNext_iff hi).2 e; rw [hmax] at this; cases this
      rw [hn] at hr
      cases hr with
      | done c =>
        refine ⟨[], [], .rbrace :: r, true, rfl, .closed, fun _ => rfl, ?_⟩
        intro l c' hc
        simp only [applyAll, Option.some.injEq] at hc
        subst hc
        refine (Ends.eq (Init.brace l, .rbrace :: r)).congr (fun f => ?_)
        cases c <;> simp [cont, atDesignator, hne]
      | @more rest _ hit hlen =>
        obtain ⟨tk, s, h1, h2, h3, h4⟩ := items_head rest
        have hcont : ∀ f l, cont f u u.parts (.brace l) i true (.comma :: (rest.write ++ (.rbrace :: r))) =
            parseLoop f u u.parts (.brace l) (i + 1) true none (rest.write ++ (.rbrace :: r)) := by
          intro f l
          rw [h1]
          simp only [cont, List.cons_append, atDesignator, hne]
          simp
          split
          · rename_i heq; simp at heq; exact absurd heq.1 h3
          · rename_i heq; simp at heq; rw [heq]
          · rename_i h; simp at h
        by_cases hd : rest.designated = true
        · refine ⟨[], evs, rest.write ++ (.rbrace :: r), true, rfl, .head hd hit hlen, fun _ => rfl, ?_⟩
          intro l c' hc
          simp only [applyAll, Option.some.injEq] at hc
          subst hc
          refine Ends.succ ((Ends.eq (Init.brace l, rest.write ++ (.rbrace :: r))).congr (fun f => ?_))
          rw [hcont, parseLoop_eq]
          have : atDesignator (rest.write ++ (.rbrace :: r)) = true := by
            rw [h1, List.cons_append, h2, hd]
          simp [this]
        · have hd' : rest.designated = false := by simpa using hd
          obtain ⟨evs1, evs2, toks', d', _, he, ho', hx⟩ := HL q u (i + 1) rest evs hq (inParts_succ hmax) hd' hit hlen
          refine ⟨evs1, evs2, toks', d', he, ho', fun h => absurd h hd, ?_⟩
          intro l c' hc
          exact (hx (.brace l) c' hc).congr (fun f => hcont f l)
    · have hmax' : u.hasNext i = false := by simpa using hmax
      rw [hmax'] at hn; simp only [Bool.false_eq_true, if_false] at hn
      rw [hn] at hr
      refine ⟨[], evs, toks, d, rfl, .rem hr, id, ?_⟩
      intro l c' hc
      simp only [applyAll, Option.some.injEq] at hc
      subst hc
      refine (Ends.eq (Init.brace l, toks)).congr (fun f => ?_)
      have := (hasNext_iff hi).1 hmax'
      simp [cont, hat, this]
  | closed =>
    refine ⟨[], [], .rbrace :: r, true, rfl, .closed, fun _ => rfl, ?_⟩
    intro l c' hc
    simp only [applyAll, Option.some.injEq] at hc
    subst hc
    refine (Ends.eq (Init.brace l, .rbrace :: r)).congr (fun f => ?_)
    simp [cont, atDesignator]
  | @head cur rest _ hd hit hlen =>
    refine ⟨[], evs, rest.write ++ (.rbrace :: r), true, rfl, .head hd hit hlen, fun _ => rfl, ?_⟩
    intro l c' hc
    simp only [applyAll, Option.some.injEq] at hc
    subst hc
    obtain ⟨tk, s, h1, h2, h3, h4⟩ := items_head rest
    have : atDesignator (rest.write ++ (.rbrace :: r)) = true := by
      rw [h1, List.cons_append, h2, hd]
    refine Ends.succ ((Ends.eq (Init.brace l, rest.write ++ (.rbrace :: r))).congr (fun f => ?_))
    simp only [cont, this, if_true]
    rw [parseLoop_eq]
    simp [this]


/-! ### An initialiser without designator inside a part -/

theorem takes_sameType {u : T} {e rc} (hu : u.isAggregate = true) (hc : takes u (.expr e rc) = true → sameConst u (.expr e rc) = true) :
    sameType ⟨.expr e, rc⟩ u = takes u (.expr e rc) := by
  cases u with
  | record b id fs =>
    cases rc with
    | none => simp [takes, sameType]
    | some r =>
      cases r; cases id
      simp [takes, sameType, sameConst] at hc ⊢
      exact hc
  | _ => simp_all [T.isAggregate, takes, sameType]

theorem matchString_eq (k : StrKind) (u : T) : matchString k u = isCharArray k u := by
  cases u with
  | array n e => cases e <;> simp [matchString, isCharArray]; cases k <;> simp [takesString, Bool.or_comm, Bool.or_left_comm, Bool.or_assoc]
  | unknown e => cases e <;> simp [matchString, isCharArray]; cases k <;> simp [takesString, Bool.or_comm, Bool.or_left_comm, Bool.or_assoc]
  | _ => rfl

/-- An initialiser that the part does not take goes to the first part of it. -/
theorem parseRec_down {u : T} {i : Ini} {after x toks c} (inside : Bool) (hl : i.isLeaf = true) (ht : takes u i = false)
    (hs : ∃ v, u.sub 0 = some v) (he : Entry i x toks after) (ha : atDesignator after = false)
    (hb : after.head? ≠ some .lbrace) (hin : inside = false → x = none) :
    ∃ x' toks', Entry i x' toks' after ∧ ∀ l toks2,
      Ends (fun f => parseLoop f u u.parts (opened c) 0 true x' toks') (· = (.brace l, toks2)) →
      Ends (fun f => parseRec f u c x inside [] toks) (fun a => a.2 = (.brace l, toks2)) := by
  obtain ⟨v, hs⟩ := hs
  have hu := aggregate_of_sub hs
  have hz := inParts_zero hs
  have hany : u.parts.any (· ≤ 0) = false := by
    cases hp : u.parts with
    | none => rfl
    | some n => have := hz n hp; simp; omega
  have hbr : ∀ (x' : Option E) toks' l toks2,
      Ends (fun f => parseLoop f u u.parts (opened c) 0 true x' toks') (· = (.brace l, toks2)) →
      Ends (fun f => parseBrace f u c 0 true x' toks') (· = (.brace l, toks2)) := by
    intro x' toks' l toks2 h
    apply Ends.succ
    refine Ends.mono (P := (· = (.brace l, toks2))) ?_ (fun a h => h)
    refine Ends.congr (g := fun f => parseLoop f u u.parts (opened c) 0 true x' toks' >>= fun a => .ok a) ?_ ?_
    · refine Ends.bind h ?_ (fun a b ha hb => by rw [ha, hb])
      intro a ha; rw [ha]; exact Ends.eq _
    · intro f
      rw [parseBrace]
      simp only [maxMembers_of hu, if_true, Run.bind_ok, hany, Bool.and_false, Bool.false_eq_true, if_false]
  have hcomp : ∀ l, ∃ ty, completed u (.brace l) = .ok ty := by
    intro l; cases u <;> exact ⟨_, rfl⟩
  have hstep : ∀ (x' : Option E) toks' l toks2 (g : Nat → Run (T × Init × List Tk)) (b : Bool),
      (∀ f, g (f + 1) = parseBrace f u c 0 true x' toks' >>= fun a =>
        if b then (completed u a.1 >>= fun ty => .ok (ty, a.1, a.2)) else .ok (u, a.1, a.2)) →
      Ends (fun f => parseLoop f u u.parts (opened c) 0 true x' toks') (· = (.brace l, toks2)) →
      Ends g (fun a => a.2 = (.brace l, toks2)) := by
    intro x' toks' l toks2 g b hg h
    apply Ends.succ
    refine Ends.congr ?_ hg
    refine Ends.bind (hbr x' toks' l toks2 h) ?_ (fun a b ha hb => by rw [ha, hb])
    intro a ha; subst ha
    obtain ⟨ty, hty⟩ := hcomp l
    cases b
    · exact Ends.ok _ rfl
    · simp only [if_true, hty, Run.bind_ok]; exact Ends.ok _ rfl
  cases i with
  | brace items => simp [Ini.isLeaf] at hl
  | expr e rc =>
    have hst := takes_sameType (u := u) (e := e) (rc := rc) hu (fun h => by rw [ht] at h; cases h)
    rw [ht] at hst
    have hx : ∀ inside' c' f, inside' = true → parseRec (f + 1) u c' (some ⟨.expr e, rc⟩) inside' [] after =
        parseBrace f u c' 0 true (some ⟨.expr e, rc⟩) after >>= fun a => .ok (u, a.1, a.2) := by
      intro inside' c' f hi
      subst hi
      rw [parseRec]
      simp [hu, hst, hb]
    refine ⟨some ⟨.expr e, rc⟩, after, .inr ⟨e, rc, rfl, rfl, rfl⟩, ?_⟩
    intro l toks2 h
    cases inside with
    | true =>
      refine hstep _ after l toks2 _ false ?_ h
      intro f
      rcases he with ⟨h1, h2⟩ | ⟨e', rc', h0, h1, h2⟩
      · subst h1 h2
        rw [parseRec]
        simp [hu, hst, hb, Ini.write, stringNext, assignmentExpression]
      · cases h0; subst h1 h2
        rw [hx true c f rfl]; rfl
    | false =>
      have h1 := hin rfl
      rcases he with ⟨_, h2⟩ | ⟨e', rc', _, h1', _⟩
      · subst h1 h2
        have h3 : Ends (fun f => parseRec f u c (some ⟨.expr e, rc⟩) true [] after) (fun a => a.2 = (.brace l, toks2)) := by
          refine hstep _ after l toks2 _ false ?_ h
          intro f; rw [hx true c f rfl]; rfl
        apply Ends.succ
        refine Ends.congr (g := fun f => parseRec f u c (some ⟨.expr e, rc⟩) true [] after >>= fun a =>
          completed a.1 a.2.1 >>= fun ty => .ok (ty, a.2.1, a.2.2)) ?_ ?_
        · refine Ends.bind' h3 ⟨0, ?_⟩
          intro f _ a ha
          obtain ⟨ty, c1, t1⟩ := a
          simp only [Prod.mk.injEq] at ha
          obtain ⟨rfl, rfl⟩ := ha
          have : ∃ ty', completed ty (.brace l) = .ok ty' := by cases ty <;> exact ⟨_, rfl⟩
          obtain ⟨ty', hty'⟩ := this
          exact ⟨(ty', .brace l, t1), by simp [hty'], rfl⟩
        · intro f
          rw [parseRec]
          simp [hu, hst, Ini.write, stringNext, assignmentExpression]
      · rw [h1] at h1'; cases h1'
  | str k s n =>
    have hm : matchString k u = false := by
      rw [matchString_eq]; simp [takes, hu] at ht; exact ht
    rcases he with ⟨h1, h2⟩ | ⟨e', rc', h0, _⟩
    · subst h1 h2
      refine ⟨none, _, .inl ⟨rfl, rfl⟩, ?_⟩
      intro l toks2 h
      refine hstep _ _ l toks2 _ true ?_ h
      intro f
      rw [parseRec]
      simp only [hu, Ini.write, stringNext, List.cons_append, List.nil_append]
      cases inside <;> simp [hm, stringNext, hu] <;> (cases parseBrace f u c 0 true none (Tk.str k s n :: after) <;> rfl)
    · cases h0


theorem Rem.notBrace {root n r cur toks evs d} (h : Rem root n r cur toks evs d) : toks.head? ≠ some .lbrace := by
  cases h with
  | done c => cases c <;> simp
  | more => simp

theorem Entry.notDesig {i x toks r} (h : Entry i x toks r) (hr : atDesignator r = false) : atDesignator toks = false := by
  rcases h with ⟨_, h⟩ | ⟨_, _, _, _, h⟩
  · obtain ⟨tk, s, h1, h2, _⟩ := ini_head i
    rw [h, h1]; exact h2 _
  · rw [h]; exact hr

/-- What a call for the part at `q` does. -/
def ChildOK (root : T) (m : Nat) (r : List Tk) (q : Path) (u : T) (i : Ini) (after : List Tk) (evs : List Ev) (d : Bool) : Prop :=
  ∃ evs1 evs2 toks' d', evs1 ≠ [] ∧ evs = evs1.map (Ev.under q) ++ evs2 ∧ Out root m r q toks' evs2 d' ∧
    (d = true → d' = true) ∧
    ∀ c c' x toks, Entry i x toks after → applyAll evs1 c = some c' →
      Ends (fun f => parseRec f u c x true [] toks) (fun a => a.2 = (c', toks'))

/-- What the loop inside the part at `q` does. -/
def RoundOK (root : T) (m : Nat) (r : List Tk) (q : Path) (u : T) (j : Nat) (i : Ini) (after : List Tk) (evs : List Ev) (d : Bool) : Prop :=
  ∃ evs1 evs2 toks' d', evs1 ≠ [] ∧ evs = evs1.map (Ev.under q) ++ evs2 ∧ Out root m r q toks' evs2 d' ∧
    (d = true → d' = true) ∧
    ∀ c c' x toks, Entry i x toks after → applyAll evs1 c = some c' →
      Ends (fun f => parseLoop f u u.parts (opened c) j true x toks) (· = (c', toks')) ∧ ∃ l, c' = .brace l

theorem round_of_child {root m r q u j v i after evs d} (HC : ContOK root r m) (hq : root.at q = some u)
    (hj : InParts u j) (hs : u.sub j = some v) (hd : atDesignator after = false)
    (h : ChildOK root m r (q ++ [j]) v i after evs d) : RoundOK root m r q u j i after evs d := by
  obtain ⟨e1, e2, toks1, d1, hne, he, ho, hdd, hx⟩ := h
  obtain ⟨k1, k2, toks2, d2, hk, ho2, hdd2, hx2⟩ := HC q u j toks1 e2 d1 hq hj ⟨v, hs⟩ ho
  refine ⟨e1.map (Ev.under [j]) ++ k1, k2, toks2, d2, by simp [hne], ?_, ho2, fun h => hdd2 (hdd h), ?_⟩
  · rw [he, hk, List.map_append, map_under_under, List.append_assoc]
  · intro c c' x toks hen ha
    rw [applyAll_append] at ha
    cases ha1 : applyAll (e1.map (Ev.under [j])) c with
    | none => rw [ha1] at ha; cases ha
    | some c1 =>
      rw [ha1] at ha; simp only [Option.bind_some] at ha
      obtain ⟨l, dd, hl, hdx, hc1⟩ := applyAll_under hne ha1
      subst hc1
      have hloop : Ends (fun f => parseLoop f u u.parts (opened c) j true x toks) (· = (c', toks2)) := by
        apply Ends.succ
        refine Ends.congr (g := fun f => parseRec f v (entry l j) x true [] toks >>= fun a =>
          cont f u u.parts (.brace (setEntry l j a.2.1)) j true a.2.2) ?_ ?_
        · refine Ends.bind' (hx _ _ x toks hen hdx) ?_
          obtain ⟨M, hM⟩ := hx2 _ _ ha
          refine ⟨M, fun f hf a ha' => ?_⟩
          rw [ha']; exact hM f hf
        · intro f
          rw [parseLoop_eq]
          have hnd := hen.notDesig hd
          have hent : entries (opened c) = .ok l := entries_of (by rw [entriesO_opened]; exact hl)
          simp only [hnd, Bool.and_false, Bool.false_eq_true, if_false, designators_none u hnd, Run.bind_ok, if_true,
            List.headD_nil, select_of hs, hent, List.isEmpty_nil, List.tail_nil]
      have : ∃ l0, opened c = .brace l0 := by
        cases c <;> simp_all [entriesO, opened]
      obtain ⟨l0, hl0⟩ := this
      exact ⟨hloop, Ends.brace l0 hl0 hloop⟩

theorem child_of {root r m n} (HO : HObj n) (HC : ContOK root r m) {i : Ini} (hi : i.write.length ≤ n)
    {after : List Tk} {evs' : List Ev} {d : Bool} :
    ∀ (p : Path) (u : T) (evs0 : List Ev) (q : Path), Puts true u i p evs0 → root.at q = some u →
      Rem root m r (next root (q ++ p)) after evs' d →
      ChildOK root m r q u i after (evs0.map (Ev.under q) ++ evs') d := by
  intro p
  induction p with
  | nil =>
    intro u evs0 q hp hq hr
    cases hp with
    | here ho =>
      rw [List.append_nil] at hr
      refine ⟨evs0, evs', after, d, ho.ne_nil, rfl, .rem hr, id, ?_⟩
      intro c c' x toks hen ha
      exact (HO i hi u evs0 ho c c' true x toks after hen ha).mono (fun a h => by rw [h])
  | cons j p ih =>
    intro u evs0 q hp hq hr
    cases hp with
    | @down _ _ v _ evs1 hl ht hs hp =>
      have hr' : Rem root m r (next root ((q ++ [0]) ++ p)) after evs' d := by simpa using hr
      have hch := ih v evs1 (q ++ [0]) hp (at_snoc hq hs) hr'
      have hro := round_of_child HC hq (inParts_zero hs) hs hr.head hch
      obtain ⟨f1, f2, toks', d', hne, he, ho, hdd, hx⟩ := hro
      refine ⟨f1, f2, toks', d', hne, ?_, ho, hdd, ?_⟩
      · rw [← he, map_under_under]
      · intro c c' x toks hen ha
        obtain ⟨x', tk', hen', hgo⟩ := parseRec_down (c := c) true hl ht ⟨v, hs⟩ hen hr.head hr.notBrace (by simp)
        obtain ⟨h1, l, h2⟩ := hx c c' x' tk' hen' ha
        subst h2
        exact hgo l toks' h1

/-- A list that goes on: its first initialiser and what follows. -/
theorem split_items {root cur rest evs r} (h : InitItems true root cur rest evs) :
    ∃ ds i after q u p evs0 evs' d, Target root cur ds q ∧ root.at q = some u ∧ Puts true u i p evs0 ∧
      rest.write ++ (.rbrace :: r) = writeDesignation ds ++ (i.write ++ after) ∧ evs = evs0.map (Ev.under q) ++ evs' ∧
      (∀ m, rest.write.length ≤ m + 1 → Rem root m r (next root (q ++ p)) after evs' d) ∧
      i.write.length ≤ rest.write.length ∧ (rest.designated = !ds.isEmpty) ∧
      (ds ≠ [] → d = false → roomy root q = true) := by
  cases h with
  | @one _ _ ds i comma q u p evs0 ht ha hp =>
    refine ⟨ds, i, (if comma then [.comma] else []) ++ (.rbrace :: r), q, u, p, evs0, [], true, ht, ha, hp, ?_, by simp,
      fun _ _ => .done comma, ?_, rfl, fun _ h => by cases h⟩
    · rw [Items.write]; simp
    · rw [Items.write]; simp; omega
  | @more _ _ ds i rest q u p evs0 evs' ht ha hp hr hx =>
    refine ⟨ds, i, .comma :: (rest.write ++ (.rbrace :: r)), q, u, p, evs0, evs', rest.designated, ht, ha, hp, ?_, rfl,
      fun m hm => .more hr ?_, ?_, rfl, fun h1 h2 => hx rfl h1 h2⟩
    · rw [Items.write]; simp
    · rw [Items.write] at hm; simp at hm; omega
    · rw [Items.write]; simp; omega

theorem loop_ok {root r n} (HO : HObj n) : ∀ m, m ≤ n → LoopOK root r m := by
  intro m
  induction m with
  | zero =>
    intro _ q u i rest evs _ _ _ _ h
    have := items_length rest; omega
  | succ m ih =>
    intro hm q u j rest evs hq hj hd hit hlen
    have HC := cont_of_loop (ih (by omega))
    obtain ⟨ds, i, after, q', v, p, evs0, evs', d, ht, ha, hp, hw, he, hrem, hil, hdes, _⟩ := split_items (r := r) hit
    rw [hd] at hdes
    have hds : ds = [] := by simpa using hdes
    subst hds
    cases ht with
    | designated h _ => exact absurd rfl h
    | current =>
      have hs : u.sub j = some v := by
        rw [at_append, hq] at ha
        simp only [Option.bind_some, T.at] at ha
        cases hs : u.sub j with
        | none => rw [hs] at ha; cases ha
        | some w => rw [hs] at ha; exact ha
      have hr := hrem m (by omega)
      have hch := child_of HO HC (i := i) (by omega) p v evs0 (q ++ [j]) hp ha hr
      obtain ⟨e1, e2, toks', d', hne, he1, ho, _, hx⟩ := round_of_child HC hq hj hs hr.head hch
      refine ⟨e1, e2, toks', d', hne, by rw [he, he1], ho.mono (by omega), ?_⟩
      intro c c' hc
      refine (hx c c' none _ (.inl ⟨rfl, ?_⟩) hc).1
      rw [hw]; simp [writeDesignation]

/-! ### Designated parts -/

theorem parseBrace_inside {u c j x toks P} (hu : u.isAggregate = true) (hj : u.parts.any (· ≤ j) = false)
    (h : Ends (fun f => parseLoop f u u.parts (opened c) j true x toks) P) :
    Ends (fun f => parseBrace f u c j true x toks) P := by
  apply Ends.succ
  refine h.congr (fun f => ?_)
  rw [parseBrace]
  simp only [maxMembers_of hu, if_true, Run.bind_ok, hj, Bool.and_false, Bool.false_eq_true, if_false]
  cases parseLoop f u u.parts (opened c) j true x toks <;> rfl

theorem nest_of {root r m n} (HO : HObj n) (HL : LoopOK root r m) {i : Ini} (hi : i.write.length ≤ n)
    {after : List Tk} {evs' : List Ev} {d : Bool} {u : T} {p : Path} {evs0 : List Ev} (hp : Puts true u i p evs0) :
    ∀ (ds : Path) (u0 : T) (q0 : Path), root.at q0 = some u0 → u0.at ds = some u →
      Rem root m r (next root (q0 ++ ds ++ p)) after evs' d → (d = false → roomyIn u0 ds = true) →
      ∃ evs1 evs2 toks' d', evs1 ≠ [] ∧ evs0.map (Ev.under (q0 ++ ds)) ++ evs' = evs1.map (Ev.under q0) ++ evs2 ∧
        Out root m r q0 toks' evs2 d' ∧ (d = true → d' = true) ∧
        ∀ c c', applyAll evs1 c = some c' →
          Ends (fun f => parseRec f u0 c none false ds (i.write ++ after)) (fun a => a.2 = (c', toks')) := by
  have HC := cont_of_loop HL
  intro ds
  induction ds with
  | nil =>
    intro u0 q0 hq hu hr _
    simp only [T.at, Option.some.injEq] at hu
    subst hu
    rw [List.append_nil] at hr ⊢
    cases hp with
    | here ho =>
      rw [List.append_nil] at hr
      refine ⟨evs0, evs', after, d, ho.ne_nil, rfl, .rem hr, id, ?_⟩
      intro c c' ha
      exact (HO i hi _ evs0 ho c c' false none _ after (.inl ⟨rfl, rfl⟩) ha).mono (fun a h => by rw [h])
    | @down _ _ v p' evs1 hl ht hs hp =>
      have hr' : Rem root m r (next root ((q0 ++ [0]) ++ p')) after evs' d := by simpa using hr
      have hch := child_of HO HC hi p' v evs1 (q0 ++ [0]) hp (at_snoc hq hs) hr'
      obtain ⟨f1, f2, toks', d', hne, he, ho, hdd, hx⟩ := round_of_child HC hq (inParts_zero hs) hs hr.head hch
      refine ⟨f1, f2, toks', d', hne, ?_, ho, hdd, ?_⟩
      · rw [← he, map_under_under]
      · intro c c' ha
        obtain ⟨x', tk', hen', hgo⟩ := parseRec_down (c := c) (x := none) (toks := i.write ++ after) false hl ht ⟨v, hs⟩
          (.inl ⟨rfl, rfl⟩) hr.head hr.notBrace (by simp)
        obtain ⟨h1, l, h2⟩ := hx c c' x' tk' hen' ha
        subst h2
        exact hgo l toks' h1
  | cons j ds ih =>
    intro u0 q0 hq hu hr hroom
    simp only [T.at] at hu
    cases hs : u0.sub j with
    | none => rw [hs] at hu; cases hu
    | some v =>
      rw [hs] at hu
      have hag := aggregate_of_sub hs
      have hr' : Rem root m r (next root ((q0 ++ [j]) ++ ds ++ p)) after evs' d := by simpa using hr
      obtain ⟨e1, e2, toks1, d1, hne, he, ho, hdd, hx⟩ := ih v (q0 ++ [j]) (at_snoc hq hs) hu hr' (fun h => by
        have := hroom h
        simp only [roomyIn, hs, Bool.and_eq_true] at this
        exact this.2)
      -- the parse of the inner part, then what this level does
      have step : ∀ (c : Init) (l : List Init) (dd : Init) (P : Init × List Tk → Prop), entriesO c = some l →
          applyAll e1 (entry l j) = some dd →
          Ends (fun f => match toks1 with
            | .comma :: .rbrace :: r => Run.ok (Init.brace (setEntry l j dd), Tk.rbrace :: r)
            | .comma :: r => parseBrace f u0 (.brace (setEntry l j dd)) (j + 1) true none r
            | toks => .ok (.brace (setEntry l j dd), toks)) P →
          Ends (fun f => parseRec f u0 c none false (j :: ds) (i.write ++ after)) (fun a => P a.2) := by
        intro c l dd P hl hdx hP
        apply Ends.succ
        refine Ends.congr (g := fun f => parseRec f v (entry l j) none false ds (i.write ++ after) >>= fun a =>
          (match a.2.2 with
            | .comma :: .rbrace :: r => Run.ok (Init.brace (setEntry l j a.2.1), Tk.rbrace :: r)
            | .comma :: r => parseBrace f u0 (.brace (setEntry l j a.2.1)) (j + 1) true none r
            | toks => .ok (.brace (setEntry l j a.2.1), toks)) >>= fun b => .ok (u0, b.1, b.2)) ?_ ?_
        · refine Ends.bind' (hx _ _ hdx) ?_
          obtain ⟨M, hM⟩ := hP
          refine ⟨M, fun f hf a ha => ?_⟩
          rw [ha]
          obtain ⟨b, hb, hpb⟩ := hM f hf
          refine ⟨(u0, b.1, b.2), ?_, hpb⟩
          dsimp only at hb ⊢
          rw [hb]; rfl
        · intro f
          rw [parseRec]
          simp only [select_of hs, Run.bind_ok, entries_of hl]
          congr 1
          funext a
          obtain ⟨ty, c1, tk⟩ := a
          dsimp only
          split <;> simp
      have fin : ∀ (evs2 : List Ev) (toks' : List Tk) (d' : Bool), e2 = evs2 → Out root m r q0 toks' evs2 d' →
          (d1 = true → d' = true) →
          (∀ c l dd, entriesO c = some l → applyAll e1 (entry l j) = some dd →
            Ends (fun f => parseRec f u0 c none false (j :: ds) (i.write ++ after)) (fun a => a.2 = (.brace (setEntry l j dd), toks'))) →
          _ := fun evs2 toks' d' hee hoo hd hE => (⟨e1.map (Ev.under [j]), evs2, toks', d', by simp [hne], by
            rw [map_under_under, ← hee, ← he]; simp, hoo, fun h => hd (hdd h), by
            intro c c' ha
            obtain ⟨l, dd, hl, hdx, hc'⟩ := applyAll_under hne ha
            subst hc'
            exact hE c l dd hl hdx⟩ : ∃ evs1 evs2 toks' d', evs1 ≠ [] ∧ evs0.map (Ev.under (q0 ++ j :: ds)) ++ evs' = evs1.map (Ev.under q0) ++ evs2 ∧
        Out root m r q0 toks' evs2 d' ∧ (d = true → d' = true) ∧
        ∀ c c', applyAll evs1 c = some c' →
          Ends (fun f => parseRec f u0 c none false (j :: ds) (i.write ++ after)) (fun a => a.2 = (c', toks')))
      cases ho with
      | closed =>
        refine fin [] (.rbrace :: r) true rfl .closed (fun _ => rfl) ?_
        intro c l dd hl hdx
        exact step c l dd (· = (.brace (setEntry l j dd), .rbrace :: r)) hl hdx (Ends.eq _)
      | @head cur rest _ hdes hit hlen =>
        refine fin e2 _ true rfl (.head hdes hit hlen) (fun _ => rfl) ?_
        intro c l dd hl hdx
        refine step c l dd (· = (.brace (setEntry l j dd), rest.write ++ (.rbrace :: r))) hl hdx ?_
        obtain ⟨tk, s, h1, h2, h3, h4⟩ := items_head rest
        refine (Ends.eq _).congr (fun f => ?_)
        rw [h1]
        simp only [List.cons_append]
        split
        · rename_i heq; simp at heq; exact absurd heq.1 h4
        · rename_i heq; simp at heq; exact absurd heq.1 h4
        · rfl
      | rem hrem =>
        have hnx := next_snoc root q0 u0 j hq ⟨v, hs⟩
        cases hrem with
        | done b =>
          refine fin [] (.rbrace :: r) true rfl .closed (fun _ => rfl) ?_
          intro c l dd hl hdx
          refine step c l dd (· = (.brace (setEntry l j dd), .rbrace :: r)) hl hdx ?_
          cases b <;> exact Ends.eq _
        | @more rest _ hit hlen =>
          obtain ⟨tk, s, h1, h2, h3, h4⟩ := items_head rest
          have hmatch : ∀ (f : Nat) (l : List Init) (dd : Init), (match (Tk.comma :: (rest.write ++ (.rbrace :: r)) : List Tk) with
            | .comma :: .rbrace :: r => Run.ok (Init.brace (setEntry l j dd), Tk.rbrace :: r)
            | .comma :: r => parseBrace f u0 (.brace (setEntry l j dd)) (j + 1) true none r
            | toks => .ok (.brace (setEntry l j dd), toks)) =
              parseBrace f u0 (.brace (setEntry l j dd)) (j + 1) true none (rest.write ++ (.rbrace :: r)) := by
            intro f l dd
            rw [h1]
            simp only [List.cons_append]
            split
            · rename_i heq; simp at heq; exact absurd heq.1 h3
            · rename_i heq; simp at heq; rw [heq]
            · rename_i h; simp at h
          by_cases hdes : rest.designated = true
          · refine fin e2 _ true rfl (.head hdes hit hlen) (fun _ => rfl) ?_
            intro c l dd hl hdx
            refine step c l dd (· = (.brace (setEntry l j dd), rest.write ++ (.rbrace :: r))) hl hdx ?_
            refine Ends.congr ?_ (fun f => hmatch f l dd)
            by_cases hany : u0.parts.any (· ≤ j + 1) = true
            · refine Ends.succ ((Ends.eq _).congr (fun f => ?_))
              rw [parseBrace]
              simp [maxMembers_of hag, hany, opened]
            · refine parseBrace_inside hag (by simpa using hany) ?_
              refine Ends.succ ((Ends.eq _).congr (fun f => ?_))
              rw [parseLoop_eq]
              have : atDesignator (rest.write ++ (.rbrace :: r)) = true := by
                rw [h1, List.cons_append, h2, hdes]
              simp [this, opened]
          · have hd1 : rest.designated = false := by simpa using hdes
            have hd0 : d = false := by
              cases hd : d with
              | false => rfl
              | true => exact absurd (hdd hd) hdes
            have hhas : u0.hasNext j = true := by
              have := hroom hd0
              simp only [roomyIn, Bool.and_eq_true] at this
              exact this.1
            rw [hnx, hhas] at hit
            simp only [if_true] at hit
            obtain ⟨k1, k2, toks2, d2, hkne, hke, hko, hkx⟩ := HL q0 u0 (j + 1) rest e2 hq (inParts_succ hhas) hd1 hit hlen
            refine ⟨e1.map (Ev.under [j]) ++ k1, k2, toks2, d2, by simp [hne], ?_, hko, ?_, ?_⟩
            · rw [List.map_append, map_under_under, List.append_assoc, ← hke, ← he]; simp
            · intro h; rw [hd0] at h; cases h
            · intro c c' ha
              rw [applyAll_append] at ha
              cases ha1 : applyAll (e1.map (Ev.under [j])) c with
              | none => rw [ha1] at ha; cases ha
              | some c1 =>
                rw [ha1] at ha; simp only [Option.bind_some] at ha
                obtain ⟨l, dd, hl, hdx, hc1⟩ := applyAll_under hne ha1
                subst hc1
                refine step c l dd (· = (c', toks2)) hl hdx ?_
                refine Ends.congr ?_ (fun f => hmatch f l dd)
                have hany : u0.parts.any (· ≤ j + 1) = false := by
                  cases hpp : u0.parts with
                  | none => rfl
                  | some k => have := inParts_succ hhas k hpp; simp; omega
                exact parseBrace_inside hag hany (hkx _ _ ha)


/-! ### Lists in braces -/

def RootOK (root : T) (r : List Tk) (m : Nat) : Prop :=
  ∀ cur items evs idx, InitItems true root cur items evs → (items.designated = false → cur = some [idx]) →
    items.write.length ≤ m → ∀ c c', applyAll evs c = some c' →
      Ends (fun f => parseLoop f root root.parts (opened c) idx false none (items.write ++ (.rbrace :: r)))
        (· = (c', .rbrace :: r))

theorem root_cont {root r m} (HR : RootOK root r m) {i toks evs d v} (hs : root.sub i = some v)
    (ho : Out root m r [i] toks evs d) {l c'} (ha : applyAll evs (.brace l) = some c') :
    Ends (fun f => cont f root root.parts (.brace l) i false toks) (· = (c', .rbrace :: r)) := by
  cases ho with
  | closed =>
    simp only [applyAll, Option.some.injEq] at ha; subst ha
    exact (Ends.eq _).congr (fun f => by simp [cont, atDesignator])
  | @head cur rest _ hdes hit hlen =>
    obtain ⟨tk, s, h1, h2, h3, h4⟩ := items_head rest
    have hat : atDesignator (rest.write ++ (.rbrace :: r)) = true := by
      rw [h1, List.cons_append, h2, hdes]
    refine (HR cur rest evs i hit (fun h => by rw [hdes] at h; cases h) hlen (.brace l) c' ha).congr (fun f => ?_)
    simp only [cont, hat, if_true, opened]
  | rem hrem =>
    have hnx := next_snoc root [] root i rfl ⟨v, hs⟩
    simp only [List.nil_append] at hnx
    cases hrem with
    | done b =>
      simp only [applyAll, Option.some.injEq] at ha; subst ha
      exact (Ends.eq _).congr (fun f => by cases b <;> simp [cont, atDesignator])
    | @more rest _ hit hlen =>
      obtain ⟨tk, s, h1, h2, h3, h4⟩ := items_head rest
      refine (HR _ rest evs (i + 1) hit ?_ hlen (.brace l) c' ha).congr (fun f => ?_)
      · intro hd
        rw [hnx] at hit ⊢
        split
        · rfl
        · rename_i hn
          rw [if_neg hn] at hit
          exfalso
          have hno : ∀ q, ¬ Target root (next root []) [] q := by
            intro q ht
            generalize hg : next root [] = g at ht
            cases ht with
            | current => simp [next] at hg
            | designated h _ => exact h rfl
          have hem : ∀ (ds : List Desig), (!ds.isEmpty) = false → ds = [] := by
            intro ds h; simpa using h
          cases hit with
          | one ht _ _ => rw [hem _ hd] at ht; exact hno _ ht
          | more ht _ _ _ _ => rw [hem _ hd] at ht; exact hno _ ht
      · rw [h1]
        simp only [cont, List.cons_append, atDesignator]
        simp
        split
        · rename_i heq; simp at heq; exact absurd heq.1 h3
        · rename_i heq; simp at heq; rw [heq]; rfl
        · rename_i h; simp at h

theorem root_ok {root r n} (HO : HObj n) : ∀ m, m ≤ n → RootOK root r m := by
  intro m
  induction m with
  | zero =>
    intro _ cur items evs idx _ _ h
    have := items_length items; omega
  | succ m ih =>
    intro hm cur items evs idx hit hcur hlen c c' ha
    have HR := ih (by omega)
    have HL : LoopOK root r m := loop_ok HO m (by omega)
    have HC := cont_of_loop HL
    obtain ⟨ds, i, after, q, u, p, evs0, evs', d, ht, hat, hp, hw, he, hrem, hil, hdes, hroom⟩ := split_items (r := r) hit
    have hr := hrem m hlen
    -- the rest of the loop, once the call for the part is done
    have fin : ∀ (j : Nat) (v : T) (ds' : Path) (x : Bool) (toks0 : List Tk) (e1 e2 : List Ev) (toks' : List Tk) (d' : Bool),
        root.sub j = some v → e1 ≠ [] → evs = e1.map (Ev.under [j]) ++ e2 → Out root m r [j] toks' e2 d' →
        (∀ c c', applyAll e1 c = some c' →
          Ends (fun f => parseRec f v c none x ds' toks0) (fun a => a.2 = (c', toks'))) →
        (∀ f l, entries (opened c) = .ok l →
          parseLoop (f + 1) root root.parts (opened c) idx false none (items.write ++ (.rbrace :: r)) =
            parseRec f v (entry l j) none x ds' toks0 >>= fun a =>
              cont f root root.parts (.brace (setEntry l j a.2.1)) j false a.2.2) →
        Ends (fun f => parseLoop f root root.parts (opened c) idx false none (items.write ++ (.rbrace :: r)))
          (· = (c', .rbrace :: r)) := by
      intro j v ds' x toks0 e1 e2 toks' d' hs hne hee ho hx heq
      rw [hee, applyAll_append] at ha
      cases ha1 : applyAll (e1.map (Ev.under [j])) c with
      | none => rw [ha1] at ha; cases ha
      | some c1 =>
        rw [ha1] at ha; simp only [Option.bind_some] at ha
        obtain ⟨l, dd, hl, hdx, hc1⟩ := applyAll_under hne ha1
        subst hc1
        apply Ends.succ
        refine Ends.congr ?_ (fun f => heq f l (entries_of (by rw [entriesO_opened]; exact hl)))
        refine Ends.bind' (hx _ _ hdx) ?_
        obtain ⟨M, hM⟩ := root_cont HR hs ho ha
        refine ⟨M, fun f hf a ha' => ?_⟩
        rw [ha']; exact hM f hf
    by_cases hds : ds = []
    · subst hds
      have hcu := hcur (by rw [hdes]; rfl)
      subst hcu
      cases ht with
      | designated h _ => exact absurd rfl h
      | current =>
        have hs : root.sub idx = some u := by
          simp only [T.at] at hat
          cases hs : root.sub idx with
          | none => rw [hs] at hat; cases hat
          | some w => rw [hs] at hat; exact hat
        have hch := child_of HO HC (i := i) (by omega) p u evs0 [idx] hp hat hr
        obtain ⟨e1, e2, toks', d', hne, he1, ho, _, hx⟩ := hch
        refine fin idx u [] true (i.write ++ after) e1 e2 toks' d' hs hne (by rw [he, he1]) ho
          (fun c c' h => hx c c' none _ (.inl ⟨rfl, rfl⟩) h) ?_
        intro f l hl
        have hnd : atDesignator (i.write ++ after) = false := Entry.notDesig (i := i) (x := none) (.inl ⟨rfl, rfl⟩) hr.head
        rw [parseLoop_eq, hw]
        simp only [writeDesignation, if_true, List.nil_append, hnd, Bool.and_false, Bool.false_eq_true, if_false, designators_none root hnd,
          Run.bind_ok, List.headD_nil, select_of hs, hl, List.isEmpty_nil, List.tail_nil]
    · cases ht with
      | current => exact absurd rfl hds
      | designated _ hres =>
        have hqn := hres.ne_nil hds
        cases q with
        | nil => exact absurd rfl hqn
        | cons j q =>
          simp only [T.at] at hat
          cases hs : root.sub j with
          | none => rw [hs] at hat; cases hat
          | some v =>
            rw [hs] at hat
            obtain ⟨e1, e2, toks', d', hne, he1, ho, _, hx⟩ := nest_of HO HL (i := i) (by omega) hp q v [j]
              (by simp [T.at, hs]) hat hr (fun h => by
                have := hroom hds h
                simpa [roomy, hs] using this)
            refine fin j v q false (i.write ++ after) e1 e2 toks' d' hs hne (by rw [he]; exact he1) ho hx ?_
            intro f l hl
            have hdn : designators root (writeDesigs ds ++ (.assign :: (i.write ++ after))) =
                .ok (j :: q, .assign :: (i.write ++ after)) := designators_of hres rfl
            rw [parseLoop_eq, hw]
            simp only [writeDesignation, if_neg hds, List.append_assoc, List.cons_append, List.nil_append,
              Bool.false_and, Bool.false_eq_true, if_false, hdn, Run.bind_ok, expect, if_true,
              List.headD_cons, select_of hs, hl, List.isEmpty_cons, List.tail_cons]
            simp

/-! ### One initialiser -/

theorem scalar_of_single {t : T} {e rc} (h : single t (.expr e rc) = true) : t.isAggregate = false := by
  simpa [single] using h

theorem items_string {items : Items} {k s m r r'}
    (h : items.write ++ (.rbrace :: r) = .str k s m :: .rbrace :: r') : items = .one [] (.str k s m) false := by
  have key : ∀ (ds : List Desig) (i : Ini) (a : List Tk),
      writeDesignation ds ++ (i.write ++ a) = .str k s m :: .rbrace :: r' → ds = [] ∧ i = .str k s m ∧ a = .rbrace :: r' := by
    intro ds i a h
    by_cases hd : ds = []
    · subst hd
      cases i <;> simp_all [writeDesignation, Ini.write]
    · cases ds with
      | nil => exact absurd rfl hd
      | cons d ds => cases d <;> simp [writeDesignation, writeDesigs] at h
  cases items with
  | one ds i comma =>
    rw [Items.write] at h
    simp only [List.append_assoc] at h
    obtain ⟨h1, h2, h3⟩ := key ds i _ h
    subst h1 h2
    cases comma
    · rfl
    · simp at h3
  | more ds i rest =>
    rw [Items.write] at h
    simp only [List.append_assoc] at h
    obtain ⟨_, _, h3⟩ := key ds i _ h
    simp at h3

theorem obj_ok {n} (HO : HObj n) : HObj (n + 1) := by
  intro i hi t evs ho c c' inside x toks r hen ha
  cases ho with
  | whole ht hq =>
    simp only [applyAll, apply, modify, Option.bind_some, Option.some.injEq] at ha
    subst ha
    cases i with
    | brace items => simp [takes] at ht
    | expr e rc =>
      have hty : resType t (.expr e rc) (leafOf t (.expr e rc)).init = t := by
        cases t <;> simp_all [resType, takes, T.isAggregate, leafOf, Leaf.init]
      rw [hty]
      apply Ends.succ
      refine (Ends.eq _).congr (fun f => ?_)
      rw [parseRec]
      have hcomp : completed t (.expr (.expr e) t) = .ok t := by
        cases t <;> simp_all [completed, takes, T.isAggregate]
      by_cases hag : t.isAggregate = true
      · have hst := takes_sameType (u := t) (e := e) (rc := rc) hag (fun _ => hq rfl)
        rw [ht] at hst
        rcases hen with ⟨h1, h2⟩ | ⟨e', rc', h0, h1, h2⟩
        · subst h1 h2
          simp [hag, Ini.write, stringNext, assignmentExpression, hst, hcomp, leafOf, Leaf.init]
        · cases h0; subst h1 h2
          simp [hag, hst, hcomp, leafOf, Leaf.init]
      · have hag : t.isAggregate = false := by simpa using hag
        rcases hen with ⟨h1, h2⟩ | ⟨e', rc', h0, h1, h2⟩
        · subst h1 h2
          simp [hag, Ini.write, scalarExpression, assignmentExpression, hcomp, leafOf, Leaf.init]
        · cases h0; subst h1 h2
          simp [hag, hcomp, leafOf, Leaf.init]
    | str k s m =>
      rcases hen with ⟨h1, h2⟩ | ⟨e', rc', h0, _⟩
      · subst h1 h2
        apply Ends.succ
        refine (Ends.eq _).congr (fun f => ?_)
        rw [parseRec]
        by_cases hag : t.isAggregate = true
        · have hm : matchString k t = true := by
            rw [matchString_eq]; simp [takes, hag] at ht; exact ht
          have hcomp : completed (sizeByString m t) (.str s) = .ok (resType t (.str k s m) (.str s)) := by
            cases t <;> simp_all [completed, sizeByString, resType, matchString]
          simp [hag, Ini.write, stringNext, hm, skipString, hcomp, leafOf, Leaf.init]
        · have hag : t.isAggregate = false := by simpa using hag
          have hcomp : completed t (.expr (.address s) t) = .ok (resType t (.str k s m) (.expr (.address s) t)) := by
            cases t <;> simp_all [completed, resType, T.isAggregate]
          simp [hag, Ini.write, scalarExpression, assignmentExpression, hcomp, leafOf, Leaf.init]
      · cases h0
  | @braced _ i' comma hsg hc =>
    have hc := hc rfl
    subst hc
    simp only [applyAll, apply, modify, Option.bind_some, Option.some.injEq] at ha
    subst ha
    rcases hen with ⟨h1, h2⟩ | ⟨e', rc', h0, _⟩
    · subst h1 h2
      apply Ends.succ
      refine (Ends.eq _).congr (fun f => ?_)
      rw [parseRec]
      cases i' with
      | brace items => simp [single] at hsg
      | expr e rc =>
        have hag := scalar_of_single hsg
        have hcomp : completed t (.expr (.expr e) t) = .ok (resType t (.brace (.one [] (.expr e rc) false)) (.expr (.expr e) t)) := by
          cases t <;> simp_all [completed, resType, T.isAggregate]
        simp [hag, Ini.write, Items.write, writeDesignation, scalarExpression, assignmentExpression, expect, hcomp, leafOf, Leaf.init]
      | str k s m =>
        by_cases hag : t.isAggregate = true
        · have hm : isCharArray k t = true := by simp [single, hag] at hsg; exact hsg
          have hcomp : completed (sizeByString m t) (.str s) = .ok (resType t (.brace (.one [] (.str k s m) false)) (.str s)) := by
            cases t <;> simp_all [completed, sizeByString, resType, isCharArray]
          simp [hag, Ini.write, Items.write, writeDesignation, stringNext, matchString_eq, hm, skipString, hcomp, leafOf, Leaf.init]
        · have hag : t.isAggregate = false := by simpa using hag
          have hcomp : completed t (.expr (.address s) t) = .ok (resType t (.brace (.one [] (.str k s m) false)) (.expr (.address s) t)) := by
            cases t <;> simp_all [completed, resType, T.isAggregate]
          simp [hag, Ini.write, Items.write, writeDesignation, scalarExpression, assignmentExpression, expect, hcomp, leafOf, Leaf.init]
    · cases h0
  | @list _ items evs hag hns hit =>
    rcases hen with ⟨h1, h2⟩ | ⟨e', rc', h0, _⟩
    · subst h1 h2
      have hlen : items.write.length ≤ n := by
        simp [Ini.write] at hi; omega
      simp only [applyAll, apply, modify, Option.bind_some] at ha
      have hroot := root_ok (root := t) (r := r) HO n (Nat.le_refl _) (some [0]) items evs 0 hit (fun _ => rfl) hlen (opened c) c' ha
      have hoo : opened (opened c) = opened c := by cases c <;> rfl
      rw [hoo] at hroot
      -- the braces
      have hbr : Ends (fun f => parseBrace f t c 0 false none (.lbrace :: (items.write ++ (.rbrace :: r)))) (· = (c', r)) := by
        apply Ends.succ
        refine Ends.congr (g := fun f => parseLoop f t t.parts (opened c) 0 false none (items.write ++ (.rbrace :: r)) >>= fun a =>
          expect .rbrace a.2 >>= fun tk => .ok (a.1, tk)) ?_ ?_
        · refine Ends.bind hroot ?_ (fun a b ha hb => by rw [ha, hb])
          intro a ha; subst ha
          simp only [expect, if_true, Run.bind_ok]; exact Ends.eq _
        · intro f
          rw [parseBrace]
          simp [maxMembers_of hag, expect]
      -- the result is a list
      have hlist : ∃ l, c' = .brace l := by
        have hex : ∃ l0, opened c = .brace l0 := by
          obtain ⟨ds, _, _, q, _, p, evs0, evs', _, ht, _, hp, _, he, _⟩ := split_items (r := r) hit
          have hq : ∃ j q', q = j :: q' := by
            cases ht with
            | current => exact ⟨0, [], rfl⟩
            | designated h1 h2 =>
              cases q with
              | nil => exact absurd rfl (h2.ne_nil h1)
              | cons j q' => exact ⟨j, q', rfl⟩
          obtain ⟨j, q', rfl⟩ := hq
          rw [he, applyAll_append] at ha
          have hm : evs0.map (Ev.under (j :: q')) = (evs0.map (Ev.under q')).map (Ev.under [j]) := by
            rw [map_under_under]; rfl
          rw [hm] at ha
          cases ha1 : applyAll ((evs0.map (Ev.under q')).map (Ev.under [j])) (opened c) with
          | none => rw [ha1] at ha; cases ha
          | some c1 =>
            obtain ⟨l, _, hl, _⟩ := applyAll_under (by simp [hp.ne_nil]) ha1
            cases c <;> simp_all [opened, entriesO]
        obtain ⟨l0, hl0⟩ := hex
        exact Ends.brace l0 hl0 hroot
      obtain ⟨l, rfl⟩ := hlist
      have hcomp : completed t (.brace l) = .ok (resType t (.brace items) (.brace l)) := by
        cases t with
        | unknown u =>
          simp only [completed, resType]
          split
          · rename_i h; cases h
          · rename_i k s m comma h
            have := hns _ _ (Ini.brace.inj h)
            simp [single] at this
            simp [this.1]
          · rfl
        | _ => rfl
      have htk : (Ini.brace items).write ++ r = .lbrace :: (items.write ++ (.rbrace :: r)) := by
        rw [Ini.write]; simp
      rw [htk]
      apply Ends.succ
      refine Ends.congr (g := fun f => parseBrace f t c 0 false none (.lbrace :: (items.write ++ (.rbrace :: r))) >>= fun a =>
        completed t a.1 >>= fun ty => .ok (ty, a.1, a.2)) ?_ ?_
      · refine Ends.bind hbr ?_ (fun a b ha hb => by rw [ha, hb])
        intro a ha; subst ha
        simp only [hcomp, Run.bind_ok]; exact Ends.eq _
      · intro f
        rw [parseRec]
        simp only [hag, Option.isNone_none, Bool.not_true, Bool.and_false, Bool.false_eq_true, if_false, Run.bind_ok, if_true,
          List.head?_cons]
        cases hst : stringNext (.lbrace :: (items.write ++ (.rbrace :: r))) with
        | none =>
          simp [hag]
          cases parseBrace f t c 0 false none (Tk.lbrace :: (items.write ++ Tk.rbrace :: r)) <;> rfl
        | some a =>
          obtain ⟨k, s, m⟩ := a
          have hm : matchString k t = false := by
            rw [stringNext.eq_def] at hst
            split at hst
            · rename_i heq
              simp only [List.cons.injEq, true_and] at heq
              have := items_string heq
              simp only [Option.some.injEq, Prod.mk.injEq] at hst
              obtain ⟨rfl, rfl, rfl⟩ := hst
              have := hns _ _ this
              rw [matchString_eq]
              simp [single] at this; exact this.1
            · rename_i heq; simp at heq
            · cases hst
          simp [hm, hag]
          cases parseBrace f t c 0 false none (Tk.lbrace :: (items.write ++ Tk.rbrace :: r)) <;> rfl
    · cases h0

theorem obj_all : ∀ n, HObj n
  | 0 => fun i hi => by have := ini_length i; omega
  | n + 1 => obj_ok (obj_all n)

/-- The parser of initialisers does to the tree what the events say. -/
theorem parse_ok {t : T} {i : Ini} {evs : List Ev} (h : InitObj true t i evs) {c : Init}
    (ha : applyAll evs .empty = some c) (r : List Tk) :
    ∃ N, ∀ f, N ≤ f → parseInitializer f t (i.write ++ r) = .ok (resType t i c, c, r) := by
  obtain ⟨N, hN⟩ := obj_all i.write.length i (Nat.le_refl _) t evs h .empty c false none _ r (.inl ⟨rfl, rfl⟩) ha
  refine ⟨N, fun f hf => ?_⟩
  obtain ⟨a, h1, h2⟩ := hN f hf
  rw [h2] at h1
  exact h1

end Verif.Initial
