import Verif.TagsSpec
/-!
Lemmas for C95: what a specifier does to the state of the compiler and to the state of C.
-/
namespace Verif.Tags
open Verif TagsSpec

/-- The declaration of the tag `t` in one scope, of `n` enclosing ones. -/
def LevelAt (f : Nat → Option Nat) (own : Nat → Option (Nat × Nat)) (s : State) (n : Nat)
    (a : Nat → Option Nat) (b : Name → Option Def) (c : Nat → Option Mark) (t : Nat) : Prop :=
  match c t with
  | none => a t = none ∧ b (.ident t) = none
  | some .declared => ∃ e d, a t = some e ∧ b (.ident t) = some d ∧ e < s.next ∧ own e = some (n, t) ∧ d.kind = s.kind e ∧
      (d.kind ≠ .enum → f e = some d.data)
  | some (.opened k) => ∃ e, a t = some e ∧ b (.ident t) = none ∧ e < s.next ∧ own e = some (n, t) ∧ s.kind e = k ∧ f e = none ∧
      s.content e = none

/-- No name is used that will be made up later. -/
def FreshAnon (m : St) (b : Name → Option Def) : Prop :=
  (∀ n, m.anonStructs ≤ n → b (.anonStruct n) = none) ∧ ∀ n, m.anonEnums ≤ n → b (.anonEnum n) = none

/-- The scopes agree. -/
def Levels (f : Nat → Option Nat) (own : Nat → Option (Nat × Nat)) (s : State) (m : St) :
    List (Nat → Option Nat) → List (Name → Option Def) → Marks → Prop
  | [], [], [] => True
  | a :: as, b :: bs, c :: cs => (∀ t, LevelAt f own s as.length a b c t) ∧ FreshAnon m b ∧ Levels f own s m as bs cs
  | _, _, _ => False

/-- The two contents of a type. -/
def SameContent (f : Nat → Option Nat) (k : TagKind) : Option (List TagsSpec.Out) → Option (TagKind × List Out) → Prop
  | none, none => True
  | some o, some (k', o') => k' = k ∧ OutsAre f o o'
  | _, _ => False

/-- The states agree. -/
structure Rel (f : Nat → Option Nat) (own : Nat → Option (Nat × Nat)) (s : State) (m : St) (c : Marks) : Prop where
  levels : Levels f own s m s.scopes m.scopes c
  inj : Distinct f
  dat : ∀ e d, f e = some d → e < s.next ∧ d < m.next ∧ s.kind e ≠ .enum ∧ SameContent f (s.kind e) (s.content e) (m.fields d)
  one : s.scopes ≠ []

/-- What is kept. -/
structure Grows (f : Nat → Option Nat) (own : Nat → Option (Nat × Nat)) (s : State)
    (f' : Nat → Option Nat) (own' : Nat → Option (Nat × Nat)) (s' : State) : Prop where
  next : s.next ≤ s'.next
  kind : ∀ e, e < s.next → s'.kind e = s.kind e
  owner : ∀ e, e < s.next → own' e = own e
  names : ∀ e d, f e = some d → f' e = some d
  free : ∀ e, e < s.next → own e = none → f' e = f e
  tail : s'.scopes.tail = s.scopes.tail
  head : ∀ t e, here s.scopes t = some e → here s'.scopes t = some e

theorem Grows.refl (f own) (s : State) : Grows f own s f own s :=
  ⟨Nat.le_refl _, fun _ _ => rfl, fun _ _ => rfl, fun _ _ h => h, fun _ _ _ => rfl, rfl, fun _ _ h => h⟩

theorem Grows.trans {f f' f'' own own' own''} {s s' s'' : State} (g : Grows f own s f' own' s') (h : Grows f' own' s' f'' own'' s'') :
    Grows f own s f'' own'' s'' where
  next := Nat.le_trans g.next h.next
  kind e he := (h.kind e (Nat.lt_of_lt_of_le he g.next)).trans (g.kind e he)
  owner e he := (h.owner e (Nat.lt_of_lt_of_le he g.next)).trans (g.owner e he)
  names e d he := h.names e d (g.names e d he)
  free e he o := (h.free e (Nat.lt_of_lt_of_le he g.next) ((g.owner e he).trans o)).trans (g.free e he o)
  tail := h.tail.trans g.tail
  head t e he := h.head t e (g.head t e he)

theorem denIs_mono {f f' : Nat → Option Nat} (h : ∀ e d, f e = some d → f' e = some d) {a : TagsSpec.Den} {b : Den}
    (x : DenIs f a b) : DenIs f' a b := by
  cases a <;> cases b <;> simp only [DenIs] at x ⊢
  exact h _ _ x

theorem outsAre_mono {f f' : Nat → Option Nat} (h : ∀ e d, f e = some d → f' e = some d) {a : List TagsSpec.Out} {b : List Out}
    (x : OutsAre f a b) : OutsAre f' a b := by
  induction x with
  | nil => exact .nil
  | cons d c _ ih => exact .cons (denIs_mono h d) c ih

theorem outsAre_append {f : Nat → Option Nat} {a a' : List TagsSpec.Out} {b b' : List Out} (x : OutsAre f a b) (y : OutsAre f a' b') :
    OutsAre f (a ++ a') (b ++ b') := by
  induction x with
  | nil => exact y
  | cons d c _ ih => exact .cons d c ih

theorem sameContent_mono {f f' : Nat → Option Nat} (h : ∀ e d, f e = some d → f' e = some d) {k : TagKind}
    {a : Option (List TagsSpec.Out)} {b : Option (TagKind × List Out)} (x : SameContent f k a b) : SameContent f' k a b := by
  match a, b with
  | none, none => trivial
  | some _, some (_, _) => exact ⟨x.1, outsAre_mono h x.2⟩
  | none, some _ => exact x.elim
  | some _, none => exact x.elim

theorem levelAt_congr {f own} {s : State} {n : Nat} {a a' : Nat → Option Nat} {b b' : Name → Option Def} {c c' : Nat → Option Mark}
    {t : Nat} (h : LevelAt f own s n a b c t) (h1 : a' t = a t) (h2 : b' (.ident t) = b (.ident t)) (h3 : c' t = c t) :
    LevelAt f own s n a' b' c' t := by
  unfold LevelAt at h ⊢
  rw [h1, h2, h3]; exact h

theorem levelAt_opened {f own} {s : State} {n : Nat} {a : Nat → Option Nat} {b : Name → Option Def} {c : Nat → Option Mark}
    {t : Nat} {k : TagKind} (h : c t = some (.opened k)) : LevelAt f own s n a b c t ↔
      ∃ e, a t = some e ∧ b (.ident t) = none ∧ e < s.next ∧ own e = some (n, t) ∧ s.kind e = k ∧ f e = none ∧ s.content e = none := by
  unfold LevelAt
  rw [h]

theorem levelAt_declared {f own} {s : State} {n : Nat} {a : Nat → Option Nat} {b : Name → Option Def} {c : Nat → Option Mark}
    {t : Nat} (h : c t = some .declared) : LevelAt f own s n a b c t ↔
      ∃ e d, a t = some e ∧ b (.ident t) = some d ∧ e < s.next ∧ own e = some (n, t) ∧ d.kind = s.kind e ∧
        (d.kind ≠ .enum → f e = some d.data) := by
  unfold LevelAt
  rw [h]

theorem levelAt_none {f own} {s : State} {n : Nat} {a : Nat → Option Nat} {b : Name → Option Def} {c : Nat → Option Mark}
    {t : Nat} (h : c t = none) : LevelAt f own s n a b c t ↔ a t = none ∧ b (.ident t) = none := by
  unfold LevelAt
  rw [h]

/-- Types that are declared elsewhere do not matter. -/
theorem levelAt_mono {f f' own own'} {s s' : State} {n : Nat} {a : Nat → Option Nat} {b : Name → Option Def} {c : Nat → Option Mark}
    {t : Nat} (h : LevelAt f own s n a b c t) (hn : s.next ≤ s'.next) (hk : ∀ e, e < s.next → s'.kind e = s.kind e)
    (ho : ∀ e, e < s.next → own' e = own e) (hf : ∀ e d, f e = some d → f' e = some d)
    (hp : ∀ e, e < s.next → own e = some (n, t) → f e = none → f' e = none)
    (hc : ∀ e, e < s.next → own e = some (n, t) → s.content e = none → f e = none → s'.content e = none) :
    LevelAt f' own' s' n a b c t := by
  unfold LevelAt at h ⊢
  cases hm : c t with
  | none => rw [hm] at h; exact h
  | some m =>
    rw [hm] at h
    cases m with
    | declared =>
      obtain ⟨e, d, h1, h2, h3, h4, h5, h6⟩ := h
      exact ⟨e, d, h1, h2, Nat.lt_of_lt_of_le h3 hn, (ho e h3).trans h4, h5.trans (hk e h3).symm, fun x => hf _ _ (h6 x)⟩
    | opened k =>
      obtain ⟨e, h1, h2, h3, h4, h5, h6, h7⟩ := h
      exact ⟨e, h1, h2, Nat.lt_of_lt_of_le h3 hn, (ho e h3).trans h4, (hk e h3).trans h5, hp e h3 h4 h6, hc e h3 h4 h7 h6⟩

theorem levels_mono {f f' own own'} {s s' : State} {m m' : St} (hn : s.next ≤ s'.next) (hk : ∀ e, e < s.next → s'.kind e = s.kind e)
    (ho : ∀ e, e < s.next → own' e = own e) (hf : ∀ e d, f e = some d → f' e = some d)
    (h1 : m.anonStructs ≤ m'.anonStructs) (h2 : m.anonEnums ≤ m'.anonEnums) :
    ∀ {as : List (Nat → Option Nat)} {bs : List (Name → Option Def)} {cs : Marks}, Levels f own s m as bs cs →
      (∀ e n t, e < s.next → own e = some (n, t) → n < as.length → f e = none → f' e = none) →
      (∀ e n t, e < s.next → own e = some (n, t) → n < as.length → s.content e = none → f e = none → s'.content e = none) →
      Levels f' own' s' m' as bs cs
  | [], [], [], _, _, _ => trivial
  | a :: as, b :: bs, c :: cs, h, hp, hc =>
    ⟨fun t => levelAt_mono (h.1 t) hn hk ho hf (fun e x y => hp e _ _ x y (Nat.lt_succ_self _)) (fun e x y => hc e _ _ x y (Nat.lt_succ_self _)),
      ⟨fun n hn => h.2.1.1 n (Nat.le_trans h1 hn), fun n hn => h.2.1.2 n (Nat.le_trans h2 hn)⟩,
      levels_mono hn hk ho hf h1 h2 h.2.2 (fun e n t x y z => hp e n t x y (Nat.lt_succ_of_lt z))
        (fun e n t x y z => hc e n t x y (Nat.lt_succ_of_lt z))⟩
  | [], _ :: _, _, h, _, _ => h.elim
  | [], [], _ :: _, h, _, _ => h.elim
  | _ :: _, [], _, h, _, _ => h.elim
  | _ :: _, _ :: _, [], h, _, _ => h.elim

/-- Lookup. -/
theorem visible_none {f own} {s : State} {m : St} {t : Nat} : ∀ {as : List (Nat → Option Nat)} {bs : List (Name → Option Def)} {cs : Marks},
    Levels f own s m as bs cs → visible cs t = none → visible as t = none ∧ get bs (.ident t) = none
  | [], [], [], _, _ => ⟨rfl, rfl⟩
  | a :: as, b :: bs, c :: cs, h, hv => by
    have hh := h.1 t
    unfold LevelAt at hh
    unfold visible at hv
    cases hm : c t with
    | none =>
      rw [hm] at hh hv
      have ih := visible_none h.2.2 hv
      exact ⟨by unfold visible; rw [hh.1]; exact ih.1, by unfold get; rw [hh.2]; exact ih.2⟩
    | some x => rw [hm] at hv; cases hv
  | [], _ :: _, _, h, _ => h.elim
  | [], [], _ :: _, h, _ => h.elim
  | _ :: _, [], _, h, _ => h.elim
  | _ :: _, _ :: _, [], h, _ => h.elim

theorem visible_declared {f own} {s : State} {m : St} {t : Nat} : ∀ {as : List (Nat → Option Nat)} {bs : List (Name → Option Def)} {cs : Marks},
    Levels f own s m as bs cs → visible cs t = some .declared →
      ∃ e d, visible as t = some e ∧ get bs (.ident t) = some d ∧ e < s.next ∧ d.kind = s.kind e ∧ (d.kind ≠ .enum → f e = some d.data)
  | [], [], [], _, h => by cases h
  | a :: as, b :: bs, c :: cs, h, hv => by
    have hh := h.1 t
    unfold LevelAt at hh
    unfold visible at hv
    cases hm : c t with
    | none =>
      rw [hm] at hh hv
      obtain ⟨e, d, h1, h2, h3⟩ := visible_declared h.2.2 hv
      exact ⟨e, d, by unfold visible; rw [hh.1]; exact h1, by unfold get; rw [hh.2]; exact h2, h3⟩
    | some x =>
      rw [hm] at hh hv
      have hx : x = .declared := by injection hv
      subst hx
      obtain ⟨e, d, h1, h2, h3, _, h5, h6⟩ := hh
      exact ⟨e, d, by unfold visible; rw [h1]; rfl, by unfold get; rw [h2], h3, h5, h6⟩
  | [], _ :: _, _, h, _ => h.elim
  | [], [], _ :: _, h, _ => h.elim
  | _ :: _, [], _, h, _ => h.elim
  | _ :: _, _ :: _, [], h, _ => h.elim

/-- The three current scopes. -/
theorem Rel.top {f own} {s : State} {m : St} {c : Marks} (r : Rel f own s m c) :
    ∃ a as b bs x xs, s.scopes = a :: as ∧ m.scopes = b :: bs ∧ c = x :: xs ∧ (∀ t, LevelAt f own s as.length a b x t) ∧
      FreshAnon m b ∧ Levels f own s m as bs xs := by
  have h := r.levels
  match h1 : s.scopes, h2 : m.scopes, h3 : c with
  | [], _, _ => exact (r.one h1).elim
  | a :: as, [], _ => rw [h1, h2] at h; exact h.elim
  | a :: as, b :: bs, [] => rw [h1, h2] at h; exact h.elim
  | a :: as, b :: bs, x :: xs => rw [h1, h2] at h; exact ⟨a, as, b, bs, x, xs, rfl, rfl, rfl, h.1, h.2.1, h.2.2⟩

/-- A type gets a name. -/
def setF (f : Nat → Option Nat) (e d : Nat) : Nat → Option Nat := fun x => if x = e then some d else f x

theorem setF_mono {f : Nat → Option Nat} {e d : Nat} (h : f e = none) : ∀ x y, f x = some y → setF f e d x = some y := by
  intro x y hx
  unfold setF
  split
  · rename_i h1; rw [h1, h] at hx; cases hx
  · exact hx

theorem setF_self (f : Nat → Option Nat) (e d : Nat) : setF f e d e = some d := if_pos rfl

theorem setF_ne {f : Nat → Option Nat} {e d x : Nat} (h : x ≠ e) : setF f e d x = f x := if_neg h

/-- `Rel` without the scopes. -/
structure Data (f : Nat → Option Nat) (s : State) (m : St) : Prop where
  inj : Distinct f
  dat : ∀ e d, f e = some d → e < s.next ∧ d < m.next ∧ s.kind e ≠ .enum ∧ SameContent f (s.kind e) (s.content e) (m.fields d)

theorem Rel.data {f own} {s : State} {m : St} {c : Marks} (r : Rel f own s m c) : Data f s m := ⟨r.inj, r.dat⟩

/-- A type of C without a name gets one. -/
theorem data_name {f} {s s' : State} {m m' : St} (D : Data f s m) {e : Nat}
    (he : e < s.next) (hf : f e = none) (hk : s.kind e ≠ .enum) (h1 : s'.next = s.next) (h2 : s'.kind = s.kind)
    (h3 : ∀ x, x ≠ e → s'.content x = s.content x) (h4 : m'.next = m.next + 1)
    (h5 : ∀ d, d ≠ m.next → m'.fields d = m.fields d) (h6 : SameContent (setF f e m.next) (s.kind e) (s'.content e) (m'.fields m.next)) :
    Data (setF f e m.next) s' m' where
  inj a b d ha hb := by
    unfold setF at ha hb
    split at ha <;> split at hb
    · rename_i x y; rw [x, y]
    · injection ha with ha; have := (D.dat b d hb).2.1; omega
    · injection hb with hb; have := (D.dat a d ha).2.1; omega
    · exact D.inj a b d ha hb
  dat a d ha := by
    by_cases hx : a = e
    · subst hx
      rw [setF_self] at ha
      injection ha with ha
      subst ha
      refine ⟨h1 ▸ he, by omega, h2 ▸ hk, ?_⟩
      rw [h2]; exact h6
    · rw [setF_ne hx] at ha
      obtain ⟨q1, q2, q3, q4⟩ := D.dat a d ha
      refine ⟨h1 ▸ q1, by omega, h2 ▸ q3, ?_⟩
      rw [h2, h3 a hx, h5 d (by omega)]
      exact sameContent_mono (setF_mono hf) q4

/-- A type is completed. -/
theorem data_define {f} {s s' : State} {m m' : St} (D : Data f s m) {e d : Nat}
    (hf : f e = some d) (h1 : s'.next = s.next) (h2 : s'.kind = s.kind)
    (h3 : ∀ x, x ≠ e → s'.content x = s.content x) (h4 : m'.next = m.next)
    (h5 : ∀ x, x ≠ d → m'.fields x = m.fields x) (h6 : SameContent f (s.kind e) (s'.content e) (m'.fields d)) :
    Data f s' m' where
  inj := D.inj
  dat a x ha := by
    obtain ⟨q1, q2, q3, q4⟩ := D.dat a x ha
    refine ⟨h1 ▸ q1, by omega, h2 ▸ q3, ?_⟩
    rw [h2]
    by_cases hx : a = e
    · subst hx
      rw [hf] at ha
      injection ha with ha
      subst ha
      exact h6
    · have hd : x ≠ d := fun h => hx (D.inj a e d (h ▸ ha) hf)
      rw [h3 a hx, h5 x hd]
      exact q4

/-- Nothing that has a name changes. -/
theorem data_keep {f} {s s' : State} {m m' : St} (D : Data f s m) (h1 : s.next ≤ s'.next)
    (h2 : ∀ e, e < s.next → s'.kind e = s.kind e) (h3 : ∀ e, e < s.next → s.kind e ≠ .enum → s'.content e = s.content e)
    (h4 : m.next ≤ m'.next) (h5 : ∀ d, d < m.next → m'.fields d = m.fields d) : Data f s' m' where
  inj := D.inj
  dat a x ha := by
    obtain ⟨q1, q2, q3, q4⟩ := D.dat a x ha
    refine ⟨Nat.lt_of_lt_of_le q1 h1, Nat.lt_of_lt_of_le q2 h4, (h2 a q1) ▸ q3, ?_⟩
    rw [h2 a q1, h3 a q1 q3, h5 x q2]
    exact q4

/-- A new type without a tag. -/
theorem create_step {f own} {s : State} {m : St} {c : Marks} (r : Rel f own s m c) (k : TagKind) :
    Rel f (fun e => if e = s.next then none else own e) (s.create k) m c := by
  have D := data_keep (s' := s.create k) (m' := m) r.data (Nat.le_succ _)
    (fun e he => if_neg (Nat.ne_of_lt he)) (fun e he _ => if_neg (Nat.ne_of_lt he)) (Nat.le_refl _) (fun _ _ => rfl)
  refine ⟨?_, D.inj, D.dat, r.one⟩
  exact levels_mono (s' := s.create k) (Nat.le_succ _) (fun e he => if_neg (Nat.ne_of_lt he)) (fun e he => if_neg (Nat.ne_of_lt he))
    (fun _ _ h => h) (Nat.le_refl _) (Nat.le_refl _) r.levels (fun _ _ _ _ _ _ h => h)
    (fun e _ _ he _ _ h _ => (if_neg (Nat.ne_of_lt he)).trans h)

theorem create_grows {f own} (s : State) (k : TagKind) :
    Grows f own s f (fun e => if e = s.next then none else own e) (s.create k) where
  next := Nat.le_succ _
  kind e he := if_neg (Nat.ne_of_lt he)
  owner e he := if_neg (Nat.ne_of_lt he)
  names _ _ h := h
  free _ _ _ := rfl
  tail := rfl
  head _ _ h := h

/-- The opening brace. -/
theorem open_step {f own} {s : State} {m : St} {c : Marks} (r : Rel f own s m c) (k : TagKind) {t : Nat} (h : here c t = none) :
    Rel f (fun e => if e = s.next then some (s.scopes.tail.length, t) else own e) (s.declare k t) m (bind t (.opened k) c) := by
  obtain ⟨a, as, b, bs, x, xs, h1, h2, h3, hl, ha, hr⟩ := r.top
  subst h3
  have hnew : f s.next = none := by
    cases hf : f s.next with
    | none => rfl
    | some d => exact absurd (r.dat _ _ hf).1 (Nat.lt_irrefl _)
  have D := data_keep (s' := s.declare k t) (m' := m) r.data (Nat.le_succ _)
    (fun e he => if_neg (Nat.ne_of_lt he)) (fun e he _ => if_neg (Nat.ne_of_lt he)) (Nat.le_refl _) (fun _ _ => rfl)
  have hs : (s.declare k t).scopes = (fun u => if u = t then some s.next else a u) :: as := by
    show bind t s.next s.scopes = _
    rw [h1]; rfl
  refine ⟨?_, D.inj, D.dat, by rw [hs]; exact List.cons_ne_nil _ _⟩
  rw [hs, h2]
  refine ⟨fun u => ?_, ha, ?_⟩
  · have hu := hl u
    by_cases hut : u = t
    · subst hut
      have hxu : x u = none := h
      rw [levelAt_none hxu] at hu
      refine (levelAt_opened (if_pos rfl)).2 ⟨s.next, if_pos rfl, hu.2, Nat.lt_succ_self _, ?_, if_pos rfl, hnew, if_pos rfl⟩
      rw [if_pos rfl, h1]; rfl
    · have := levelAt_mono (s' := s.declare k t) (f' := f) (own' := fun e => if e = s.next then some (s.scopes.tail.length, t) else own e)
        hu (Nat.le_succ _) (fun e he => if_neg (Nat.ne_of_lt he)) (fun e he => if_neg (Nat.ne_of_lt he)) (fun _ _ h => h)
        (fun _ _ _ h => h) (fun e he _ h _ => (if_neg (Nat.ne_of_lt he)).trans h)
      exact levelAt_congr this (if_neg hut) rfl (if_neg hut)
  · exact levels_mono (s' := s.declare k t) (Nat.le_succ _) (fun e he => if_neg (Nat.ne_of_lt he)) (fun e he => if_neg (Nat.ne_of_lt he))
      (fun _ _ h => h) (Nat.le_refl _) (Nat.le_refl _) hr (fun _ _ _ _ _ _ h => h)
      (fun e _ _ he _ _ h _ => (if_neg (Nat.ne_of_lt he)).trans h)

theorem open_grows {f own} {s : State} {m : St} {c : Marks} (r : Rel f own s m c) (k : TagKind) {t : Nat} (h : here c t = none) :
    Grows f own s f (fun e => if e = s.next then some (s.scopes.tail.length, t) else own e) (s.declare k t) where
  next := Nat.le_succ _
  kind e he := if_neg (Nat.ne_of_lt he)
  owner e he := if_neg (Nat.ne_of_lt he)
  names _ _ h := h
  free _ _ _ := rfl
  tail := by
    show (bind t s.next s.scopes).tail = _
    cases s.scopes <;> rfl
  head u e hu := by
    show here (bind t s.next s.scopes) u = some e
    obtain ⟨a, as, b, bs, x, xs, h1, h2, h3, hl, ha, hr⟩ := r.top
    rw [h1] at hu ⊢
    subst h3
    show (if u = t then some s.next else a u) = some e
    split
    · rename_i hut
      subst hut
      have hx : x u = none := h
      have hu' := hl u
      unfold LevelAt at hu'
      rw [hx] at hu'
      have : a u = some e := hu
      rw [hu'.1] at this; cases this
    · exact hu

theorem bind_same {α : Type} {t : Nat} {e : α} {c : List (Nat → Option α)} (h : here c t = some e) : bind t e c = c := by
  cases c with
  | nil => rfl
  | cons x xs =>
    show (fun u => if u = t then some e else x u) :: xs = x :: xs
    congr 1
    funext u
    split
    · rename_i hu; subst hu; exact h.symm
    · rfl

/-- A change of one type that has a tag in the current scope. -/
theorem top_step {f f' own} {s s' : State} {m m' : St} {c : Marks} (r : Rel f own s m c) {t e : Nat} {d : Def}
    {b b' : Name → Option Def} {bs : List (Name → Option Def)} (ht : here s.scopes t = some e)
    (hs : s'.scopes = s.scopes) (h1 : s'.next = s.next) (h2 : s'.kind = s.kind) (h3 : ∀ x, x ≠ e → s'.content x = s.content x)
    (hb : m.scopes = b :: bs) (hb' : m'.scopes = b' :: bs) (h4 : ∀ n, n ≠ .ident t → b' n = b n) (h5 : b' (.ident t) = some d)
    (h6 : m'.anonStructs = m.anonStructs) (h7 : m'.anonEnums = m.anonEnums)
    (D : Data f' s' m') (hf : ∀ x y, f x = some y → f' x = some y) (hf' : ∀ x, x ≠ e → f' x = f x)
    (hk : d.kind = s.kind e) (hd : d.kind ≠ .enum → f' e = some d.data) : Rel f' own s' m' (bind t .declared c) := by
  obtain ⟨a, as, b0, bs0, x, xs, e1, e2, e3, hl, ha, hr⟩ := r.top
  rw [hb] at e2
  injection e2 with e4 e5
  subst e4 e5 e3
  rw [e1] at ht
  have ht' : a t = some e := ht
  have own_e : e < s.next ∧ own e = some (as.length, t) := by
    have q := hl t
    cases hx : x t with
    | none => rw [levelAt_none hx, ht'] at q; cases q.1
    | some mk =>
      cases mk with
      | opened k =>
        obtain ⟨e', q1, _, q3, q4, _⟩ := (levelAt_opened hx).1 q
        rw [ht'] at q1; injection q1 with q1; subst q1; exact ⟨q3, q4⟩
      | declared =>
        obtain ⟨e', _, q1, _, q3, q4, _⟩ := (levelAt_declared hx).1 q
        rw [ht'] at q1; injection q1 with q1; subst q1; exact ⟨q3, q4⟩
  have hne : ∀ y n u, own y = some (n, u) → (n, u) ≠ (as.length, t) → y ≠ e := by
    intro y n u hy hn hye
    rw [hye, own_e.2] at hy
    injection hy with hy
    exact hn hy.symm
  refine ⟨?_, D.inj, D.dat, by rw [hs]; exact r.one⟩
  rw [hs, e1, hb']
  refine ⟨fun u => ?_, ⟨fun n hn => ?_, fun n hn => ?_⟩, ?_⟩
  · by_cases hut : u = t
    · subst hut
      exact (levelAt_declared (if_pos rfl)).2 ⟨e, d, ht', h5, by rw [h1]; exact own_e.1, own_e.2, by rw [h2]; exact hk, hd⟩
    · have hu := levelAt_mono (s' := s') (f' := f') (own' := own) (hl u) (by rw [h1]; exact Nat.le_refl _) (fun _ _ => by rw [h2]) (fun _ _ => rfl) hf
        (fun y _ q h => by rw [hf' y (hne y _ _ q (fun w => hut (by injection w)))]; exact h)
        (fun y _ q h _ => by rw [h3 y (hne y _ _ q (fun w => hut (by injection w)))]; exact h)
      exact levelAt_congr hu rfl (h4 _ (fun w => hut (by injection w))) (if_neg hut)
  · rw [h4 _ (fun w => by cases w)]; exact ha.1 n (by rw [h6] at hn; exact hn)
  · rw [h4 _ (fun w => by cases w)]; exact ha.2 n (by rw [h7] at hn; exact hn)
  · refine levels_mono (s' := s') (by rw [h1]; exact Nat.le_refl _) (fun _ _ => by rw [h2]) (fun _ _ => rfl) hf
      (by rw [h6]; exact Nat.le_refl _) (by rw [h7]; exact Nat.le_refl _) hr ?_ ?_
    · intro y n u _ q hn h
      rw [hf' y (hne y _ _ q (fun w => by injection w; omega))]; exact h
    · intro y n u _ q hn h _
      rw [h3 y (hne y _ _ q (fun w => by injection w; omega))]; exact h

/-- A change of one type that has no tag. -/
theorem anon_step {f f' own} {s s' : State} {m m' : St} {c : Marks} (r : Rel f own s m c) {e : Nat}
    {b b' : Name → Option Def} {bs : List (Name → Option Def)} (ht : own e = none)
    (hs : s'.scopes = s.scopes) (h1 : s'.next = s.next) (h2 : s'.kind = s.kind) (h3 : ∀ x, x ≠ e → s'.content x = s.content x)
    (hb : m.scopes = b :: bs) (hb' : m'.scopes = b' :: bs) (h4 : ∀ t, b' (.ident t) = b (.ident t)) (h5 : FreshAnon m b → FreshAnon m' b')
    (h6 : m'.anonStructs = m.anonStructs) (h7 : m'.anonEnums = m.anonEnums)
    (D : Data f' s' m') (hf : ∀ x y, f x = some y → f' x = some y) (hf' : ∀ x, x ≠ e → f' x = f x) : Rel f' own s' m' c := by
  obtain ⟨a, as, b0, bs0, x, xs, e1, e2, e3, hl, ha, hr⟩ := r.top
  rw [hb] at e2
  injection e2 with e4 e5
  subst e4 e5 e3
  have hne : ∀ y n u, own y = some (n, u) → y ≠ e := by
    intro y n u hy hye
    rw [hye, ht] at hy; cases hy
  refine ⟨?_, D.inj, D.dat, by rw [hs]; exact r.one⟩
  rw [hs, e1, hb']
  refine ⟨fun u => ?_, h5 ha, ?_⟩
  · have hu := levelAt_mono (s' := s') (f' := f') (own' := own) (hl u) (by rw [h1]; exact Nat.le_refl _) (fun _ _ => by rw [h2]) (fun _ _ => rfl) hf
      (fun y _ q h => by rw [hf' y (hne y _ _ q)]; exact h) (fun y _ q h _ => by rw [h3 y (hne y _ _ q)]; exact h)
    exact levelAt_congr hu rfl (h4 _) rfl
  · refine levels_mono (s' := s') (by rw [h1]; exact Nat.le_refl _) (fun _ _ => by rw [h2]) (fun _ _ => rfl) hf
      (by rw [h6]; exact Nat.le_refl _) (by rw [h7]; exact Nat.le_refl _) hr ?_ ?_
    · intro y n u _ q _ h
      rw [hf' y (hne y _ _ q)]; exact h
    · intro y n u _ q _ h _
      rw [h3 y (hne y _ _ q)]; exact h

/-- The name that is made up. -/
theorem nameOf_step {f own} {s : State} {m : St} {c : Marks} (r : Rel f own s m c) (k : TagKind) (t : Option Nat) :
    Rel f own s (nameOf k t m).2 c := by
  unfold nameOf
  cases t with
  | some t => exact r
  | none =>
    by_cases hk : k = .enum
    · simp only [if_pos hk]
      exact ⟨levels_mono (m := m) (m' := { m with anonEnums := m.anonEnums + 1 }) (Nat.le_refl _) (fun _ _ => rfl) (fun _ _ => rfl) (fun _ _ h => h) (Nat.le_refl _) (Nat.le_succ _) r.levels
        (fun _ _ _ _ _ _ h => h) (fun _ _ _ _ _ _ h _ => h), r.inj, r.dat, r.one⟩
    · simp only [if_neg hk]
      exact ⟨levels_mono (m := m) (m' := { m with anonStructs := m.anonStructs + 1 }) (Nat.le_refl _) (fun _ _ => rfl) (fun _ _ => rfl) (fun _ _ h => h) (Nat.le_succ _) (Nat.le_refl _) r.levels
        (fun _ _ _ _ _ _ h => h) (fun _ _ _ _ _ _ h _ => h), r.inj, r.dat, r.one⟩

theorem push_step {f own} {s : State} {m : St} {c : Marks} (r : Rel f own s m c) :
    Rel f own { s with scopes := (fun _ => none) :: s.scopes } { m with scopes := (fun _ => none) :: m.scopes } ((fun _ => none) :: c) :=
  ⟨⟨fun _ => (levelAt_none rfl).2 ⟨rfl, rfl⟩, ⟨fun _ _ => rfl, fun _ _ => rfl⟩,
    levels_mono (s := s) (m := m) (s' := { s with scopes := (fun _ => none) :: s.scopes }) (m' := { m with scopes := (fun _ => none) :: m.scopes })
      (Nat.le_refl _) (fun _ _ => rfl) (fun _ _ => rfl) (fun _ _ h => h) (Nat.le_refl _) (Nat.le_refl _) r.levels
      (fun _ _ _ _ _ _ h => h) (fun _ _ _ _ _ _ h _ => h)⟩, r.inj, r.dat, List.cons_ne_nil _ _⟩

theorem pop_step {f own} {s : State} {m : St} {c : Marks} (r : Rel f own s m c) (h : s.scopes.tail ≠ []) :
    Rel f own { s with scopes := s.scopes.tail } { m with scopes := m.scopes.tail } c.tail := by
  obtain ⟨a, as, b, bs, x, xs, e1, e2, e3, hl, ha, hr⟩ := r.top
  refine ⟨?_, r.inj, r.dat, h⟩
  show Levels f own { s with scopes := s.scopes.tail } { m with scopes := m.scopes.tail } s.scopes.tail m.scopes.tail c.tail
  have hr' : Levels f own s m s.scopes.tail m.scopes.tail c.tail := by rw [e1, e2, e3]; exact hr
  exact levels_mono (s := s) (m := m) (s' := { s with scopes := s.scopes.tail }) (m' := { m with scopes := m.scopes.tail }) (Nat.le_refl _) (fun _ _ => rfl) (fun _ _ => rfl) (fun _ _ h => h) (Nat.le_refl _) (Nat.le_refl _) hr'
      (fun _ _ _ _ _ _ h => h) (fun _ _ _ _ _ _ h _ => h)

/-- What the compiler keeps of the names that were made up. -/
structure Keeps (m m' : St) : Prop where
  tail : m'.scopes.tail = m.scopes.tail
  structs : m.anonStructs ≤ m'.anonStructs
  enums : m.anonEnums ≤ m'.anonEnums
  anonStruct : ∀ n, n < m.anonStructs → getCurrent m'.scopes (.anonStruct n) = getCurrent m.scopes (.anonStruct n)
  anonEnum : ∀ n, n < m.anonEnums → getCurrent m'.scopes (.anonEnum n) = getCurrent m.scopes (.anonEnum n)

theorem Keeps.refl (m : St) : Keeps m m := ⟨rfl, Nat.le_refl _, Nat.le_refl _, fun _ _ => rfl, fun _ _ => rfl⟩

theorem Keeps.trans {m m' m'' : St} (g : Keeps m m') (h : Keeps m' m'') : Keeps m m'' :=
  ⟨h.tail.trans g.tail, Nat.le_trans g.structs h.structs, Nat.le_trans g.enums h.enums,
    fun n hn => (h.anonStruct n (Nat.lt_of_lt_of_le hn g.structs)).trans (g.anonStruct n hn),
    fun n hn => (h.anonEnum n (Nat.lt_of_lt_of_le hn g.enums)).trans (g.anonEnum n hn)⟩

/-- `add` puts the tag in the current scope. -/
theorem add_ok {m m' : St} {n : Name} {d : Def} (h : add m n d = .ok m') :
    ∃ b bs, m.scopes = b :: bs ∧ b n = none ∧ m' = { m with scopes := (fun x => if x = n then some d else b x) :: bs } := by
  unfold add at h
  cases hs : m.scopes with
  | nil => rw [hs] at h; cases h
  | cons b bs =>
    rw [hs] at h
    simp only at h
    split at h
    · cases h
    · rename_i hn
      injection h with h
      refine ⟨b, bs, rfl, ?_, h.symm⟩
      cases hb : b n with
      | none => rfl
      | some _ => rw [hb] at hn; exact absurd rfl hn

theorem add_eq {m : St} {n : Name} {d : Def} {b : Name → Option Def} {bs : List (Name → Option Def)} (h : m.scopes = b :: bs) (hn : b n = none) :
    add m n d = .ok { m with scopes := (fun x => if x = n then some d else b x) :: bs } := by
  unfold add
  rw [h]
  simp [hn]

theorem structRef_keeps {k : TagKind} {t : Nat} {m m' : St} {o : Out} (h : structRef k (.ident t) m = .ok (m', o)) : Keeps m m' := by
  unfold structRef at h
  split at h
  · obtain ⟨m1, h1, h2⟩ := Res.bind_eq_ok.1 h
    obtain ⟨b, bs, q1, _, q3⟩ := add_ok h1
    injection h2 with h2
    injection h2 with h2 _
    subst h2 q3
    have q1 : m.scopes = b :: bs := q1
    exact ⟨by show bs = _; rw [q1]; rfl, Nat.le_refl _, Nat.le_refl _, fun n _ => by rw [q1]; rfl, fun n _ => by rw [q1]; rfl⟩
  · split at h
    · cases h
    · injection h with h; injection h with h _; subst h; exact Keeps.refl _

theorem enumRef_keeps {t : Nat} {m m' : St} {o : Out} (h : enumRef (.ident t) m = .ok (m', o)) : Keeps m m' := by
  unfold enumRef at h
  split at h
  · obtain ⟨m1, h1, h2⟩ := Res.bind_eq_ok.1 h
    obtain ⟨b, bs, q1, _, q3⟩ := add_ok h1
    injection h2 with h2
    injection h2 with h2 _
    subst h2 q3
    have q1 : m.scopes = b :: bs := q1
    exact ⟨by show bs = _; rw [q1]; rfl, Nat.le_refl _, Nat.le_refl _, fun n _ => by rw [q1]; rfl, fun n _ => by rw [q1]; rfl⟩
  · split at h
    · cases h
    · injection h with h; injection h with h _; subst h; exact Keeps.refl _

/-- What a definition does to the names in the current scope. -/
theorem structDefine_scopes {k : TagKind} {nm : Name} {m m' : St} {os : List Out} {o : Out} (h : structDefine k nm os m = .ok (m', o)) :
    m'.scopes.tail = m.scopes.tail ∧ m'.anonStructs = m.anonStructs ∧ m'.anonEnums = m.anonEnums ∧
      ∀ x, x ≠ nm → getCurrent m'.scopes x = getCurrent m.scopes x := by
  unfold structDefine at h
  split at h
  · obtain ⟨m1, h1, h2⟩ := Res.bind_eq_ok.1 h
    obtain ⟨b, bs, q1, _, q3⟩ := add_ok h1
    injection h2 with h2
    injection h2 with h2 _
    subst h2 q3
    have q1 : m.scopes = b :: bs := q1
    exact ⟨by show bs = _; rw [q1]; rfl, rfl, rfl, fun n hn => by rw [q1]; exact if_neg hn⟩
  · split at h
    · cases h
    · split at h
      · cases h
      · injection h with h; injection h with h _; subst h; exact ⟨rfl, rfl, rfl, fun _ _ => rfl⟩

theorem enumDefine_scopes {nm : Name} {m m' : St} {o : Out} (h : enumDefine nm m = .ok (m', o)) :
    m'.scopes.tail = m.scopes.tail ∧ m'.anonStructs = m.anonStructs ∧ m'.anonEnums = m.anonEnums ∧
      ∀ x, x ≠ nm → getCurrent m'.scopes x = getCurrent m.scopes x := by
  unfold enumDefine at h
  split at h
  · obtain ⟨m1, h1, h2⟩ := Res.bind_eq_ok.1 h
    obtain ⟨b, bs, q1, _, q3⟩ := add_ok h1
    injection h2 with h2
    injection h2 with h2 _
    subst h2 q3
    have q1 : m.scopes = b :: bs := q1
    exact ⟨by show bs = _; rw [q1]; rfl, rfl, rfl, fun n hn => by rw [q1]; exact if_neg hn⟩
  · split at h
    · cases h
    · injection h with h; injection h with h _; subst h; exact ⟨rfl, rfl, rfl, fun _ _ => rfl⟩

/-- `item` for a definition, in two steps. -/
theorem item_define {k : TagKind} {t : Option Nat} {ms : List Item} {m m' : St} {o : List Out} (h : item (.define k t ms) m = .ok (m', o)) :
    ∃ m1 om o1, items ms (nameOf k t m).2 = .ok (m1, om) ∧
      (if k = .enum then enumDefine (nameOf k t m).1 m1 else structDefine k (nameOf k t m).1 om m1) = .ok (m', o1) ∧ o = o1 :: om := by
  rw [item] at h
  obtain ⟨⟨m1, om⟩, h1, h2⟩ := Res.bind_eq_ok.1 h
  obtain ⟨⟨m2, o1⟩, h3, h4⟩ := Res.bind_eq_ok.1 h2
  injection h4 with h4
  injection h4 with h4 h5
  subst h4
  exact ⟨m1, om, o1, h1, h3, h5.symm⟩

theorem item_define_eq {k : TagKind} {t : Option Nat} {ms : List Item} {m m1 m' : St} {om : List Out} {o1 : Out}
    (h1 : items ms (nameOf k t m).2 = .ok (m1, om))
    (h2 : (if k = .enum then enumDefine (nameOf k t m).1 m1 else structDefine k (nameOf k t m).1 om m1) = .ok (m', o1)) :
    item (.define k t ms) m = .ok (m', o1 :: om) := by
  rw [item]
  show (items ms (nameOf k t m).2).bind _ = _
  rw [h1]
  show Res.bind (if k = .enum then enumDefine (nameOf k t m).1 m1 else structDefine k (nameOf k t m).1 om m1) _ = _
  rw [h2]; rfl

theorem items_cons {i : Item} {is : List Item} {m m' : St} {o : List Out} (h : items (i :: is) m = .ok (m', o)) :
    ∃ m1 o1 o2, item i m = .ok (m1, o1) ∧ items is m1 = .ok (m', o2) ∧ o = o1 ++ o2 := by
  rw [items] at h
  obtain ⟨⟨m1, o1⟩, h1, h2⟩ := Res.bind_eq_ok.1 h
  obtain ⟨⟨m2, o2⟩, h3, h4⟩ := Res.bind_eq_ok.1 h2
  injection h4 with h4
  injection h4 with h4 h5
  subst h4
  exact ⟨m1, o1, o2, h1, h3, h5.symm⟩

theorem items_cons_eq {i : Item} {is : List Item} {m m1 m' : St} {o1 o2 : List Out} (h1 : item i m = .ok (m1, o1)) (h2 : items is m1 = .ok (m', o2)) :
    items (i :: is) m = .ok (m', o1 ++ o2) := by
  rw [items]
  show (item i m).bind _ = _
  rw [h1]
  show (items is m1).bind _ = _
  rw [h2]; rfl

theorem item_scope {is : List Item} {m m' : St} {o : List Out} (h : item (.scope is) m = .ok (m', o)) :
    ∃ m1, items is { m with scopes := (fun _ => none) :: m.scopes } = .ok (m1, o) ∧ m' = { m1 with scopes := m1.scopes.tail } := by
  rw [item] at h
  obtain ⟨⟨m1, o1⟩, h1, h2⟩ := Res.bind_eq_ok.1 h
  injection h2 with h2
  injection h2 with h2 h3
  subst h3
  exact ⟨m1, h1, h2.symm⟩

theorem item_scope_eq {is : List Item} {m m1 : St} {o : List Out} (h : items is { m with scopes := (fun _ => none) :: m.scopes } = .ok (m1, o)) :
    item (.scope is) m = .ok ({ m1 with scopes := m1.scopes.tail }, o) := by
  rw [item]
  show (items is _).bind _ = _
  rw [h]; rfl

mutual
theorem item_keeps : ∀ (i : Item) (m m' : St) (o : List Out), item i m = .ok (m', o) → Keeps m m'
  | .ref k t al, m, m', o, h => by
    rw [item] at h
    obtain ⟨⟨m1, o1⟩, h1, h2⟩ := Res.bind_eq_ok.1 h
    injection h2 with h2
    injection h2 with h2 _
    subst h2
    split at h1
    · exact enumRef_keeps h1
    · exact structRef_keeps h1
  | .define k t ms, m, m', o, h => by
    obtain ⟨m1, om, o1, h1, h2, _⟩ := item_define h
    have ih := items_keeps ms _ _ _ h1
    have q : m'.scopes.tail = m1.scopes.tail ∧ m'.anonStructs = m1.anonStructs ∧ m'.anonEnums = m1.anonEnums ∧
        ∀ x, x ≠ (nameOf k t m).1 → getCurrent m'.scopes x = getCurrent m1.scopes x := by
      split at h2
      · exact enumDefine_scopes h2
      · exact structDefine_scopes h2
    have n1 : (nameOf k t m).2.scopes = m.scopes ∧ m.anonStructs ≤ (nameOf k t m).2.anonStructs ∧ m.anonEnums ≤ (nameOf k t m).2.anonEnums ∧
        (∀ n, n < m.anonStructs → Name.anonStruct n ≠ (nameOf k t m).1) ∧ ∀ n, n < m.anonEnums → Name.anonEnum n ≠ (nameOf k t m).1 := by
      unfold nameOf
      cases t with
      | some t => exact ⟨rfl, Nat.le_refl _, Nat.le_refl _, fun _ _ h => (by cases h), fun _ _ h => by cases h⟩
      | none =>
        by_cases hk : k = .enum
        · simp only [if_pos hk]
          exact ⟨trivial, Nat.le_refl _, Nat.le_succ _, fun _ _ h => (by cases h), fun n hn h => (by injection h; omega)⟩
        · simp only [if_neg hk]
          exact ⟨trivial, Nat.le_succ _, Nat.le_refl _, fun n hn h => (by injection h; omega), fun _ _ h => by cases h⟩
    exact ⟨q.1.trans (ih.tail.trans (by rw [n1.1])), by rw [q.2.1]; exact Nat.le_trans n1.2.1 ih.structs,
      by rw [q.2.2.1]; exact Nat.le_trans n1.2.2.1 ih.enums,
      fun n hn => (q.2.2.2 _ (n1.2.2.2.1 n hn)).trans ((ih.anonStruct n (Nat.lt_of_lt_of_le hn n1.2.1)).trans (by rw [n1.1])),
      fun n hn => (q.2.2.2 _ (n1.2.2.2.2 n hn)).trans ((ih.anonEnum n (Nat.lt_of_lt_of_le hn n1.2.2.1)).trans (by rw [n1.1]))⟩
  | .scope is, m, m', o, h => by
    obtain ⟨m1, h1, h2⟩ := item_scope h
    subst h2
    have ih := items_keeps is _ _ _ h1
    have ht : m1.scopes.tail = m.scopes := ih.tail
    exact ⟨by show m1.scopes.tail.tail = _; rw [ht], ih.structs, ih.enums, fun n _ => (by show getCurrent m1.scopes.tail _ = _; rw [ht]),
      fun n _ => by show getCurrent m1.scopes.tail _ = _; rw [ht]⟩

theorem items_keeps : ∀ (is : List Item) (m m' : St) (o : List Out), items is m = .ok (m', o) → Keeps m m'
  | [], m, m', o, h => by
    rw [items] at h; injection h with h; injection h with h _; subst h; exact Keeps.refl _
  | i :: is, m, m', o, h => by
    obtain ⟨m1, o1, o2, h1, h2, _⟩ := items_cons h
    exact (item_keeps i _ _ _ h1).trans (items_keeps is _ _ _ h2)
end

end Verif.Tags
