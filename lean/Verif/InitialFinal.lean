import Verif.InitialParse
/-! What the tree holds in the end. -/
namespace Verif.Initial
open Verif Simple

/-- The node at a path. -/
def node : Path → Init → Init
  | [], c => c
  | i :: p, .brace l => node p (l.getD i .empty)
  | _ :: _, _ => .empty

/-- The value of a node. -/
def lf : Init → Option Leaf
  | .expr v to => some (.value v to)
  | .str s => some (.chars s)
  | _ => none

theorem lf_init (v : Leaf) : lf v.init = some v := by cases v <;> rfl

theorem lf_opened (c : Init) : lf (opened c) = lf c := by cases c <;> rfl

theorem node_empty (p : Path) : node p .empty = .empty := by cases p <;> rfl

theorem node_cons (i : Nat) (p : Path) {c : Init} {l : List Init} (h : entriesO c = some l) :
    node (i :: p) c = node p (entry l i) := by
  rw [entry_eq]
  cases c with
  | empty =>
    simp only [entriesO, Option.some.injEq] at h; subst h
    simp [node, node_empty]
  | brace l' => simp only [entriesO, Option.some.injEq] at h; subst h; rfl
  | expr v t => simp [entriesO] at h
  | str s => simp [entriesO] at h

theorem node_leaf (p : Path) (hp : p ≠ []) (v : Leaf) : node p v.init = .empty := by
  cases p with
  | nil => exact absurd rfl hp
  | cons i p => cases v <;> rfl

theorem node_opened (p : Path) (hp : p ≠ []) (c : Init) : node p (opened c) = node p c := by
  cases p with
  | nil => exact absurd rfl hp
  | cons i p => cases c <;> simp [opened, node, node_empty]

theorem modify_some (f : Init → Init) : ∀ (p : Path) (c : Init),
    (∀ q s, p = q ++ s → s ≠ [] → lf (node q c) = none) → ∃ c', modify p f c = some c' := by
  intro p
  induction p with
  | nil => intro c _; exact ⟨_, rfl⟩
  | cons i p ih =>
    intro c h
    have h0 := h [] (i :: p) rfl (by simp)
    have : ∃ l, entriesO c = some l := by
      cases c <;> simp_all [node, lf, entriesO]
    obtain ⟨l, hl⟩ := this
    obtain ⟨d, hd⟩ := ih (entry l i) (fun q s e hs => by
      rw [← node_cons i q hl]
      exact h (i :: q) s (by rw [e]; rfl) hs)
    exact ⟨.brace (setEntry l i d), by simp [modify, hl, hd]⟩

theorem modify_cons {f : Init → Init} {i : Nat} {p : Path} {c c' : Init} (h : modify (i :: p) f c = some c') :
    ∃ l d, entriesO c = some l ∧ modify p f (entry l i) = some d ∧ c' = .brace (setEntry l i d) := by
  simp only [modify] at h
  cases hl : entriesO c with
  | none => rw [hl] at h; cases h
  | some l =>
    rw [hl] at h
    simp only [Option.map_eq_some_iff] at h
    obtain ⟨d, hd, e⟩ := h
    exact ⟨l, d, rfl, hd, e.symm⟩

theorem node_modify_ext {f : Init → Init} : ∀ (p s : Path) (c c' : Init), modify p f c = some c' →
    node (p ++ s) c' = node s (f (node p c)) := by
  intro p
  induction p with
  | nil => intro s c c' h; simp only [modify, Option.some.injEq] at h; subst h; rfl
  | cons i p ih =>
    intro s c c' h
    obtain ⟨l, d, hl, hd, rfl⟩ := modify_cons h
    rw [node_cons i p hl, List.cons_append, node_cons i (p ++ s) (c := .brace (setEntry l i d)) rfl, entry_setEntry]
    exact ih s _ _ hd

theorem node_modify_prefix {f : Init → Init} : ∀ (q s : Path) (c c' : Init), s ≠ [] → modify (q ++ s) f c = some c' →
    ∃ l, node q c' = .brace l := by
  intro q
  induction q with
  | nil =>
    intro s c c' hs h
    cases s with
    | nil => exact absurd rfl hs
    | cons i s => obtain ⟨l, d, _, _, rfl⟩ := modify_cons h; exact ⟨_, rfl⟩
  | cons i q ih =>
    intro s c c' hs h
    obtain ⟨l, d, hl, hd, rfl⟩ := modify_cons h
    rw [node_cons i q (c := .brace (setEntry l i d)) rfl, entry_setEntry]
    exact ih s _ _ hs hd

/-- Neither is a part of the other. -/
def Diverge (p q : Path) : Prop := ∃ a i j s s', i ≠ j ∧ p = a ++ i :: s ∧ q = a ++ j :: s'

theorem node_modify_other {f : Init → Init} : ∀ (a : Path) (i j : Nat) (s s' : Path) (c c' : Init), i ≠ j →
    modify (a ++ i :: s) f c = some c' → node (a ++ j :: s') c' = node (a ++ j :: s') c := by
  intro a
  induction a with
  | nil =>
    intro i j s s' c c' hij h
    obtain ⟨l, d, hl, hd, rfl⟩ := modify_cons h
    rw [List.nil_append, node_cons j s' (c := .brace (setEntry l i d)) rfl, node_cons j s' hl, entry_eq, setEntry_get, entry_eq]
    simp [hij]
  | cons k a ih =>
    intro i j s s' c c' hij h
    obtain ⟨l, d, hl, hd, rfl⟩ := modify_cons h
    rw [List.cons_append, node_cons k _ (c := .brace (setEntry l k d)) rfl, node_cons k _ hl, entry_setEntry]
    exact ih i j s s' _ _ hij hd

theorem compare_paths : ∀ (p q : Path), p = q ∨ (∃ s, s ≠ [] ∧ q = p ++ s) ∨ (∃ s, s ≠ [] ∧ p = q ++ s) ∨ Diverge p q := by
  intro p
  induction p with
  | nil =>
    intro q
    cases q with
    | nil => exact .inl rfl
    | cons j q => exact .inr (.inl ⟨j :: q, by simp, rfl⟩)
  | cons i p ih =>
    intro q
    cases q with
    | nil => exact .inr (.inr (.inl ⟨i :: p, by simp, rfl⟩))
    | cons j q =>
      by_cases hij : i = j
      · subst hij
        rcases ih q with h | ⟨s, hs, h⟩ | ⟨s, hs, h⟩ | ⟨a, i', j', s, s', hn, h1, h2⟩
        · exact .inl (by rw [h])
        · exact .inr (.inl ⟨s, hs, by rw [h]; rfl⟩)
        · exact .inr (.inr (.inl ⟨s, hs, by rw [h]; rfl⟩))
        · exact .inr (.inr (.inr ⟨i :: a, i', j', s, s', hn, by rw [h1]; rfl, by rw [h2]; rfl⟩))
      · exact .inr (.inr (.inr ⟨[], i, j, p, q, hij, rfl, rfl⟩))

theorem apart_cases {t : T} : ∀ {p q : Path}, apart t p q = true → p = q ∨ Diverge p q := by
  intro p
  induction p generalizing t with
  | nil => intro q h; cases q with
    | nil => exact .inl rfl
    | cons => simp [apart] at h
  | cons i p ih =>
    intro q h
    cases q with
    | nil => simp [apart] at h
    | cons j q =>
      by_cases hij : i = j
      · subst hij
        simp only [apart, if_true] at h
        cases hs : t.sub i with
        | none => rw [hs] at h; cases h
        | some u =>
          rw [hs] at h
          rcases ih h with rfl | ⟨a, i', j', s, s', hn, h1, h2⟩
          · exact .inl rfl
          · exact .inr ⟨i :: a, i', j', s, s', hn, by rw [h1]; rfl, by rw [h2]; rfl⟩
      · exact .inr ⟨[], i, j, p, q, hij, rfl, rfl⟩

theorem apart_symm {t : T} : ∀ {p q : Path}, apart t p q = true → apart t q p = true := by
  intro p
  induction p generalizing t with
  | nil => intro q h; cases q with
    | nil => exact h
    | cons => simp [apart] at h
  | cons i p ih =>
    intro q h
    cases q with
    | nil => simp [apart] at h
    | cons j q =>
      by_cases hij : i = j
      · subst hij
        simp only [apart, if_true] at h ⊢
        cases hs : t.sub i with
        | none => rw [hs] at h; cases h
        | some u => rw [hs] at h; exact ih h
      · simp only [apart, if_neg hij, if_neg (Ne.symm hij)] at h ⊢; exact h

theorem apart_union {t : T} : ∀ {a : Path} {i j : Nat} {s s' : Path} {id fs}, i ≠ j → t.at a = some (.record true id fs) →
    apart t (a ++ i :: s) (a ++ j :: s') = false := by
  intro a
  induction a generalizing t with
  | nil => intro i j s s' id fs hij h; simp only [T.at, Option.some.injEq] at h; subst h; simp [apart, hij]
  | cons k a ih =>
    intro i j s s' id fs hij h
    simp only [T.at] at h
    cases hs : t.sub k with
    | none => rw [hs] at h; cases h
    | some u => rw [hs] at h; simp only [List.cons_append, apart, if_true, hs]; exact ih hij h

theorem partAtUnion_apart {t : T} : ∀ {p q : Path}, partAtUnion t q p = true → apart t p q = false := by
  intro p
  induction p generalizing t with
  | nil => intro q h; cases q <;> simp [partAtUnion] at h
  | cons i p ih =>
    intro q h
    cases q with
    | nil => simp [partAtUnion] at h
    | cons j q =>
      by_cases hij : j = i
      · subst hij
        simp only [partAtUnion, if_true] at h
        cases hs : t.sub j with
        | none => rw [hs] at h; cases h
        | some u => rw [hs] at h; simp only [apart, if_true, hs]; exact ih h
      · simp only [partAtUnion, if_neg hij] at h
        simp only [apart, if_neg (Ne.symm hij)]
        cases t with
        | record b id fs => cases b <;> simp_all
        | _ => simp at h

theorem diverge_not_prefix {p q : Path} (h : Diverge p q) : (∀ s, q ≠ p ++ s) ∧ (∀ s, p ≠ q ++ s) := by
  obtain ⟨a, i, j, s, s', hn, rfl, rfl⟩ := h
  constructor
  · intro x e
    simp at e; exact hn e.1.symm
  · intro x e
    simp at e; exact hn e.1

/-- The last value set at exactly this path. -/
def lastSet (p : Path) : List Ev → Option Leaf → Option Leaf
  | [], acc => acc
  | .start _ :: evs, acc => lastSet p evs acc
  | .set q v :: evs, acc => lastSet p evs (if q = p then some v else acc)

def Ev.path : Ev → Path
  | .start p => p
  | .set p _ => p

theorem lastSet_append (p : Path) (a b : List Ev) (acc : Option Leaf) :
    lastSet p (a ++ b) acc = lastSet p b (lastSet p a acc) := by
  induction a generalizing acc with
  | nil => rfl
  | cons e a ih => cases e <;> simp [lastSet, ih]

theorem lastSet_mem {p : Path} : ∀ {evs : List Ev} {v acc}, lastSet p evs acc = some v →
    acc = some v ∨ ∃ v', .set p v' ∈ evs := by
  intro evs
  induction evs with
  | nil => intro v acc h; exact .inl h
  | cons e evs ih =>
    intro v acc h
    cases e with
    | start q =>
      rcases ih h with h | ⟨v', h⟩
      · exact .inl h
      · exact .inr ⟨v', by simp [h]⟩
    | set q w =>
      simp only [lastSet] at h
      rcases ih h with h | ⟨v', h⟩
      · split at h
        · rename_i e; subst e; exact .inr ⟨w, by simp⟩
        · exact .inl h
      · exact .inr ⟨v', by simp [h]⟩

structure Inv (E : List Ev) (c : Init) : Prop where
  leaf : ∀ p, lf (node p c) = lastSet p E none
  full : ∀ p, p ≠ [] → node p c ≠ .empty → ∃ e ∈ E, ∃ s, e.path = p ++ s

theorem inv_nil : Inv [] .empty := ⟨fun p => by rw [node_empty]; rfl, fun p _ h => absurd (node_empty p) h⟩

theorem inv_step {t : T} {E : List Ev} {c : Init} (h : Inv E c) (e : Ev)
    (hs : ∀ e' ∈ E, harmless t e' e = true) : ∃ c', apply e c = some c' ∧ Inv (E ++ [e]) c' := by
  -- nothing set is a proper part of, or contains, the part of `e`
  have hno : ∀ p, (∃ v, lastSet p E none = some v) →
      (Diverge p e.path ∨ ((∃ v, e = .set p v))) := by
    intro p ⟨v, hv⟩
    rcases lastSet_mem hv with h | ⟨v', hm⟩
    · cases h
    · have := hs _ hm
      cases e with
      | start q =>
        simp only [harmless, Bool.and_eq_true, Bool.not_eq_true'] at this
        obtain ⟨h1, h2⟩ := this
        rcases compare_paths p q with h | ⟨s, _, h⟩ | ⟨s, _, h⟩ | h
        · subst h
          have : p.isPrefixOf p = true := by rw [List.isPrefixOf_iff_prefix]; exact List.prefix_refl p
          rw [h1] at this; cases this
        · subst h
          have : p.isPrefixOf (p ++ s) = true := by simp
          rw [h2] at this; cases this
        · subst h
          have : q.isPrefixOf (q ++ s) = true := by simp
          rw [h1] at this; cases this
        · exact .inl h
      | set q w =>
        simp only [harmless] at this
        rcases apart_cases this with rfl | h
        · exact .inr ⟨w, rfl⟩
        · exact .inl h
  have hpre : ∀ q s, e.path = q ++ s → s ≠ [] → lastSet q E none = none := by
    intro q s he hs'
    cases hl : lastSet q E none with
    | none => rfl
    | some v =>
      rcases hno q ⟨v, hl⟩ with h | ⟨w, h⟩
      · exact absurd he ((diverge_not_prefix h).1 s)
      · subst h; simp [Ev.path] at he; exact absurd he hs'
  have hext : ∀ s, s ≠ [] → ∀ w, e = .set e.path w → lastSet (e.path ++ s) E none = none := by
    intro s hs' w _
    cases hl : lastSet (e.path ++ s) E none with
    | none => rfl
    | some v =>
      rcases hno _ ⟨v, hl⟩ with h | ⟨w, h⟩
      · exact absurd rfl ((diverge_not_prefix h).2 s)
      · have : e.path = e.path ++ s := by conv => lhs; rw [h]
                                          rfl
        simp at this; exact absurd this hs'
  have key : ∀ (f : Init → Init), ∃ c', modify e.path f c = some c' := fun f =>
    modify_some f e.path c (fun q s he hs' => by rw [h.leaf]; exact hpre q s he hs')
  have hfull : ∀ (f : Init → Init) c', modify e.path f c = some c' → (∀ s, s ≠ [] → ∀ x, node s (f x) ≠ .empty → node s x ≠ .empty) →
      ∀ p, p ≠ [] → node p c' ≠ .empty → ∃ e' ∈ E ++ [e], ∃ s, e'.path = p ++ s := by
    intro f c' hc hf p hp hn
    rcases compare_paths p e.path with hpe | ⟨s, _, hpe⟩ | ⟨s, hs', hpe⟩ | hdv
    · exact ⟨e, by simp, [], by simp [hpe]⟩
    · exact ⟨e, by simp, s, hpe⟩
    · rw [hpe, node_modify_ext e.path s c c' hc] at hn
      have h2 := hf s hs' _ hn
      have h3 : node p c ≠ .empty := by
        rw [hpe]
        have := node_modify_ext e.path s c c (f := id)
        intro h4
        apply h2
        have aux : ∀ (a b : Path) (x : Init), node (a ++ b) x = node b (node a x) := by
          intro a
          induction a with
          | nil => intro b x; rfl
          | cons i a ih =>
            intro b x
            cases x with
            | brace l => exact ih b _
            | empty => simp [node, node_empty]
            | expr => simp [node, node_empty]
            | str => simp [node, node_empty]
        rw [← aux]; exact h4
      obtain ⟨e', hm, s', h5⟩ := h.full p hp h3
      exact ⟨e', by simp [hm], s', h5⟩
    · obtain ⟨a, i, j, s, s', hij, h1, h2⟩ := hdv
      rw [h2] at hc
      rw [h1, node_modify_other a j i s' s c c' (Ne.symm hij) hc, ← h1] at hn
      obtain ⟨e', hm, s', h5⟩ := h.full p hp hn
      exact ⟨e', by simp [hm], s', h5⟩
  cases e with
  | start q =>
    obtain ⟨c', hc⟩ := key opened
    simp only [Ev.path] at hc hpre
    refine ⟨c', hc, ?_, hfull opened c' hc (fun s hs' x hx => by rwa [node_opened s hs'] at hx)⟩
    intro p
    rw [lastSet_append]
    simp only [lastSet]
    rcases compare_paths p q with hpe | ⟨s, hs', hpe⟩ | ⟨s, hs', hpe⟩ | hdv
    · have := node_modify_ext q [] c c' hc
      rw [List.append_nil] at this
      rw [hpe, this]; simp only [node, lf_opened, h.leaf]
    · subst hpe
      obtain ⟨l, hl⟩ := node_modify_prefix p s c c' hs' hc
      rw [hl, hpre p s rfl hs']; rfl
    · rw [← h.leaf, hpe, node_modify_ext q s c c' hc, node_opened s hs']
      congr 1
      have aux : ∀ (a b : Path) (x : Init), node (a ++ b) x = node b (node a x) := by
        intro a
        induction a with
        | nil => intro b x; rfl
        | cons i a ih =>
          intro b x
          cases x with
          | brace l => exact ih b _
          | empty => simp [node, node_empty]
          | expr => simp [node, node_empty]
          | str => simp [node, node_empty]
      exact (aux q s c).symm
    · obtain ⟨a, i, j, s, s', hij, h1, h2⟩ := hdv
      rw [h2] at hc
      rw [h1, node_modify_other a j i s' s c c' (Ne.symm hij) hc, h.leaf]
  | set q v =>
    obtain ⟨c', hc⟩ := key (fun _ => v.init)
    simp only [Ev.path] at hc hpre
    refine ⟨c', hc, ?_, hfull _ c' hc (fun s hs' x hx => absurd (node_leaf s hs' v) hx)⟩
    intro p
    rw [lastSet_append]
    simp only [lastSet]
    rcases compare_paths p q with hpe | ⟨s, hs', hpe⟩ | ⟨s, hs', hpe⟩ | hdv
    · have := node_modify_ext q [] c c' hc
      rw [List.append_nil] at this
      rw [hpe, this, if_pos rfl]; simp only [node, lf_init]
    · subst hpe
      obtain ⟨l, hl⟩ := node_modify_prefix p s c c' hs' hc
      have : ¬ (p ++ s = p) := by simp [hs']
      rw [hl, if_neg this, hpre p s rfl hs']; rfl
    · have hne : ¬ (q = p) := by rw [hpe]; simp [hs']
      rw [if_neg hne, hpe, node_modify_ext q s c c' hc, node_leaf s hs']
      exact (hext s hs' v rfl).symm
    · have hne : ¬ (q = p) := by
        intro e; subst e
        exact (diverge_not_prefix hdv).1 [] (by simp)
      obtain ⟨a, i, j, s, s', hij, h1, h2⟩ := hdv
      rw [if_neg hne]
      rw [h2] at hc
      rw [h1, node_modify_other a j i s' s c c' (Ne.symm hij) hc, h.leaf]

theorem inv_all {t : T} : ∀ (evs E : List Ev) (c : Init), Inv E c → Separate t (E ++ evs) →
    ∃ c', applyAll evs c = some c' ∧ Inv (E ++ evs) c' := by
  intro evs
  induction evs with
  | nil => intro E c h _; exact ⟨c, rfl, by simpa using h⟩
  | cons e evs ih =>
    intro E c h hs
    have hs' := hs
    rw [Separate, List.pairwise_append] at hs'
    obtain ⟨c1, h1, hi⟩ := inv_step (t := t) h e (fun e' he => hs'.2.2 e' he e (by simp))
    obtain ⟨c2, h2, hi2⟩ := ih (E ++ [e]) c1 hi (by simpa using hs)
    exact ⟨c2, by simp [applyAll, h1, h2], by simpa using hi2⟩

theorem finalAt_lastSet {t : T} {p : Path} : ∀ (evs E : List Ev), Separate t (E ++ evs) →
    finalAt t p evs (lastSet p E none) = lastSet p (E ++ evs) none := by
  intro evs
  induction evs with
  | nil => intro E _; simp [finalAt]
  | cons e evs ih =>
    intro E hs
    have hs' := hs
    rw [Separate, List.pairwise_append] at hs'
    have ih' := ih (E ++ [e]) (by simpa using hs)
    rw [List.append_assoc, List.singleton_append] at ih'
    rw [← ih', lastSet_append]
    cases e with
    | start q =>
      simp only [finalAt, lastSet]
      congr 1
      split
      · rename_i hq
        cases hl : lastSet p E none with
        | none => rfl
        | some v =>
          rcases lastSet_mem hl with h | ⟨v', hm⟩
          · cases h
          · have := hs'.2.2 _ hm (.start q) (by simp)
            simp [harmless] at this
            simp [this.1] at hq
      · rfl
    | set q w =>
      simp only [finalAt, lastSet]
      congr 1
      split
      · rfl
      · rename_i hne
        split
        · rename_i hq
          cases hl : lastSet p E none with
          | none => rfl
          | some v =>
            rcases lastSet_mem hl with h | ⟨v', hm⟩
            · cases h
            · have hh := hs'.2.2 _ hm (.set q w) (by simp)
              simp only [harmless] at hh
              simp only [Bool.or_eq_true] at hq
              rcases hq with hq | hq
              · rcases apart_cases hh with e | hd
                · exact absurd e.symm hne
                · rw [List.isPrefixOf_iff_prefix] at hq
                  obtain ⟨s, hs⟩ := hq
                  exact absurd hs.symm ((diverge_not_prefix hd).2 s)
              · rw [partAtUnion_apart hq] at hh; cases hh
        · rfl


/-! ### The parts that get values -/

/-- Facts about the events of an initialiser: each is for a part of the object, and a list sets
something. -/
structure Good (t : T) (evs : List Ev) : Prop where
  valid : ∀ e ∈ evs, ∃ u, t.at e.path = some u
  sets : ∀ q, .start q ∈ evs → ∃ s v, .set (q ++ s) v ∈ evs
  some : ∃ q v, .set q v ∈ evs

theorem good_under {t u : T} {q : Path} {evs : List Ev} (hq : t.at q = some u) (h : Good u evs) :
    Good t (evs.map (Ev.under q)) := by
  constructor
  · intro e he
    simp only [List.mem_map] at he
    obtain ⟨e0, he0, rfl⟩ := he
    obtain ⟨w, hw⟩ := h.valid e0 he0
    refine ⟨w, ?_⟩
    have : (e0.under q).path = q ++ e0.path := by cases e0 <;> rfl
    rw [this, at_append, hq]; exact hw
  · intro p hp
    simp only [List.mem_map] at hp
    obtain ⟨e0, he0, e⟩ := hp
    cases e0 with
    | set a v => simp [Ev.under] at e
    | start a =>
      simp only [Ev.under, Ev.start.injEq] at e
      subst e
      obtain ⟨s, v, hm⟩ := h.sets a he0
      exact ⟨s, v, List.mem_map.2 ⟨_, hm, by simp [Ev.under]⟩⟩
  · obtain ⟨p, v, hm⟩ := h.some
    exact ⟨q ++ p, v, List.mem_map.2 ⟨_, hm, rfl⟩⟩

theorem good_append {t : T} {a b : List Ev} (ha : Good t a) (hb : Good t b) : Good t (a ++ b) := by
  constructor
  · intro e he
    rcases List.mem_append.1 he with h | h
    · exact ha.valid e h
    · exact hb.valid e h
  · intro q hq
    rcases List.mem_append.1 hq with h | h
    · obtain ⟨s, v, hm⟩ := ha.sets q h; exact ⟨s, v, by simp [hm]⟩
    · obtain ⟨s, v, hm⟩ := hb.sets q h; exact ⟨s, v, by simp [hm]⟩
  · obtain ⟨q, v, hm⟩ := ha.some; exact ⟨q, v, by simp [hm]⟩

theorem good_leaf (t : T) (v : Leaf) : Good t [.set [] v] :=
  ⟨fun e he => by simp at he; subst he; exact ⟨t, rfl⟩, fun q hq => by simp at hq, ⟨[], v, by simp⟩⟩

mutual
theorem good_obj {plain t i evs} : InitObj plain t i evs → Good t evs
  | .whole _ _ => good_leaf _ _
  | .braced _ _ => good_leaf _ _
  | .list _ _ h => by
    have := good_items h
    constructor
    · intro e he
      rcases List.mem_cons.1 he with h | h
      · subst h; exact ⟨_, rfl⟩
      · exact this.valid e h
    · intro q hq
      rcases List.mem_cons.1 hq with h | h
      · cases h
        obtain ⟨q, v, hm⟩ := this.some
        exact ⟨q, v, by simp [hm]⟩
      · obtain ⟨s, v, hm⟩ := this.sets q h; exact ⟨s, v, by simp [hm]⟩
    · obtain ⟨q, v, hm⟩ := this.some; exact ⟨q, v, by simp [hm]⟩
theorem good_puts {plain t i p evs} : Puts plain t i p evs → Good t evs
  | .here h => good_obj h
  | .down _ _ hs h => good_under (by simp [T.at, hs]) (good_puts h)
theorem good_items {plain t cur items evs} : InitItems plain t cur items evs → Good t evs
  | .one _ ha hp => good_under ha (good_puts hp)
  | .more _ ha hp hr _ => good_append (good_under ha (good_puts hp)) (good_items hr)
end

/-- Two values in a separate sequence of events are apart. -/
theorem separate_apart {t : T} {evs : List Ev} (h : Separate t evs) {p q v w} (hp : .set p v ∈ evs) (hq : .set q w ∈ evs)
    (hne : p ≠ q) : apart t p q = true := by
  induction evs with
  | nil => simp at hp
  | cons e evs ih =>
    rw [Separate, List.pairwise_cons] at h
    rcases List.mem_cons.1 hp with h1 | h1
    · rcases List.mem_cons.1 hq with h2 | h2
      · rw [← h1] at h2; cases h2; exact absurd rfl hne
      · subst h1; exact h.1 _ h2
    · rcases List.mem_cons.1 hq with h2 | h2
      · subst h2; exact apart_symm (h.1 _ h1)
      · exact ih h.2 h1 h2

theorem codeAt_leaf : ∀ (p : Path) (t : T) (c : Init) (v : Leaf), codeAt t c p = some v → lf (node p c) = some v := by
  intro p
  induction p with
  | nil =>
    intro t c v h
    cases c <;> simp_all [codeAt, node, lf]
  | cons i p ih =>
    intro t c v h
    cases c with
    | brace l =>
      simp only [codeAt] at h
      simp only [node]
      split at h
      · split at h
        · cases h
        · split at h
          · exact ih _ _ _ h
          · cases h
      · split at h
        · exact ih _ _ _ h
        · cases h
    | empty => simp [codeAt] at h
    | expr => simp [codeAt] at h
    | str => simp [codeAt] at h

theorem leaf_codeAt : ∀ (p : Path) (t : T) (c : Init) (v : Leaf), (∃ u, t.at p = some u) → lf (node p c) = some v →
    (∀ a i s id fs, p = a ++ i :: s → t.at a = some (.record true id fs) → ∀ j, i < j → node (a ++ [j]) c = .empty) →
    codeAt t c p = some v := by
  intro p
  induction p with
  | nil =>
    intro t c v _ h _
    cases c <;> simp_all [codeAt, node, lf]
  | cons i p ih =>
    intro t c v ⟨u, hu⟩ h hun
    simp only [T.at] at hu
    cases hs : t.sub i with
    | none => rw [hs] at hu; cases hu
    | some w =>
      rw [hs] at hu
      cases c with
      | brace l =>
        simp only [node] at h
        have hrec := ih w (l.getD i .empty) v ⟨u, hu⟩ h (fun a k s id fs he ha j hj => by
          have := hun (i :: a) k s id fs (by rw [he]; rfl) (by simp [T.at, hs, ha]) j hj
          exact this)
        simp only [codeAt]
        split
        · rename_i id fs
          have hany : (l.drop (i + 1)).any isThere = false := by
            rw [List.any_eq_false]
            intro x hx
            obtain ⟨k, hk, hkx⟩ := List.getElem_of_mem hx
            rw [List.getElem_drop] at hkx
            have := hun [] i p id fs rfl rfl (i + 1 + k) (by omega)
            simp only [List.nil_append, node] at this
            have hlt : i + 1 + k < l.length := by simp at hk; omega
            rw [List.getD_eq_getElem?_getD, List.getElem?_eq_getElem hlt] at this
            simp only [Option.getD_some] at this
            rw [this] at hkx
            subst hkx; simp [isThere]
          rw [hany]
          simp only [Bool.false_eq_true, if_false, hs]
          exact hrec
        · simp only [hs]; exact hrec
      | empty => simp [node, lf] at h
      | expr => simp [node, lf] at h
      | str => simp [node, lf] at h

/-- The generated code gives each part the value that C says, when nothing is overridden. -/
theorem code_final {t : T} {i : Ini} {evs : List Ev} {plain} (h : InitObj plain t i evs) (hs : Separate t evs) :
    ∃ c, applyAll evs .empty = some c ∧ ∀ p, codeAt t c p = finalAt t p evs none := by
  obtain ⟨c, hc, hi⟩ := inv_all evs [] .empty inv_nil (by simpa using hs)
  simp only [List.nil_append] at hi
  refine ⟨c, hc, fun p => ?_⟩
  have hf := finalAt_lastSet (p := p) evs [] (by simpa using hs)
  simp only [lastSet, List.nil_append] at hf
  rw [hf, ← hi.leaf p]
  have hg := good_obj h
  cases hl : lf (node p c) with
  | none =>
    cases hk : codeAt t c p with
    | none => rfl
    | some v => rw [codeAt_leaf p t c v hk] at hl; cases hl
  | some v =>
    have hm : ∃ v', .set p v' ∈ evs := by
      rw [hi.leaf] at hl
      rcases lastSet_mem hl with h | h
      · cases h
      · exact h
    obtain ⟨v', hm⟩ := hm
    refine leaf_codeAt p t c v (hg.valid _ hm) hl ?_
    intro a k s id fs hp ha j hj
    cases hn : node (a ++ [j]) c with
    | empty => rfl
    | _ =>
      exfalso
      obtain ⟨e, he, s', hes⟩ := hi.full (a ++ [j]) (by simp) (by rw [hn]; simp)
      have hset : ∃ s'' w, .set ((a ++ [j]) ++ s'') w ∈ evs := by
        cases e with
        | set q w => simp only [Ev.path] at hes; subst hes; exact ⟨s', w, he⟩
        | start q =>
          simp only [Ev.path] at hes; subst hes
          obtain ⟨s2, w, h2⟩ := hg.sets _ he
          exact ⟨s' ++ s2, w, by simpa using h2⟩
      obtain ⟨s'', w, h2⟩ := hset
      have hkj : k ≠ j := by omega
      have hne : p ≠ (a ++ [j]) ++ s'' := by
        rw [hp]; intro e; simp at e; exact hkj e.1
      have h3 := separate_apart hs hm h2 hne
      rw [hp] at h3
      have h4 := apart_union (s := s) (s' := s'') hkj ha
      rw [List.append_assoc, List.singleton_append] at h3
      rw [h4] at h3; cases h3

/-! ### The size of an array -/

theorem next_ne_nil (t : T) (p : Path) : next t p ≠ some [] := by
  cases p with
  | nil => simp [next]
  | cons i p =>
    simp only [next]
    split
    · simp
    · split <;> simp

theorem target_ne_nil {t cur ds q} (h : Target t cur ds q) (hc : cur ≠ some []) : q ≠ [] := by
  cases h with
  | current => intro e; subst e; exact hc rfl
  | designated h1 h2 => exact h2.ne_nil h1

theorem items_paths {plain t} : ∀ (items : Items) (cur evs), InitItems plain t cur items evs → cur ≠ some [] →
    ∀ e ∈ evs, e.path ≠ []
  | .one ds i c, cur, evs, h, hc, e, he => by
    cases h with
    | one ht _ _ =>
      simp only [List.mem_map] at he
      obtain ⟨e0, _, rfl⟩ := he
      have := target_ne_nil ht hc
      cases e0 <;> simp [Ev.under, Ev.path, this]
  | .more ds i rest, cur, evs, h, hc, e, he => by
    cases h with
    | more ht _ _ hr _ =>
      rcases List.mem_append.1 he with he | he
      · simp only [List.mem_map] at he
        obtain ⟨e0, _, rfl⟩ := he
        have := target_ne_nil ht hc
        cases e0 <;> simp [Ev.under, Ev.path, this]
      · exact items_paths rest _ _ hr (next_ne_nil _ _) e he

theorem applyAll_length : ∀ (evs : List Ev) (l : List Init) (c : Init), (∀ e ∈ evs, e.path ≠ []) →
    applyAll evs (.brace l) = some c → ∃ l', c = .brace l' ∧ l'.length = max l.length (largest evs) := by
  intro evs
  induction evs with
  | nil => intro l c _ h; simp [applyAll] at h; exact ⟨l, h.symm, by simp [largest]⟩
  | cons e evs ih =>
    intro l c hp h
    simp only [applyAll] at h
    cases ha : apply e (.brace l) with
    | none => rw [ha] at h; cases h
    | some c1 =>
      rw [ha] at h; simp only [Option.bind_some] at h
      have key : ∀ i p f, modify (i :: p) f (.brace l) = some c1 → largest (e :: evs) = max (i + 1) (largest evs) →
          ∃ l', c = .brace l' ∧ l'.length = max l.length (largest (e :: evs)) := by
        intro i p f hm hlg
        obtain ⟨l0, d, hl0, _, rfl⟩ := modify_cons hm
        simp only [entriesO, Option.some.injEq] at hl0; subst hl0
        obtain ⟨l', h1, h2⟩ := ih _ c (fun e he => hp e (by simp [he])) h
        refine ⟨l', h1, ?_⟩
        rw [h2, setEntry_length, hlg]; omega
      have h0 := hp e (by simp)
      cases e with
      | start q =>
        cases q with
        | nil => exact absurd rfl h0
        | cons i p => exact key i p _ ha rfl
      | set q v =>
        cases q with
        | nil => exact absurd rfl h0
        | cons i p => exact key i p _ ha rfl

theorem resType_full {plain t i evs c} (h : InitObj plain t i evs) (ha : applyAll evs .empty = some c) :
    resType t i c = fullType t i evs := by
  cases t with
  | unknown u =>
    cases h with
    | whole ht hq =>
      cases i with
      | str => rfl
      | expr => simp [takes, T.isAggregate] at ht
      | brace => simp [takes] at ht
    | @braced _ i' comma hsg _ =>
      cases i' with
      | str k s n =>
        have : isCharArray k (.unknown u) = true := by simpa [single, T.isAggregate] using hsg
        simp [resType, fullType, this]
      | expr => simp [single, T.isAggregate] at hsg
      | brace => simp [single] at hsg
    | @list _ items evs' _ hns hit =>
      simp only [applyAll, apply, modify, opened, Option.bind_some] at ha
      obtain ⟨l, rfl, hl⟩ := applyAll_length evs' [] c (items_paths items _ _ hit (by simp)) ha
      simp only [List.length_nil, Nat.zero_max] at hl
      simp only [resType, fullType]
      have : largest (.start [] :: evs') = l.length := by rw [hl]; rfl
      rw [this]
      split
      · rename_i h; cases h
      · rename_i h; rw [h]
      · split
        · rename_i h; cases h
        · rename_i hno _ _ _ _ _ h; exact absurd h (hno _ _ _ _)
        · rfl
  | _ => rfl

mutual
/-- What is left out with `plain` is all that it changes. -/
theorem plain_obj {plain t i evs} : InitObj plain t i evs → InitObj false t i evs
  | .whole h _ => .whole h (fun h => by cases h)
  | .braced h _ => .braced h (by simp)
  | .list h1 h2 h3 => .list h1 h2 (plain_items h3)
theorem plain_puts {plain t i p evs} : Puts plain t i p evs → Puts false t i p evs
  | .here h => .here (plain_obj h)
  | .down h1 h2 h3 h4 => .down h1 h2 h3 (plain_puts h4)
theorem plain_items {plain t cur items evs} : InitItems plain t cur items evs → InitItems false t cur items evs
  | .one h1 h2 h3 => .one h1 h2 (plain_puts h3)
  | .more h1 h2 h3 h4 _ => .more h1 h2 (plain_puts h3) (plain_items h4) (by simp)
end


theorem resolves_det {t ds q q'} (h : Resolves t ds q) (h' : Resolves t ds q') : q = q' := by
  induction h generalizing q' with
  | nil => cases h'; rfl
  | index _ hs _ ih =>
    cases h' with
    | index _ hs' h' => rw [hs] at hs'; cases hs'; rw [ih h']
  | member _ hn hu ha _ ih =>
    cases h' with
    | member _ hn' _ ha' h' =>
      have := hu _ hn'; subst this
      rw [ha] at ha'; cases ha'
      rw [ih h']

theorem target_det {t cur ds q q'} (h : Target t cur ds q) (h' : Target t cur ds q') : q = q' := by
  cases h with
  | current => cases h' with
    | current => rfl
    | designated h _ => exact absurd rfl h
  | designated hd h => cases h' with
    | current => exact absurd rfl hd
    | designated _ h' => exact resolves_det h h'

theorem leaf_takes {plain t i evs} (h : InitObj plain t i evs) (hl : i.isLeaf = true) : takes t i = true := by
  cases h with
  | whole h _ => exact h
  | braced => simp [Ini.isLeaf] at hl
  | list => simp [Ini.isLeaf] at hl

mutual
theorem det_obj {plain t i e e'} : InitObj plain t i e → InitObj plain t i e' → e = e'
  | .whole h _, h' => by
    cases h' with
    | whole => rfl
    | braced => simp [takes] at h
    | list => simp [takes] at h
  | .braced h _, h' => by
    cases h' with
    | whole h _ => simp [takes] at h
    | braced => rfl
    | list _ hns _ => rw [hns _ _ rfl] at h; cases h
  | .list _ hns hit, h' => by
    cases h' with
    | whole h _ => simp [takes] at h
    | braced h _ => rw [hns _ _ rfl] at h; cases h
    | list _ _ hit' => rw [det_items hit hit']
theorem det_puts {plain t i p p' e e'} : Puts plain t i p e → Puts plain t i p' e' → p = p' ∧ e = e'
  | .here h, h' => by
    cases h' with
    | here h' => exact ⟨rfl, det_obj h h'⟩
    | down hl ht _ _ => rw [leaf_takes h hl] at ht; cases ht
  | .down hl ht hs h, h' => by
    cases h' with
    | here h' => rw [leaf_takes h' hl] at ht; cases ht
    | down _ _ hs' h' =>
      rw [hs] at hs'; cases hs'
      obtain ⟨rfl, rfl⟩ := det_puts h h'
      exact ⟨rfl, rfl⟩
theorem det_items {plain t cur items e e'} : InitItems plain t cur items e → InitItems plain t cur items e' → e = e'
  | .one ht ha hp, h' => by
    cases h' with
    | one ht' ha' hp' =>
      have := target_det ht ht'; subst this
      rw [ha] at ha'; cases ha'
      rw [(det_puts hp hp').2]
  | .more ht ha hp hr _, h' => by
    cases h' with
    | more ht' ha' hp' hr' _ =>
      have := target_det ht ht'; subst this
      rw [ha] at ha'; cases ha'
      obtain ⟨rfl, rfl⟩ := det_puts hp hp'
      rw [det_items hr hr']
end

end Verif.Initial
