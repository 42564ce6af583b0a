import Verif.InitialSpec
/-! Lemmas about initialisers. -/
namespace Verif.Initial
open Verif Simple

/-! ### Trees -/

/-- The entries of something that is empty or a list. -/
def entriesO : Init → Option (List Init)
  | .empty => some []
  | .brace l => some l
  | _ => none

theorem entries_of {c l} (h : entriesO c = some l) : entries c = .ok l := by
  cases c <;> simp_all [entriesO, entries]

theorem entriesO_opened (c : Init) : entriesO (opened c) = entriesO c := by
  cases c <;> rfl

/-- Change the part at a path. -/
def modify : Path → (Init → Init) → Init → Option Init
  | [], f, c => some (f c)
  | i :: p, f, c => match entriesO c with
    | some l => (modify p f (entry l i)).map (fun d => .brace (setEntry l i d))
    | none => none

/-- A leaf as a node. -/
def Leaf.init : Leaf → Init
  | .value v to => .expr v to
  | .chars s => .str s

/-- The effect of an event on the tree. -/
def apply : Ev → Init → Option Init
  | .start p, c => modify p opened c
  | .set p v, c => modify p (fun _ => v.init) c

def applyAll : List Ev → Init → Option Init
  | [], c => some c
  | e :: evs, c => (apply e c).bind (applyAll evs)

theorem applyAll_append (a b : List Ev) (c : Init) :
    applyAll (a ++ b) c = (applyAll a c).bind (applyAll b) := by
  induction a generalizing c with
  | nil => rfl
  | cons e a ih =>
    simp only [List.cons_append, applyAll, Option.bind_assoc]
    congr 1; funext d; exact ih d

theorem extend_length (l : List Init) (i : Nat) : (extend l i).length = max l.length (i + 1) := by
  simp [extend]; omega

theorem setEntry_length (l : List Init) (i : Nat) (c : Init) :
    (setEntry l i c).length = max l.length (i + 1) := by simp [setEntry, extend_length]

theorem entry_eq (l : List Init) (i : Nat) : entry l i = l.getD i .empty := by
  simp only [entry, extend, List.getD_eq_getElem?_getD, List.getElem?_append]
  split
  · rfl
  · rename_i h
    simp only [List.getElem?_replicate]
    have : l[i]? = none := by simp; omega
    rw [this]; split <;> rfl

theorem setEntry_get (l : List Init) (i j : Nat) (c : Init) :
    (setEntry l i c).getD j .empty = if i = j then c else l.getD j .empty := by
  simp only [setEntry, List.getD_eq_getElem?_getD, List.getElem?_set]
  have hl := extend_length l i
  by_cases h : i = j
  · subst h
    have : i < (extend l i).length := by omega
    simp [this]
  · simp only [h, if_false]
    have := entry_eq l j
    simp only [extend, List.getElem?_append]
    split
    · rfl
    · have hn : l[j]? = none := by simp; omega
      rw [hn]; simp only [List.getElem?_replicate]; split <;> rfl

theorem entry_setEntry (l : List Init) (i : Nat) (c : Init) : entry (setEntry l i c) i = c := by
  rw [entry_eq, setEntry_get]; simp

theorem setEntry_setEntry (l : List Init) (i : Nat) (c d : Init) :
    setEntry (setEntry l i c) i d = setEntry l i d := by
  have h : extend (setEntry l i c) i = setEntry l i c := by
    have := setEntry_length l i c
    simp only [extend]
    have h0 : i + 1 - (setEntry l i c).length = 0 := by omega
    rw [h0]; simp
  have e : setEntry (setEntry l i c) i d = (setEntry l i c).set i d := by
    rw [setEntry, h]
  rw [e, setEntry, setEntry, List.set_set]

theorem apply_under (i : Nat) (e : Ev) (c : Init) (l : List Init) (h : entriesO c = some l) :
    apply (e.under [i]) c = (apply e (entry l i)).map (fun d => .brace (setEntry l i d)) := by
  cases e <;> simp [Ev.under, apply, modify, h]

theorem apply_under_none (i : Nat) (e : Ev) (c : Init) (h : entriesO c = none) :
    apply (e.under [i]) c = none := by
  cases e <;> simp [Ev.under, apply, modify, h]

theorem applyAll_under' (i : Nat) (evs : List Ev) : ∀ (l : List Init) (d0 : Init),
    applyAll (evs.map (Ev.under [i])) (.brace (setEntry l i d0)) =
      (applyAll evs d0).map (fun d => .brace (setEntry l i d)) := by
  induction evs with
  | nil => intro l d0; rfl
  | cons e evs ih =>
    intro l d0
    simp only [List.map_cons, applyAll]
    rw [apply_under i e _ (setEntry l i d0) rfl, entry_setEntry]
    cases h : apply e d0 with
    | none => rfl
    | some d =>
      simp only [Option.map_some, Option.bind_some, setEntry_setEntry]
      exact ih l d

/-- Events inside one part. -/
theorem applyAll_under {i : Nat} {evs : List Ev} {c c' : Init} (hne : evs ≠ [])
    (h : applyAll (evs.map (Ev.under [i])) c = some c') :
    ∃ l d, entriesO c = some l ∧ applyAll evs (entry l i) = some d ∧ c' = .brace (setEntry l i d) := by
  cases evs with
  | nil => exact absurd rfl hne
  | cons e evs =>
    simp only [List.map_cons, applyAll] at h
    cases hc : entriesO c with
    | none => rw [apply_under_none i e c hc] at h; simp at h
    | some l =>
      rw [apply_under i e c l hc] at h
      cases he : apply e (entry l i) with
      | none => rw [he] at h; simp at h
      | some d =>
        rw [he] at h
        simp only [Option.map_some, Option.bind_some] at h
        rw [applyAll_under'] at h
        cases h2 : applyAll evs d with
        | none => rw [h2] at h; simp at h
        | some d' =>
          rw [h2] at h
          simp only [Option.map_some, Option.some.injEq] at h
          refine ⟨l, d', rfl, ?_, h.symm⟩
          simp [applyAll, he, h2]

theorem Ev.under_under (p q : Path) (e : Ev) : (e.under q).under p = e.under (p ++ q) := by
  cases e <;> simp [Ev.under]

theorem Ev.under_nil (e : Ev) : e.under [] = e := by cases e <;> rfl

theorem map_under_under (p q : Path) (evs : List Ev) :
    (evs.map (Ev.under q)).map (Ev.under p) = evs.map (Ev.under (p ++ q)) := by
  simp [Function.comp_def, Ev.under_under]

theorem map_under_nil (evs : List Ev) : evs.map (Ev.under []) = evs := by
  have : (Ev.under [] : Ev → Ev) = id := by funext e; exact e.under_nil
  simp [this]

/-! ### Types -/

theorem at_append (t : T) (p q : Path) : t.at (p ++ q) = (t.at p).bind (·.at q) := by
  induction p generalizing t with
  | nil => rfl
  | cons i p ih =>
    simp only [List.cons_append, T.at]
    cases t.sub i with
    | none => rfl
    | some u => exact ih u

theorem at_snoc {t u v : T} {q : Path} {i : Nat} (h : t.at q = some u) (hs : u.sub i = some v) :
    t.at (q ++ [i]) = some v := by
  rw [at_append, h]; simp [T.at, hs]

theorem select_of {t u : T} {i : Nat} (h : t.sub i = some u) : select t i = .ok u := by
  cases t <;> simp_all [T.sub, select]

theorem selectPath_of {t u : T} {p : Path} (h : t.at p = some u) : selectPath t p = .ok u := by
  induction p generalizing t with
  | nil => simp only [T.at, Option.some.injEq] at h; rw [h]; rfl
  | cons i p ih =>
    simp only [T.at] at h
    cases hs : t.sub i with
    | none => rw [hs] at h; cases h
    | some v =>
      rw [hs] at h
      simp only [selectPath, select_of hs]
      exact ih h

theorem aggregate_of_sub {t u : T} {i : Nat} (h : t.sub i = some u) : t.isAggregate = true := by
  cases t <;> simp_all [T.sub, T.isAggregate]

theorem maxMembers_of {t : T} (h : t.isAggregate = true) : maxMembers t = .ok t.parts := by
  cases t with
  | record b id fs => cases b <;> rfl
  | _ => simp_all [T.isAggregate, maxMembers, T.parts]

theorem Fields.lt_of_get : ∀ {fs : Fields} {i t}, fs.get i = some t → i < fs.length
  | .nil, _, _, h => by simp [Fields.get] at h
  | .cons _ _ r, 0, _, _ => by simp [Fields.length]
  | .cons _ _ r, i + 1, _, h => by
    have := Fields.lt_of_get (fs := r) (i := i) h
    simp only [Fields.length]; omega

theorem sub_of_lt : ∀ {fs : Fields} {i}, i < fs.length → ∃ t, fs.get i = some t
  | .nil, _, h => by simp [Fields.length] at h
  | .cons _ t r, 0, _ => ⟨t, rfl⟩
  | .cons _ _ r, i + 1, h => by
    have := sub_of_lt (fs := r) (i := i) (by simp only [Fields.length] at h; omega)
    exact this

/-- The part of number `i` is one that a list goes through. -/
def InParts (t : T) (i : Nat) : Prop := ∀ n, t.parts = some n → i < n

theorem inParts_zero {t u : T} (h : t.sub 0 = some u) : InParts t 0 := by
  intro n hn
  cases t with
  | array m e => simp [T.sub] at h; simp [T.parts] at hn; omega
  | unknown e => simp [T.parts] at hn
  | record b id fs =>
    cases b with
    | true => simp [T.parts] at hn; omega
    | false => simp [T.parts] at hn; simp [T.sub] at h; have := Fields.lt_of_get h; omega
  | simple s => simp [T.sub] at h
  | pointer => simp [T.sub] at h

theorem inParts_succ {t : T} {i : Nat} (h : t.hasNext i = true) : InParts t (i + 1) := by
  intro n hn
  simp [T.hasNext, hn] at h; exact h

theorem hasNext_iff {t : T} {i : Nat} (hi : InParts t i) : t.hasNext i = false ↔ t.parts = some (i + 1) := by
  simp only [T.hasNext]
  cases h : t.parts with
  | none => simp
  | some n => have := hi n h; simp; omega

/-- `next` at the end of a path. -/
theorem next_snoc (t : T) : ∀ (q : Path) (u : T) (i : Nat), t.at q = some u → (∃ v, u.sub i = some v) →
    next t (q ++ [i]) = if u.hasNext i then some (q ++ [i + 1]) else next t q := by
  intro q
  induction q generalizing t with
  | nil =>
    intro u i h ⟨v, hs⟩
    simp only [T.at, Option.some.injEq] at h; subst h
    simp only [List.nil_append, next, hs]
  | cons j q ih =>
    intro u i h hv
    simp only [T.at] at h
    cases hs : t.sub j with
    | none => rw [hs] at h; cases h
    | some w =>
      rw [hs] at h
      simp only [List.cons_append, next, hs]
      rw [ih w u i h hv]
      cases hn : u.hasNext i
      · simp only [Bool.false_eq_true, if_false]
      · simp only [if_true, List.cons_append]

/-! ### Designators -/

mutual
theorem search_sound (x : Str) : ∀ (t : T) (p : Path), search x t = some p → Names x t p
  | .record u id fs, p, h => by
    rw [search] at h
    obtain ⟨i, t, q, hp, hn⟩ := searchFields_sound x fs 0 p h
    rcases hn with ⟨hn, hq⟩ | ⟨hn, hq⟩
    · rw [hp, hq]; simpa using Names.here hn
    · rw [hp]; simpa using Names.inner hn hq
  | .simple _, _, h => by simp [search] at h
  | .pointer, _, h => by simp [search] at h
  | .array _ _, _, h => by simp [search] at h
  | .unknown _, _, h => by simp [search] at h
theorem searchFields_sound (x : Str) : ∀ (fs : Fields) (k : Nat) (p : Path), searchFields x fs k = some p →
    ∃ i t q, p = (k + i) :: q ∧ ((Fields.named fs i x t ∧ q = []) ∨ (Fields.named fs i [] t ∧ Names x t q))
  | .nil, k, p, h => by simp [searchFields] at h
  | .cons y t r, k, p, h => by
    rw [searchFields] at h
    split at h
    · rename_i hy
      simp only [Option.some.injEq] at h
      exact ⟨0, t, [], h.symm, .inl ⟨⟨hy.symm, rfl⟩, rfl⟩⟩
    · have key : searchFields x r (k + 1) = some p →
          ∃ i u q, p = (k + i) :: q ∧ ((Fields.named (.cons y t r) i x u ∧ q = []) ∨
            (Fields.named (.cons y t r) i [] u ∧ Names x u q)) := fun hr => by
        obtain ⟨i, u, q, hp, hn⟩ := searchFields_sound x r (k + 1) p hr
        exact ⟨i + 1, u, q, by rw [hp]; congr 1; omega, hn⟩
      split at h
      · rename_i hy hy2
        cases hs : search x t with
        | none => rw [hs] at h; exact key h
        | some q =>
          rw [hs] at h
          simp only [Option.some.injEq] at h
          exact ⟨0, t, q, h.symm, .inr ⟨⟨hy2.symm, rfl⟩, search_sound x t q hs⟩⟩
      · exact key h
end

theorem search_none_fields (x : Str) : ∀ (fs : Fields) (k : Nat), searchFields x fs k = none →
    (∀ i t, ¬ Fields.named fs i x t) ∧ (∀ i t, Fields.named fs i [] t → search x t = none)
  | .nil, _, _ => ⟨fun _ _ h => h, fun _ _ h => h.elim⟩
  | .cons y t r, k, h => by
    rw [searchFields] at h
    split at h
    · cases h
    · rename_i hy
      have key : searchFields x r (k + 1) = none → (y = [] → search x t = none) →
          (∀ i u, ¬ Fields.named (.cons y t r) i x u) ∧
          (∀ i u, Fields.named (.cons y t r) i [] u → search x u = none) := fun hr ht => by
        obtain ⟨h1, h2⟩ := search_none_fields x r (k + 1) hr
        constructor
        · intro i u hn
          cases i with
          | zero => exact hy hn.1.symm
          | succ i => exact h1 i u hn
        · intro i u hn
          cases i with
          | zero => obtain ⟨e1, e2⟩ := hn; subst e2; exact ht e1.symm
          | succ i => exact h2 i u hn
      split at h
      · cases hs : search x t with
        | none => rw [hs] at h; exact key h (fun _ => hs)
        | some q => rw [hs] at h; cases h
      · rename_i hy2; exact key h (fun e => absurd e hy2)

theorem search_complete {x : Str} {t : T} {p : Path} (h : Names x t p) : search x t ≠ none := by
  induction h with
  | here hn =>
    intro hs; rw [search] at hs
    exact (search_none_fields x _ 0 hs).1 _ _ hn
  | inner hn _ ih =>
    intro hs; rw [search] at hs
    exact ih ((search_none_fields x _ 0 hs).2 _ _ hn)

theorem search_of {x : Str} {t : T} {p : Path} (h : Names x t p) (hu : ∀ p', Names x t p' → p' = p) :
    search x t = some p := by
  cases hs : search x t with
  | none => exact absurd hs (search_complete h)
  | some q => rw [hu q (search_sound x t q hs)]

theorem designators_none (t : T) {toks : List Tk} (h : atDesignator toks = false) :
    designators t toks = .ok ([], toks) := by
  unfold designators
  split <;> first | rfl | (simp [atDesignator] at h)

theorem designators_of {t : T} {ds : List Desig} {q : Path} (h : Resolves t ds q) {toks : List Tk}
    (ht : atDesignator toks = false) : designators t (writeDesigs ds ++ toks) = .ok (q, toks) := by
  induction h with
  | nil => exact designators_none _ ht
  | index _ hs _ ih =>
    simp only [writeDesigs, List.cons_append, designators, select_of hs, Run.bind_ok, ih]
  | member _ hn hu ha _ ih =>
    simp only [writeDesigs, List.cons_append, designators, search_of hn hu, selectPath_of ha, Run.bind_ok, ih]

theorem Names.ne_nil {x t p} (h : Names x t p) : p ≠ [] := by cases h <;> simp

theorem Resolves.ne_nil {t ds q} (h : Resolves t ds q) (hd : ds ≠ []) : q ≠ [] := by
  cases h with
  | nil => exact absurd rfl hd
  | index => simp
  | member _ hn => simp [hn.ne_nil]

theorem writeDesigs_head {ds : List Desig} (h : ds ≠ []) (toks : List Tk) :
    atDesignator (writeDesigs ds ++ toks) = true := by
  cases ds with
  | nil => exact absurd rfl h
  | cons d ds => cases d <;> rfl

end Verif.Initial
