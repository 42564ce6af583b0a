import Verif.SymbolsSpec
namespace Verif.Symbols
open Verif

/-- The greatest number below `n` satisfying `P`. -/
def last (P : Nat → Bool) : Nat → Option Nat
  | 0 => none
  | n + 1 => if P n then some n else last P n

theorem last_none {P : Nat → Bool} {n : Nat} : last P n = none ↔ ∀ j, j < n → P j = false := by
  induction n with
  | zero => simp [last]
  | succ n ih =>
    rw [last]
    split
    · next h => simp only [reduceCtorEq, false_iff]; intro hh; rw [hh n (by omega)] at h; simp at h
    · next h =>
      rw [ih]
      constructor
      · intro hh j hj
        by_cases e : j = n
        · subst e; simpa using h
        · exact hh j (by omega)
      · intro hh j hj; exact hh j (by omega)

theorem last_some {P : Nat → Bool} {n i : Nat} :
    last P n = some i ↔ i < n ∧ P i = true ∧ ∀ j, i < j → j < n → P j = false := by
  induction n with
  | zero => simp [last]
  | succ n ih =>
    rw [last]
    split
    · next h =>
      constructor
      · intro e; cases e; exact ⟨by omega, h, fun j h1 h2 => by omega⟩
      · rintro ⟨h1, h2, h3⟩
        by_cases e : i = n
        · rw [e]
        · rw [h3 n (by omega) (by omega)] at h; simp at h
    · next h =>
      rw [ih]
      constructor
      · rintro ⟨h1, h2, h3⟩
        refine ⟨by omega, h2, fun j hj1 hj2 => ?_⟩
        by_cases e : j = n
        · subst e; simpa using h
        · exact h3 j hj1 (by omega)
      · rintro ⟨h1, h2, h3⟩
        have : i ≠ n := by rintro rfl; exact h h2
        exact ⟨by omega, h2, fun j hj1 hj2 => h3 j hj1 (by omega)⟩

theorem last_congr {P Q : Nat → Bool} {n : Nat} (h : ∀ j, j < n → P j = Q j) : last P n = last Q n := by
  induction n with
  | zero => rfl
  | succ n ih =>
    rw [last, last, h n (by omega), ih (fun j hj => h j (by omega))]

/-- Nothing between `m` and `n`. -/
theorem last_mono {P : Nat → Bool} {m n : Nat} (hm : m ≤ n) (h : ∀ j, m ≤ j → j < n → P j = false) :
    last P n = last P m := by
  cases e : last P m with
  | none =>
    rw [last_none] at e ⊢
    intro j hj
    by_cases hh : j < m
    · exact e j hh
    · exact h j (by omega) hj
  | some i =>
    rw [last_some] at e ⊢
    obtain ⟨h1, h2, h3⟩ := e
    refine ⟨by omega, h2, fun j hj1 hj2 => ?_⟩
    by_cases hh : j < m
    · exact h3 j hj1 hh
    · exact h j (by omega) hj2

/-- The bucket predicate. -/
abbrev inBucket (h : Id → Nat) (t : Nat → Entry) (b : Nat) : Nat → Bool := fun j => decide (h (t j).id = b)

/-- The invariant of the table: the chains are the entries of a bucket, latest first; blocks
are sorted. -/
structure Inv (h : Id → Nat) (s : St) : Prop where
  ht : ∀ b, s.ht b = last (inBucket h s.tab b) s.size
  link : ∀ j, j < s.size → (s.tab j).link = last (inBucket h s.tab (h (s.tab j).id)) j
  sorted : ∀ j k, j ≤ k → k < s.size → (s.tab j).block ≤ (s.tab k).block

/-- All blocks are open. -/
def Open (s : St) : Prop := ∀ j, j < s.size → (s.tab j).block ≤ s.cur

/-- What `get_entry` looks for. -/
abbrev wanted (t : Nat → Entry) (id : Id) (g : Bool) : Nat → Bool :=
  fun j => decide ((t j).id = id ∧ ¬ (g = true ∧ (t j).block ≠ 0))

theorem getLoop_spec {h : Id → Nat} {s : St} (I : Inv h s) (id : Id) (g : Bool) :
    ∀ (n fuel : Nat), n ≤ s.size → n ≤ fuel →
      getLoop s id g fuel (last (inBucket h s.tab (h id)) n) = .ok (last (wanted s.tab id g) n) := by
  intro n
  induction n using Nat.strongRecOn with
  | _ n ih =>
    intro fuel hn hf
    cases e : last (inBucket h s.tab (h id)) n with
    | none =>
      have : last (wanted s.tab id g) n = none := by
        rw [last_none] at e ⊢
        intro j hj
        have := e j hj
        simp only [decide_eq_false_iff_not] at this ⊢
        rintro ⟨rfl, _⟩; exact this rfl
      rw [this]; cases fuel <;> rfl
    | some i =>
      have e' := last_some.mp e
      obtain ⟨h1, h2, h3⟩ := e'
      obtain ⟨fuel, rfl⟩ : ∃ f, fuel = f + 1 := ⟨fuel - 1, by omega⟩
      rw [getLoop, if_pos (by omega)]
      simp only
      have hno : ∀ j, i < j → j < n → wanted s.tab id g j = false := by
        intro j hj1 hj2
        have := h3 j hj1 hj2
        simp only [decide_eq_false_iff_not] at this ⊢
        rintro ⟨rfl, _⟩; exact this rfl
      split
      · next hw =>
        rw [last_some.mpr ⟨h1, decide_eq_true hw, hno⟩]
      · next hw =>
        have hb : h (s.tab i).id = h id := by simpa using h2
        rw [I.link i (by omega), hb, ih i h1 fuel (by omega) (by omega)]
        congr 1
        symm
        apply last_mono (by omega)
        intro j hj1 hj2
        by_cases ej : j = i
        · subst ej; simpa using hw
        · exact hno j (by omega) hj2

theorem getEntry_spec {h : Id → Nat} {s : St} (I : Inv h s) (id : Id) (g : Bool) :
    getEntry h s id g = .ok (last (wanted s.tab id g) s.size) := by
  rw [getEntry, I.ht]
  exact getLoop_spec I id g s.size s.size (Nat.le_refl _) (Nat.le_refl _)

/-! ### Scopes of a state -/

/-- The declarations of block `k`. -/
def scopeOf (s : St) (k : Nat) : Scope := fun id =>
  (last (fun j => decide ((s.tab j).id = id ∧ (s.tab j).block = k)) s.size).map (fun j => (s.tab j).data)

/-- The scopes `k`, …, `0`. -/
def scopes (s : St) : Nat → List Scope
  | 0 => [scopeOf s 0]
  | k + 1 => scopeOf s (k + 1) :: scopes s k

theorem scopes_congr {s s' : St} : ∀ k, (∀ i, i ≤ k → scopeOf s i = scopeOf s' i) → scopes s k = scopes s' k
  | 0, h => by rw [scopes, scopes, h 0 (by omega)]
  | k + 1, h => by rw [scopes, scopes, h (k + 1) (by omega), scopes_congr k (fun i hi => h i (by omega))]

theorem lookup_scopes {h : Id → Nat} {s : St} (I : Inv h s) (id : Id) : ∀ c,
    lookup id (scopes s c) = (last (fun j => decide ((s.tab j).id = id ∧ (s.tab j).block ≤ c)) s.size).map (fun j => (s.tab j).data)
  | 0 => by
    rw [scopes, lookup, lookup]
    simp only [scopeOf]
    have : (fun j => decide ((s.tab j).id = id ∧ (s.tab j).block ≤ 0)) = (fun j => decide ((s.tab j).id = id ∧ (s.tab j).block = 0)) := by
      funext j; simp
    rw [this]
    cases last (fun j => decide ((s.tab j).id = id ∧ (s.tab j).block = 0)) s.size <;> rfl
  | c + 1 => by
    rw [scopes, lookup, lookup_scopes I id c]
    simp only [scopeOf]
    cases e : last (fun j => decide ((s.tab j).id = id ∧ (s.tab j).block = c + 1)) s.size with
    | some i =>
      obtain ⟨h1, h2, h3⟩ := last_some.mp e
      simp only [decide_eq_true_eq] at h2
      have : last (fun j => decide ((s.tab j).id = id ∧ (s.tab j).block ≤ c + 1)) s.size = some i := by
        rw [last_some]
        refine ⟨h1, by simp only [decide_eq_true_eq]; exact ⟨h2.1, by omega⟩, ?_⟩
        intro j hj1 hj2
        have := h3 j hj1 hj2
        have hs := I.sorted i j (by omega) hj2
        simp only [decide_eq_false_iff_not, not_and] at this ⊢
        intro hid; have := this hid; omega
      rw [this]; rfl
    | none =>
      rw [last_none] at e
      simp only [Option.map_none]
      congr 1
      apply last_congr
      intro j hj
      have := e j hj
      rw [decide_eq_decide]
      simp only [decide_eq_false_iff_not, not_and] at this
      constructor
      · rintro ⟨a, b⟩; exact ⟨a, by omega⟩
      · rintro ⟨a, b⟩; have := this a; exact ⟨a, by omega⟩

theorem get_spec {h : Id → Nat} {s : St} (I : Inv h s) (O : Open s) (id : Id) :
    get h s id = .ok (lookup id (scopes s s.cur)) := by
  rw [get, getEntry_spec I, lookup_scopes I]
  have : last (wanted s.tab id false) s.size = last (fun j => decide ((s.tab j).id = id ∧ (s.tab j).block ≤ s.cur)) s.size := by
    apply last_congr
    intro j hj
    have := O j hj
    rw [decide_eq_decide]; simp [this]
  rw [this]
  simp only [bind, Res.bind]
  cases last (fun j => decide ((s.tab j).id = id ∧ (s.tab j).block ≤ s.cur)) s.size <;> rfl

/-- An entry found is in block `cur` exactly when that scope declares the name. -/
theorem current_some {h : Id → Nat} {s : St} (I : Inv h s) (O : Open s) {id : Id} {i : Nat}
    (e : last (wanted s.tab id false) s.size = some i) :
    scopeOf s s.cur id = if (s.tab i).block = s.cur then some (s.tab i).data else none := by
  obtain ⟨h1, h2, h3⟩ := last_some.mp e
  simp only [decide_eq_true_eq, Bool.false_eq_true, false_and, not_false_iff, and_true] at h2
  rw [scopeOf]
  split
  · next hb =>
    have : last (fun j => decide ((s.tab j).id = id ∧ (s.tab j).block = s.cur)) s.size = some i := by
      rw [last_some]
      refine ⟨h1, by simp [h2, hb], fun j hj1 hj2 => ?_⟩
      have := h3 j hj1 hj2
      simp only [Bool.false_eq_true, false_and, not_false_iff, and_true, decide_eq_false_iff_not] at this
      simp [this]
    rw [this]; rfl
  · next hb =>
    have : last (fun j => decide ((s.tab j).id = id ∧ (s.tab j).block = s.cur)) s.size = none := by
      rw [last_none]
      intro j hj
      simp only [decide_eq_false_iff_not]
      rintro ⟨hid, hbl⟩
      by_cases hji : j ≤ i
      · have := I.sorted j i hji h1
        have := O i h1
        omega
      · have := h3 j (by omega) hj
        simp [hid] at this
    rw [this]; rfl

theorem current_none {s : St} {id : Id} (e : last (wanted s.tab id false) s.size = none) :
    scopeOf s s.cur id = none := by
  rw [scopeOf]
  have : last (fun j => decide ((s.tab j).id = id ∧ (s.tab j).block = s.cur)) s.size = none := by
    rw [last_none] at e ⊢
    intro j hj
    have := e j hj
    simp only [Bool.false_eq_true, false_and, not_false_iff, and_true, decide_eq_false_iff_not] at this
    simp [this]
  rw [this]; rfl

theorem getCurrent_spec {h : Id → Nat} {s : St} (I : Inv h s) (O : Open s) (id : Id) :
    getCurrent h s id = .ok (scopeOf s s.cur id) := by
  rw [getCurrent, getEntry_spec I]
  simp only [bind, Res.bind]
  cases e : last (wanted s.tab id false) s.size with
  | none => rw [current_none e]; rfl
  | some i => rw [current_some I O e]; rfl

theorem wanted_global (s : St) (id : Id) :
    last (wanted s.tab id true) s.size = last (fun j => decide ((s.tab j).id = id ∧ (s.tab j).block = 0)) s.size := by
  apply last_congr
  intro j hj
  rw [decide_eq_decide]; simp

theorem getGlobal_spec {h : Id → Nat} {s : St} (I : Inv h s) (id : Id) :
    getGlobal h s id = .ok (scopeOf s 0 id) := by
  rw [getGlobal, getEntry_spec I, scopeOf, wanted_global]
  simp only [bind, Res.bind]
  cases last (fun j => decide ((s.tab j).id = id ∧ (s.tab j).block = 0)) s.size <;> rfl

/-! ### Leaving a scope -/

theorem popLoop_spec {h : Id → Nat} (c : Nat) : ∀ (n : Nat) (s : St), s.size = n → Inv h s →
    ∃ m, m ≤ n ∧ (popLoop h c n s).size = m ∧ (popLoop h c n s).tab = s.tab ∧ (popLoop h c n s).cur = s.cur ∧
      Inv h (popLoop h c n s) ∧ (∀ j, j < m → (s.tab j).block ≤ c) ∧ (∀ j, m ≤ j → j < n → c < (s.tab j).block) := by
  intro n
  induction n with
  | zero => intro s hs I; exact ⟨0, Nat.le_refl _, hs, rfl, rfl, I, by simp, by simp⟩
  | succ n ih =>
    intro s hs I
    rw [popLoop]
    split
    · next hb =>
      refine ⟨n + 1, Nat.le_refl _, hs, rfl, rfl, I, ?_, by omega⟩
      intro j hj
      have := I.sorted j n (by omega) (by omega)
      omega
    · next hb =>
      have I' : Inv h { s with ht := set s.ht (h (s.tab n).id) (s.tab n).link, size := n } := by
        refine ⟨?_, ?_, ?_⟩
        · intro b
          simp only [set]
          split
          · next e => subst e; exact I.link n (by omega)
          · next e =>
            rw [I.ht b, hs, last]
            simp [Ne.symm e]
        · intro j hj; exact I.link j (by simp only at hj; omega)
        · intro j k hjk hk; exact I.sorted j k hjk (by simp only at hk; omega)
      obtain ⟨m, h1, h2, h3, h4, h5, h6, h7⟩ := ih _ rfl I'
      refine ⟨m, by omega, h2, h3, h4, h5, h6, ?_⟩
      intro j hj1 hj2
      by_cases e : j = n
      · subst e; omega
      · exact h7 j hj1 (by omega)

theorem pop_spec {h : Id → Nat} {s : St} (I : Inv h s) (O : Open s) {c : Nat} (hc : s.cur = c + 1) :
    ∃ s', pop h s = .ok s' ∧ Inv h s' ∧ Open s' ∧ s'.cur = c ∧ ∀ k, k ≤ c → scopeOf s' k = scopeOf s k := by
  rw [pop, hc]
  simp only
  have I' : Inv h { s with cur := c } := ⟨I.ht, I.link, I.sorted⟩
  obtain ⟨m, h1, h2, h3, h4, h5, h6, h7⟩ := popLoop_spec c s.size { s with cur := c } rfl I'
  refine ⟨_, rfl, h5, ?_, h4, ?_⟩
  · intro j hj
    rw [h2] at hj
    rw [h3, h4]
    exact h6 j hj
  · intro k hk
    funext id
    rw [scopeOf, scopeOf, h2, h3]
    congr 1
    symm
    apply last_mono h1
    intro j hj1 hj2
    have := h7 j hj1 hj2
    simp only [decide_eq_false_iff_not]
    rintro ⟨_, hh⟩
    simp only at this
    omega

/-! ### Adding an entry on top -/

theorem addEntry_inv {h : Id → Nat} {s : St} (I : Inv h s) (O : Open s) (id : Id) (d : Nat) :
    Inv h (addEntry h s id d) ∧ Open (addEntry h s id d) := by
  have htab : ∀ j, j < s.size → (addEntry h s id d).tab j = s.tab j := by
    intro j hj; simp only [addEntry, set]; rw [if_neg (by omega)]
  have htop : (addEntry h s id d).tab s.size = { id := id, data := d, block := s.cur, link := s.ht (h id) } := by
    simp [addEntry, set]
  have hsz : (addEntry h s id d).size = s.size + 1 := rfl
  have hbk : ∀ b j, j < s.size → inBucket h (addEntry h s id d).tab b j = inBucket h s.tab b j := by
    intro b j hj; simp only [inBucket, htab j hj]
  refine ⟨⟨?_, ?_, ?_⟩, ?_⟩
  · intro b
    rw [hsz, last, last_congr (hbk b)]
    simp only [inBucket, htop]
    simp only [addEntry, set]
    by_cases e : h id = b
    · subst e; simp
    · simp [e, Ne.symm e, I.ht]
  · intro j hj
    rw [hsz] at hj
    by_cases e : j = s.size
    · subst e
      rw [htop]; simp only
      rw [I.ht, last_congr (hbk _)]
    · rw [htab j (by omega), I.link j (by omega)]
      exact (last_congr (fun k hk => hbk _ k (by omega))).symm
  · intro j k hjk hk
    rw [hsz] at hk
    by_cases e : k = s.size
    · subst e
      rw [htop]; simp only
      by_cases e2 : j = s.size
      · subst e2; rw [htop]; exact Nat.le_refl _
      · rw [htab j (by omega)]; exact O j (by omega)
    · rw [htab j (by omega), htab k (by omega)]; exact I.sorted j k hjk (by omega)
  · intro j hj
    rw [hsz] at hj
    show _ ≤ s.cur
    by_cases e : j = s.size
    · subst e; rw [htop]; exact Nat.le_refl _
    · rw [htab j (by omega)]; exact O j (by omega)

theorem addEntry_scope {h : Id → Nat} {s : St} (id : Id) (d k : Nat) :
    scopeOf (addEntry h s id d) k = if k = s.cur then (scopeOf s k).bind id d else scopeOf s k := by
  have htab : ∀ j, j < s.size → (addEntry h s id d).tab j = s.tab j := by
    intro j hj; simp only [addEntry, set]; rw [if_neg (by omega)]
  have htop : (addEntry h s id d).tab s.size = { id := id, data := d, block := s.cur, link := s.ht (h id) } := by
    simp [addEntry, set]
  have hsz : (addEntry h s id d).size = s.size + 1 := rfl
  have hold : ∀ x, (last (fun j => decide (((addEntry h s id d).tab j).id = x ∧ ((addEntry h s id d).tab j).block = k)) s.size).map
      (fun j => ((addEntry h s id d).tab j).data) = scopeOf s k x := by
    intro x
    rw [scopeOf, last_congr (Q := fun j => decide ((s.tab j).id = x ∧ (s.tab j).block = k)) (fun j hj => by simp only [htab j hj])]
    cases e : last (fun j => decide ((s.tab j).id = x ∧ (s.tab j).block = k)) s.size with
    | none => rfl
    | some i => simp only [Option.map_some]; rw [htab i (last_some.mp e).1]
  funext x
  have hx : scopeOf (addEntry h s id d) k x = if id = x ∧ s.cur = k then some d else scopeOf s k x := by
    rw [scopeOf, hsz, last, htop]
    simp only [decide_eq_true_eq]
    split
    · next hc => simp [htop]
    · exact hold x
  rw [hx]
  by_cases e1 : s.cur = k
  · subst e1
    simp only [and_true, if_true, Scope.bind]
    by_cases e2 : id = x
    · subst e2; simp
    · simp [e2, Ne.symm e2]
  · simp [e1, Ne.symm e1]

theorem setData_spec {h : Id → Nat} {s : St} (I : Inv h s) (O : Open s) {id : Id} {i : Nat} (d : Nat)
    (e : last (wanted s.tab id false) s.size = some i) (hb : (s.tab i).block = s.cur) :
    let s' := { s with tab := set s.tab i { s.tab i with data := d } }
    Inv h s' ∧ Open s' ∧ scopeOf s' s.cur = (scopeOf s s.cur).bind id d ∧ ∀ k, k < s.cur → scopeOf s' k = scopeOf s k := by
  intro s'
  obtain ⟨h1, h2, h3⟩ := last_some.mp e
  simp only [decide_eq_true_eq, Bool.false_eq_true, false_and, not_false_iff, and_true] at h2
  have hid : ∀ j, (s'.tab j).id = (s.tab j).id := by intro j; simp only [s', set]; split <;> simp_all
  have hbl : ∀ j, (s'.tab j).block = (s.tab j).block := by intro j; simp only [s', set]; split <;> simp_all
  have hlk : ∀ j, (s'.tab j).link = (s.tab j).link := by intro j; simp only [s', set]; split <;> simp_all
  have hd : ∀ j, j ≠ i → (s'.tab j).data = (s.tab j).data := by intro j hj; simp [s', set, hj]
  have hdi : (s'.tab i).data = d := by simp [s', set]
  refine ⟨⟨?_, ?_, ?_⟩, ?_, ?_, ?_⟩
  · intro b
    show s.ht b = last _ s.size
    rw [I.ht b]; exact last_congr (fun j _ => by simp only [inBucket, hid])
  · intro j hj
    rw [hlk, I.link j hj, hid]
    exact last_congr (fun j _ => by simp only [inBucket, hid])
  · intro j k hjk hk; rw [hbl, hbl]; exact I.sorted j k hjk hk
  · intro j hj; rw [hbl]; exact O j hj
  · funext x
    rw [scopeOf, Scope.bind]
    show (last _ s.size).map _ = _
    rw [last_congr (Q := fun j => decide ((s.tab j).id = x ∧ (s.tab j).block = s.cur)) (fun j _ => by simp only [hid, hbl])]
    by_cases hx : x = id
    · subst hx
      have hcur := current_some I O e
      rw [if_pos hb, scopeOf] at hcur
      cases e2 : last (fun j => decide ((s.tab j).id = x ∧ (s.tab j).block = s.cur)) s.size with
      | none => rw [e2] at hcur; simp at hcur
      | some j =>
        obtain ⟨j1, j2, j3⟩ := last_some.mp e2
        simp only [decide_eq_true_eq] at j2
        have : j = i := by
          rcases Nat.lt_trichotomy j i with hl | hl | hl
          · have := j3 i hl h1; simp [h2, hb] at this
          · exact hl
          · have := h3 j hl j1; simp [j2.1] at this
        subst this
        simp [hdi]
    · rw [if_neg hx, scopeOf]
      cases e2 : last (fun j => decide ((s.tab j).id = x ∧ (s.tab j).block = s.cur)) s.size with
      | none => rfl
      | some j =>
        obtain ⟨j1, j2, j3⟩ := last_some.mp e2
        simp only [decide_eq_true_eq] at j2
        simp only [Option.map_some]
        rw [hd j]
        rintro rfl
        exact hx (j2.1.symm.trans h2)
  · intro k hk
    funext x
    rw [scopeOf, scopeOf]
    show (last _ s.size).map _ = _
    rw [last_congr (Q := fun j => decide ((s.tab j).id = x ∧ (s.tab j).block = k)) (fun j _ => by simp only [hid, hbl])]
    cases e2 : last (fun j => decide ((s.tab j).id = x ∧ (s.tab j).block = k)) s.size with
    | none => rfl
    | some j =>
      obtain ⟨j1, j2, j3⟩ := last_some.mp e2
      simp only [decide_eq_true_eq] at j2
      simp only [Option.map_some]
      rw [hd j]
      rintro rfl
      omega

/-! ### Inserting an entry below the inner scopes -/

/-- Index after shifting the elements from `p` on. -/
def up (p : Nat) : Option Nat → Option Nat
  | none => none
  | some l => if p ≤ l then some (l + 1) else some l

/-- Link after inserting an element (of this bucket, if `x`) at `p`. -/
def ins (p : Nat) (x : Bool) : Option Nat → Option Nat
  | none => if x then some p else none
  | some l => if p ≤ l then some (l + 1) else if x then some p else some l

theorem last_insert {P P' : Nat → Bool} {p : Nat} (h1 : ∀ j, j < p → P' j = P j) (h2 : ∀ j, p ≤ j → P' (j + 1) = P j) :
    ∀ n, p ≤ n → last P' (n + 1) = ins p (P' p) (last P n) := by
  intro n
  induction n with
  | zero =>
    intro hp
    have : p = 0 := by omega
    subst this
    simp [last, ins]
  | succ n ih =>
    intro hp
    by_cases hpn : p ≤ n
    · rw [last, h2 n hpn, last.eq_def P]
      simp only
      split
      · simp [ins, hpn]
      · exact ih hpn
    · have e : p = n + 1 := by omega
      subst e
      rw [last, last_congr (Q := P) (fun j hj => h1 j hj)]
      cases e2 : last P (n + 1) with
      | none => rfl
      | some l =>
        have := (last_some.mp e2).1
        simp only [ins]
        have hn : ¬ n + 1 ≤ l := by omega
        simp only [hn, if_false]

/-- Where the blocks above `b0` start. -/
theorem exists_split {h : Id → Nat} {s : St} (I : Inv h s) (b0 : Nat) : ∀ n, n ≤ s.size →
    ∃ p, p ≤ n ∧ (∀ j, j < p → (s.tab j).block ≤ b0) ∧ (∀ j, p ≤ j → j < n → b0 < (s.tab j).block) := by
  intro n
  induction n with
  | zero => intro _; exact ⟨0, Nat.le_refl _, by simp, by simp⟩
  | succ n ih =>
    intro hn
    by_cases hb : (s.tab n).block ≤ b0
    · refine ⟨n + 1, Nat.le_refl _, ?_, by omega⟩
      intro j hj
      have := I.sorted j n (by omega) (by omega)
      omega
    · obtain ⟨p, h1, h2, h3⟩ := ih (by omega)
      refine ⟨p, by omega, h2, ?_⟩
      intro j hj1 hj2
      by_cases e : j = n
      · subst e; omega
      · exact h3 j hj1 (by omega)

/-- State of the shifting loop: elements from `k` on have been moved. -/
structure Shifted (s0 : St) (p k : Nat) (s : St) : Prop where
  low : ∀ j, j < k → s.tab j = s0.tab j
  high : ∀ j, k ≤ j → j < s0.size → s.tab (j + 1) = { s0.tab j with link := up p (s0.tab j).link }
  ht : ∀ b, s.ht b = up k (s0.ht b)
  size : s.size = s0.size + 1
  cur : s.cur = s0.cur

theorem shiftLoop_spec {h : Id → Nat} {s0 : St} (I : Inv h s0) {b0 p : Nat}
    (hp1 : ∀ j, j < p → (s0.tab j).block ≤ b0) (hp2 : ∀ j, p ≤ j → j < s0.size → b0 < (s0.tab j).block) :
    ∀ (k : Nat) (s : St), p ≤ k → k ≤ s0.size → Shifted s0 p k s →
      (shiftLoop h b0 k s).2 = p ∧ Shifted s0 p p (shiftLoop h b0 k s).1 := by
  intro k
  induction k with
  | zero =>
    intro s hp _ S
    have : p = 0 := by omega
    subst this
    exact ⟨rfl, S⟩
  | succ i ih =>
    intro s hp hk S
    rw [shiftLoop]
    simp only
    have hi : s.tab i = s0.tab i := S.low i (by omega)
    by_cases hpi : p ≤ i
    · have hb := hp2 i hpi (by omega)
      rw [if_pos (by rw [hi]; exact hb)]
      apply ih _ hpi (by omega)
      have hent : (match (s.tab i).link with
          | some l => if (s.tab l).block > b0 then { s.tab i with link := some (l + 1) } else s.tab i
          | none => s.tab i) = { s0.tab i with link := up p (s0.tab i).link } := by
        rw [hi]
        have hl := I.link i (by omega)
        cases e : (s0.tab i).link with
        | none => rw [← e]; simp only [up]; rw [e]; simp only [up, ← e]
        | some l =>
          rw [e] at hl
          have hli := (last_some.mp hl.symm).1
          simp only [up]
          rw [S.low l (by omega)]
          by_cases hpl : p ≤ l
          · rw [if_pos (hp2 l hpl (by omega)), if_pos hpl]
          · have := hp1 l (by omega)
            rw [if_neg (by omega), if_neg hpl, ← e]
      refine ⟨?_, ?_, ?_, S.size, S.cur⟩
      · intro j hj
        simp only [set]
        rw [if_neg (by omega), if_neg (by omega)]
        exact S.low j (by omega)
      · intro j hj1 hj2
        simp only [set]
        by_cases e : j = i
        · subst e
          rw [if_pos rfl]
          exact hent
        · rw [if_neg (by omega), if_neg (by omega)]
          exact S.high j (by omega) hj2
      · intro b
        simp only
        have hS := S.ht
        rw [hi]
        have hne : ∀ b, s0.ht b = some i → h (s0.tab i).id = b := by
          intro b hb
          rw [I.ht] at hb
          simpa using (last_some.mp hb).2.1
        have hcase : ∀ b, up i (s0.ht b) = if s0.ht b = some i then some (i + 1) else up (i + 1) (s0.ht b) := by
          intro b
          cases e : s0.ht b with
          | none => simp [up]
          | some l =>
            simp only [up, Option.some.injEq]
            by_cases e1 : l = i
            · subst e1; simp
            · rw [if_neg e1]
              by_cases e2 : i ≤ l
              · rw [if_pos e2, if_pos (by omega)]
              · rw [if_neg e2, if_neg (by omega)]
        have hiff : ∀ b, s.ht b = some i ↔ s0.ht b = some i := by
          intro b
          rw [hS b]
          cases e : s0.ht b with
          | none => simp [up]
          | some l =>
            simp only [up]
            split
            · simp only [Option.some.injEq]; omega
            · simp
        rw [hcase b]
        split
        · next hh =>
          rw [hiff] at hh
          simp only [set]
          by_cases e : b = h (s0.tab i).id
          · subst e; rw [if_pos rfl, if_pos hh]
          · rw [if_neg e, if_neg (fun hx => e (hne b hx).symm)]
            exact hS b
        · next hh =>
          rw [hiff] at hh
          by_cases e : b = h (s0.tab i).id
          · subst e; rw [if_neg hh]; exact hS _
          · rw [if_neg (fun hx => e (hne b hx).symm)]; exact hS b
    · have e : p = i + 1 := by omega
      have hb := hp1 i (by omega)
      rw [if_neg (by rw [hi]; omega)]
      exact ⟨e.symm, by rw [e] at S ⊢; exact S⟩

/-- The walk to the link that the new element goes into. -/
theorem walk_spec {h : Id → Nat} {s0 s : St} (I : Inv h s0) {p b : Nat} (S : Shifted s0 p p s) :
    ∀ (m fuel : Nat) (loc : Loc), m ≤ s0.size → m ≤ fuel → loc.read s = up p (last (inBucket h s0.tab b) m) →
      ∃ loc', walk s p fuel loc = .ok loc' ∧
        ((loc' = loc ∧ ∀ j, p ≤ j → j < m → inBucket h s0.tab b j = false) ∨
         (∃ f, loc' = .entry (f + 1) ∧ p ≤ f ∧ f < m ∧ inBucket h s0.tab b f = true ∧ ∀ j, p ≤ j → j < f → inBucket h s0.tab b j = false)) := by
  intro m
  induction m using Nat.strongRecOn with
  | _ m ih =>
    intro fuel loc hm hf hr
    cases e : last (inBucket h s0.tab b) m with
    | none =>
      rw [e] at hr
      simp only [up] at hr
      refine ⟨loc, ?_, .inl ⟨rfl, fun j _ hj => last_none.mp e j hj⟩⟩
      unfold walk; rw [hr]
    | some i =>
      rw [e] at hr
      obtain ⟨h1, h2, h3⟩ := last_some.mp e
      simp only [up] at hr
      by_cases hpi : p ≤ i
      · rw [if_pos hpi] at hr
        obtain ⟨fuel, rfl⟩ : ∃ f, fuel = f + 1 := ⟨fuel - 1, by omega⟩
        have hb : h (s0.tab i).id = b := by simpa using h2
        have hread : (Loc.entry (i + 1)).read s = up p (last (inBucket h s0.tab b) i) := by
          simp only [Loc.read]
          rw [S.high i hpi (by omega)]
          simp only
          rw [I.link i (by omega), hb]
        obtain ⟨loc', hw, hl⟩ := ih i h1 fuel (.entry (i + 1)) (by omega) (by omega) hread
        refine ⟨loc', ?_, ?_⟩
        · unfold walk
          rw [hr]; simp only
          rw [if_pos (by omega)]
          exact hw
        · right
          rcases hl with ⟨rfl, hl⟩ | ⟨f, h4, h5, h6, h7, h8⟩
          · exact ⟨i, rfl, hpi, h1, h2, hl⟩
          · exact ⟨f, h4, h5, by omega, h7, h8⟩
      · rw [if_neg hpi] at hr
        refine ⟨loc, ?_, .inl ⟨rfl, fun j hj1 hj2 => h3 j (by omega) hj2⟩⟩
        unfold walk
        rw [hr]; simp only
        rw [if_neg (by omega)]

/-- The table after insertion at `p`. -/
structure Inserted (s0 : St) (p : Nat) (id : Id) (d b0 : Nat) (s : St) : Prop where
  size : s.size = s0.size + 1
  cur : s.cur = s0.cur
  low : ∀ j, j < p → s.tab j = s0.tab j
  new : (s.tab p).id = id ∧ (s.tab p).data = d ∧ (s.tab p).block = b0
  high : ∀ j, p ≤ j → j < s0.size → (s.tab (j + 1)).id = (s0.tab j).id ∧ (s.tab (j + 1)).data = (s0.tab j).data ∧
    (s.tab (j + 1)).block = (s0.tab j).block

theorem addEntryWithBlock_spec {h : Id → Nat} {s : St} (I : Inv h s) (id : Id) (b0 d : Nat) :
    ∃ s' p, addEntryWithBlock h s id b0 d = .ok s' ∧ Inv h s' ∧ p ≤ s.size ∧ Inserted s p id d b0 s' ∧
      (∀ j, j < p → (s.tab j).block ≤ b0) ∧ (∀ j, p ≤ j → j < s.size → b0 < (s.tab j).block) := by
  obtain ⟨p, hpn, hp1, hp2⟩ := exists_split I b0 s.size (Nat.le_refl _)
  have S0 : Shifted s p s.size { s with size := s.size + 1 } := by
    refine ⟨fun _ _ => rfl, by omega, ?_, rfl, rfl⟩
    intro b
    simp only
    rw [I.ht b]
    cases e : last (inBucket h s.tab b) s.size with
    | none => rfl
    | some l =>
      have := (last_some.mp e).1
      simp only [up]; rw [if_neg (by omega)]
  obtain ⟨hpos, S⟩ := shiftLoop_spec I hp1 hp2 s.size { s with size := s.size + 1 } hpn (Nat.le_refl _) S0
  rw [addEntryWithBlock]
  generalize shiftLoop h b0 s.size { s with size := s.size + 1 } = r at hpos S
  obtain ⟨s1, i⟩ := r
  simp only at hpos S
  subst hpos
  have hsz := S.size
  have hread0 : (Loc.bucket (h id)).read s1 = up i (last (inBucket h s.tab (h id)) s.size) := by
    simp only [Loc.read]; rw [S.ht, I.ht]
  obtain ⟨loc, hw, hloc⟩ := walk_spec I S s.size s1.size (.bucket (h id)) (Nat.le_refl _) (by omega) hread0
  simp only [bind, Res.bind, hw, pure]
  refine ⟨_, i, rfl, ?_⟩
  -- the link found is the latest element of the bucket below `i`
  have hread : loc.read s1 = last (inBucket h s.tab (h id)) i := by
    rcases hloc with ⟨rfl, hno⟩ | ⟨f, rfl, h1, h2, h3, h4⟩
    · rw [hread0, last_mono hpn hno]
      cases e : last (inBucket h s.tab (h id)) i with
      | none => rfl
      | some l => have := (last_some.mp e).1; simp only [up]; rw [if_neg (by omega)]
    · simp only [Loc.read]
      rw [S.high f h1 h2]
      simp only
      have hb : h (s.tab f).id = h id := by simpa using h3
      rw [I.link f h2, hb, last_mono h1 h4]
      cases e : last (inBucket h s.tab (h id)) i with
      | none => rfl
      | some l => have := (last_some.mp e).1; simp only [up]; rw [if_neg (by omega)]
  generalize hs2 : ({ s1 with tab := set s1.tab i { id := id, data := d, block := b0, link := loc.read s1 } } : St) = s2
  have t2i : s2.tab i = { id := id, data := d, block := b0, link := loc.read s1 } := by subst hs2; simp [set]
  have t2 : ∀ j, j ≠ i → s2.tab j = s1.tab j := by intro j hj; subst hs2; simp [set, hj]
  have h2t : ∀ b, s2.ht b = s1.ht b := by intro b; subst hs2; rfl
  have z2 : s2.size = s.size + 1 := by subst hs2; exact hsz
  have c2 : s2.cur = s.cur := by subst hs2; exact S.cur
  clear hs2
  -- the final state
  have hid : ∀ j, ((loc.write s2 (some i)).tab j).id = (s2.tab j).id := by
    intro j; cases loc <;> simp only [Loc.write, set]; split <;> simp_all
  have hda : ∀ j, ((loc.write s2 (some i)).tab j).data = (s2.tab j).data := by
    intro j; cases loc <;> simp only [Loc.write, set]; split <;> simp_all
  have hbl : ∀ j, ((loc.write s2 (some i)).tab j).block = (s2.tab j).block := by
    intro j; cases loc <;> simp only [Loc.write, set]; split <;> simp_all
  have hz : (loc.write s2 (some i)).size = s.size + 1 := by cases loc <;> exact z2
  have hcu : (loc.write s2 (some i)).cur = s.cur := by cases loc <;> exact c2
  have hlo : ∀ j, j < i → (loc.write s2 (some i)).tab j = s.tab j := by
    intro j hj
    have : (loc.write s2 (some i)).tab j = s2.tab j := by
      rcases hloc with ⟨rfl, _⟩ | ⟨f, rfl, h1, _⟩
      · rfl
      · simp only [Loc.write, set]; rw [if_neg (by omega)]
    rw [this, t2 j (by omega), S.low j hj]
  have hInd : Inserted s i id d b0 (loc.write s2 (some i)) := by
    refine ⟨hz, hcu, hlo, ⟨by rw [hid, t2i], by rw [hda, t2i], by rw [hbl, t2i]⟩, ?_⟩
    intro j hj1 hj2
    rw [hid, hda, hbl, t2 (j + 1) (by omega), S.high j hj1 hj2]
    exact ⟨rfl, rfl, rfl⟩
  refine ⟨?_, hpn, hInd, hp1, hp2⟩
  have hP1 : ∀ b j, j < i → inBucket h (loc.write s2 (some i)).tab b j = inBucket h s.tab b j := by
    intro b j hj; simp only [inBucket, hlo j hj]
  have hP2 : ∀ b j, i ≤ j → j < s.size → inBucket h (loc.write s2 (some i)).tab b (j + 1) = inBucket h s.tab b j := by
    intro b j hj1 hj2; simp only [inBucket, (hInd.high j hj1 hj2).1]
  have hPi : ∀ b, inBucket h (loc.write s2 (some i)).tab b i = decide (h id = b) := by
    intro b; simp only [inBucket, hInd.new.1]
  -- `last` on the new table
  have hlast : ∀ b n, i ≤ n → n ≤ s.size → last (inBucket h (loc.write s2 (some i)).tab b) (n + 1)
      = ins i (decide (h id = b)) (last (inBucket h s.tab b) n) := by
    intro b n hn1 hn2
    rw [← hPi b]
    rw [last_congr (Q := fun j => if j < i then inBucket h s.tab b j else if j = i then inBucket h (loc.write s2 (some i)).tab b i else inBucket h s.tab b (j - 1))]
    · rw [last_insert (P := inBucket h s.tab b) (p := i) _ _ n hn1]
      · simp
      · intro j hj; simp [hj]
      · intro j hj
        rw [if_neg (by omega), if_neg (by omega)]
        rfl
    · intro j hj
      by_cases e1 : j < i
      · rw [if_pos e1]; exact hP1 b j e1
      · rw [if_neg e1]
        by_cases e2 : j = i
        · rw [if_pos e2, e2]
        · rw [if_neg e2]
          obtain ⟨j, rfl⟩ : ∃ k, j = k + 1 := ⟨j - 1, by omega⟩
          exact hP2 b j (by omega) (by omega)
  have hins : ∀ r, ins i false r = up i r := by
    intro r; cases r <;> simp [ins, up]
  have hup : ∀ f l, i ≤ f → f ≤ l → ins i true (some l) = up i (some l) := by
    intro f l h1 h2
    have : i ≤ l := by omega
    simp [ins, up, this]
  have hnew : ∀ b m, (∀ j, i ≤ j → j < m → inBucket h s.tab b j = false) → i ≤ m →
      ins i true (last (inBucket h s.tab b) m) = some i := by
    intro b m hno him
    rw [last_mono him hno]
    cases e : last (inBucket h s.tab b) i with
    | none => rfl
    | some l => have := (last_some.mp e).1; simp only [ins]; rw [if_neg (by omega)]; rfl
  refine ⟨?_, ?_, ?_⟩
  · intro b
    rw [hz, hlast b s.size hpn (Nat.le_refl _)]
    rcases hloc with ⟨rfl, hno⟩ | ⟨f, rfl, h1, h2, h3, h4⟩
    · simp only [Loc.write, set]
      by_cases e : b = h id
      · subst e
        simp only [if_true, decide_true]
        exact (hnew _ _ hno hpn).symm
      · rw [if_neg e, h2t, S.ht, I.ht]
        simp only [Ne.symm e, decide_false, hins]
    · have : (Loc.write s2 (some i) (.entry (f + 1))).ht b = up i (last (inBucket h s.tab b) s.size) := by
        simp only [Loc.write]; rw [h2t, S.ht, I.ht]
      rw [this]
      by_cases e : b = h id
      · subst e
        cases e2 : last (inBucket h s.tab (h id)) s.size with
        | none => rw [last_none] at e2; have := e2 f h2; rw [h3] at this; simp at this
        | some l =>
          have hl := last_some.mp e2
          have hfl : f ≤ l := by
            apply Decidable.byContradiction
            intro hc
            have := hl.2.2 f (by omega) h2
            rw [h3] at this; simp at this
          simp only [decide_true]
          exact (hup f l h1 hfl).symm
      · simp only [Ne.symm e, decide_false, hins]
  · intro j hj
    rw [hz] at hj
    rcases Nat.lt_trichotomy j i with hji | hji | hji
    · rw [hlo j hji, I.link j (by omega)]
      exact (last_congr (fun k hk => hP1 _ k (by omega))).symm
    · subst hji
      have hl : ((loc.write s2 (some j)).tab j).link = loc.read s1 := by
        have : (loc.write s2 (some j)).tab j = s2.tab j := by
          rcases hloc with ⟨rfl, _⟩ | ⟨f, rfl, h1, _⟩
          · rfl
          · simp only [Loc.write, set]; rw [if_neg (by omega)]
        rw [this, t2i]
      rw [hl, hread, hid, t2i]
      exact (last_congr (fun k hk => hP1 _ k (by omega))).symm
    · obtain ⟨j, rfl⟩ : ∃ k, j = k + 1 := ⟨j - 1, by omega⟩
      have hid' : ((loc.write s2 (some i)).tab (j + 1)).id = (s.tab j).id := (hInd.high j (by omega) (by omega)).1
      rw [hid', hlast _ j (by omega) (by omega)]
      have hold : (s2.tab (j + 1)).link = up i (last (inBucket h s.tab (h (s.tab j).id)) j) := by
        rw [t2 (j + 1) (by omega), S.high j (by omega) (by omega)]
        simp only
        rw [I.link j (by omega)]
      rcases hloc with ⟨rfl, hno⟩ | ⟨f, rfl, h1, h2, h3, h4⟩
      · have : h id ≠ h (s.tab j).id := by
          intro e
          have := hno j (by omega) (by omega)
          simp [e] at this
        simp only [Loc.write, this, decide_false, hins]
        exact hold
      · simp only [Loc.write, set]
        have hb : h (s.tab f).id = h id := by simpa using h3
        by_cases e : j = f
        · subst e
          simp only [if_true, hb, decide_true]
          exact (hnew _ _ h4 (by omega)).symm
        · rw [if_neg (by omega), hold]
          by_cases e2 : h id = h (s.tab j).id
          · rw [← e2]
            have hjf : f < j := by
              apply Decidable.byContradiction
              intro hc
              have := h4 j (by omega) (by omega)
              simp [← e2] at this
            cases e3 : last (inBucket h s.tab (h id)) j with
            | none => rw [last_none] at e3; have := e3 f hjf; rw [h3] at this; simp at this
            | some l =>
              have hl := last_some.mp e3
              have hfl : f ≤ l := by
                apply Decidable.byContradiction
                intro hc
                have := hl.2.2 f (by omega) hjf
                rw [h3] at this; simp at this
              simp only [decide_true]
              exact (hup f l h1 hfl).symm
          · simp only [e2, decide_false, hins]
  · intro j k hjk hk
    rw [hz] at hk
    have blk : ∀ j, j < s.size + 1 → ((loc.write s2 (some i)).tab j).block
        = if j < i then (s.tab j).block else if j = i then b0 else (s.tab (j - 1)).block := by
      intro j hj
      by_cases e1 : j < i
      · rw [if_pos e1, hlo j e1]
      · rw [if_neg e1]
        by_cases e2 : j = i
        · rw [if_pos e2, e2]; exact hInd.new.2.2
        · rw [if_neg e2]
          obtain ⟨j, rfl⟩ : ∃ k, j = k + 1 := ⟨j - 1, by omega⟩
          exact (hInd.high j (by omega) (by omega)).2.2
    rw [blk j (by omega), blk k hk]
    by_cases a1 : j < i
    · rw [if_pos a1]
      by_cases a2 : k < i
      · rw [if_pos a2]; exact I.sorted j k hjk (by omega)
      · rw [if_neg a2]
        by_cases a3 : k = i
        · rw [if_pos a3]; exact hp1 j a1
        · rw [if_neg a3]; exact I.sorted j (k - 1) (by omega) (by omega)
    · rw [if_neg a1, if_neg (by omega : ¬ k < i)]
      by_cases a2 : j = i
      · rw [if_pos a2]
        by_cases a3 : k = i
        · rw [if_pos a3]; exact Nat.le_refl _
        · rw [if_neg a3]; exact Nat.le_of_lt (hp2 (k - 1) (by omega) (by omega))
      · rw [if_neg a2, if_neg (by omega : ¬ k = i)]
        exact I.sorted (j - 1) (k - 1) (by omega) (by omega)

theorem inserted_scope {h : Id → Nat} {s s' : St} {p : Nat} {id : Id} {d b0 : Nat} (hp : p ≤ s.size)
    (J : Inserted s p id d b0 s')
    (hp2 : ∀ j, p ≤ j → j < s.size → b0 < (s.tab j).block) (k : Nat) :
    scopeOf s' k = if k = b0 then (scopeOf s k).bind id d else scopeOf s k := by
  funext x
  have hl : last (fun j => decide ((s'.tab j).id = x ∧ (s'.tab j).block = k)) s'.size
      = ins p (decide (id = x ∧ b0 = k)) (last (fun j => decide ((s.tab j).id = x ∧ (s.tab j).block = k)) s.size) := by
    rw [J.size, last_congr (Q := fun j => if j < p then decide ((s.tab j).id = x ∧ (s.tab j).block = k) else if j = p then decide (id = x ∧ b0 = k)
      else decide ((s.tab (j - 1)).id = x ∧ (s.tab (j - 1)).block = k))]
    · rw [last_insert (P := fun j => decide ((s.tab j).id = x ∧ (s.tab j).block = k)) (p := p) _ _ s.size hp]
      · simp
      · intro j hj; simp [hj]
      · intro j hj
        rw [if_neg (by omega), if_neg (by omega)]
        rfl
    · intro j hj
      by_cases e1 : j < p
      · rw [if_pos e1, J.low j e1]
      · rw [if_neg e1]
        by_cases e2 : j = p
        · rw [if_pos e2, e2, J.new.1, J.new.2.2]
        · rw [if_neg e2]
          obtain ⟨j, rfl⟩ : ∃ k, j = k + 1 := ⟨j - 1, by omega⟩
          have := J.high j (by omega) (by omega)
          rw [this.1, this.2.2]; rfl
  have hdat : ∀ l, l < s.size → (s'.tab (if p ≤ l then l + 1 else l)).data = (s.tab l).data := by
    intro l hl
    split
    · next hh => exact (J.high l hh hl).2.1
    · next hh => rw [J.low l (by omega)]
  rw [scopeOf, hl]
  by_cases e1 : id = x ∧ b0 = k
  · obtain ⟨rfl, rfl⟩ := e1
    simp only [if_true, Scope.bind, and_self, decide_true]
    have : ins p true (last (fun j => decide ((s.tab j).id = id ∧ (s.tab j).block = b0)) s.size) = some p := by
      rw [last_mono hp]
      · cases e : last (fun j => decide ((s.tab j).id = id ∧ (s.tab j).block = b0)) p with
        | none => rfl
        | some l => have := (last_some.mp e).1; simp only [ins]; rw [if_neg (by omega)]; rfl
      · intro j hj1 hj2
        have := hp2 j hj1 hj2
        simp only [decide_eq_false_iff_not]; rintro ⟨_, hh⟩; omega
    rw [this]
    simp [J.new.2.1]
  · simp only [e1, decide_false]
    have hr : (if k = b0 then (scopeOf s k).bind id d else scopeOf s k) x = scopeOf s k x := by
      split
      · next hk =>
        have : x ≠ id := by rintro rfl; exact e1 ⟨rfl, hk.symm⟩
        simp [Scope.bind, this]
      · rfl
    rw [hr, scopeOf]
    cases e : last (fun j => decide ((s.tab j).id = x ∧ (s.tab j).block = k)) s.size with
    | none => rfl
    | some l =>
      have hl := (last_some.mp e).1
      have := hdat l hl
      simp only [ins, Option.map_some]
      split
      · next hh => rw [if_pos hh] at this; simp [this]
      · next hh => rw [if_neg hh] at this; simp [this]

theorem bindLast_scopes {s s' : St} {id : Id} {d : Nat}
    (h0 : scopeOf s' 0 = (scopeOf s 0).bind id d) (hk : ∀ k, 0 < k → scopeOf s' k = scopeOf s k) :
    ∀ c, scopes s' c = bindLast id d (scopes s c)
  | 0 => by rw [scopes, scopes, bindLast, h0]
  | c + 1 => by
    rw [scopes, scopes, bindLast_scopes h0 hk c, hk (c + 1) (by omega)]
    cases e : scopes s c with
    | nil => cases c <;> simp [scopes] at e
    | cons m ms => rfl

theorem scopes_cons (s : St) (c : Nat) : ∃ ms, scopes s c = scopeOf s c :: ms ∧ (ms = [] ↔ c = 0) := by
  cases c with
  | zero => exact ⟨[], rfl, by simp⟩
  | succ c => exact ⟨scopes s c, rfl, by cases c <;> simp [scopes]⟩

/-- The state refines the stack of scopes. -/
structure Rel (h : Id → Nat) (s : St) (ms : List Scope) : Prop where
  inv : Inv h s
  opn : Open s
  eq : ms = scopes s s.cur

theorem add_spec {h : Id → Nat} {s : St} (I : Inv h s) (O : Open s) (id : Id) (d : Nat) :
    ((scopeOf s s.cur id).isSome = true → add h s id d = .fail) ∧
    ((scopeOf s s.cur id).isSome = false → add h s id d = .ok (addEntry h s id d)) := by
  rw [add, getEntry_spec I]
  simp only [bind, Res.bind, pure]
  cases e : last (wanted s.tab id false) s.size with
  | none => rw [current_none e]; simp
  | some i =>
    rw [current_some I O e]
    by_cases hb : (s.tab i).block = s.cur <;> simp [hb]

theorem addEntry_rel {h : Id → Nat} {s : St} (I : Inv h s) (O : Open s) (id : Id) (d : Nat) {ms : List Scope}
    (e : scopes s s.cur = scopeOf s s.cur :: ms) :
    Rel h (addEntry h s id d) ((scopeOf s s.cur).bind id d :: ms) := by
  obtain ⟨I', O'⟩ := addEntry_inv (h := h) I O id d
  refine ⟨I', O', ?_⟩
  show _ = scopes _ s.cur
  have hs := fun k => addEntry_scope (h := h) (s := s) id d k
  cases hc : s.cur with
  | zero =>
    rw [hc] at e
    have : ms = [] := by simpa [scopes] using e.symm
    subst this
    rw [scopes, hs 0, hc]; simp
  | succ c =>
    rw [hc, scopes] at e
    simp only [List.cons.injEq, true_and] at e
    rw [scopes, hs (c + 1), hc, if_pos rfl, ← e]
    congr 1
    apply scopes_congr
    intro i hi
    rw [hs i, if_neg (by omega)]

theorem step_rel {h : Id → Nat} {s : St} {ms : List Scope} (R : Rel h s ms) (o : Op) :
    (∀ ms', specStep ms o = some ms' → ∃ s', step h s o = .ok s' ∧ Rel h s' ms') ∧
    (specStep ms o = none → step h s o = .fail) := by
  obtain ⟨I, O, rfl⟩ := R
  obtain ⟨ms, hms, hem⟩ := scopes_cons s s.cur
  cases o with
  | push =>
    refine ⟨?_, by simp [specStep]⟩
    intro ms' hs
    simp only [specStep, Option.some.injEq] at hs
    subst hs
    refine ⟨_, rfl, ⟨⟨I.ht, I.link, I.sorted⟩, fun j hj => Nat.le_succ_of_le (O j hj), ?_⟩⟩
    show _ = scopes (push s) (s.cur + 1)
    rw [scopes, scopes_congr (s := push s) (s' := s) s.cur (fun _ _ => rfl)]
    congr 1
    · funext id
      rw [scopeOf]
      show none = Option.map _ (last _ s.size)
      have : last (fun j => decide (((push s).tab j).id = id ∧ ((push s).tab j).block = s.cur + 1)) s.size = none := by
        rw [last_none]
        intro j hj
        have := O j hj
        simp only [decide_eq_false_iff_not]
        rintro ⟨_, hh⟩
        simp only [push] at hh
        omega
      rw [this]; rfl
  | pop =>
    cases hc : s.cur with
    | zero => simp [scopes, specStep, step, pop, hc]
    | succ c =>
      obtain ⟨s', e, I', O', hcur, hsc⟩ := pop_spec I O hc
      rw [scopes]
      obtain ⟨ns, hns, _⟩ := scopes_cons s c
      rw [hns]
      simp only [specStep, Option.some.injEq, reduceCtorEq, false_implies, and_true]
      rintro _ rfl
      refine ⟨s', e, I', O', ?_⟩
      rw [hcur, ← hns]
      exact (scopes_congr c hsc).symm
  | addIdentifier n d =>
    rw [hms]
    simp only [specStep, step, addIdentifier]
    by_cases hn : n = []
    · subst hn
      simp only [if_true, List.length_nil, Option.some.injEq, reduceCtorEq, false_implies, and_true]
      rintro _ rfl
      exact ⟨s, rfl, I, O, hms.symm⟩
    · rw [if_neg hn, if_neg (fun hx : n.length = 0 => hn (List.length_eq_zero_iff.mp hx))]
      obtain ⟨h1, h2⟩ := add_spec I O (.identifier, n) d
      by_cases hh : (scopeOf s s.cur (.identifier, n)).isSome = true
      · rw [if_pos hh]; exact ⟨by simp, fun _ => h1 hh⟩
      · rw [if_neg hh]
        refine ⟨?_, by simp⟩
        intro ms' e
        simp only [Option.some.injEq] at e
        subst e
        exact ⟨_, h2 (by simpa using hh), addEntry_rel I O _ d hms⟩
  | addStruct n d =>
    rw [hms]
    simp only [specStep, step]
    obtain ⟨h1, h2⟩ := add_spec I O (.struct, n) d
    by_cases hh : (scopeOf s s.cur (.struct, n)).isSome = true
    · rw [if_pos hh]; exact ⟨by simp, fun _ => h1 hh⟩
    · rw [if_neg hh]
      refine ⟨?_, by simp⟩
      intro ms' e
      simp only [Option.some.injEq] at e
      subst e
      exact ⟨_, h2 (by simpa using hh), addEntry_rel I O _ d hms⟩
  | addTypedef n d =>
    rw [hms]
    simp only [specStep, step, Option.some.injEq, reduceCtorEq, false_implies, and_true]
    rintro _ rfl
    rw [addTypedef, getEntry_spec I]
    simp only [bind, Res.bind, pure]
    cases e : last (wanted s.tab (.typedef, n) false) s.size with
    | none => exact ⟨_, rfl, addEntry_rel I O _ d hms⟩
    | some i =>
      simp only
      by_cases hb : (s.tab i).block = s.cur
      · rw [if_pos hb]
        obtain ⟨I', O', h1, h2⟩ := setData_spec I O d e hb
        refine ⟨_, rfl, I', O', ?_⟩
        show _ = scopes _ s.cur
        cases hc : s.cur with
        | zero =>
          rw [hc] at h1
          rw [scopes, h1]
          congr 1
          rw [hem]; exact hc
        | succ c =>
          rw [hc] at h1 h2
          rw [scopes, h1]
          rw [hc, scopes] at hms
          simp only [List.cons.injEq, true_and] at hms
          rw [← hms]
          congr 1
          exact scopes_congr c (fun k hk => (h2 k (by omega)).symm)
      · rw [if_neg hb]
        exact ⟨_, rfl, addEntry_rel I O _ d hms⟩
  | addGlobal n d =>
    have hlast : ∃ s', addEntryWithBlock h s (.identifier, n) 0 d = .ok s' ∧ Rel h s' (bindLast (.identifier, n) d (scopes s s.cur)) := by
      obtain ⟨s', p, e, I', hp, J, hp1, hp2⟩ := addEntryWithBlock_spec I (.identifier, n) 0 d
      have hsc := inserted_scope (h := h) hp J hp2
      refine ⟨s', e, I', ?_, ?_⟩
      · intro j hj
        rw [J.size] at hj
        rw [J.cur]
        by_cases e1 : j < p
        · rw [J.low j e1]; exact O j (by omega)
        · by_cases e2 : j = p
          · rw [e2, J.new.2.2]; omega
          · obtain ⟨j, rfl⟩ : ∃ k, j = k + 1 := ⟨j - 1, by omega⟩
            rw [(J.high j (by omega) (by omega)).2.2]; exact O j (by omega)
      · rw [J.cur]
        symm
        apply bindLast_scopes
        · rw [hsc 0]; rfl
        · intro k hk; rw [hsc k, if_neg (by omega)]
    rw [hms] at hlast ⊢
    simp only [specStep, step, addIdentifierGlobal, getEntry_spec I, bind, Res.bind]
    have hnil : ms.isEmpty = true ↔ s.cur = 0 := by rw [List.isEmpty_iff]; exact hem
    have h0 : scopeOf s 0 (.identifier, n) = (last (wanted s.tab (.identifier, n) true) s.size).map (fun j => (s.tab j).data) := by
      rw [wanted_global]; rfl
    cases e : last (wanted s.tab (.identifier, n) true) s.size with
    | none =>
      have : ¬ (ms.isEmpty = true ∧ (scopeOf s s.cur (.identifier, n)).isSome = true) := by
        rintro ⟨a, b⟩
        rw [hnil] at a
        rw [a, h0, e] at b; simp at b
      rw [if_neg this]
      refine ⟨?_, by simp⟩
      intro ms' e2
      simp only [Option.some.injEq] at e2
      subst e2
      exact hlast
    | some i =>
      have hi := (last_some.mp e).2.1
      simp only [true_and, decide_eq_true_eq, Decidable.not_not] at hi
      simp only
      rw [hi.2]
      by_cases hc : s.cur = 0
      · rw [if_pos hc.symm, if_pos]
        · simp
        · refine ⟨hnil.mpr hc, ?_⟩
          rw [hc, h0, e]; rfl
      · rw [if_neg (Ne.symm hc), if_neg (fun hx => hc (hnil.mp hx.1))]
        refine ⟨?_, by simp⟩
        intro ms' e2
        simp only [Option.some.injEq] at e2
        subst e2
        exact hlast

theorem run_rel {h : Id → Nat} : ∀ (os : List Op) (s : St) (ms : List Scope), Rel h s ms →
    (∀ ms', specRun os ms = some ms' → ∃ s', run h os s = .ok s' ∧ Rel h s' ms') ∧
    (specRun os ms = none → run h os s = .fail)
  | [], s, ms, R => by simp [specRun, run]; exact R
  | o :: os, s, ms, R => by
    obtain ⟨h1, h2⟩ := step_rel R o
    rw [specRun, run]
    cases e : specStep ms o with
    | none => simp [bind, Res.bind, h2 e]
    | some m =>
      obtain ⟨s', e', R'⟩ := h1 m e
      rw [e']
      simpa [bind, Res.bind] using run_rel os s' m R'

/-! ### Balanced histories -/

theorem specRun_append (a b : List Op) : ∀ ms, specRun (a ++ b) ms = (specRun a ms).bind (specRun b) := by
  induction a with
  | nil => intro ms; rfl
  | cons o a ih =>
    intro ms
    rw [List.cons_append, specRun, specRun]
    cases specStep ms o with
    | none => rfl
    | some m => simpa using ih m

theorem balanced_keeps : ∀ (os : List Op) (inner outer : List Scope) (ms : List Scope),
    (∀ o ∈ os, o.isLocal = true) → Balanced os inner.length →
    ∀ x : Scope, specRun os (inner ++ x :: outer) = some ms → ∃ y : Scope, ms = y :: outer := by
  intro os
  induction os with
  | nil =>
    intro inner outer ms _ hb x h
    simp only [Balanced] at hb
    have := List.length_eq_zero_iff.mp hb
    subst this
    simp [specRun] at h
    exact ⟨x, h.symm⟩
  | cons o os ih =>
    intro inner outer ms hl hb x h
    have hl' : ∀ o ∈ os, o.isLocal = true := fun o ho => hl o (List.mem_cons_of_mem _ ho)
    rw [specRun] at h
    have main : ∀ (f : Scope → Scope), specStep (inner ++ x :: outer) o = some (match inner with
          | [] => f x :: outer
          | m :: is => f m :: is ++ x :: outer) → Balanced os inner.length → ∃ y : Scope, ms = y :: outer := by
      intro f hf hb'
      rw [hf] at h
      cases inner with
      | nil => exact ih [] outer ms hl' hb' (f x) (by simpa using h)
      | cons m is => exact ih (f m :: is) outer ms hl' (by simpa using hb') x (by simpa using h)
    cases o with
    | push =>
      simp only [specStep, Option.bind_some] at h
      exact ih ((fun _ => none) :: inner) outer ms hl' (by simpa [Balanced] using hb) x h
    | pop =>
      simp only [Balanced] at hb
      cases inner with
      | nil => simp at hb
      | cons m is =>
        have : specStep (m :: is ++ x :: outer) .pop = some (is ++ x :: outer) := by
          cases is <;> rfl
        rw [this] at h
        exact ih is outer ms hl' (by simpa using hb.2) x h
    | addIdentifier n d =>
      simp only [Balanced] at hb
      by_cases hn : n = []
      · apply main id _ hb
        cases inner <;> simp [specStep, hn]
      · cases hh : specStep (inner ++ x :: outer) (.addIdentifier n d) with
        | none => rw [hh] at h; simp at h
        | some m =>
          apply main (fun m => m.bind (.identifier, n) d) _ hb
          cases inner with
          | nil => simp [specStep, hn] at hh ⊢; exact hh.1
          | cons a is => simp [specStep, hn] at hh ⊢; exact hh.1
    | addStruct n d =>
      simp only [Balanced] at hb
      cases hh : specStep (inner ++ x :: outer) (.addStruct n d) with
      | none => rw [hh] at h; simp at h
      | some m =>
        apply main (fun m => m.bind (.struct, n) d) _ hb
        cases inner with
        | nil => simp [specStep] at hh ⊢; exact hh.1
        | cons a is => simp [specStep] at hh ⊢; exact hh.1
    | addTypedef n d =>
      simp only [Balanced] at hb
      apply main (fun m => m.bind (.typedef, n) d) _ hb
      cases inner <;> rfl
    | addGlobal n d => have := hl _ List.mem_cons_self; simp [Op.isLocal] at this

theorem rel_init (h : Id → Nat) (mem : Nat → Entry) : Rel h (init mem) [fun _ => none] := by
  refine ⟨⟨fun _ => rfl, fun j hj => by simp [init] at hj, fun j k _ hk => by simp [init] at hk⟩, fun j hj => by simp [init] at hj, ?_⟩
  show _ = scopes _ 0
  rw [scopes]; congr 1

end Verif.Symbols
