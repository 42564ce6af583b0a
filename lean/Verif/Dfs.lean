/-!
Depth-first search over natural numbers, as a recursion with a set of visited numbers that also lists the numbers in the order in which
they are left, the last one first. The traversals of the compiler are compared with it.
-/
namespace Verif.Dfs

/-- Depth-first search from `c`; `s.1` holds the visited numbers, `s.2` those that were left. -/
def dfs (succ : Nat → List Nat) : Nat → List Nat × List Nat → Nat → Option (List Nat × List Nat)
  | 0, _, _ => none
  | fuel + 1, s, c =>
    if c ∈ s.1 then some s
    else ((succ c).foldlM (dfs succ fuel) (c :: s.1, s.2)).map fun s => (s.1, c :: s.2)

/-- Reachable. -/
inductive Path (succ : Nat → List Nat) : Nat → Nat → Prop
  | refl (a) : Path succ a a
  | step {a b c} : Path succ a b → c ∈ succ b → Path succ a c

theorem Path.trans {succ : Nat → List Nat} {a b c : Nat} (h : Path succ a b) (h' : Path succ b c) : Path succ a c := by
  induction h' with
  | refl => exact h
  | step _ hc ih => exact .step ih hc

theorem Path.head {succ : Nat → List Nat} {a b c : Nat} (h : b ∈ succ a) (h' : Path succ b c) : Path succ a c :=
  Path.trans (.step (.refl a) h) h'

/-- `y` is in the list before `x`. -/
def Before (l : List Nat) (y x : Nat) : Prop := ∃ a b, l = a ++ x :: b ∧ y ∈ a

theorem Before.append_left {l : List Nat} {y x : Nat} (h : Before l y x) (r : List Nat) : Before (r ++ l) y x := by
  obtain ⟨a, b, rfl, hy⟩ := h
  exact ⟨r ++ a, b, by simp, by simp [hy]⟩

theorem Before.append_right {l : List Nat} {y x : Nat} (h : Before l y x) (r : List Nat) : Before (l ++ r) y x := by
  obtain ⟨a, b, rfl, hy⟩ := h
  exact ⟨a, b ++ r, by simp, hy⟩

theorem Before.cons_mem {l : List Nat} {y x : Nat} (h : x ∈ l) : Before (y :: l) y x := by
  obtain ⟨a, b, rfl⟩ := List.append_of_mem h
  exact ⟨y :: a, b, rfl, by simp⟩

/-- How many numbers below `n` are not visited. -/
def unvisited (n : Nat) (v : List Nat) : Nat := (List.range n).countP fun x => decide (x ∉ v)

theorem countP_lt {α : Type} {p q : α → Bool} : ∀ {l : List α}, (∀ x ∈ l, q x = true → p x = true) → (∃ c ∈ l, p c = true ∧ q c = false) →
    l.countP q < l.countP p := by
  intro l
  induction l with
  | nil => rintro _ ⟨c, hc, -⟩; cases hc
  | cons a l ih =>
    rintro h ⟨c, hc, hp, hq⟩
    rw [List.countP_cons, List.countP_cons]
    rcases List.mem_cons.1 hc with rfl | hc
    · have : l.countP q ≤ l.countP p := List.countP_mono_left fun x hx => h x (by simp [hx])
      simp [hp, hq]
      omega
    · have := ih (fun x hx => h x (by simp [hx])) ⟨c, hc, hp, hq⟩
      have ha := h a (by simp)
      cases hqa : q a
      · simp; omega
      · simp [ha hqa]; omega

theorem unvisited_mono {n : Nat} {v w : List Nat} (h : ∀ x ∈ v, x ∈ w) : unvisited n w ≤ unvisited n v := by
  refine List.countP_mono_left ?_
  intro x _ hx
  simp only [decide_eq_true_eq] at hx ⊢
  exact fun hv => hx (h x hv)

theorem unvisited_cons {n c : Nat} {v : List Nat} (hc : c < n) (h : c ∉ v) : unvisited n (c :: v) < unvisited n v := by
  refine countP_lt ?_ ⟨c, List.mem_range.2 hc, by simpa using h, by simp⟩
  intro x _ hx
  simp only [decide_eq_true_eq] at hx ⊢
  exact fun hv => hx (by simp [hv])

theorem unvisited_le (n : Nat) (v : List Nat) : unvisited n v ≤ n := by
  have := List.countP_le_length (p := fun x => decide (x ∉ v)) (l := List.range n)
  rwa [List.length_range] at this

/-- What a search adds: the numbers `q` are visited and left. -/
structure Adds (succ : Nat → List Nat) (cs : List Nat) (s t : List Nat × List Nat) (q : List Nat) : Prop where
  left : t.2 = q ++ s.2
  visited : ∀ x, x ∈ t.1 ↔ x ∈ s.1 ∨ x ∈ q
  new : ∀ x ∈ q, x ∉ s.1
  nodup : q.Nodup
  starts : ∀ c ∈ cs, c ∈ t.1
  closed : ∀ x ∈ q, ∀ y ∈ succ x, y ∈ t.1
  reach : ∀ x ∈ q, ∃ c ∈ cs, Path succ c x
  parent : ∀ x ∈ q, x ∈ cs ∨ ∃ y, Before q y x ∧ x ∈ succ y

theorem foldlM_adds {succ : Nat → List Nat} {n fuel : Nat}
    (ih : ∀ {s c}, c < n → unvisited n s.1 < fuel → ∃ t q, dfs succ fuel s c = some t ∧ Adds succ [c] s t q) :
    ∀ {cs : List Nat} {s : List Nat × List Nat}, (∀ c ∈ cs, c < n) → unvisited n s.1 < fuel →
    ∃ t q, cs.foldlM (dfs succ fuel) s = some t ∧ Adds succ cs s t q := by
  intro cs
  induction cs with
  | nil =>
    intro s _ _
    exact ⟨s, [], rfl, by simp, by simp, by simp, by simp, by simp, by simp, by simp, by simp⟩
  | cons c cs ihc =>
    intro s hc hf
    obtain ⟨t, q, e, h⟩ := ih (hc c (by simp)) hf
    have hm : unvisited n t.1 ≤ unvisited n s.1 := unvisited_mono fun x hx => (h.visited x).2 (.inl hx)
    obtain ⟨t', q', e', h'⟩ := ihc (s := t) (fun x hx => hc x (by simp [hx])) (by omega)
    refine ⟨t', q' ++ q, ?_, ?_, ?_, ?_, ?_, ?_, ?_, ?_, ?_⟩
    · rw [List.foldlM_cons, e]
      exact e'
    · rw [h'.left, h.left, List.append_assoc]
    · intro x
      rw [h'.visited, h.visited, List.mem_append]
      constructor
      · rintro ((h | h) | h)
        · exact .inl h
        · exact .inr (.inr h)
        · exact .inr (.inl h)
      · rintro (h | h | h)
        · exact .inl (.inl h)
        · exact .inr h
        · exact .inl (.inr h)
    · intro x hx
      rcases List.mem_append.1 hx with hx | hx
      · exact fun hs => h'.new x hx ((h.visited x).2 (.inl hs))
      · exact h.new x hx
    · refine List.nodup_append.2 ⟨h'.nodup, h.nodup, ?_⟩
      intro a ha b hb hab
      subst hab
      exact h'.new a ha ((h.visited a).2 (.inr hb))
    · intro x hx
      rcases List.mem_cons.1 hx with rfl | hx
      · exact (h'.visited x).2 (.inl (h.starts x (by simp)))
      · exact h'.starts x hx
    · intro x hx y hy
      rcases List.mem_append.1 hx with hx | hx
      · exact h'.closed x hx y hy
      · exact (h'.visited y).2 (.inl (h.closed x hx y hy))
    · intro x hx
      rcases List.mem_append.1 hx with hx | hx
      · obtain ⟨d, hd, hp⟩ := h'.reach x hx
        exact ⟨d, by simp [hd], hp⟩
      · obtain ⟨d, hd, hp⟩ := h.reach x hx
        exact ⟨d, by simp at hd; simp [hd], hp⟩
    · intro x hx
      rcases List.mem_append.1 hx with hx | hx
      · rcases h'.parent x hx with hp | ⟨y, hb, hy⟩
        · exact .inl (by simp [hp])
        · exact .inr ⟨y, hb.append_right _, hy⟩
      · rcases h.parent x hx with hp | ⟨y, hb, hy⟩
        · exact .inl (by simp at hp; simp [hp])
        · exact .inr ⟨y, hb.append_left _, hy⟩

/-- Depth-first search visits what can be reached through unvisited numbers, and everything but the start has a predecessor that
is left later. -/
theorem dfs_adds {succ : Nat → List Nat} {n : Nat} (hs : ∀ x < n, ∀ y ∈ succ x, y < n) : ∀ {fuel : Nat} {s : List Nat × List Nat} {c : Nat},
    c < n → unvisited n s.1 < fuel → ∃ t q, dfs succ fuel s c = some t ∧ Adds succ [c] s t q := by
  intro fuel
  induction fuel with
  | zero => intro s c _ h; omega
  | succ fuel ih =>
    intro s c hc hf
    rw [dfs]
    by_cases hv : c ∈ s.1
    · rw [if_pos hv]
      exact ⟨s, [], rfl, by simp, by simp, by simp, by simp, by simpa using hv, by simp, by simp, by simp⟩
    · rw [if_neg hv]
      have hu := unvisited_cons hc hv
      obtain ⟨t, q, e, h⟩ := foldlM_adds ih (cs := succ c) (s := (c :: s.1, s.2)) (hs c hc) (by dsimp only; omega)
      have hvis := h.visited
      dsimp only at hvis
      refine ⟨(t.1, c :: t.2), c :: q, by rw [e]; rfl, ?_, ?_, ?_, ?_, ?_, ?_, ?_, ?_⟩
      · show c :: t.2 = _
        rw [h.left]
        rfl
      · intro x
        rw [hvis, List.mem_cons, List.mem_cons]
        constructor
        · rintro ((h | h) | h)
          · exact .inr (.inl h)
          · exact .inl h
          · exact .inr (.inr h)
        · rintro (h | h | h)
          · exact .inl (.inr h)
          · exact .inl (.inl h)
          · exact .inr h
      · intro x hx
        rcases List.mem_cons.1 hx with rfl | hx
        · exact hv
        · exact fun h' => h.new x hx (List.mem_cons_of_mem _ h')
      · refine List.nodup_cons.2 ⟨?_, h.nodup⟩
        intro hx
        exact h.new c hx (by simp)
      · intro x hx
        simp only [List.mem_singleton] at hx
        subst hx
        exact (hvis x).2 (.inl (by simp))
      · intro x hx y hy
        rcases List.mem_cons.1 hx with rfl | hx
        · exact h.starts y hy
        · exact h.closed x hx y hy
      · intro x hx
        refine ⟨c, by simp, ?_⟩
        rcases List.mem_cons.1 hx with rfl | hx
        · exact .refl _
        · obtain ⟨d, hd, hp⟩ := h.reach x hx
          exact Path.head hd hp
      · intro x hx
        rcases List.mem_cons.1 hx with rfl | hx
        · exact .inl (by simp)
        · right
          rcases h.parent x hx with hp | ⟨y, hb, hy⟩
          · exact ⟨c, .cons_mem hx, hp⟩
          · exact ⟨y, hb.append_left [c], hy⟩

end Verif.Dfs
