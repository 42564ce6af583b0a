import Verif.StatesSpec
import Verif.ScheduleOrderLemmas
/-!
The states of memory while the instructions of a block are executed.
-/
namespace Verif.Ir
open Verif Verif.IrSpec

theorem idxOf_lt_of_before {l : List Nat} (hn : l.Nodup) {a n : Nat} (h : Before l a n) : l.idxOf a < l.idxOf n := by
  obtain ⟨x, y, rfl, ha⟩ := h
  have h1 : n ∉ x := fun hx => (List.nodup_append.1 hn).2.2 n hx n (by simp) rfl
  rw [List.idxOf_append, if_pos ha, List.idxOf_append, if_neg h1, List.idxOf_cons_self]
  have := List.idxOf_lt_length_of_mem ha
  omega

theorem takes_operand {g : Graph} {u s : Nat} (h : Takes g u s) : Operand g u s := by
  rcases h with ⟨i, _, h⟩ | ⟨_, h⟩ | ⟨_, h⟩
  · exact ⟨i, h⟩
  · exact ⟨1, h⟩
  · exact ⟨2, h⟩

theorem takes_phi {g : Graph} {u s : Nat} (h : Takes g u s) : (g.node u).kind ≠ .phi := by
  intro hk
  rcases h with ⟨i, h, _⟩ | ⟨h, _⟩ | ⟨h, _⟩
  · rw [hk] at h; cases h
  · rw [hk] at h; cases h
  · rw [hk] at h; cases h

theorem foldl_execute_none {g : Graph} : ∀ {l : List Nat} {w : Nat → Prop}, (∀ n ∈ l, ¬∃ s, Replaces g n s) → l.foldl (execute g) w = w := by
  intro l
  induction l with
  | nil => exact fun _ => rfl
  | cons n l ih =>
    intro w h
    rw [List.foldl_cons, ih (fun m hm => h m (by simp [hm]))]
    unfold execute
    rw [if_neg (h n (by simp))]

theorem foldl_execute_last {g : Graph} {x y : List Nat} {n : Nat} {w : Nat → Prop} (hn : ∃ s, Replaces g n s) (h : ∀ m ∈ y, ¬∃ s, Replaces g m s) :
    (x ++ n :: y).foldl (execute g) w = After g n := by
  rw [List.foldl_append, List.foldl_cons, foldl_execute_none h]
  unfold execute
  rw [if_pos hn]

section
variable {g : Graph} {block : Nat → Option Nat} {b : Nat} {l : List Nat} (hin : InOrder g block b l)
include hin

/-- What is in the chain is in the list. -/
structure Chained (g : Graph) (block : Nat → Option Nat) (b : Nat) (c : List (Nat × Nat)) : Prop where
  instr : ∀ n t, (n, t) ∈ c → IsInstruction g n ∧ IsInstruction g t
  here : ∀ n t, (n, t) ∈ c → block n = some b ∧ block t = some b

omit hin in
theorem Chained.tail {c : List (Nat × Nat)} {p : Nat × Nat} (h : Chained g block b (p :: c)) : Chained g block b c :=
  ⟨fun n t hm => h.instr n t (by simp [hm]), fun n t hm => h.here n t (by simp [hm])⟩

theorem user_after {c : List (Nat × Nat)} (hc : Chained g block b c) {n t u : Nat} (hm : (n, t) ∈ c) (ha : After g n t) (hu : u ∈ l) (hk : (g.node u).kind ≠ .phi)
    (ho : Operand g u t) : l.idxOf n < l.idxOf u := by
  have hi := hc.instr n t hm
  have hh := hc.here n t hm
  have h1 := idxOf_lt_of_before hin.once (hin.operands u t hu ((hin.all t).2 ⟨hi.2, hh.2⟩) hk ho)
  rcases ha with rfl | hp
  · exact h1
  · have := idxOf_lt_of_before hin.once (hin.operands t n ((hin.all t).2 ⟨hi.2, hh.2⟩) ((hin.all n).2 ⟨hi.1, hh.1⟩) (by rw [hp.1]; simp) ⟨0, hp.2⟩)
    omega

theorem chain_sorted : ∀ {c : List (Nat × Nat)} {s n t : Nat}, IsChain g s ((n, t) :: c) → Chained g block b ((n, t) :: c) → ∀ m r, (m, r) ∈ c → l.idxOf n < l.idxOf m := by
  intro c
  induction c with
  | nil => intro s n t _ _ m r hm; cases hm
  | cons p c ih =>
    obtain ⟨n', t'⟩ := p
    intro s n t hc hd m r hm
    obtain ⟨-, h2, h3⟩ := hc
    have h4 : l.idxOf n < l.idxOf n' := by
      have hm' : n' ∈ l := (hin.all n').2 ⟨(hd.instr n' t' (by simp)).1, (hd.here n' t' (by simp)).1⟩
      exact user_after hin hd (by simp) h2 hm' (takes_phi (.inl h3.1)) (takes_operand (.inl h3.1))
    rcases List.mem_cons.1 hm with e | hm
    · injection e with e1 e2
      subst e1
      exact h4
    · have := ih h3 hd.tail m r hm
      omega

/-- In the list, an instruction that is meant for a state of the chain comes after the replacement that yields it and before all later ones. -/
theorem chain_split : ∀ {c : List (Nat × Nat)} {s u v : Nat}, IsChain g s c → Chained g block b c → u ∈ l → Takes g u v → (v = s ∨ ∃ n, (n, v) ∈ c) →
    (∃ c1 c2, c = c1 ++ c2 ∧ lastState s c1 = v ∧ (∀ n t, (n, t) ∈ c1 → l.idxOf n < l.idxOf u) ∧ ∀ n t, (n, t) ∈ c2 → l.idxOf u ≤ l.idxOf n) := by
  intro c
  have zero : ∀ (c : List (Nat × Nat)) (s u : Nat), IsChain g s c → Chained g block b c → u ∈ l → Takes g u s → ∀ n t, (n, t) ∈ c → l.idxOf u ≤ l.idxOf n := by
    intro c s u hc hd hu ht n t hm
    cases c with
    | nil => cases hm
    | cons p c =>
      obtain ⟨n', t'⟩ := p
      have h1 : l.idxOf u ≤ l.idxOf n' := by
        by_cases hun : u = n'
        · rw [hun]; exact Nat.le_refl _
        · exact Nat.le_of_lt (idxOf_lt_of_before hin.once (hin.states n' s u ((hin.all n').2 ⟨(hd.instr n' t' (by simp)).1, (hd.here n' t' (by simp)).1⟩) hu hc.1
            (takes_operand ht) hun))
      rcases List.mem_cons.1 hm with e | hm
      · injection e with e1 e2
        subst e1
        exact h1
      · exact Nat.le_trans h1 (Nat.le_of_lt (chain_sorted hin hc hd n t hm))
  induction c with
  | nil =>
    intro s u v hc hd hu ht hv
    rcases hv with rfl | ⟨n, hn⟩
    · exact ⟨[], [], rfl, rfl, by simp, by simp⟩
    · cases hn
  | cons p c ih =>
    obtain ⟨n', t'⟩ := p
    intro s u v hc hd hu ht hv
    by_cases hvs : v = s
    · subst hvs
      exact ⟨[], (n', t') :: c, rfl, rfl, by simp, zero _ _ _ hc hd hu ht⟩
    · have hv' : v = t' ∨ ∃ n, (n, v) ∈ c := by
        rcases hv with h | ⟨n, hn⟩
        · exact absurd h hvs
        · rcases List.mem_cons.1 hn with e | hn
          · injection e with e1 e2
            exact .inl e2
          · exact .inr ⟨n, hn⟩
      obtain ⟨c1, c2, e, h1, h2, h3⟩ := ih hc.2.2 hd.tail hu ht hv'
      refine ⟨(n', t') :: c1, c2, by rw [e]; rfl, h1, ?_, h3⟩
      intro n t hm
      rcases List.mem_cons.1 hm with e' | hm
      · injection e' with e1 e2
        subst e1
        cases c1 with
        | nil =>
          have : v = t' := h1.symm
          subst this
          exact user_after hin hd (by simp) hc.2.1 hu (takes_phi ht) (takes_operand ht)
        | cons q c1 =>
          obtain ⟨n2, t2⟩ := q
          have := h2 n2 t2 (by simp)
          have := chain_sorted hin hc hd n2 t2 (by rw [e]; simp)
          omega
      · exact h2 n t hm

/-- The state after the instructions of the list before some point. -/
theorem chain_names {c1 : List (Nat × Nat)} {s : Nat} {w : Nat → Prop} (hw : w s) {x y : List Nat} (hl : l = x ++ y) (hc : IsChain g s c1) (hd : Chained g block b c1)
    (h1 : ∀ n t, (n, t) ∈ c1 → n ∈ x) (h2 : ∀ n ∈ x, (∃ r, Replaces g n r) → ∃ t, (n, t) ∈ c1) : x.foldl (execute g) w (lastState s c1) := by
  cases hl1 : c1.reverse with
  | nil =>
    have : c1 = [] := by simpa using hl1
    subst this
    rw [foldl_execute_none]
    · exact hw
    · intro n hn hr
      obtain ⟨t, ht⟩ := h2 n hn hr
      cases ht
  | cons p r =>
    obtain ⟨n, t⟩ := p
    have e : c1 = r.reverse ++ [(n, t)] := by
      have := congrArg List.reverse hl1
      simpa using this
    have last : ∀ (r : List (Nat × Nat)) (s : Nat), IsChain g s (r ++ [(n, t)]) → Chained g block b (r ++ [(n, t)]) → lastState s (r ++ [(n, t)]) = t ∧ After g n t ∧ (∃ v, Replaces g n v) ∧
        ∀ m q, (m, q) ∈ r → l.idxOf m < l.idxOf n := by
      intro r
      induction r with
      | nil => exact fun s h _ => ⟨rfl, h.2.1, ⟨s, h.1⟩, by simp⟩
      | cons p r ih =>
        obtain ⟨n', t'⟩ := p
        intro s h hd'
        obtain ⟨h3, h4, h5, h6⟩ := ih t' h.2.2 hd'.tail
        refine ⟨h3, h4, h5, ?_⟩
        intro m q hm
        rcases List.mem_cons.1 hm with e | hm
        · injection e with e1 e2
          subst e1
          exact chain_sorted hin h hd' n t (by simp)
        · exact h6 m q hm
    rw [e] at hc hd
    obtain ⟨h3, h4, h5, h6⟩ := last r.reverse s hc hd
    have hnx : n ∈ x := h1 n t (by rw [e]; simp)
    obtain ⟨x1, x2, ex⟩ := List.append_of_mem hnx
    rw [e, h3, ex, foldl_execute_last h5]
    · exact h4
    · intro m hm hr
      obtain ⟨q, hq⟩ := h2 m (by rw [ex]; simp [hm]) hr
      have hb : l.idxOf n < l.idxOf m := by
        obtain ⟨z1, z2, ez⟩ := List.append_of_mem hm
        exact idxOf_lt_of_before hin.once ⟨x1 ++ n :: z1, z2 ++ y, by rw [hl, ex, ez]; simp, by simp⟩
      rw [e] at hq
      rcases List.mem_append.1 hq with hq | hq
      · have := h6 m q hq
        omega
      · have := List.mem_singleton.1 hq
        injection this with e1 e2
        subst e1
        omega

end

theorem mem_prefix {l x y : List Nat} {u m : Nat} (hn : l.Nodup) (hl : l = x ++ u :: y) (hm : m ∈ l) : m ∈ x ↔ l.idxOf m < l.idxOf u := by
  constructor
  · intro h
    exact idxOf_lt_of_before hn ⟨x, y, hl, h⟩
  · intro h
    rw [hl] at hm
    rcases List.mem_append.1 hm with h1 | h1
    · exact h1
    · rcases List.mem_cons.1 h1 with rfl | h1
      · omega
      · obtain ⟨z1, z2, ez⟩ := List.append_of_mem h1
        have := idxOf_lt_of_before hn (a := u) (n := m) ⟨x ++ u :: z1, z2, by rw [hl, ez]; simp, by simp⟩
        omega

theorem replaces_instruction {g : Graph} (hg : Inv g) {n s : Nat} (h : Replaces g n s) : IsInstruction g n ∧ (g.node n).kind ≠ .project := by
  obtain ⟨i, h1, h2⟩ := h
  have hk : (g.node n).kind ≠ .function ∧ (g.node n).kind ≠ .region ∧ (g.node n).kind ≠ .project := by
    refine ⟨?_, ?_, ?_⟩ <;> intro hk <;> rw [hk] at h1 <;> cases h1
  refine ⟨⟨(hg.closed n i s h2).2.1, hk.1, ?_⟩, hk.2.2⟩
  rintro (h | ⟨m, h, -⟩)
  · exact hk.2.1 h
  · exact hk.2.2 h.1

theorem after_instruction {g : Graph} (hg : Inv g) {n s t : Nat} (h : Replaces g n s) (ha : After g n t) : IsInstruction g t := by
  rcases ha with rfl | hp
  · exact (replaces_instruction hg h).1
  · refine ⟨(hg.closed t 0 n hp.2).2.1, by rw [hp.1]; simp, ?_⟩
    rintro (hx | ⟨m, hx, hk⟩)
    · rw [hp.1] at hx; cases hx
    · have : m = n := by
        have := hx.2
        rw [hp.2] at this
        injection this with this
        exact this.symm
      subst this
      obtain ⟨i, h1, -⟩ := h
      rcases hk with hk | ⟨-, hk⟩ <;> rw [hk] at h1 <;> cases h1

theorem chain_chained {g : Graph} (hg : Inv g) {block : Nat → Option Nat} {b : Nat} : ∀ {c : List (Nat × Nat)} {s : Nat}, IsChain g s c →
    (∀ n t, (n, t) ∈ c → block n = some b ∧ block t = some b) → Chained g block b c := by
  intro c s hc hh
  refine ⟨?_, hh⟩
  clear hh
  induction c generalizing s with
  | nil => intro n t h; cases h
  | cons p c ih =>
    obtain ⟨n', t'⟩ := p
    intro n t hm
    rcases List.mem_cons.1 hm with e | hm
    · injection e with e1 e2
      subst e1 e2
      exact ⟨(replaces_instruction hg hc.1).1, after_instruction hg hc.1 hc.2.1⟩
    · exact ih hc.2.2 n t hm

theorem faithful_core {g : Graph} (hg : Inv g) {block : Nat → Option Nat} {f e : Nat} {first : Nat → Nat} {chain : Nat → List (Nat × Nat)} (ht : Threads g block f e first chain)
    {prog : List (Nat × List Nat)} (hp : ∀ b l, (b, l) ∈ prog → InOrder g block b l) : Faithful g prog f e := by
  have run : ∀ b w, Runs g prog f e b w → Walk g e b ∧ w (first b) := by
    intro b w h
    induction h with
    | start => exact ⟨.start, ht.start⟩
    | @step b l b' w _ hm he ih =>
      refine ⟨.step ih.1 he, ?_⟩
      have hin := hp b l hm
      have hc := ht.linked b ih.1
      have hd := chain_chained hg hc (fun n t h => ht.here b n t ih.1 h)
      have hlast := chain_names hin ih.2 (x := l) (y := []) (by simp) hc hd
        (fun n t h => (hin.all n).2 ⟨(hd.instr n t h).1, (hd.here n t h).1⟩) (fun n hn ⟨r, hr⟩ => ht.all b n r ih.1 ((hin.all n).1 hn).2 hr)
      unfold enter
      rcases ht.edge b b' ih.1 he with ⟨h1, h2⟩ | ⟨h1, h2, k, h3, h4⟩
      · rw [h1] at h2 ⊢
        exact .inr ⟨h2, hlast⟩
      · exact .inl ⟨h1, h2, k, _, h3, h4, hlast⟩
  intro b w x u y s hr hm htk
  obtain ⟨hw, hs⟩ := run b w hr
  have hin := hp b _ hm
  generalize hl : x ++ u :: y = l at *
  have hu : u ∈ l := by rw [← hl]; simp
  have hc := ht.linked b hw
  have hd := chain_chained hg hc (fun n t h => ht.here b n t hw h)
  obtain ⟨c1, c2, e1, h1, h2, h3⟩ := chain_split hin hc hd hu htk (ht.uses b u s hw ((hin.all u).1 hu).2 htk)
  have hsub : ∀ n t, (n, t) ∈ c1 → (n, t) ∈ chain b := fun n t h => by rw [e1]; exact List.mem_append_left _ h
  have hc1 : IsChain g (first b) c1 := by
    rw [e1] at hc
    clear e1 h1 h2 hsub h3
    generalize first b = s0 at hc
    induction c1 generalizing s0 with
    | nil => trivial
    | cons p c1 ih =>
      obtain ⟨n', t'⟩ := p
      exact ⟨hc.1, hc.2.1, ih _ hc.2.2⟩
  rw [← h1]
  refine chain_names hin hs (x := x) (y := u :: y) hl.symm hc1 ⟨fun n t h => hd.instr n t (hsub n t h), fun n t h => hd.here n t (hsub n t h)⟩ ?_ ?_
  · intro n t h
    have hn : n ∈ l := (hin.all n).2 ⟨(hd.instr n t (hsub n t h)).1, (hd.here n t (hsub n t h)).1⟩
    exact (mem_prefix hin.once hl.symm hn).2 (h2 n t h)
  · intro n hn ⟨r, hr'⟩
    have hnl : n ∈ l := by rw [← hl]; simp [hn]
    obtain ⟨t, htc⟩ := ht.all b n r hw ((hin.all n).1 hnl).2 hr'
    have hlt := (mem_prefix hin.once hl.symm hnl).1 hn
    rw [e1] at htc
    rcases List.mem_append.1 htc with h | h
    · exact ⟨t, h⟩
    · have := h3 n t h
      omega

end Verif.Ir
