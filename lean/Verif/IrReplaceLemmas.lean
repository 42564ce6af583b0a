import Verif.IrLemmas
/-!
Replacing a node by another.
-/
namespace Verif.Ir
open Verif Verif.IrSpec

/-- A graph after parsing: blocks are sealed, and projections have an operand and a small index. -/
structure Done (g : Graph) : Prop where
  isSealed : ∀ n, (g.node n).kind = .region → (g.node n).isSealed = true
  operand : ∀ n, (g.node n).kind = .project → (g.node n).args 0 ≠ none
  index : ∀ n, (g.node n).kind = .project → (g.node n).projIdx < 4

/-- The graph `h` is `g` with operands changed as by `f`. -/
structure Maps (f : Nat → Nat → Option Nat) (g h : Graph) : Prop where
  inv : Inv h
  done : Done h
  size : h.size = g.size
  kind : ∀ m, (h.node m).kind = (g.node m).kind
  visited : ∀ m, (h.node m).visited = (g.node m).visited
  args : ∀ m j, (h.node m).args j = f m j
  grows : ∀ m, (g.node m).uses.length ≤ (h.node m).uses.length

theorem setArg_any {fuel : Nat} {g : Graph} (hg : Inv g) (hd : Done g) {n i : Nat} {a : Option Nat} (hn : n < g.size) (hi : i < 4)
    (hx : ∀ x, a = some x → x < g.size) (hpa : (g.node n).kind = .project → a ≠ none) (hne : (g.node n).args i ≠ a) :
    ∃ h, setArg fuel g n i a = .ok h ∧ Maps (fun m j => if m = n ∧ j = i then a else (g.node m).args j) g h ∧
      (∀ m, (h.node m).useSize + one ((g.node n).args i = some m) = (g.node m).useSize + one (a = some m)) := by
  obtain ⟨g', e, hs⟩ := setArg0_ok hg hn hi hx hne
    (fun hk => ⟨hpa hk, hd.index n hk⟩)
  have hg' := hs.inv hg hn hi hx
  have hop : ∀ m, (g'.node m).kind = .project → (g'.node m).args 0 ≠ none := by
    intro m hk
    rw [hs.args]
    split
    · rename_i e
      exact hpa (by rw [← e.1, ← hs.kind]; exact hk)
    · exact hd.operand m (by rw [← hs.kind]; exact hk)
  unfold setArg
  rw [if_neg (by rintro ⟨-, -, h⟩; exact hne h), e]
  simp only [Run.ofRes_ok, Run.bind_ok]
  have hid : ∀ m, (g'.node m).kind = .project → (g'.node m).projIdx < 4 := by
    intro m hk
    rw [hs.projIdx]
    exact hd.index m (by rw [← hs.kind]; exact hk)
  have hse : ∀ m, (g'.node m).kind = .region → (g'.node m).isSealed = true := by
    intro m hk
    rw [hs.isSealed]
    exact hd.isSealed m (by rw [← hs.kind]; exact hk)
  have base : ∃ h, Run.ok g' = Run.ok h ∧ Maps (fun m j => if m = n ∧ j = i then a else (g.node m).args j) g h ∧
      (∀ m, (h.node m).useSize + one ((g.node n).args i = some m) = (g.node m).useSize + one (a = some m)) :=
    ⟨g', rfl, ⟨hg', ⟨hse, hop, hid⟩, hs.size, hs.kind, hs.visited, hs.args, hs.grows⟩, hs.useSize⟩
  unfold afterSet
  cases hk : (g'.node n).kind
  case region =>
    have hc : isControl g' n = .ok true := by unfold isControl; rw [hk]
    rw [hc]
    simp only [Run.ofRes_ok, Run.bind_ok, if_true]
    rw [if_neg (by simp)]
    split
    · unfold sealBlock
      dsimp only
      rw [if_pos (hse n hk)]
      exact ⟨_, rfl, ⟨inv_same hg' ⟨rfl, fun m => ⟨rfl, rfl, rfl⟩⟩, ⟨hse, hop, hid⟩, hs.size, hs.kind, hs.visited, hs.args, hs.grows⟩, hs.useSize⟩
    · exact base
  case project =>
    cases ha : (g'.node n).args 0 with
    | none => exact absurd ha (hop n hk)
    | some f =>
      have hc : ∃ c, isControl g' n = .ok c := by
        unfold isControl
        rw [hk]
        dsimp only
        rw [ha]
        exact ⟨_, rfl⟩
      obtain ⟨c, hc⟩ := hc
      rw [hc]
      simp only [Run.ofRes_ok, Run.bind_ok, if_true]
      split
      · refine ⟨_, rfl, ?_, ?_⟩
        · have hnode : ∀ m, (g'.upd n fun q => { q with isSealed := true }).node m =
              { g'.node m with isSealed := if m = n then true else (g'.node m).isSealed } := by
            intro m
            rw [upd_node]
            split
            · rename_i e; subst e; rfl
            · rfl
          refine ⟨inv_same hg' (same_upd fun q => ⟨rfl, rfl, rfl⟩), ⟨?_, ?_, ?_⟩, hs.size, ?_, ?_, ?_, ?_⟩
          · intro m; rw [hnode]; intro hkm
            show (if m = n then true else _) = true
            split
            · rfl
            · exact hse m hkm
          · intro m; rw [hnode]; exact hop m
          · intro m; rw [hnode]; exact hid m
          · intro m; rw [hnode]; exact hs.kind m
          · intro m; rw [hnode]; exact hs.visited m
          · intro m; rw [hnode]; exact hs.args m
          · intro m; rw [hnode]; exact hs.grows m
        · intro m
          rw [upd_node]
          split
          · rename_i e; subst e; exact hs.useSize m
          · exact hs.useSize m
      · exact base
  all_goals
    have hc : isControl g' n = .ok false := by unfold isControl; rw [hk]
    rw [hc]
    simp only [Run.ofRes_ok, Run.bind_ok, Bool.false_eq_true, if_false]
    exact base

theorem setArg_done {fuel : Nat} {g : Graph} (hg : Inv g) (hd : Done g) {n i x : Nat} (hn : n < g.size) (hi : i < 4) (hx : x < g.size)
    (hne : (g.node n).args i ≠ some x) :
    ∃ h, setArg fuel g n i (some x) = .ok h ∧ Maps (fun m j => if m = n ∧ j = i then some x else (g.node m).args j) g h ∧
      (∀ m, (h.node m).useSize + one ((g.node n).args i = some m) = (g.node m).useSize + one (some x = some m)) :=
  setArg_any hg hd hn hi (by intro y hy; cases hy; exact hx) (by simp) hne

/-- The operand that replaces an operand. -/
def swap (o r : Nat) (a : Option Nat) : Option Nat := if a = some o then some r else a

theorem replaceIn_done {fuel o r use : Nat} (hor : o ≠ r) : ∀ {k j : Nat} {g : Graph}, Inv g → Done g → o < g.size → r < g.size → j + k = 4 →
    ∃ h, replaceIn fuel g o r use j k = .ok h ∧
      Maps (fun m i => if m = use ∧ j ≤ i then swap o r ((g.node m).args i) else (g.node m).args i) g h ∧
      (h.node o).useSize ≤ (g.node o).useSize ∧
      ((∃ i, j ≤ i ∧ (g.node use).args i = some o) → (h.node o).useSize < (g.node o).useSize) := by
  intro k
  induction k with
  | zero =>
    intro j g hg hd ho hr hj
    refine ⟨g, rfl, ⟨hg, hd, rfl, fun _ => rfl, fun _ => rfl, ?_, fun _ => Nat.le_refl _⟩, Nat.le_refl _, ?_⟩
    · intro m i
      split
      · rename_i e
        cases ha : (g.node m).args i with
        | none => rfl
        | some a =>
          have := (hg.closed m i a ha).1
          omega
      · rfl
    · rintro ⟨i, hi, ha⟩
      have := (hg.closed _ i _ ha).1
      omega
  | succ k ih =>
    intro j g hg hd ho hr hj
    rw [replaceIn]
    by_cases ha : (g.node use).args j = some o
    · rw [if_pos ha]
      have hus := (hg.closed _ _ _ ha).2.1
      obtain ⟨g', e, hm, hu⟩ := setArg_done (fuel := fuel) hg hd hus (by omega : j < 4) hr (by rw [ha]; intro h; injection h with h; exact hor h)
      rw [e, Run.bind_ok]
      obtain ⟨h, e', hm', hle, hlt⟩ := ih hm.inv hm.done (by rw [hm.size]; exact ho) (by rw [hm.size]; exact hr) (by omega : j + 1 + k = 4)
      have hu' := hu o
      have e1 : one ((g.node use).args j = some o) = 1 := by rw [one, if_pos ha]
      have e2 : one (some r = some o) = 0 := by rw [one, if_neg (by intro h; injection h with h; exact hor h.symm)]
      refine ⟨h, e', ⟨hm'.inv, hm'.done, by rw [hm'.size, hm.size], fun m => by rw [hm'.kind, hm.kind], fun m => by rw [hm'.visited, hm.visited], ?_, fun m => Nat.le_trans (hm.grows m) (hm'.grows m)⟩, ?_, ?_⟩
      · intro m i
        rw [hm'.args, hm.args]
        by_cases h1 : m = use ∧ j + 1 ≤ i
        · rw [if_pos h1, if_neg (by omega), if_pos ⟨h1.1, by omega⟩]
        · rw [if_neg h1]
          by_cases h2 : m = use ∧ i = j
          · rw [if_pos h2, if_pos ⟨h2.1, by omega⟩, h2.1, h2.2, ha]
            simp [swap]
          · rw [if_neg h2, if_neg (by omega)]
      · omega
      · intro _; omega
    · rw [if_neg ha]
      obtain ⟨h, e', hm', hle, hlt⟩ := ih hg hd ho hr (by omega : j + 1 + k = 4)
      refine ⟨h, e', ⟨hm'.inv, hm'.done, hm'.size, hm'.kind, hm'.visited, ?_, hm'.grows⟩, hle, ?_⟩
      · intro m i
        rw [hm'.args]
        by_cases h1 : m = use ∧ j + 1 ≤ i
        · rw [if_pos h1, if_pos ⟨h1.1, by omega⟩]
        · rw [if_neg h1]
          by_cases h2 : m = use ∧ j ≤ i
          · have : i = j := by omega
            rw [if_pos h2, h2.1, this, swap, if_neg ha]
          · rw [if_neg h2]
      · rintro ⟨i, hi, h⟩
        refine hlt ⟨i, ?_, h⟩
        rcases Nat.lt_or_ge j i with h1 | h1
        · exact h1
        · have : i = j := by omega
          rw [this] at h
          exact absurd h ha

theorem replaceFrom_done {fuel o r : Nat} (hor : o ≠ r) : ∀ {i : Nat} {g : Graph}, Inv g → Done g → o < g.size → r < g.size →
    (g.node o).useSize ≤ i → i ≤ (g.node o).uses.length →
    ∃ h, replaceFrom fuel g o r i = .ok h ∧ Maps (fun m j => swap o r ((g.node m).args j)) g h := by
  intro i
  induction i with
  | zero =>
    intro g hg hd ho hr hu hl
    refine ⟨g, rfl, hg, hd, rfl, fun _ => rfl, fun _ => rfl, ?_, fun _ => Nat.le_refl _⟩
    intro m j
    unfold swap
    split
    · rename_i ha
      have h1 := hg.mirror o m
      have h2 : (g.node o).live = [] := by
        apply List.length_eq_zero_iff.1
        rw [live_length (hg.cap o)]
        omega
      rw [h2] at h1
      have h3 : 0 < operandCount g m o := List.countP_pos_iff.2 ⟨j, List.mem_range.2 (hg.closed m j o ha).1, by simp [ha]⟩
      rw [← h1] at h3
      cases h3
    · rfl
  | succ i ih =>
    intro g hg hd ho hr hu hl
    have hil : i < (g.node o).uses.length := by omega
    rw [replaceFrom, List.getElem?_eq_getElem hil]
    dsimp only
    obtain ⟨h, e, hm, hle, hlt⟩ := replaceIn_done (fuel := fuel) (use := (g.node o).uses[i]) hor hg hd ho hr (by omega : 0 + 4 = 4)
    rw [e, Run.bind_ok]
    have hus : (h.node o).useSize ≤ i := by
      by_cases hc : (g.node o).useSize = i + 1
      · have hmem : (g.node o).uses[i] ∈ (g.node o).live := by
          unfold Node.live
          rw [hc]
          refine List.mem_of_getElem? (i := i) ?_
          rw [List.getElem?_take_of_lt (by omega), List.getElem?_eq_getElem hil]
        have hpos : 0 < (g.node o).live.count (g.node o).uses[i] := List.count_pos_iff.2 hmem
        rw [hg.mirror] at hpos
        obtain ⟨j, _, hj⟩ := List.countP_pos_iff.1 hpos
        have := hlt ⟨j, by omega, by simpa using hj⟩
        omega
      · omega
    obtain ⟨h', e', hm'⟩ := ih hm.inv hm.done (by rw [hm.size]; exact ho) (by rw [hm.size]; exact hr) hus
      (by have := hm.grows o; omega)
    refine ⟨h', e', hm'.inv, hm'.done, by rw [hm'.size, hm.size], fun m => by rw [hm'.kind, hm.kind], fun m => by rw [hm'.visited, hm.visited], ?_, fun m => Nat.le_trans (hm.grows m) (hm'.grows m)⟩
    intro m j
    rw [hm'.args, hm.args]
    split
    · unfold swap
      by_cases h : (g.node m).args j = some o
      · rw [if_pos h, if_neg (by intro h; injection h with h; exact hor h.symm)]
      · rw [if_neg h, if_neg h]
    · rfl

end Verif.Ir
