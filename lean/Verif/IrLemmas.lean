import Verif.IrSpec
/-!
Lemmas about operands and users.
-/
namespace Verif.Ir
open Verif Verif.IrSpec

/-- What holds of all graphs that are built. -/
structure Inv (g : Graph) : Prop where
  cap : ∀ n, (g.node n).useSize ≤ (g.node n).uses.length
  closed : Closed g
  mirror : Mirror g

theorem live_length {n : Node} (h : n.useSize ≤ n.uses.length) : n.live.length = n.useSize := by
  unfold Node.live
  rw [List.length_take]
  omega

theorem take_removeAt {u : List Nat} {size i : Nat} (h : size ≤ u.length) (hi : i < size) :
    (removeAt u size i).take (size - 1) = (u.take size).eraseIdx i := by
  unfold removeAt
  rw [List.eraseIdx_eq_take_drop_succ, List.take_take, Nat.min_eq_left (by omega)]
  refine List.take_left' ?_
  simp only [List.length_append, List.length_take, List.length_drop]
  omega

theorem length_removeAt {u : List Nat} {size i : Nat} (h : size ≤ u.length) (hi : i < size) : (removeAt u size i).length = u.length := by
  unfold removeAt
  simp only [List.length_append, List.length_take, List.length_drop]
  omega

theorem take_addAt {u : List Nat} {size x : Nat} (h : size ≤ u.length) : (addAt u size x).take (size + 1) = u.take size ++ [x] := by
  unfold addAt
  refine List.take_left' ?_
  simp only [List.length_append, List.length_take, List.length_singleton]
  omega

theorem length_addAt {u : List Nat} {size x : Nat} (h : size ≤ u.length) :
    size + 1 ≤ (addAt u size x).length ∧ u.length ≤ (addAt u size x).length := by
  unfold addAt
  simp only [List.length_append, List.length_take, List.length_singleton, List.length_drop]
  omega

/-- One if and only if. -/
def one (p : Prop) [Decidable p] : Nat := if p then 1 else 0

/-- The graph `h` is `g` with operand `i` of `n` set. -/
structure Sets (g : Graph) (n i : Nat) (a : Option Nat) (h : Graph) : Prop where
  size : h.size = g.size
  kind : ∀ m, (h.node m).kind = (g.node m).kind
  projIdx : ∀ m, (h.node m).projIdx = (g.node m).projIdx
  visited : ∀ m, (h.node m).visited = (g.node m).visited
  isSealed : ∀ m, (h.node m).isSealed = (g.node m).isSealed
  state : ∀ m, (h.node m).state = (g.node m).state
  args : ∀ m j, (h.node m).args j = if m = n ∧ j = i then a else (g.node m).args j
  uses : ∀ m x, (h.node m).live.count x + one ((g.node n).args i = some m ∧ x = n) =
    (g.node m).live.count x + one (a = some m ∧ x = n)
  useSize : ∀ m, (h.node m).useSize + one ((g.node n).args i = some m) = (g.node m).useSize + one (a = some m)
  cap : ∀ m, (h.node m).useSize ≤ (h.node m).uses.length
  grows : ∀ m, (g.node m).uses.length ≤ (h.node m).uses.length

theorem upd_node (g : Graph) (n : Nat) (f : Node → Node) (m : Nat) :
    (g.upd n f).node m = if m = n then f (g.node n) else g.node m := rfl

theorem setArg0_ok {g : Graph} (hg : Inv g) {n i : Nat} {a : Option Nat} (hn : n < g.size) (hi : i < 4)
    (ha : ∀ x, a = some x → x < g.size) (hne : (g.node n).args i ≠ a)
    (hp : (g.node n).kind = .project → a ≠ none ∧ (g.node n).projIdx < 4) :
    ∃ h, setArg0 g n i a = .ok h ∧ Sets g n i a h := by
  unfold setArg0
  rw [if_neg (by
    rintro (h | h | ⟨x, hx, h⟩)
    · omega
    · omega
    · have := ha x hx
      omega), if_neg hne]
  -- the former operand
  obtain ⟨g1, e1, s1, k1, a1, u1, z1, c1, l1⟩ : ∃ g1, dropUse g n ((g.node n).args i) = .ok g1 ∧ g1.size = g.size ∧
      (∀ m, (g1.node m).kind = (g.node m).kind ∧ (g1.node m).projIdx = (g.node m).projIdx ∧ (g1.node m).visited = (g.node m).visited ∧
        (g1.node m).isSealed = (g.node m).isSealed ∧ (g1.node m).state = (g.node m).state) ∧
      (∀ m, (g1.node m).args = (g.node m).args) ∧
      (∀ m x, (g1.node m).live.count x + one ((g.node n).args i = some m ∧ x = n) = (g.node m).live.count x) ∧
      (∀ m, (g1.node m).useSize + one ((g.node n).args i = some m) = (g.node m).useSize) ∧
      (∀ m, (g1.node m).useSize ≤ (g1.node m).uses.length) ∧
      (∀ m, (g.node m).uses.length ≤ (g1.node m).uses.length) := by
    cases hprev : (g.node n).args i with
    | none => exact ⟨g, rfl, rfl, fun m => ⟨rfl, rfl, rfl, rfl, rfl⟩, fun m => rfl, by simp [one], by simp [one], hg.cap, fun m => Nat.le_refl _⟩
    | some p =>
      have hpos : 0 < (g.node p).live.count n := by
        rw [hg.mirror p n]
        unfold operandCount
        exact List.countP_pos_iff.2 ⟨i, List.mem_range.2 hi, by simp [hprev]⟩
      have hmem : n ∈ (g.node p).live := List.count_pos_iff.1 hpos
      have hlt : (g.node p).live.idxOf n < (g.node p).useSize := by
        have := List.idxOf_lt_length_of_mem hmem
        rwa [live_length (hg.cap p)] at this
      unfold dropUse
      dsimp only
      rw [if_pos hlt, if_neg (by intro hc; have := (hp hc.1).2; omega)]
      refine ⟨_, rfl, rfl, ?_, ?_, ?_, ?_, ?_, ?_⟩
      · intro m
        rw [upd_node]
        split
        · rename_i e; subst e; exact ⟨rfl, rfl, rfl, rfl, rfl⟩
        · exact ⟨rfl, rfl, rfl, rfl, rfl⟩
      · intro m
        rw [upd_node]
        split
        · rename_i e; subst e; rfl
        · rfl
      · intro m x
        rw [upd_node]
        by_cases e : m = p
        · subst e
          rw [if_pos rfl]
          show (List.take _ _).count x + _ = _
          rw [take_removeAt (hg.cap m) hlt]
          have he : (List.take (g.node m).useSize (g.node m).uses).eraseIdx ((g.node m).live.idxOf n) = (g.node m).live.erase n :=
            (List.erase_eq_eraseIdx_of_idxOf rfl).symm
          rw [he]
          by_cases ex : x = n
          · subst ex
            rw [List.count_erase_self]
            simp only [one, and_self, if_true]
            omega
          · rw [List.count_erase_of_ne ex]
            simp [one, ex]
        · rw [if_neg e]
          have : ¬p = m := fun h => e h.symm
          simp [one, this]
      · intro m
        rw [upd_node]
        by_cases e : m = p
        · subst e
          rw [if_pos rfl]
          simp only [one, if_true]
          omega
        · rw [if_neg e]
          simp [one, Ne.symm e]
      · intro m
        rw [upd_node]
        split
        · dsimp only
          rw [length_removeAt (hg.cap p) hlt]
          have := hg.cap p
          omega
        · exact hg.cap m
      · intro m
        rw [upd_node]
        split
        · rename_i e
          subst e
          dsimp only
          rw [length_removeAt (hg.cap m) hlt]
          exact Nat.le_refl _
        · exact Nat.le_refl _
  rw [e1, Res.bind_ok]
  dsimp only
  -- the new operand
  obtain ⟨s2, k2, a2, u2, z2, c2, l2⟩ : (addUse g1 n a).size = g.size ∧
      (∀ m, ((addUse g1 n a).node m).kind = (g.node m).kind ∧ ((addUse g1 n a).node m).projIdx = (g.node m).projIdx ∧
        ((addUse g1 n a).node m).visited = (g.node m).visited ∧ ((addUse g1 n a).node m).isSealed = (g.node m).isSealed ∧
        ((addUse g1 n a).node m).state = (g.node m).state) ∧
      (∀ m, ((addUse g1 n a).node m).args = (g.node m).args) ∧
      (∀ m x, ((addUse g1 n a).node m).live.count x = (g1.node m).live.count x + one (a = some m ∧ x = n)) ∧
      (∀ m, ((addUse g1 n a).node m).useSize = (g1.node m).useSize + one (a = some m)) ∧
      (∀ m, ((addUse g1 n a).node m).useSize ≤ ((addUse g1 n a).node m).uses.length) ∧
      (∀ m, (g.node m).uses.length ≤ ((addUse g1 n a).node m).uses.length) := by
    cases ha' : a with
    | none => exact ⟨s1, k1, a1, by simp [one, addUse], by simp [one, addUse], c1, l1⟩
    | some y =>
      unfold addUse
      refine ⟨s1, ?_, ?_, ?_, ?_, ?_, ?_⟩
      · intro m
        rw [upd_node]
        split
        · rename_i e; subst e; exact k1 m
        · exact k1 m
      · intro m
        rw [upd_node]
        split
        · rename_i e; subst e; exact a1 m
        · exact a1 m
      · intro m x
        rw [upd_node]
        by_cases e : m = y
        · subst e
          rw [if_pos rfl]
          show (List.take _ _).count x = _
          rw [take_addAt (c1 m), List.count_append]
          simp only [Node.live, one, true_and, List.count_cons, List.count_nil, Nat.zero_add, beq_iff_eq]
          by_cases ex : x = n
          · subst ex; simp
          · simp [ex, Ne.symm ex]
        · rw [if_neg e]
          have : ¬y = m := fun h => e h.symm
          simp [one, this]
      · intro m
        rw [upd_node]
        by_cases e : m = y
        · subst e
          rw [if_pos rfl]
          simp [one]
        · rw [if_neg e]
          simp [one, Ne.symm e]
      · intro m
        rw [upd_node]
        split
        · exact (length_addAt (c1 y)).1
        · exact c1 m
      · intro m
        rw [upd_node]
        split
        · rename_i e
          subst e
          exact Nat.le_trans (l1 m) (length_addAt (c1 m)).2
        · exact l1 m
  generalize addUse g1 n a = g2 at *
  -- the operand itself
  have hsets : Sets g n i a (g2.upd n fun q => { q with args := fun j => if j = i then a else q.args j }) := by
    have hn : ∀ m, ((g2.upd n fun q => { q with args := fun j => if j = i then a else q.args j }).node m) =
        { g2.node m with args := fun j => if m = n ∧ j = i then a else (g.node m).args j } := by
      intro m
      rw [upd_node]
      split
      · rename_i e
        subst e
        simp [a2 m]
      · rename_i e
        simp only [e, false_and, if_false]
        rw [← a2 m]
    refine ⟨s2, ?_, ?_, ?_, ?_, ?_, ?_, ?_, ?_, ?_, ?_⟩
    · intro m; rw [hn m]; exact (k2 m).1
    · intro m; rw [hn m]; exact (k2 m).2.1
    · intro m; rw [hn m]; exact (k2 m).2.2.1
    · intro m; rw [hn m]; exact (k2 m).2.2.2.1
    · intro m; rw [hn m]; exact (k2 m).2.2.2.2
    · intro m j; rw [hn m]
    · intro m x
      rw [hn m]
      show (g2.node m).live.count x + _ = _
      rw [u2 m x]
      have := u1 m x
      omega
    · intro m
      rw [hn m]
      show (g2.node m).useSize + _ = _
      rw [z2 m]
      have := z1 m
      omega
    · intro m; rw [hn m]; exact c2 m
    · intro m; rw [hn m]; exact l2 m
  generalize (g2.upd n fun q => { q with args := fun j => if j = i then a else q.args j }) = g3 at *
  unfold addProject
  by_cases hk : (g.node n).kind = .project
  · rw [if_pos (by rw [hsets.kind]; exact hk)]
    obtain ⟨hne', hpi⟩ := hp hk
    cases a with
    | none => exact absurd rfl hne'
    | some x =>
      dsimp only
      rw [if_neg (by rw [hsets.projIdx]; omega)]
      refine ⟨_, rfl, ?_⟩
      generalize (g3.node n).projIdx = pi
      have hn : ∀ m, ((g3.upd x fun q => { q with projects := fun k => if k = pi then some n else q.projects k }).node m) =
          { g3.node m with projects := if m = x then fun k => if k = pi then some n else (g3.node m).projects k else (g3.node m).projects } := by
        intro m
        rw [upd_node]
        split
        · rename_i e; subst e; rfl
        · rfl
      refine ⟨hsets.size, ?_, ?_, ?_, ?_, ?_, ?_, ?_, ?_, ?_, ?_⟩ <;> intro m
      · rw [hn m]; exact hsets.kind m
      · rw [hn m]; exact hsets.projIdx m
      · rw [hn m]; exact hsets.visited m
      · rw [hn m]; exact hsets.isSealed m
      · rw [hn m]; exact hsets.state m
      · rw [hn m]; exact hsets.args m
      · rw [hn m]; exact hsets.uses m
      · rw [hn m]; exact hsets.useSize m
      · rw [hn m]; exact hsets.cap m
      · rw [hn m]; exact hsets.grows m
  · rw [if_neg (by rw [hsets.kind]; exact hk)]
    exact ⟨g3, rfl, hsets⟩

theorem count_set {old new : Nat → Option Nat} {i m : Nat} {a : Option Nat} (hi : i < 4) (h : ∀ j, new j = if j = i then a else old j) :
    (List.range 4).countP (fun j => decide (new j = some m)) + one (old i = some m) =
      (List.range 4).countP (fun j => decide (old j = some m)) + one (a = some m) := by
  have e : List.range 4 = [0, 1, 2, 3] := rfl
  have hc : i = 0 ∨ i = 1 ∨ i = 2 ∨ i = 3 := by omega
  rw [e]
  simp only [List.countP_cons, List.countP_nil, h, one]
  rcases hc with rfl | rfl | rfl | rfl <;> simp <;> omega

theorem Sets.inv {g h : Graph} {n i : Nat} {a : Option Nat} (hg : Inv g) (hn : n < g.size) (hi : i < 4)
    (ha : ∀ x, a = some x → x < g.size) (hs : Sets g n i a h) : Inv h := by
  refine ⟨hs.cap, ?_, ?_⟩
  · intro m j x hx
    rw [hs.args] at hx
    rw [hs.size]
    split at hx
    · rename_i e
      exact ⟨by omega, by omega, ha x hx⟩
    · exact hg.closed m j x hx
  · intro m x
    have h1 := hs.uses m x
    have h2 := hg.mirror m x
    unfold operandCount at h2 ⊢
    by_cases ex : x = n
    · subst ex
      have h3 := count_set (m := m) hi (old := (g.node x).args) (new := (h.node x).args) (a := a) (by
        intro j
        rw [hs.args]
        simp)
      simp only [and_true] at h1
      omega
    · have e0 : ∀ p : Prop, ∀ [Decidable p], one (p ∧ x = n) = 0 := by
        intro p _
        simp [one, ex]
      rw [e0, e0] at h1
      have : (h.node x).args = (g.node x).args := by
        funext j
        rw [hs.args, if_neg (by rintro ⟨h, -⟩; exact ex h)]
      rw [this]
      omega

/-- Setting an operand never fails, and it keeps the users in order whenever it does not run into undefined behaviour. -/
theorem setArg0_inv {g : Graph} (hg : Inv g) (n i : Nat) (a : Option Nat) :
    setArg0 g n i a = .ub ∨ ∃ h, setArg0 g n i a = .ok h ∧ Inv h ∧ h.size = g.size := by
  by_cases hb : 4 ≤ i ∨ g.size ≤ n ∨ (∃ x, a = some x ∧ g.size ≤ x)
  · left
    unfold setArg0
    rw [if_pos hb]
  · have hi : i < 4 := by
      refine Decidable.byContradiction fun h => hb (.inl (by omega))
    have hn : n < g.size := Decidable.byContradiction fun h => hb (.inr (.inl (by omega)))
    have ha : ∀ x, a = some x → x < g.size := fun x hx => Decidable.byContradiction fun h => hb (.inr (.inr ⟨x, hx, by omega⟩))
    by_cases he : (g.node n).args i = a
    · right
      unfold setArg0
      rw [if_neg hb, if_pos he]
      exact ⟨g, rfl, hg, rfl⟩
    · by_cases hp : (g.node n).kind = .project → a ≠ none ∧ (g.node n).projIdx < 4
      · right
        obtain ⟨h, e, hs⟩ := setArg0_ok hg hn hi ha he hp
        exact ⟨h, e, hs.inv hg hn hi ha, hs.size⟩
      · left
        have hk : (g.node n).kind = .project := by
          refine Decidable.byContradiction fun h => hp (fun h' => absurd h' h)
        unfold setArg0
        rw [if_neg hb, if_neg he]
        by_cases hpi : (g.node n).projIdx < 4
        · have han : a = none := by
            cases a with
            | none => rfl
            | some x => exact absurd (fun _ => ⟨by simp, hpi⟩) hp
          subst han
          cases hprev : (g.node n).args i with
          | none => exact absurd hprev he
          | some p =>
            -- as for a node of another kind up to the projection
            unfold dropUse
            dsimp only
            have hpos : 0 < (g.node p).live.count n := by
              rw [hg.mirror p n]
              unfold operandCount
              exact List.countP_pos_iff.2 ⟨i, List.mem_range.2 hi, by simp [hprev]⟩
            have hlt : (g.node p).live.idxOf n < (g.node p).useSize := by
              have := List.idxOf_lt_length_of_mem (List.count_pos_iff.1 hpos)
              rwa [live_length (hg.cap p)] at this
            rw [if_pos hlt, if_neg (by intro hc; omega), Res.bind_ok]
            dsimp only [addUse]
            unfold addProject
            rw [if_pos]
            rw [upd_node, if_pos rfl]
            show (Graph.node _ n).kind = _
            rw [upd_node]
            split
            · rename_i e; subst e; exact hk
            · exact hk
        · cases hprev : (g.node n).args i with
          | none =>
            cases a with
            | none => exact absurd hprev he
            | some x =>
              unfold dropUse
              rw [Res.bind_ok]
              dsimp only
              unfold addProject
              have hk2 : (((addUse g n (some x)).upd n fun q => { q with args := fun j => if j = i then some x else q.args j }).node n).kind = .project := by
                rw [upd_node, if_pos rfl]
                unfold addUse
                show (Graph.node _ n).kind = _
                rw [upd_node]
                split
                · rename_i e; subst e; exact hk
                · exact hk
              have hk3 : (((addUse g n (some x)).upd n fun q => { q with args := fun j => if j = i then some x else q.args j }).node n).projIdx = (g.node n).projIdx := by
                rw [upd_node, if_pos rfl]
                unfold addUse
                show (Graph.node _ n).projIdx = _
                rw [upd_node]
                split
                · rename_i e; subst e; rfl
                · rfl
              rw [if_pos hk2]
              dsimp only
              rw [if_pos (by rw [hk3]; omega)]
          | some p =>
            unfold dropUse
            dsimp only
            have hpos : 0 < (g.node p).live.count n := by
              rw [hg.mirror p n]
              unfold operandCount
              exact List.countP_pos_iff.2 ⟨i, List.mem_range.2 hi, by simp [hprev]⟩
            have hlt : (g.node p).live.idxOf n < (g.node p).useSize := by
              have := List.idxOf_lt_length_of_mem (List.count_pos_iff.1 hpos)
              rwa [live_length (hg.cap p)] at this
            rw [if_pos hlt, if_pos ⟨hk, by omega⟩, Res.bind_ub]

theorem inv_new {g : Graph} (hg : Inv g) (k : Kind) (b : Nat) : Inv (new g k b).1 := by
  have hn : ∀ m, ((new g k b).1.node m) = if m = g.size then { kind := k, bytes := b, parent := g.fn } else g.node m := fun m => rfl
  have hnone : ∀ m j, (g.node m).args j ≠ some g.size := by
    intro m j h
    have := (hg.closed m j _ h).2.2
    omega
  have hnone' : ∀ j, (g.node g.size).args j = none := by
    intro j
    cases h : (g.node g.size).args j with
    | none => rfl
    | some a =>
      have := (hg.closed _ j _ h).2.1
      omega
  refine ⟨?_, ?_, ?_⟩
  · intro m
    rw [hn]
    split
    · exact Nat.le_refl _
    · exact hg.cap m
  · intro m j a h
    rw [hn] at h
    show j < 4 ∧ m < g.size + 1 ∧ a < g.size + 1
    split at h
    · cases h
    · have := hg.closed m j a h
      omega
  · intro m x
    have hop : operandCount (new g k b).1 x m = operandCount g x m := by
      unfold operandCount
      congr 1
      funext j
      rw [hn]
      split
      · rename_i e
        subst e
        rw [hnone']
      · rfl
    rw [hop, hn]
    split
    · rename_i e
      subst e
      symm
      unfold operandCount
      rw [List.countP_eq_zero.2 (by intro j _; simp [hnone])]
      rfl
    · exact hg.mirror m x

theorem inv_same {g h : Graph} (hg : Inv g) (hs : SameLists g h) : Inv h := by
  refine ⟨?_, ?_, ?_⟩
  · intro n
    rw [(hs.2 n).2.1, (hs.2 n).2.2]
    exact hg.cap n
  · intro n i a e
    rw [(hs.2 n).1] at e
    rw [hs.1]
    exact hg.closed n i a e
  · intro m x
    unfold Node.live operandCount
    rw [(hs.2 m).2.1, (hs.2 m).2.2, (hs.2 x).1]
    exact hg.mirror m x

theorem same_upd {g : Graph} {n : Nat} {f : Node → Node} (h : ∀ q, (f q).args = q.args ∧ (f q).uses = q.uses ∧ (f q).useSize = q.useSize) :
    SameLists g (g.upd n f) := by
  refine ⟨rfl, ?_⟩
  intro m
  rw [upd_node]
  split
  · rename_i e
    subst e
    exact h _
  · exact ⟨rfl, rfl, rfl⟩

theorem inv_writeState {g : Graph} (hg : Inv g) (b : Nat) (v : Option Nat) : Inv (writeState g b v) :=
  inv_same hg (same_upd fun q => ⟨rfl, rfl, rfl⟩)

theorem inv_setArg0 {g h : Graph} (hg : Inv g) {n i : Nat} {a : Option Nat} (e : setArg0 g n i a = .ok h) : Inv h := by
  rcases setArg0_inv hg n i a with h1 | ⟨h', h1, h2, -⟩
  · rw [h1] at e; cases e
  · rw [h1] at e
    cases e
    exact h2

theorem inv_newPhi {g : Graph} (hg : Inv g) {b : Nat} {r : Graph × Nat} (e : newPhi g b = .ok r) : Inv r.1 := by
  unfold newPhi at e
  obtain ⟨g', h1, h2⟩ := Res.bind_eq_ok.1 e
  cases h2
  exact inv_setArg0 (inv_new hg _ _) h1

theorem run_bind_ok {α β : Type} {x : Run α} {f : α → Run β} {b : β} (h : (x >>= f) = .ok b) : ∃ a, x = .ok a ∧ f a = .ok b := by
  cases x with
  | ok a => exact ⟨a, rfl, h⟩
  | fail => cases h
  | ub => cases h
  | more => cases h

theorem ofRes_eq_ok {α : Type} {x : Res α} {a : α} (h : Run.ofRes x = .ok a) : x = .ok a := by
  cases x with
  | ok b => cases h; rfl
  | fail => cases h
  | ub => cases h

theorem inv_state : ∀ fuel,
    (∀ {g : Graph} {phi block i count h}, Inv g → addPhiFrom fuel g phi block i count = .ok h → Inv h) ∧
    (∀ {g : Graph} {b r}, Inv g → readRec fuel g b = .ok r → Inv r.1) ∧
    (∀ {g : Graph} {b r}, Inv g → readState fuel g b = .ok r → Inv r.1) := by
  intro fuel
  induction fuel with
  | zero =>
    refine ⟨?_, ?_, ?_⟩
    · intro g phi block i count h hg e
      cases count with
      | zero => rw [addPhiFrom] at e; cases e; exact hg
      | succ c =>
        rw [addPhiFrom] at e
        · cases e
        · intro hc; cases hc
    · intro g b r hg e
      rw [readRec] at e
      cases e
    · intro g b r hg e
      rw [readState] at e
      cases e
  | succ fuel ih =>
    obtain ⟨ih1, ih2, ih3⟩ := ih
    refine ⟨?_, ?_, ?_⟩
    · intro g phi block i count h hg e
      cases count with
      | zero => rw [addPhiFrom] at e; cases e; exact hg
      | succ c =>
        rw [addPhiFrom] at e
        cases ha : (g.node block).args i with
        | none => rw [ha] at e; cases e
        | some pred =>
          rw [ha] at e
          dsimp only at e
          obtain ⟨r, h1, e⟩ := run_bind_ok e
          obtain ⟨g', h2, e⟩ := run_bind_ok e
          exact ih1 (inv_setArg0 (ih3 hg h1) (ofRes_eq_ok h2)) e
    · intro g b r hg e
      rw [readRec] at e
      by_cases hs : (g.node b).isSealed = false
      · rw [if_pos hs] at e
        obtain ⟨q, h1, e⟩ := run_bind_ok e
        cases e
        have h3 : SameLists q.1 (q.1.upd b fun n => { n with phi := some q.2 }) := same_upd fun q => ⟨rfl, rfl, rfl⟩
        exact inv_writeState (inv_same (inv_newPhi hg (ofRes_eq_ok h1)) h3) _ _
      · rw [if_neg hs] at e
        by_cases hk : (g.node b).kind = .project
        · rw [if_pos hk] at e
          cases ha : (g.node b).args 0 with
          | none => rw [ha] at e; cases e
          | some i =>
            rw [ha] at e
            dsimp only at e
            cases hp : (g.node i).args 0 with
            | none => rw [hp] at e; cases e
            | some p =>
              rw [hp] at e
              dsimp only at e
              obtain ⟨q, h1, e⟩ := run_bind_ok e
              cases e
              exact inv_writeState (ih3 hg h1) _ _
        · rw [if_neg hk] at e
          obtain ⟨q, h1, e⟩ := run_bind_ok e
          dsimp only at e
          split at e
          · cases e
          · obtain ⟨g', h2, e⟩ := run_bind_ok e
            cases e
            exact inv_writeState (ih1 (inv_writeState (inv_newPhi hg (ofRes_eq_ok h1)) _ _) h2) _ _
    · intro g b r hg e
      rw [readState] at e
      cases hs : (g.node b).state with
      | some v => rw [hs] at e; cases e; exact hg
      | none =>
        rw [hs] at e
        exact ih2 hg e

theorem inv_sealBlock {fuel : Nat} {g h : Graph} {b : Nat} (hg : Inv g) (e : sealBlock fuel g b = .ok h) : Inv h := by
  unfold sealBlock at e
  dsimp only at e
  have hg' : Inv { g with fn := (g.node b).parent } := inv_same hg ⟨rfl, fun n => ⟨rfl, rfl, rfl⟩⟩
  split at e
  · cases e
    exact hg'
  · cases hp : (g.node b).phi with
    | none =>
      rw [hp] at e
      cases e
      exact inv_same hg' (same_upd fun q => ⟨rfl, rfl, rfl⟩)
    | some p =>
      rw [hp] at e
      dsimp only at e
      obtain ⟨g', h1, e⟩ := run_bind_ok e
      cases e
      refine inv_same ?_ (same_upd fun q => ⟨rfl, rfl, rfl⟩)
      unfold addPhi at h1
      dsimp only at h1
      cases ha : (g.node p).args 0 with
      | none => rw [ha] at h1; cases h1
      | some b' =>
        rw [ha] at h1
        dsimp only at h1
        split at h1
        · cases h1
        · exact (inv_state fuel).1 hg' h1

theorem inv_setArg {fuel : Nat} {g h : Graph} {n i : Nat} {a : Option Nat} (hg : Inv g) (e : setArg fuel g n i a = .ok h) : Inv h := by
  unfold setArg at e
  split at e
  · cases e; exact hg
  · obtain ⟨g', h1, e⟩ := run_bind_ok e
    have hg' := inv_setArg0 hg (ofRes_eq_ok h1)
    unfold afterSet at e
    obtain ⟨c, h2, e⟩ := run_bind_ok e
    split at e
    · split at e
      · cases e
        exact inv_same hg' (same_upd fun q => ⟨rfl, rfl, rfl⟩)
      · split at e
        · exact inv_sealBlock hg' e
        · cases e; exact hg'
    · cases e; exact hg'

theorem inv_replaceIn {fuel : Nat} {o r use : Nat} : ∀ {k j : Nat} {g h : Graph}, Inv g → replaceIn fuel g o r use j k = .ok h → Inv h := by
  intro k
  induction k with
  | zero => intro j g h hg e; cases e; exact hg
  | succ k ih =>
    intro j g h hg e
    rw [replaceIn] at e
    split at e
    · obtain ⟨g', h1, e⟩ := run_bind_ok e
      exact ih (inv_setArg hg h1) e
    · exact ih hg e

theorem inv_replaceFrom {fuel : Nat} {o r : Nat} : ∀ {i : Nat} {g h : Graph}, Inv g → replaceFrom fuel g o r i = .ok h → Inv h := by
  intro i
  induction i with
  | zero => intro g h hg e; cases e; exact hg
  | succ i ih =>
    intro g h hg e
    rw [replaceFrom] at e
    cases hu : (g.node o).uses[i]? with
    | none => rw [hu] at e; cases e
    | some use =>
      rw [hu] at e
      dsimp only at e
      obtain ⟨g', h1, e⟩ := run_bind_ok e
      exact ih (inv_replaceIn hg h1) e

theorem inv_empty : Inv {} := by
  refine ⟨fun n => Nat.le_refl _, ?_, ?_⟩
  · intro n i a h; cases h
  · intro m x
    rfl

theorem inv_built {g : Graph} (h : Built g) : Inv g := by
  induction h with
  | empty => exact inv_empty
  | new _ ih => exact inv_new ih _ _
  | set _ e ih => exact inv_setArg ih e
  | replace _ e ih => exact inv_replaceFrom ih e
  | sealB _ e ih => exact inv_sealBlock ih e
  | read _ e ih => exact (inv_state _).2.2 ih e
  | other _ e ih => exact inv_same ih e

end Verif.Ir
