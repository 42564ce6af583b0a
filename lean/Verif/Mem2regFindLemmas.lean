import Verif.Mem2regLemmas
/-!
What the search for the contents of a variable finds.
-/
namespace Verif.Ir
open Verif Verif.IrSpec

/-- The graph before the pass over the variable `a`, with its states `st`. -/
structure Ctx (g : Graph) (a : Nat) (st : Nat → Prop) : Prop where
  inv : Inv g
  small : a < g.size
  alloc : (g.node a).kind = .alloc
  loads : ∀ n s, Access g a n → (g.node n).kind = .load → (g.node n).args 1 = some s → st s
  replaced : ∀ n s, Access g a n → Replaces g n s → st s
  kinds : ∀ s, st s → (g.node s).kind ≠ .alloc ∧ (g.node s).kind ≠ .load
  phis : ∀ s, st s → (g.node s).kind = .phi → (∃ b, (g.node s).args 0 = some b ∧ (g.node b).kind = .region) ∧ ∀ i v, (g.node s).args (i + 1) = some v → st v
  before : ∀ s p, st s → Replaces g s p ∨ IsProjection g s p → st p
  values : ∀ n v, (g.node n).kind = .store → (g.node n).args 0 = some a → (g.node n).args 1 = some v → ¬Access g a v ∧ v ≠ a

/-- The operands after the loads `d` have been replaced. -/
def sub (d : Nat → Option Nat) (x : Option Nat) : Option Nat := x.map fun l => (d l).getD l

/-- `v` is the contents of `a` in the state `s`, given those in the table. -/
inductive Good (g : Graph) (a : Nat) (h : Graph) (memo : Nat → Option Nat) (s v : Nat) : Prop
  | phi : (g.node s).kind = .phi → g.size ≤ v → (h.node v).kind = .phi → (h.node v).args 0 = (g.node s).args 0 →
      (∀ i, i = 1 ∨ i = 2 → ∀ p, (g.node s).args i = some p → ∃ w, memo p = some w ∧ (h.node v).args i = some w) →
      (∀ i, i = 1 ∨ i = 2 → (g.node s).args i = none → (h.node v).args i = none) → Good g a h memo s v
  | store : (g.node s).kind = .store → (g.node s).args 0 = some a → (g.node s).args 1 = some v → Good g a h memo s v
  | clear : (g.node s).kind = .setZeroPtr → (g.node s).args 0 = some a → g.size ≤ v → (h.node v).kind = zeroKind → Good g a h memo s v
  | start : (g.node s).kind = .function → g.size ≤ v → (h.node v).kind = undefinedKind → Good g a h memo s v
  | through {p} : ¬Access g a s → Replaces g s p ∨ IsProjection g s p → memo p = some v → Good g a h memo s v

/-- What holds while the loads are replaced: `memo` is the table, the phis `opn` are under construction, the loads `d` are replaced. -/
structure Finding (g : Graph) (a : Nat) (st : Nat → Prop) (h : Graph) (memo : Nat → Option Nat) (opn : Nat → Prop) (d : Nat → Option Nat) : Prop where
  inv : Inv h
  done : Done h
  size : g.size ≤ h.size
  kind : ∀ n, n < g.size → (h.node n).kind = (g.node n).kind
  projIdx : ∀ n, n < g.size → (h.node n).projIdx = (g.node n).projIdx
  old : ∀ n i, n < g.size → (h.node n).args i = sub d ((g.node n).args i)
  replaced : ∀ l v, d l = some v → Access g a l ∧ (g.node l).kind = .load ∧ ∃ s, (g.node l).args 1 = some s ∧ memo s = some v
  vals : ∀ s v, memo s = some v → st s ∧ s < g.size ∧ v < h.size ∧ v ≠ a ∧ (v < g.size → ¬Access g a v)
  uniq : ∀ s s' v, memo s = some v → memo s' = some v → (g.node s).kind = .phi → (g.node s').kind = .phi → s = s'
  good : ∀ s v, memo s = some v → ¬opn s → Good g a h memo s v
  opened : ∀ s, opn s → (g.node s).kind = .phi
  young : ∀ n i x, g.size ≤ n → n < h.size → (h.node n).args i = some x → x ≠ a ∧ (x < g.size → ¬Access g a x)
  fresh : ∀ n, g.size ≤ n → n < h.size → ((h.node n).kind = .phi ∧ ∃ s, memo s = some n ∧ (g.node s).kind = .phi) ∨
    (((h.node n).kind = zeroKind ∨ (h.node n).kind = undefinedKind) ∧ ∀ i, (h.node n).args i = none)
  users : (h.node a).uses = (g.node a).uses ∧ (h.node a).useSize = (g.node a).useSize

/-- The later graph and table contain the earlier ones. -/
structure Ext (h : Graph) (memo : Nat → Option Nat) (h' : Graph) (memo' : Nat → Option Nat) : Prop where
  size : h.size ≤ h'.size
  kind : ∀ n, n < h.size → (h'.node n).kind = (h.node n).kind
  args : ∀ n, n < h.size → (h'.node n).args = (h.node n).args
  memo : ∀ s v, memo s = some v → memo' s = some v

theorem Ext.refl (h : Graph) (memo : Nat → Option Nat) : Ext h memo h memo := ⟨Nat.le_refl _, fun _ _ => rfl, fun _ _ => rfl, fun _ _ h => h⟩

theorem Ext.trans {h h' h'' : Graph} {m m' m'' : Nat → Option Nat} (e1 : Ext h m h' m') (e2 : Ext h' m' h'' m'') : Ext h m h'' m'' := by
  have := e1.size
  have := e2.size
  exact ⟨by omega, fun n hn => (e2.kind n (by omega)).trans (e1.kind n hn), fun n hn => (e2.args n (by omega)).trans (e1.args n hn),
    fun s v h => e2.memo s v (e1.memo s v h)⟩

theorem Good.mono {g h h' : Graph} {a s v : Nat} {m m' : Nat → Option Nat} (hg : Good g a h m s v) (hk : g.size ≤ v → (h'.node v).kind = (h.node v).kind)
    (ha : (g.node s).kind = .phi → g.size ≤ v → (h'.node v).args = (h.node v).args) (hm : ∀ s v, m s = some v → m' s = some v) : Good g a h' m' s v := by
  cases hg with
  | phi h1 h2 h3 h4 h5 h6 =>
    refine .phi h1 h2 (by rw [hk h2]; exact h3) (by rw [ha h1 h2]; exact h4) ?_ (fun i hi h => by rw [ha h1 h2]; exact h6 i hi h)
    intro i hi p hp
    obtain ⟨w, hw, h⟩ := h5 i hi p hp
    exact ⟨w, hm p w hw, by rw [ha h1 h2]; exact h⟩
  | store h1 h2 h3 => exact .store h1 h2 h3
  | clear h1 h2 h3 h4 => exact .clear h1 h2 h3 (by rw [hk h3]; exact h4)
  | start h1 h2 h3 => exact .start h1 h2 (by rw [hk h2]; exact h3)
  | through h1 h2 h3 => exact .through h1 h2 (hm _ _ h3)

theorem note_eq {memo : Nat → Option Nat} {s v : Nat} (h : memo s = some v) : note memo s v = memo := by
  funext m
  unfold note
  split
  · rename_i e; subst e; exact h.symm
  · rfl

theorem note_self (memo : Nat → Option Nat) (s v : Nat) : note memo s v s = some v := if_pos rfl

theorem note_mono {memo : Nat → Option Nat} {s v : Nat} (h : memo s = none) : ∀ x w, memo x = some w → note memo s v x = some w := by
  intro x w hx
  unfold note
  split
  · rename_i e; subst e; rw [h] at hx; cases hx
  · exact hx

theorem not_phi {g : Graph} {s p : Nat} (h : Replaces g s p ∨ IsProjection g s p) : (g.node s).kind ≠ .phi := by
  rcases h with ⟨i, h, -⟩ | h
  · intro e
    rw [e] at h
    cases h
  · rw [h.1]; simp

theorem not_function {g : Graph} {s p : Nat} (h : Replaces g s p ∨ IsProjection g s p) : (g.node s).kind ≠ .function := by
  rcases h with ⟨i, h, -⟩ | h
  · intro e
    rw [e] at h
    cases h
  · rw [h.1]; simp

theorem before_unique {g : Graph} {s p q : Nat} (h : Replaces g s p ∨ IsProjection g s p) (h' : Replaces g s q ∨ IsProjection g s q) : p = q := by
  rcases h with ⟨i, h, e⟩ | h <;> rcases h' with ⟨i', h', e'⟩ | h'
  · rw [h] at h'
    injection h' with h'
    subst h'
    rw [e] at e'
    exact Option.some.inj e'
  · rw [h'.1] at h
    cases h
  · rw [h.1] at h'
    cases h'
  · have := h.2
    rw [h'.2] at this
    exact (Option.some.inj this).symm

section
variable {g : Graph} {a : Nat} {st : Nat → Prop} {h : Graph} {memo : Nat → Option Nat} {opn : Nat → Prop} {d : Nat → Option Nat}

theorem Finding.sub_same (f : Finding g a st h memo opn d) {x : Nat} (hx : Access g a x → (g.node x).kind ≠ .load) : sub d (some x) = some x := by
  unfold sub
  cases hd : d x with
  | none => simp [hd]
  | some v => exact absurd (f.replaced x v hd).2.1 (hx (f.replaced x v hd).1)

theorem Finding.sub_inv (f : Finding g a st h memo opn d) {o : Option Nat} {y : Nat} (e : sub d o = some y) :
    ∃ x, o = some x ∧ ((d x = none ∧ y = x) ∨ d x = some y) := by
  cases o with
  | none => cases e
  | some x =>
    refine ⟨x, rfl, ?_⟩
    unfold sub at e
    simp only [Option.map_some, Option.some.injEq] at e
    cases hd : d x with
    | none => rw [hd] at e; exact .inl ⟨rfl, e.symm⟩
    | some v => rw [hd] at e; exact .inr (by rw [← e]; rfl)

theorem Finding.address (c : Ctx g a st) (f : Finding g a st h memo opn d) {n i : Nat} (hn : n < g.size) :
    (h.node n).args i = some a ↔ (g.node n).args i = some a := by
  rw [f.old n i hn]
  constructor
  · intro e
    obtain ⟨x, hx, h1 | h1⟩ := f.sub_inv e
    · rw [hx, h1.2]
    · obtain ⟨-, -, s, -, hm⟩ := f.replaced x a h1
      exact absurd rfl (f.vals s a hm).2.2.2.1
  · intro e
    rw [e]
    exact f.sub_same fun _ => by rw [c.alloc]; simp

/-- An operand that is a state is not replaced. -/
theorem Finding.state_operand (f : Finding g a st h memo opn d) {n i : Nat} (hn : n < g.size)
    (hs : ∀ x, (g.node n).args i = some x → (g.node x).kind ≠ .load) : (h.node n).args i = (g.node n).args i := by
  rw [f.old n i hn]
  cases hx : (g.node n).args i with
  | none => rfl
  | some x => exact f.sub_same fun _ => hs x hx

theorem Finding.extend (f : Finding g a st h memo opn d) {s v : Nat} (hs : st s) (hn : s < g.size) (h0 : memo s = none) (hk : (g.node s).kind ≠ .phi)
    (hv : v < h.size) (hva : v ≠ a) (hacc : v < g.size → ¬Access g a v) (hg : Good g a h (note memo s v) s v) :
    Finding g a st h (note memo s v) opn d := by
  have hm := note_mono (v := v) h0
  have hinv : ∀ x w, note memo s v x = some w → (x = s ∧ w = v) ∨ memo x = some w := by
    intro x w e
    unfold note at e
    split at e
    · rename_i e'; injection e with e; exact .inl ⟨e', e.symm⟩
    · exact .inr e
  refine ⟨f.inv, f.done, f.size, f.kind, f.projIdx, f.old, ?_, ?_, ?_, ?_, f.opened, f.young, ?_, f.users⟩
  · intro l w e
    obtain ⟨h1, h2, t, h3, h4⟩ := f.replaced l w e
    exact ⟨h1, h2, t, h3, hm _ _ h4⟩
  · intro x w e
    rcases hinv x w e with ⟨rfl, rfl⟩ | e
    · exact ⟨hs, hn, hv, hva, hacc⟩
    · exact f.vals x w e
  · intro x y w ex ey kx ky
    rcases hinv x w ex with ⟨rfl, rfl⟩ | ex
    · exact absurd kx hk
    · rcases hinv y w ey with ⟨rfl, rfl⟩ | ey
      · exact absurd ky hk
      · exact f.uniq x y w ex ey kx ky
  · intro x w e ho
    rcases hinv x w e with ⟨rfl, rfl⟩ | e
    · exact hg
    · exact (f.good x w e ho).mono (fun _ => rfl) (fun _ _ => rfl) hm
  · intro n h1 h2
    rcases f.fresh n h1 h2 with ⟨h3, t, h4, h5⟩ | h3
    · exact .inl ⟨h3, t, hm _ _ h4, h5⟩
    · exact .inr h3

/-- The contents in a state are those in the state before. -/
theorem Finding.pass (f : Finding g a st h memo opn d) {s p v : Nat} (hs : st s) (hn : s < g.size) (hacc : ¬Access g a s)
    (hp : Replaces g s p ∨ IsProjection g s p) (hv : memo p = some v) :
    Finding g a st h (note memo s v) opn d ∧ ∀ x w, memo x = some w → note memo s v x = some w := by
  cases h0 : memo s with
  | none =>
    have hvp := f.vals p v hv
    exact ⟨f.extend hs hn h0 (not_phi hp) hvp.2.2.1 hvp.2.2.2.1 hvp.2.2.2.2 (.through hacc hp (note_mono h0 _ _ hv)), note_mono h0⟩
  | some w =>
    have hw : w = v := by
      cases f.good s w h0 (fun ho => not_phi hp (f.opened s ho)) with
      | phi h1 => exact absurd h1 (not_phi hp)
      | store h1 h2 => exact absurd ⟨.inr (.inl h1), h2⟩ hacc
      | clear h1 h2 => exact absurd ⟨.inr (.inr h1), h2⟩ hacc
      | start h1 => exact absurd h1 (not_function hp)
      | through _ h2 h3 =>
        rw [before_unique h2 hp, hv] at h3
        exact (Option.some.inj h3).symm
    subst hw
    rw [note_eq h0]
    exact ⟨f, fun _ _ h => h⟩

/-- A new node without operands. -/
theorem Finding.add (c : Ctx g a st) (f : Finding g a st h memo opn d) {k : Kind} (hk : k = zeroKind ∨ k = undefinedKind) {h' : Graph} (ha : Adds h k none h') :
    Finding g a st h' memo opn d ∧ Ext h memo h' memo := by
  have hs := f.size
  have hs' := ha.size
  have hsm := c.small
  have hext : Ext h memo h' memo := ⟨by omega, fun n hn => (ha.old n hn).1, fun n hn => (ha.old n hn).2.1, fun _ _ h => h⟩
  refine ⟨⟨ha.inv, ha.done, by omega, ?_, ?_, ?_, f.replaced, ?_, f.uniq, ?_, f.opened, ?_, ?_, ?_⟩, hext⟩
  · intro n hn
    rw [(ha.old n (by omega)).1]; exact f.kind n hn
  · intro n hn
    rw [(ha.old n (by omega)).2.2]; exact f.projIdx n hn
  · intro n i hn
    rw [(ha.old n (by omega)).2.1]; exact f.old n i hn
  · intro s v e
    have := f.vals s v e
    exact ⟨this.1, this.2.1, by omega, this.2.2.2⟩
  · intro s v e ho
    have hv := (f.vals s v e).2.2.1
    exact (f.good s v e ho).mono (fun _ => (ha.old v hv).1) (fun _ _ => (ha.old v hv).2.1) fun _ _ h => h
  · intro n i x h1 h2 e
    by_cases hn : n = h.size
    · subst hn
      rw [ha.args] at e
      simp at e
    · rw [(ha.old n (by omega)).2.1] at e
      exact f.young n i x h1 (by omega) e
  · intro n h1 h2
    by_cases hn : n = h.size
    · subst hn
      refine .inr ⟨by rw [ha.kind]; exact hk, fun i => by rw [ha.args]; simp⟩
    · have h3 : n < h.size := by omega
      rw [(ha.old n h3).1, (ha.old n h3).2.1]
      exact f.fresh n h1 h3
  · have := ha.users a (by omega) (by simp)
    exact ⟨this.1.trans f.users.1, this.2.trans f.users.2⟩

/-- A new phi. -/
theorem Finding.open (c : Ctx g a st) (f : Finding g a st h memo opn d) {s b : Nat} (hst : st s) (hn : s < g.size) (h0 : memo s = none) (hk : (g.node s).kind = .phi)
    (hb : (g.node b).kind = .region) {h' : Graph} (ha : Adds h .phi (some b) h') :
    Finding g a st h' (note memo s h.size) (fun x => opn x ∨ x = s) d ∧ Ext h memo h' (note memo s h.size) := by
  have hs := f.size
  have hs' := ha.size
  have hsm := c.small
  have hm := note_mono (v := h.size) h0
  have hinv : ∀ x w, note memo s h.size x = some w → (x = s ∧ w = h.size) ∨ memo x = some w := by
    intro x w e
    unfold note at e
    split at e
    · rename_i e'; injection e with e; exact .inl ⟨e', e.symm⟩
    · exact .inr e
  have hba : b ≠ a := by
    rintro rfl
    rw [c.alloc] at hb
    cases hb
  have hbacc : ¬Access g a b := by
    rintro ⟨h1 | h1 | h1, -⟩ <;> rw [hb] at h1 <;> cases h1
  have hext : Ext h memo h' (note memo s h.size) := ⟨by omega, fun n hn => (ha.old n hn).1, fun n hn => (ha.old n hn).2.1, hm⟩
  refine ⟨⟨ha.inv, ha.done, by omega, ?_, ?_, ?_, ?_, ?_, ?_, ?_, ?_, ?_, ?_, ?_⟩, hext⟩
  · intro n hn
    rw [(ha.old n (by omega)).1]; exact f.kind n hn
  · intro n hn
    rw [(ha.old n (by omega)).2.2]; exact f.projIdx n hn
  · intro n i hn
    rw [(ha.old n (by omega)).2.1]; exact f.old n i hn
  · intro l w e
    obtain ⟨h1, h2, t, h3, h4⟩ := f.replaced l w e
    exact ⟨h1, h2, t, h3, hm _ _ h4⟩
  · intro x v e
    rcases hinv x v e with ⟨rfl, rfl⟩ | e
    · exact ⟨hst, hn, by omega, by omega, fun h => by omega⟩
    · have := f.vals x v e
      exact ⟨this.1, this.2.1, by omega, this.2.2.2⟩
  · intro x y w ex ey kx ky
    rcases hinv x w ex with ⟨e1, e2⟩ | e1 <;> rcases hinv y w ey with ⟨e3, e4⟩ | e3
    · rw [e1, e3]
    · have := (f.vals y _ e3).2.2.1
      omega
    · have := (f.vals x _ e1).2.2.1
      omega
    · exact f.uniq x y w e1 e3 kx ky
  · intro x v e ho
    rcases hinv x v e with ⟨rfl, rfl⟩ | e
    · exact absurd (Or.inr rfl) ho
    · have hv := (f.vals x v e).2.2.1
      exact (f.good x v e fun h => ho (.inl h)).mono (fun _ => (ha.old v hv).1) (fun _ _ => (ha.old v hv).2.1) hm
  · rintro x (h1 | rfl)
    · exact f.opened x h1
    · exact hk
  · intro n i x h1 h2 e
    by_cases hn : n = h.size
    · subst hn
      rw [ha.args] at e
      split at e
      · injection e with e
        subst e
        exact ⟨hba, fun _ => hbacc⟩
      · cases e
    · rw [(ha.old n (by omega)).2.1] at e
      exact f.young n i x h1 (by omega) e
  · intro n h1 h2
    by_cases hn : n = h.size
    · subst hn
      exact .inl ⟨ha.kind, s, note_self _ _ _, hk⟩
    · have h3 : n < h.size := by omega
      rw [(ha.old n h3).1, (ha.old n h3).2.1]
      rcases f.fresh n h1 h3 with ⟨h4, t, h5, h6⟩ | h4
      · exact .inl ⟨h4, t, hm _ _ h5, h6⟩
      · exact .inr h4
  · have := ha.users a (by omega) (by intro e; injection e with e; exact hba e)
    exact ⟨this.1.trans f.users.1, this.2.trans f.users.2⟩

/-- A value of a phi under construction is set. -/
theorem Finding.set (c : Ctx g a st) (f : Finding g a st h memo opn d) {s n i p w fuel : Nat} (ho : opn s) (hm : memo s = some n) (hn : g.size ≤ n)
    (hp : memo p = some w) (hi : i < 4) (h0 : (h.node n).args i = none) (hkn : (h.node n).kind = .phi) {h' : Graph} (e : setArg fuel h n i (some w) = .ok h') :
    Finding g a st h' memo opn d ∧ h'.size = h.size ∧ (∀ m, (h'.node m).kind = (h.node m).kind) ∧
      ∀ m j, (h'.node m).args j = if m = n ∧ j = i then some w else (h.node m).args j := by
  have hk := f.opened s ho
  have hv := f.vals s n hm
  have hw := f.vals p w hp
  have hsm := c.small
  obtain ⟨h1, e', hmap, -⟩ := setArg_done (fuel := fuel) f.inv f.done hv.2.2.1 hi hw.2.2.1 (by rw [h0]; simp)
  have hf := frame_setArg f.done e
  rw [e'] at e
  injection e with e
  subst e
  refine ⟨⟨hmap.inv, hmap.done, by rw [hmap.size]; exact f.size, ?_, ?_, ?_, f.replaced, ?_, f.uniq, ?_, f.opened, ?_, ?_, ?_⟩, hmap.size, hmap.kind, hmap.args⟩
  · intro m hm
    rw [hmap.kind]; exact f.kind m hm
  · intro m hm
    rw [hf.projIdx]; exact f.projIdx m hm
  · intro m j hm
    rw [hmap.args, if_neg (by omega)]; exact f.old m j hm
  · intro x v e
    rw [hmap.size]; exact f.vals x v e
  · intro x v e hx
    refine (f.good x v e hx).mono (fun _ => hmap.kind v) (fun hkx _ => ?_) fun _ _ h => h
    funext j
    rw [hmap.args, if_neg]
    rintro ⟨rfl, -⟩
    exact hx (f.uniq x s _ e hm hkx hk ▸ ho)
  · intro m j x h2 h3 e
    rw [hmap.args] at e
    split at e
    · injection e with e
      subst e
      exact hw.2.2.2
    · exact f.young m j x h2 (by rw [hmap.size] at h3; exact h3) e
  · intro m h2 h3
    rw [hmap.size] at h3
    rw [hmap.kind]
    rcases f.fresh m h2 h3 with h4 | ⟨h4, h5⟩
    · exact .inl h4
    · refine .inr ⟨h4, fun j => ?_⟩
      rw [hmap.args, if_neg]
      · exact h5 j
      · rintro ⟨rfl, -⟩
        rw [hkn] at h4
        rcases h4 with h4 | h4 <;> cases h4
  · have := hf.users a (by
      rintro (h | h)
      · injection h with h
        exact hw.2.2.2.1 h
      · rw [h0] at h
        cases h)
    exact ⟨this.1.trans f.users.1, this.2.trans f.users.2⟩

/-- A phi is ready. -/
theorem Finding.close {s v : Nat} (f : Finding g a st h memo (fun x => opn x ∨ x = s) d) (hm : memo s = some v) (hg : Good g a h memo s v) :
    Finding g a st h memo opn d := by
  refine ⟨f.inv, f.done, f.size, f.kind, f.projIdx, f.old, f.replaced, f.vals, f.uniq, ?_, fun x hx => f.opened x (.inl hx), f.young, f.fresh, f.users⟩
  intro x w e ho
  by_cases hx : x = s
  · subst hx
    rw [hm] at e
    injection e with e
    rw [← e]
    exact hg
  · exact f.good x w e fun h => h.elim ho hx

end

/-- One value of a new phi. -/
theorem findSide_ok {g : Graph} {a : Nat} {st : Nat → Prop} {opn : Nat → Prop} {d : Nat → Option Nat} (c : Ctx g a st) {fuel : Nat}
    {rec : Found → Nat → Run (Found × Nat)}
    (ih : ∀ {h memo opn s h' memo' v}, Finding g a st h memo opn d → st s → s < g.size → rec (h, memo) s = .ok ((h', memo'), v) →
      Finding g a st h' memo' opn d ∧ memo' s = some v ∧ Ext h memo h' memo')
    {h : Graph} {memo : Nat → Option Nat} {s n i : Nat} (f : Finding g a st h memo opn d) (ho : opn s) (hm : memo s = some n) (hn : g.size ≤ n) (hk : (h.node n).kind = .phi)
    (hi : i = 1 ∨ i = 2) (h0 : (h.node n).args i = none) {r : Found} (e : findSide fuel rec (h, memo) s n i = .ok r) :
    Finding g a st r.1 r.2 opn d ∧ h.size ≤ r.1.size ∧ (∀ m, m < h.size → (r.1.node m).kind = (h.node m).kind) ∧ (∀ s v, memo s = some v → r.2 s = some v) ∧
      (∀ m j, m < h.size → ¬(m = n ∧ j = i) → (r.1.node m).args j = (h.node m).args j) ∧
      (∀ p, (g.node s).args i = some p → ∃ w, r.2 p = some w ∧ (r.1.node n).args i = some w) ∧
      ((g.node s).args i = none → (r.1.node n).args i = none) := by
  have hv := f.vals s n hm
  have hphi := c.phis s hv.1 (f.opened s ho)
  have hst : ∀ p, (g.node s).args i = some p → st p := by
    rcases hi with rfl | rfl
    · exact hphi.2 0
    · exact hphi.2 1
  have hargs : (h.node s).args i = (g.node s).args i := f.state_operand hv.2.1 fun x hx => (c.kinds x (hst x hx)).2
  unfold findSide at e
  dsimp only at e
  rw [hargs] at e
  cases hp : (g.node s).args i with
  | none =>
    rw [hp] at e
    injection e with e
    subst e
    exact ⟨f, Nat.le_refl _, fun _ _ => rfl, fun _ _ h => h, fun _ _ _ _ => rfl, by simp, fun _ => h0⟩
  | some p =>
    rw [hp] at e
    dsimp only at e
    obtain ⟨⟨⟨h1, memo1⟩, w⟩, e1, e⟩ := run_bind_ok e
    obtain ⟨h2, e2, e⟩ := run_bind_ok e
    injection e with e
    subst e
    obtain ⟨f1, hw, hx⟩ := ih f (hst p hp) (c.inv.closed s i p hp).2.2 e1
    obtain ⟨f2, h3, h4, h5⟩ := f1.set c ho (hx.memo s n hm) hn hw (by omega) (by rw [hx.args n hv.2.2.1]; exact h0)
      (by rw [hx.kind n hv.2.2.1]; exact hk) e2
    refine ⟨f2, by show h.size ≤ h2.size; rw [h3]; exact hx.size, ?_, hx.memo, ?_, ?_, by simp⟩
    · intro m hlt
      show (h2.node m).kind = _
      rw [h4]; exact hx.kind m hlt
    · intro m j hlt hne
      show (h2.node m).args j = _
      rw [h5, if_neg hne, hx.args m hlt]
    · intro q hq
      injection hq with hq
      subst hq
      exact ⟨w, hw, by show (h2.node n).args i = _; rw [h5, if_pos ⟨rfl, rfl⟩]⟩

/-- What the search finds. -/
theorem find_ok {g : Graph} {a : Nat} {st : Nat → Prop} {d : Nat → Option Nat} (c : Ctx g a st) {extent : Nat → Nat} : ∀ {fuel : Nat}
    {h : Graph} {memo : Nat → Option Nat} {opn : Nat → Prop} {s : Nat} {h' : Graph} {memo' : Nat → Option Nat} {v : Nat},
    Finding g a st h memo opn d → st s → s < g.size → find extent a fuel (h, memo) s = .ok ((h', memo'), v) →
    Finding g a st h' memo' opn d ∧ memo' s = some v ∧ Ext h memo h' memo' := by
  intro fuel
  induction fuel with
  | zero => intro h memo opn s h' memo' v f hs hn e; cases e
  | succ fuel ih =>
    intro h memo opn s h' memo' v f hs hn e
    rw [find] at e
    split at e
    · rename_i w hw
      injection e with e
      injection e with e1 e2
      injection e1 with e1 e3
      subst e1 e2 e3
      exact ⟨f, hw, .refl _ _⟩
    · rename_i h0
      dsimp only at h0 e
      obtain ⟨⟨⟨h1, memo1⟩, w⟩, e1, e⟩ := run_bind_ok e
      injection e with e
      injection e with e2 e3
      injection e2 with e2 e4
      subst e2 e3 e4
      -- the search goes on in the state before
      have back : ∀ p, ¬Access g a s → Replaces g s p ∨ IsProjection g s p → find extent a fuel (h, memo) p = .ok ((h1, memo1), w) →
          Finding g a st h1 (note memo1 s w) opn d ∧ note memo1 s w s = some w ∧ Ext h memo h1 (note memo1 s w) := by
        intro p hacc hp e
        have hpn : p < g.size := by
          rcases hp with ⟨i, -, hp⟩ | hp
          · exact (c.inv.closed _ _ _ hp).2.2
          · exact (c.inv.closed _ _ _ hp.2).2.2
        obtain ⟨f1, hv, hx⟩ := ih f (c.before s p hs hp) hpn e
        obtain ⟨f2, hm⟩ := f1.pass hs hn hacc hp hv
        exact ⟨f2, note_self _ _ _, hx.size, hx.kind, hx.args, fun x y h => hm x y (hx.memo x y h)⟩
      have hprev : ∀ i p, replacedBy (g.node s).kind = some i → (h.node s).args i = some p → Replaces g s p := by
        intro i p hi hp
        refine ⟨i, hi, ?_⟩
        rw [← f.state_operand hn fun x hx => (c.kinds x (c.before s x hs (.inl ⟨i, hi, hx⟩))).2]
        exact hp
      have hk := f.kind s hn
      unfold findCase at e1
      dsimp only at e1
      split at e1
      · -- projection
        rename_i hk1
        rw [hk] at hk1
        unfold findBack at e1
        split at e1
        · cases e1
        · rename_i p hp
          have hp' : (g.node s).args 0 = some p := by
            rw [← f.state_operand hn fun x hx => (c.kinds x (c.before s x hs (.inr ⟨hk1, hx⟩))).2]
            exact hp
          exact back p (by rintro ⟨h1 | h1 | h1, -⟩ <;> rw [hk1] at h1 <;> cases h1) (.inr ⟨hk1, hp'⟩) e1
      · -- function
        rename_i hk1
        rw [hk] at hk1
        injection e1 with e1
        injection e1 with e2 e3
        injection e2 with e2 e4
        subst e2 e3 e4
        have hA := new_adds f.inv f.done (k := undefinedKind) (by decide) (by decide) (extent a)
        obtain ⟨f1, hx⟩ := f.add c (.inr rfl) hA
        have hsz := f.size
        have hsz' := hA.size
        have hsm := c.small
        have hid : (new h undefinedKind (extent a)).2 = h.size := rfl
        refine ⟨f1.extend hs hn h0 (by rw [hk1]; simp) (by rw [hid]; omega) (by rw [hid]; omega) (by rw [hid]; intro h; omega)
          (.start hk1 hsz (by rw [hid]; exact hA.kind)), note_self _ _ _, hx.size, hx.kind, hx.args, note_mono h0⟩
      · -- set to zero
        rename_i hk1
        rw [hk] at hk1
        split at e1
        · rename_i ha
          rw [f.address c hn] at ha
          injection e1 with e1
          injection e1 with e2 e3
          injection e2 with e2 e4
          subst e2 e3 e4
          have hA := new_adds f.inv f.done (k := zeroKind) (by decide) (by decide) (extent a)
          obtain ⟨f1, hx⟩ := f.add c (.inl rfl) hA
          have hsz := f.size
          have hsz' := hA.size
          have hsm := c.small
          have hid : (new h zeroKind (extent a)).2 = h.size := rfl
          refine ⟨f1.extend hs hn h0 (by rw [hk1]; simp) (by rw [hid]; omega) (by rw [hid]; omega) (by rw [hid]; intro h; omega)
            (.clear hk1 ha hsz (by rw [hid]; exact hA.kind)), note_self _ _ _, hx.size, hx.kind, hx.args, note_mono h0⟩
        · rename_i ha
          rw [f.address c hn] at ha
          unfold findBack at e1
          split at e1
          · cases e1
          · rename_i p hp
            exact back p (fun h => ha h.2) (.inl (hprev 1 p (by rw [hk1]; rfl) hp)) e1
      · -- store
        rename_i hk1
        rw [hk] at hk1
        split at e1
        · rename_i ha
          rw [f.address c hn] at ha
          split at e1
          · cases e1
          · rename_i w' hw
            injection e1 with e1
            injection e1 with e2 e3
            injection e2 with e2 e4
            subst e2 e3 e4
            obtain ⟨x, hx, hx'⟩ := f.sub_inv ((f.old s 1 hn).symm.trans hw)
            have hval := c.values s x hk1 ha hx
            rcases hx' with ⟨-, rfl⟩ | hx'
            · have hlt := (c.inv.closed s 1 _ hx).2.2
              have hsz := f.size
              exact ⟨f.extend hs hn h0 (by rw [hk1]; simp) (by omega) hval.2 (fun _ => hval.1) (.store hk1 ha hx), note_self _ _ _,
                Nat.le_refl _, fun _ _ => rfl, fun _ _ => rfl, note_mono h0⟩
            · exact absurd (f.replaced x _ hx').1 hval.1
        · rename_i ha
          rw [f.address c hn] at ha
          unfold findBack at e1
          split at e1
          · cases e1
          · rename_i p hp
            exact back p (fun h => ha h.2) (.inl (hprev 2 p (by rw [hk1]; rfl) hp)) e1
      · -- phi
        rename_i hk1
        rw [hk] at hk1
        obtain ⟨⟨b, hb, hbk⟩, hph⟩ := c.phis s hs hk1
        have hb' : (h.node s).args 0 = some b := by
          rw [f.state_operand hn fun x hx => by rw [hb] at hx; cases hx; rw [hbk]; simp]
          exact hb
        have hbn := (c.inv.closed s 0 b hb).2.2
        have hsz := f.size
        unfold findPhi at e1
        dsimp only at e1
        rw [hb'] at e1
        obtain ⟨r, e2, e1⟩ := run_bind_ok e1
        obtain ⟨hr, hA⟩ := newPhi_adds f.inv f.done (by omega) e2
        obtain ⟨r1, rn⟩ := r
        dsimp only at hr hA e1
        subst hr
        obtain ⟨f1, hx1⟩ := f.open c hs hn h0 hk1 hbk hA
        obtain ⟨r2, e3, e1⟩ := run_bind_ok e1
        have hlt : h.size < r1.size := by rw [hA.size]; omega
        obtain ⟨f2, s2, k2, m2, a2, v2, n2⟩ := findSide_ok c ih f1 (.inr rfl) (note_self _ _ _) hsz hA.kind (.inl rfl) (by rw [hA.args]; simp) e3
        obtain ⟨r3, e4, e1⟩ := run_bind_ok e1
        obtain ⟨f3, s3, k3, m3, a3, v3, n3⟩ := findSide_ok c ih f2 (.inr rfl) (m2 _ _ (note_self _ _ _)) hsz (by rw [k2 _ hlt]; exact hA.kind) (.inr rfl)
          (by rw [a2 _ _ hlt (by omega), hA.args]; simp) e4
        injection e1 with e1
        injection e1 with e5 e6
        subst e5 e6
        have hm := m3 _ _ (m2 _ _ (note_self memo s h.size))
        have hlt2 : h.size < r2.1.size := by omega
        rw [note_eq hm]
        have hgood : Good g a h1 memo1 s h.size := by
          refine .phi hk1 hsz (by rw [k3 _ hlt2, k2 _ hlt]; exact hA.kind) ?_ ?_ ?_
          · rw [a3 _ _ hlt2 (by omega), a2 _ _ hlt (by omega), hA.args, hb]; rfl
          · rintro i (rfl | rfl) p hp
            · obtain ⟨w, hw, h3⟩ := v2 p hp
              exact ⟨w, m3 _ _ hw, by rw [a3 _ _ hlt2 (by omega)]; exact h3⟩
            · exact v3 p hp
          · rintro i (rfl | rfl) hp
            · rw [a3 _ _ hlt2 (by omega)]; exact n2 hp
            · exact n3 hp
        have hend : h.size ≤ h1.size := by have : r2.1.size ≤ h1.size := s3; omega
        refine ⟨f3.close hm hgood, hm, hend, ?_, ?_, fun x y h => m3 _ _ (m2 _ _ (hx1.memo x y h))⟩
        · intro m hlt'
          rw [k3 m (by omega), k2 m (by omega)]; exact hx1.kind m hlt'
        · intro m hlt'
          rw [← hx1.args m hlt']
          funext j
          rw [a3 m j (by omega) (by omega), a2 m j (by omega) (by omega)]
      · -- others
        rename_i hk1 hk2 hk3 hk4 hk5
        rw [hk] at hk3 hk4
        split at e1
        · cases e1
        · rename_i p hp
          rw [prevState_iff] at hp
          obtain ⟨i, hi, hp⟩ := hp
          rw [hk] at hi
          exact back p (by rintro ⟨h1 | h1 | h1, -⟩; exact (c.kinds s hs).2 h1; exact hk4 h1; exact hk3 h1) (.inl (hprev i p hi hp)) e1

end Verif.Ir
