import Verif.Peephole
import Verif.PeepholeSpec
import Verif.IrReplaceLemmas
import Verif.Mem2regLemmas
import Verif.ScheduleLemmas
/-! Lemmas for `PeepholeProps`. -/
namespace Verif.Peephole
open Verif Verif.Ir Verif.IrSpec Verif.PeepholeSpec

/-! ### Dominators -/

theorem first_entry {g : Graph} {e d x : Nat} (hd : d ≠ e) (h : Walk g e x) : Avoids g e d x ∨ ∃ c, Avoids g e d c ∧ Edge g c d := by
  induction h with
  | start => exact .inl (.start fun h => hd h.symm)
  | @step c b _ hc ih =>
    rcases ih with ih | ih
    · by_cases hb : b = d
      · subst hb; exact .inr ⟨c, ih, hc⟩
      · exact .inl (.step ih hc hb)
    · exact .inr ih

theorem dominates_antisymm {g : Graph} {e a b : Nat} (h1 : Dominates g e a b) (h2 : Dominates g e b a) : a = b := by
  by_cases hab : a = b
  · exact hab
  exfalso
  have key : ∀ x, Walk g e x → (Avoids g e a x ∧ Avoids g e b x) ∨ Avoids g e a b ∨ Avoids g e b a := by
    intro x hx
    induction hx with
    | start =>
      by_cases ha : e = a
      · subst ha; exact .inr (.inr (.start hab))
      · by_cases hb : e = b
        · subst hb; exact .inr (.inl (.start ha))
        · exact .inl ⟨.start ha, .start hb⟩
    | @step c x _ hc ih =>
      rcases ih with ⟨i1, i2⟩ | ih
      · by_cases ha : x = a
        · subst ha; exact .inr (.inr (.step i2 hc hab))
        · by_cases hb : x = b
          · subst hb; exact .inr (.inl (.step i1 hc ha))
          · exact .inl ⟨.step i1 hc ha, .step i2 hc hb⟩
      · exact .inr ih
  rcases key b h1.1 with ⟨-, h⟩ | h | h
  · exact avoids_ne h rfl
  · exact h1.2 h
  · exact h2.2 h

theorem dominates_pred {g : Graph} {e d c b : Nat} (h : Dominates g e d b) (hc : Walk g e c) (he : Edge g c b) (hb : b ≠ d) : Dominates g e d c :=
  ⟨hc, fun ha => h.2 (.step ha he hb)⟩

variable {g g' : Graph} {entry : Nat} {home rank rank' : Nat → Nat} {p v : Nat} {X : Type} {m : Sense X}

theorem runs_walk {b : Nat} {e : Nat → X} (h : Runs g entry home m b e) : Walk g entry b := by
  induction h with
  | start _ => exact .start
  | join _ hk _ ha _ _ ih => exact .step ih (.inl ⟨hk, _, ha⟩)
  | branch _ hp hi ha _ _ _ _ ih => exact .step ih (.inr ⟨_, hp, hi, ha⟩)

theorem runs_computes {b : Nat} {e : Nat → X} (h : Runs g entry home m b e) : Computes g entry home m e := by
  cases h <;> assumption

/-! ### The value of a phi with one side -/

/-- The block of such a phi is entered from one block only, in which its value is available. -/
theorem one_entry (hs : Ssa g entry home rank) (ho : OneSided g p v) (hw : Walk g entry (home p)) :
    ∃ k c, k < 2 ∧ (g.node p).args (k + 1) = some v ∧ (g.node (home p)).args k = some c ∧ Walk g entry c ∧ Dominates g entry (home v) c ∧
      ¬Dominates g entry (home p) c ∧
      ∀ c' j, Walk g entry c' → j < 2 → (g.node (home p)).args j = some c' → j = k ∧ c' = c := by
  have hk := ho.1
  obtain ⟨-, hr⟩ := hs.phi p hk
  have hne : home p ≠ entry := fun h => hs.start (h ▸ hr)
  obtain ⟨c, hc, he⟩ : ∃ c, Avoids g entry (home p) c ∧ Edge g c (home p) := by
    rcases first_entry hne hw with h | h
    · exact absurd rfl (avoids_ne h)
    · exact h
  have hwc := avoids_walk hc
  obtain ⟨j, hj⟩ : Operand g (home p) c := by
    rcases he with ⟨-, h⟩ | ⟨i, hp, -⟩
    · exact h
    · rw [hp.1] at hr; cases hr
  have hj2 := hs.region _ _ _ hr hj
  have side : ∃ k, k < 2 ∧ (g.node p).args (k + 1) = some v ∧ ∀ j, j < 2 → j ≠ k → (g.node p).args (j + 1) = none := by
    rcases ho.2 with ⟨h1, h2⟩ | ⟨h1, h2⟩
    · refine ⟨0, by omega, h1, fun j hj hn => ?_⟩
      obtain rfl : j = 1 := by omega
      exact h2
    · refine ⟨1, by omega, h2, fun j hj hn => ?_⟩
      obtain rfl : j = 0 := by omega
      exact h1
  obtain ⟨k, hk2, hv, hn⟩ := side
  have only : ∀ c' j, Walk g entry c' → j < 2 → (g.node (home p)).args j = some c' → j = k := by
    intro c' j hw' hj hc'
    by_cases h : j = k
    · exact h
    · exact absurd hw' (hs.missing p j c' hk hj (hn j hj h) hc')
  obtain rfl := only c j hwc hj2 hj
  refine ⟨j, c, hk2, hv, hj, hwc, hs.side p j v c hk hk2 hv hj hwc, fun h => h.2 hc, ?_⟩
  intro c' i hw' hi hc'
  obtain rfl := only c' i hw' hi hc'
  refine ⟨rfl, ?_⟩
  rw [hj] at hc'
  exact (Option.some.inj hc').symm

theorem value_above (hs : Ssa g entry home rank) (ho : OneSided g p v) (hw : Walk g entry (home p)) :
    Dominates g entry (home v) (home p) ∧ ¬Dominates g entry (home p) (home v) := by
  obtain ⟨k, c, hk2, hv, hc, hwc, hd, hnd, only⟩ := one_entry hs ho hw
  obtain ⟨-, hr⟩ := hs.phi p ho.1
  refine ⟨⟨hw, fun ha => ?_⟩, fun h => hnd (dominates_trans h hd)⟩
  generalize hb : home p = b at ha
  cases ha with
  | start _ => exact hs.start (hb ▸ hr)
  | @step c' _ ha he _ =>
    rcases he with ⟨-, j, hj⟩ | ⟨i, hp, -⟩
    · have hj2 := hs.region _ _ _ (hb ▸ hr) hj
      obtain ⟨-, rfl⟩ := only c' j (avoids_walk ha) hj2 (hb ▸ hj)
      exact hd.2 ha
    · rw [hb, hp.1] at hr; cases hr

/-- What is computed before the block `b1` does not change when control enters it. -/
theorem stable (hs : Ssa g entry home rank) (hcl : Closed g) {c b1 : Nat} {e e1 : Nat → X} (hc : Computes g entry home m e) (hc1 : Computes g entry home m e1)
    (hb1 : Walk g entry b1)
    (hphi : ∀ q, q < g.size → (g.node q).kind = .phi → home q ≠ b1 → e1 q = e q) :
    ∀ r n, rank n = r → n < g.size → Dominates g entry (home n) c → ¬Dominates g entry b1 (home n) → e1 n = e n := by
  intro r
  induction r using Nat.strongRecOn with
  | ind r ih =>
    intro n hr hn hd hnd
    by_cases h1 : (g.node n).kind = .phi
    · exact hphi n hn h1 fun h => hnd (by rw [h]; exact dominates_refl hb1)
    · by_cases h2 : (g.node n).kind = .region
      · rw [hc.region n h2, hc1.region n h2]
      · have hw := dominator_walk hd
        rw [hc.node n hn hw h1 h2, hc1.node n hn hw h1 h2]
        congr 1
        funext i
        cases ha : (g.node n).args i with
        | none => rfl
        | some a =>
          obtain ⟨d1, d2⟩ := hs.operand n i a hw h1 h2 ha
          simp only [Option.map_some, Option.some.injEq]
          exact ih (rank a) (hr ▸ d2) a rfl (hcl n i a ha).2.2 (dominates_trans d1 hd) fun h => hnd (dominates_trans h d1)

/-- In the blocks that it dominates, the phi has the value of its operand. -/
theorem phi_value (hs : Ssa g entry home rank) (hcl : Closed g) (ho : OneSided g p v) {c : Nat} {e : Nat → X} (h : Runs g entry home m c e) :
    Dominates g entry (home p) c → e p = e v := by
  have hp : p < g.size := by
    rcases ho.2 with ⟨h1, -⟩ | ⟨-, h1⟩ <;> exact (hcl _ _ _ h1).2.1
  have hv : v < g.size := by
    rcases ho.2 with ⟨h1, -⟩ | ⟨-, h1⟩ <;> exact (hcl _ _ _ h1).2.2
  obtain ⟨ha0, hr⟩ := hs.phi p ho.1
  have step : ∀ {c b1 : Nat} {e e1 : Nat → X}, Walk g entry c → Edge g c b1 → (Dominates g entry (home p) c → e p = e v) → Computes g entry home m e →
      Computes g entry home m e1 → (∀ q, q < g.size → (g.node q).kind = .phi → home q ≠ b1 → e1 q = e q) → b1 ≠ home p →
      Dominates g entry (home p) b1 → e1 p = e1 v := by
    intro c b1 e e1 hw he ih hc hc1 hphi hb hd
    have hd' := dominates_pred hd hw he hb
    obtain ⟨d1, d2⟩ := value_above hs ho (dominator_walk hd)
    rw [hphi p hp ho.1 fun h => hb h.symm, ih hd']
    refine (stable hs hcl hc hc1 hd.1 hphi _ v rfl hv (dominates_trans d1 hd') fun h => ?_).symm
    exact hb (dominates_antisymm (dominates_trans h d1) hd)
  induction h with
  | start _ =>
    intro hd
    exact absurd (dominates_entry hd ▸ hr) hs.start
  | @join b b' k e e' hrun hk hk2 ha ht hc1 ih =>
    intro hd
    have hphi : ∀ q, q < g.size → (g.node q).kind = .phi → home q ≠ b' → e' q = e q := by
      intro q hq hkq hne
      refine (ht q hq hkq).2 fun h => hne ?_
      rw [(hs.phi q hkq).1] at h
      exact Option.some.inj h
    have hw := runs_walk hrun
    by_cases hb : b' = home p
    · obtain ⟨k', c, -, hv', hc', -, hdv, -, only⟩ := one_entry hs ho (dominator_walk hd)
      obtain ⟨rfl, rfl⟩ := only b k hw hk2 (hb ▸ ha)
      obtain ⟨d1, d2⟩ := value_above hs ho (dominator_walk hd)
      rw [(ht p hp ho.1).1 (by rw [ha0, hb]) v hv']
      refine (stable hs hcl (runs_computes hrun) hc1 hd.1 hphi _ v rfl hv hdv ?_).symm
      rw [hb]
      exact d2
    · exact step hw (.inl ⟨hk, _, ha⟩) ih (runs_computes hrun) hc1 hphi hb hd
  | @branch b i c b' e e' hrun hp' hi ha _ _ hkeep hc1 ih =>
    intro hd
    refine step (runs_walk hrun) (.inr ⟨_, hp', hi, ha⟩) ih (runs_computes hrun) hc1 (fun q hq hkq _ => hkeep q hq hkq) ?_ hd
    intro hb
    rw [← hb, hp'.1] at hr
    cases hr

/-! ### Values for all nodes -/

open Classical in
/-- Values of the nodes, from the values of the phis. -/
noncomputable def values (g : Graph) (entry : Nat) (home rank : Nat → Nat) (m : Sense X) (f : Nat → X) (n : Nat) : X :=
  if (g.node n).kind = .region then m.op n fun _ => none
  else if (g.node n).kind = .phi ∨ ¬Walk g entry (home n) then f n
  else m.op n fun i => match (g.node n).args i with
    | none => none
    | some a => if h : rank a < rank n then some (values g entry home rank m f a) else none
termination_by rank n
decreasing_by exact h

theorem values_computes (hs : Ssa g entry home rank) (f : Nat → X) : Computes g entry home m (values g entry home rank m f) := by
  constructor
  · intro n _ hw h1 h2
    rw [values, if_neg h2, if_neg (by simp [h1, hw])]
    congr 1
    funext i
    cases ha : (g.node n).args i with
    | none => rfl
    | some a =>
      have := (hs.operand n i a hw h1 h2 ha).2
      simp [this]
  · intro n h
    rw [values, if_pos h]

theorem values_phi (f : Nat → X) {n : Nat} (h : (g.node n).kind = .phi) : values g entry home rank m f n = f n := by
  rw [values, if_neg (by rw [h]; decide), if_pos (.inl h)]

/-! ### Two graphs that differ in the phi -/

/-- The graphs differ only in operands that are the phi in one graph and its value in the other. -/
structure Twin (p v : Nat) (g g' : Graph) : Prop where
  size : g'.size = g.size
  kind : ∀ n, (g'.node n).kind = (g.node n).kind
  index : ∀ n, (g'.node n).projIdx = (g.node n).projIdx
  args : ∀ n i, (g'.node n).args i = (g.node n).args i ∨ ((g.node n).args i = some p ∧ (g'.node n).args i = some v) ∨
    ((g.node n).args i = some v ∧ (g'.node n).args i = some p)
  /-- blocks have the same operands -/
  control : ∀ n i, ((g.node n).kind = .region ∨ (g.node n).kind = .project ∨ (i = 0 ∧ ((g.node n).kind = .phi ∨ (g.node n).kind = .ifk))) →
    (g'.node n).args i = (g.node n).args i

theorem Twin.symm (t : Twin p v g g') : Twin p v g' g := by
  refine ⟨t.size.symm, fun n => (t.kind n).symm, fun n => (t.index n).symm, fun n i => ?_, fun n i h => ?_⟩
  · rcases t.args n i with h | ⟨h1, h2⟩ | ⟨h1, h2⟩
    · exact .inl h.symm
    · exact .inr (.inr ⟨h2, h1⟩)
    · exact .inr (.inl ⟨h2, h1⟩)
  · rw [t.kind] at h
    exact (t.control n i h).symm

theorem Twin.projection (t : Twin p v g g') {b i : Nat} (h : IsProjection g b i) : IsProjection g' b i :=
  ⟨by rw [t.kind]; exact h.1, by rw [t.control b 0 (.inr (.inl h.1))]; exact h.2⟩

theorem Twin.edge (t : Twin p v g g') {c b : Nat} (h : Edge g c b) : Edge g' c b := by
  rcases h with ⟨h1, i, h2⟩ | ⟨i, h1, h2, h3⟩
  · exact .inl ⟨by rw [t.kind]; exact h1, i, by rw [t.control b i (.inl h1)]; exact h2⟩
  · exact .inr ⟨i, t.projection h1, by rw [t.kind]; exact h2, by rw [t.control i 0 (.inr (.inr ⟨rfl, .inr h2⟩))]; exact h3⟩

theorem Twin.walk (t : Twin p v g g') {b : Nat} (h : Walk g entry b) : Walk g' entry b := by
  induction h with
  | start => exact .start
  | step _ he ih => exact .step ih (t.edge he)

theorem Twin.avoids (t : Twin p v g g') {d b : Nat} (h : Avoids g entry d b) : Avoids g' entry d b := by
  induction h with
  | start h => exact .start h
  | step _ he hb ih => exact .step ih (t.edge he) hb

theorem Twin.dominates (t : Twin p v g g') {d b : Nat} (h : Dominates g entry d b) : Dominates g' entry d b :=
  ⟨t.walk h.1, fun ha => h.2 (t.symm.avoids ha)⟩

/-- The nodes that are available have the same values in both graphs. -/
theorem agree (hs : Ssa g entry home rank) (hs' : Ssa g' entry home rank') (hcl : Closed g) (t : Twin p v g g') {c : Nat} {e e' : Nat → X}
    (ho : OneSided g p v) (hc : Computes g entry home m e) (hc' : Computes g' entry home m e')
    (heq : Dominates g entry (home p) c → e p = e v) (hphi : ∀ n, (g.node n).kind = .phi → e' n = e n) :
    ∀ r n, rank' n = r → n < g.size → Dominates g entry (home n) c → e' n = e n := by
  intro r
  induction r using Nat.strongRecOn with
  | ind r ih =>
    intro n hr hn hd
    by_cases h1 : (g.node n).kind = .phi
    · exact hphi n h1
    · have h1' : (g'.node n).kind ≠ .phi := by rw [t.kind]; exact h1
      by_cases h2 : (g.node n).kind = .region
      · rw [hc.region n h2, hc'.region n (by rw [t.kind]; exact h2)]
      · have h2' : (g'.node n).kind ≠ .region := by rw [t.kind]; exact h2
        have hw := dominator_walk hd
        rw [hc.node n hn hw h1 h2, hc'.node n (t.size ▸ hn) (t.walk hw) h1' h2']
        congr 1
        funext i
        have rec' : ∀ a, (g'.node n).args i = some a → a < g.size → e' a = e a := by
          intro a ha hlt
          obtain ⟨d1, d2⟩ := hs'.operand n i a (t.walk hw) h1' h2' ha
          exact ih (rank' a) (hr ▸ d2) a rfl hlt (dominates_trans (t.symm.dominates d1) hd)
        rcases t.args n i with h | ⟨ha, ha'⟩ | ⟨ha, ha'⟩
        · rw [h]
          cases ha : (g.node n).args i with
          | none => rfl
          | some a =>
            simp only [Option.map_some, Option.some.injEq]
            exact rec' a (h.trans ha) (hcl n i a ha).2.2
        · rw [ha, ha']
          have hdp := dominates_trans (hs.operand n i p hw h1 h2 ha).1 hd
          simp only [Option.map_some, Option.some.injEq]
          rw [heq hdp]
          refine ih _ (hr ▸ (hs'.operand n i v (t.walk hw) h1' h2' ha').2) v rfl ?_ ?_
          · rcases ho.2 with ⟨h, -⟩ | ⟨-, h⟩ <;> exact (hcl _ _ _ h).2.2
          · exact dominates_trans (t.symm.dominates (hs'.operand n i v (t.walk hw) h1' h2' ha').1) hd
        · rw [ha, ha']
          have hdp := dominates_trans (t.symm.dominates (hs'.operand n i p (t.walk hw) h1' h2' ha').1) hd
          simp only [Option.map_some, Option.some.injEq]
          rw [hphi p ho.1, heq hdp]

/-- For every run of one graph there is a run of the other one. -/
theorem simulates (hs : Ssa g entry home rank) (hs' : Ssa g' entry home rank') (hcl : Closed g) (t : Twin p v g g')
    (ho : OneSided g p v) {c : Nat} {e : Nat → X} (h : Runs g entry home m c e) :
    ∃ e', Runs g' entry home m c e' ∧ (∀ n, (g.node n).kind = .phi → e' n = e n) ∧
      ∀ n, n < g.size → Dominates g entry (home n) c → e' n = e n := by
  have agr : ∀ {c : Nat} {e : Nat → X}, Runs g entry home m c e →
      ∀ n, n < g.size → Dominates g entry (home n) c → values g' entry home rank' m e n = e n := by
    intro c e h n hn hd
    exact agree hs hs' hcl t ho (runs_computes h) (values_computes hs' e) (phi_value hs hcl ho h)
      (fun n hk => values_phi e (by rw [t.kind]; exact hk)) _ n rfl hn hd
  refine ⟨values g' entry home rank' m e, ?_, fun n hk => values_phi e (by rw [t.kind]; exact hk), agr h⟩
  induction h with
  | start _ => exact .start (values_computes hs' _)
  | @join b b' k e e' hrun hk hk2 ha ht hc1 ih =>
    refine .join (ih) (by rw [t.kind]; exact hk) hk2 (by rw [t.control b' k (.inl hk)]; exact ha) ?_ (values_computes hs' _)
    intro q hq hkq
    rw [t.kind] at hkq
    rw [t.size] at hq
    rw [values_phi e' (by rw [t.kind]; exact hkq), values_phi e (by rw [t.kind]; exact hkq), t.control q 0 (.inr (.inr ⟨rfl, .inl hkq⟩))]
    refine ⟨fun hb w hw => ?_, (ht q hq hkq).2⟩
    have hwb := runs_walk hrun
    have hhome : home q = b' := by
      rw [(hs.phi q hkq).1] at hb
      exact Option.some.inj hb
    have hside : ∀ x, (g.node q).args (k + 1) = some x → Dominates g entry (home x) b := fun x hx =>
      hs.side q k x b hkq hk2 hx (by rw [hhome]; exact ha) hwb
    have hside' : ∀ x, (g'.node q).args (k + 1) = some x → Dominates g entry (home x) b := fun x hx =>
      t.symm.dominates (hs'.side q k x b (by rw [t.kind]; exact hkq) hk2 hx (by rw [t.control _ k (.inl (hhome ▸ hk)), hhome]; exact ha) (t.walk hwb))
    rcases t.args q (k + 1) with hx | ⟨h1, h2⟩ | ⟨h1, h2⟩
    · rw [hx] at hw
      rw [(ht q hq hkq).1 hb w hw]
      exact (agr hrun w (hcl _ _ _ hw).2.2 (hside w hw)).symm
    · rw [h2] at hw
      obtain rfl := Option.some.inj hw
      rw [(ht q hq hkq).1 hb p h1, phi_value hs hcl ho hrun (hside p h1)]
      refine (agr hrun v ?_ (hside' v h2)).symm
      rcases ho.2 with ⟨h, -⟩ | ⟨-, h⟩ <;> exact (hcl _ _ _ h).2.2
    · rw [h2] at hw
      obtain rfl := Option.some.inj hw
      rw [(ht q hq hkq).1 hb v h1, values_phi e (by rw [t.kind]; exact ho.1)]
      exact (phi_value hs hcl ho hrun (hside' p h2)).symm
  | @branch b i c b' e e' hrun hp' hi ha hcond htruth hkeep hc1 ih =>
    have hi' : (g'.node i).kind = .ifk := by rw [t.kind]; exact hi
    have hhome := hs.branch i b hi ha
    have hwb := runs_walk hrun
    have n1 : (g.node i).kind ≠ .phi := by rw [hi]; decide
    have n2 : (g.node i).kind ≠ .region := by rw [hi]; decide
    have ha' : (g'.node i).args 0 = some b := by rw [t.control i 0 (.inr (.inr ⟨rfl, .inr hi⟩))]; exact ha
    have hwi : Walk g entry (home i) := by rw [hhome]; exact hwb
    have dom : ∀ x, (g.node i).args 1 = some x → Dominates g entry (home x) b := fun x hx => hhome ▸ (hs.operand i 1 x hwi n1 n2 hx).1
    have dom' : ∀ x, (g'.node i).args 1 = some x → Dominates g entry (home x) b := fun x hx =>
      hhome ▸ t.symm.dominates (hs'.operand i 1 x (t.walk hwi) (by rw [t.kind]; exact n1) (by rw [t.kind]; exact n2) hx).1
    have key : ∃ c', (g'.node i).args 1 = some c' ∧ values g' entry home rank' m e c' = e c := by
      rcases t.args i 1 with hx | ⟨h1, h2⟩ | ⟨h1, h2⟩
      · exact ⟨c, hx.trans hcond, agr hrun c (hcl _ _ _ hcond).2.2 (dom c hcond)⟩
      · rw [hcond] at h1
        obtain rfl := Option.some.inj h1
        refine ⟨v, h2, ?_⟩
        rw [phi_value hs hcl ho hrun (dom c hcond)]
        refine agr hrun v ?_ (dom' v h2)
        rcases ho.2 with ⟨h, -⟩ | ⟨-, h⟩ <;> exact (hcl _ _ _ h).2.2
      · rw [hcond] at h1
        obtain rfl := Option.some.inj h1
        exact ⟨p, h2, by rw [values_phi e (by rw [t.kind]; exact ho.1)]; exact phi_value hs hcl ho hrun (dom' p h2)⟩
    obtain ⟨c', hc', hv'⟩ := key
    refine .branch (ih) (t.projection hp') hi' ha' hc' (by rw [hv', t.index]; exact htruth) ?_ (values_computes hs' _)
    intro q hq hkq
    rw [values_phi e' hkq, values_phi e hkq]
    rw [t.kind] at hkq
    rw [t.size] at hq
    exact hkeep q hq hkq

/-! ### Replacing the phi -/

theorem replace_self {fuel : Nat} (hg : Inv g) : replaceNode fuel g p p = .ok g := by
  have hin : ∀ use k j, j + k = 4 → replaceIn fuel g p p use j k = .ok g := by
    intro use k
    induction k with
    | zero => intros; rfl
    | succ k ih =>
      intro j hj
      unfold replaceIn
      split
      · rename_i ha
        have hc := hg.closed use j p ha
        rw [setArg, if_pos ⟨hc.1, hc.2.1, ha⟩]
        exact ih (j + 1) (by omega)
      · exact ih (j + 1) (by omega)
  have hfrom : ∀ i, i ≤ (g.node p).uses.length → replaceFrom fuel g p p i = .ok g := by
    intro i
    induction i with
    | zero => intros; rfl
    | succ i ih =>
      intro hi
      unfold replaceFrom
      rw [List.getElem?_eq_getElem (by omega : i < (g.node p).uses.length)]
      dsimp only
      rw [hin _ 4 0 (by omega)]
      exact ih (by omega)
  exact hfrom _ (hg.cap p)

/-- The graph after the replacement. -/
theorem twin_replace (hs : Ssa g entry home rank) (hm : Maps (fun m j => swap p v ((g.node m).args j)) g g')
    (hf : Frame (fun m => m = p ∨ m = v) g g') (hk : (g.node p).kind = .phi) : Twin p v g g' := by
  refine ⟨hm.size, hm.kind, hf.projIdx, fun n i => ?_, fun n i h => ?_⟩
  · rw [hm.args, swap]
    split
    · rename_i h; exact .inr (.inl ⟨h, rfl⟩)
    · exact .inl rfl
  · rw [hm.args, swap, if_neg]
    intro ha
    obtain ⟨h1, h2, h3⟩ := hs.value n i p ha hk
    rcases h with h | h | ⟨rfl, h | h⟩
    · exact h1 h
    · exact h2 h
    · exact (h3 rfl).1 h
    · exact (h3 rfl).2 h

theorem Twin.dominates_iff (t : Twin p v g g') {d b : Nat} : Dominates g' entry d b ↔ Dominates g entry d b :=
  ⟨fun h => t.symm.dominates h, fun h => t.dominates h⟩

theorem Twin.walk_iff (t : Twin p v g g') {b : Nat} : Walk g' entry b ↔ Walk g entry b := ⟨fun h => t.symm.walk h, fun h => t.walk h⟩

open Classical in
/-- The order in which the nodes can be computed after the replacement. -/
noncomputable def rankAfter (g : Graph) (entry : Nat) (home rank : Nat → Nat) (p v n : Nat) : Nat :=
  if Dominates g entry (home p) (home n) then rank n + (rank v + 1) else rank n

/-- The graph is in SSA form after the replacement. -/
theorem ssa_replace (hs : Ssa g entry home rank) (hm : Maps (fun m j => swap p v ((g.node m).args j)) g g')
    (hf : Frame (fun m => m = p ∨ m = v) g g') (ho : OneSided g p v) : Ssa g' entry home (rankAfter g entry home rank p v) := by
  have t := twin_replace hs hm hf ho.1
  have old : ∀ {n i a}, (g'.node n).args i = some a → ((g.node n).args i = some p ∧ a = v) ∨ ((g.node n).args i = some a ∧ a ≠ p) := by
    intro n i a h
    rw [hm.args, swap] at h
    split at h
    · rename_i h'; exact .inl ⟨h', (Option.some.inj h).symm⟩
    · rename_i h'
      refine .inr ⟨h, ?_⟩
      rintro rfl
      exact h' h
  refine ⟨by rw [t.kind]; exact hs.start, ?_, ?_, ?_, ?_, ?_, ?_, ?_⟩
  · intro n hk
    rw [t.kind] at hk
    rw [t.control n 0 (.inr (.inr ⟨rfl, .inl hk⟩)), t.kind]
    exact hs.phi n hk
  · intro n i a hw h1 h2 ha
    rw [t.kind] at h1 h2
    have hw := t.walk_iff.1 hw
    rw [t.dominates_iff]
    rcases old ha with ⟨ha, rfl⟩ | ⟨ha, -⟩
    · have d1 := (hs.operand n i p hw h1 h2 ha).1
      obtain ⟨d2, d3⟩ := value_above hs ho (dominator_walk d1)
      refine ⟨dominates_trans d2 d1, ?_⟩
      rw [rankAfter, if_neg d3, rankAfter, if_pos d1]
      omega
    · obtain ⟨d1, d2⟩ := hs.operand n i a hw h1 h2 ha
      refine ⟨d1, ?_⟩
      unfold rankAfter
      by_cases hd : Dominates g entry (home p) (home a)
      · rw [if_pos hd, if_pos (dominates_trans hd d1)]; omega
      · rw [if_neg hd]
        split <;> omega
  · intro q k x c hk hk2 hx hc hw
    rw [t.kind] at hk
    have hw := t.walk_iff.1 hw
    rw [t.control _ k (.inl (hs.phi q hk).2)] at hc
    rw [t.dominates_iff]
    rcases old hx with ⟨ha, rfl⟩ | ⟨ha, -⟩
    · have d1 := hs.side q k p c hk hk2 ha hc hw
      exact dominates_trans (value_above hs ho (dominator_walk d1)).1 d1
    · exact hs.side q k x c hk hk2 ha hc hw
  · intro q k c hk hk2 hx hc
    rw [t.kind] at hk
    rw [t.control _ k (.inl (hs.phi q hk).2)] at hc
    rw [t.walk_iff]
    refine hs.missing q k c hk hk2 ?_ hc
    rw [hm.args, swap] at hx
    split at hx
    · cases hx
    · exact hx
  · intro b i c hk ha
    rw [t.kind] at hk
    rw [t.control b i (.inl hk)] at ha
    exact hs.region b i c hk ha
  · intro i c hk ha
    rw [t.kind] at hk
    rw [t.control i 0 (.inr (.inr ⟨rfl, .inr hk⟩))] at ha
    exact hs.branch i c hk ha
  · intro u i a ha hk
    rw [t.kind] at hk ⊢
    rcases old ha with ⟨ha, rfl⟩ | ⟨ha, -⟩
    · exact hs.value u i p ha ho.1
    · exact hs.value u i a ha hk

/-- The two graphs compute the same. -/
structure Same (entry : Nat) (home : Nat → Nat) (g g' : Graph) : Prop where
  size : g'.size = g.size
  kind : ∀ n, (g'.node n).kind = (g.node n).kind
  dominates : ∀ d b, Dominates g' entry d b ↔ Dominates g entry d b
  runs : ∀ {X : Type} (m : Sense X) (c : Nat) (e : Nat → X), Runs g entry home m c e →
    ∃ e', Runs g' entry home m c e' ∧ ∀ n, n < g.size → Dominates g entry (home n) c → e' n = e n
  back : ∀ {X : Type} (m : Sense X) (c : Nat) (e' : Nat → X), Runs g' entry home m c e' →
    ∃ e, Runs g entry home m c e ∧ ∀ n, n < g.size → Dominates g entry (home n) c → e n = e' n

theorem Same.refl (entry : Nat) (home : Nat → Nat) (g : Graph) : Same entry home g g :=
  ⟨rfl, fun _ => rfl, fun _ _ => Iff.rfl, fun _ _ e h => ⟨e, h, fun _ _ _ => rfl⟩, fun _ _ e h => ⟨e, h, fun _ _ _ => rfl⟩⟩

theorem Same.trans {g1 g2 g3 : Graph} (a : Same entry home g1 g2) (b : Same entry home g2 g3) : Same entry home g1 g3 := by
  refine ⟨b.size.trans a.size, fun n => (b.kind n).trans (a.kind n), fun d x => (b.dominates d x).trans (a.dominates d x), ?_, ?_⟩
  · intro X m c e h
    obtain ⟨e1, h1, q1⟩ := a.runs m c e h
    obtain ⟨e2, h2, q2⟩ := b.runs m c e1 h1
    exact ⟨e2, h2, fun n hn hd => (q2 n (a.size ▸ hn) ((a.dominates _ _).2 hd)).trans (q1 n hn hd)⟩
  · intro X m c e h
    obtain ⟨e1, h1, q1⟩ := b.back m c e h
    obtain ⟨e2, h2, q2⟩ := a.back m c e1 h1
    exact ⟨e2, h2, fun n hn hd => (q2 n hn hd).trans (q1 n (a.size ▸ hn) ((a.dominates _ _).2 hd))⟩

/-- One replacement. -/
theorem replace_same {fuel : Nat} (hg : Inv g) (hd : Done g) (ho : OneSided g p v) (hpv : p ≠ v) :
    ∃ g', replaceNode fuel g p v = .ok g' ∧ Inv g' ∧ Done g' ∧ (∀ n, (g'.node n).kind = (g.node n).kind) ∧
      (∀ n i, (g'.node n).args i = if (g.node n).args i = some p then some v else (g.node n).args i) ∧
      ∀ entry home rank, Ssa g entry home rank → Same entry home g g' ∧ ∃ rank', Ssa g' entry home rank' := by
  have hlt : p < g.size ∧ v < g.size := by
    rcases ho.2 with ⟨h, -⟩ | ⟨-, h⟩ <;> exact (hg.closed _ _ _ h).2
  obtain ⟨g', e, -⟩ := replaceFrom_done (fuel := fuel) hpv hg hd hlt.1 hlt.2 (Nat.le_refl _) (hg.cap p)
  obtain ⟨hm, hf⟩ := replaceNode_done hpv hg hd hlt.1 hlt.2 e
  refine ⟨g', e, hm.inv, hm.done, hm.kind, fun n i => hm.args n i, ?_⟩
  intro entry home rank hs
  have t := twin_replace hs hm hf ho.1
  have hs' := ssa_replace hs hm hf ho
  have ho' : OneSided g' p v := by
    have hvp : v ≠ p := fun h => hpv h.symm
    refine ⟨by rw [hm.kind]; exact ho.1, ?_⟩
    rcases ho.2 with ⟨h1, h2⟩ | ⟨h1, h2⟩
    · exact .inl ⟨by rw [hm.args, h1, swap, if_neg (by simpa using hvp)], by rw [hm.args, h2]; rfl⟩
    · exact .inr ⟨by rw [hm.args, h1]; rfl, by rw [hm.args, h2, swap, if_neg (by simpa using hvp)]⟩
  refine ⟨⟨t.size, t.kind, fun d b => t.dominates_iff, ?_, ?_⟩, _, hs'⟩
  · intro X m c e h
    obtain ⟨e', h1, -, h2⟩ := simulates hs hs' hg.closed t ho h
    exact ⟨e', h1, h2⟩
  · intro X m c e h
    obtain ⟨e', h1, -, h2⟩ := simulates hs' hs hm.inv.closed t.symm ho' h
    exact ⟨e', h1, fun n hn hd => h2 n (t.size ▸ hn) (t.dominates hd)⟩

theorem phi_same {fuel : Nat} (hg : Inv g) (hd : Done g) (hk : (g.node p).kind = .phi) :
    ∃ g', peepholePhi fuel g p = .ok g' ∧ Inv g' ∧ Done g' ∧
      ∀ entry home rank, Ssa g entry home rank → Same entry home g g' ∧ ∃ rank', Ssa g' entry home rank' := by
  have stay : ∃ g', Run.ok g = .ok g' ∧ Inv g' ∧ Done g' ∧
      ∀ entry home rank, Ssa g entry home rank → Same entry home g g' ∧ ∃ rank', Ssa g' entry home rank' :=
    ⟨g, rfl, hg, hd, fun entry home rank hs => ⟨.refl _ _ _, rank, hs⟩⟩
  have go : ∀ v, OneSided g p v → ∃ g', replaceNode fuel g p v = .ok g' ∧ Inv g' ∧ Done g' ∧
      ∀ entry home rank, Ssa g entry home rank → Same entry home g g' ∧ ∃ rank', Ssa g' entry home rank' := by
    intro v ho
    by_cases hpv : p = v
    · subst hpv
      rw [replace_self hg]
      exact stay
    · obtain ⟨g', e, h1, h2, -, -, h3⟩ := replace_same (fuel := fuel) hg hd ho hpv
      exact ⟨g', e, h1, h2, h3⟩
  unfold peepholePhi
  split
  · exact stay
  · rename_i v h1 h2
    exact go v ⟨hk, .inr ⟨h1, h2⟩⟩
  · rename_i v h1 h2
    exact go v ⟨hk, .inl ⟨h1, h2⟩⟩
  · exact stay

theorem pass_same {fuel : Nat} : ∀ (l : List Nat) {g : Graph}, Inv g → Done g → ∃ g', forEach (peepholeNode fuel) g l = .ok g' ∧ Inv g' ∧ Done g' ∧
    ∀ entry home rank, Ssa g entry home rank → Same entry home g g' ∧ ∃ rank', Ssa g' entry home rank'
  | [], g, hg, hd => ⟨g, rfl, hg, hd, fun entry home rank hs => ⟨.refl _ _ _, rank, hs⟩⟩
  | n :: l, g, hg, hd => by
    obtain ⟨g1, e1, i1, d1, s1⟩ : ∃ g', peepholeNode fuel g n = .ok g' ∧ Inv g' ∧ Done g' ∧
        ∀ entry home rank, Ssa g entry home rank → Same entry home g g' ∧ ∃ rank', Ssa g' entry home rank' := by
      unfold peepholeNode
      split
      · rename_i hk; exact phi_same hg hd hk
      · exact ⟨g, rfl, hg, hd, fun entry home rank hs => ⟨.refl _ _ _, rank, hs⟩⟩
    obtain ⟨g2, e2, i2, d2, s2⟩ := pass_same l i1 d1
    refine ⟨g2, by rw [forEach, e1]; exact e2, i2, d2, fun entry home rank hs => ?_⟩
    obtain ⟨a, r1, hs1⟩ := s1 entry home rank hs
    obtain ⟨b, r2, hs2⟩ := s2 entry home r1 hs1
    exact ⟨a.trans b, r2, hs2⟩

/-! ### Users of the phis -/

/-- If the phi has one side, it is not used, unless its value is itself. -/
def Unused (g : Graph) (p : Nat) : Prop := ∀ v, OneSided g p v → v ≠ p → ∀ u, ¬Operand g u p

theorem node_unused {fuel n : Nat} (hg : Inv g) (hd : Done g) (e : peepholeNode fuel g n = .ok g') :
    Unused g' n ∧ ∀ p, Unused g p → Unused g' p := by
  have stay : g' = g → (∀ v, OneSided g n v → v = n) → Unused g' n ∧ ∀ p, Unused g p → Unused g' p := by
    rintro rfl h
    exact ⟨fun v ho hv => absurd (h v ho) hv, fun _ h => h⟩
  have go : ∀ v, OneSided g n v → replaceNode fuel g n v = .ok g' → Unused g' n ∧ ∀ p, Unused g p → Unused g' p := by
    intro v ho e
    have huniq : ∀ w, OneSided g n w → w = v := by
      intro w hw
      rcases ho.2 with ⟨a, b⟩ | ⟨a, b⟩ <;> rcases hw.2 with ⟨c, d⟩ | ⟨c, d⟩
      · rw [a] at c; exact (Option.some.inj c).symm
      · rw [a] at c; cases c
      · rw [a] at c; cases c
      · rw [b] at d; exact (Option.some.inj d).symm
    by_cases hnv : n = v
    · subst hnv
      rw [replace_self hg] at e
      injection e with e
      exact stay e.symm huniq
    · obtain ⟨g1, e1, -, -, hk, ha, -⟩ := replace_same (fuel := fuel) hg hd ho hnv
      rw [e1] at e
      injection e with e
      subst e
      have hop : Operand g n v := by
        rcases ho.2 with ⟨h, -⟩ | ⟨-, h⟩ <;> exact ⟨_, h⟩
      constructor
      · rintro w - - u ⟨i, hi⟩
        rw [ha] at hi
        split at hi
        · exact hnv (Option.some.inj hi).symm
        · contradiction
      · intro q hq w how hw u hu
        by_cases hqn : q = n
        · subst hqn
          obtain ⟨i, hi⟩ := hu
          rw [ha] at hi
          split at hi
          · exact hnv (Option.some.inj hi).symm
          · contradiction
        · have old : ∃ w0, OneSided g q w0 ∧ w0 ≠ q := by
            have none_iff : ∀ i, (g1.node q).args i = none → (g.node q).args i = none := by
              intro i hi
              rw [ha] at hi
              split at hi
              · cases hi
              · exact hi
            have some_of : ∀ i, (g1.node q).args i = some w → ∃ w0, (g.node q).args i = some w0 ∧ w0 ≠ q := by
              intro i hi
              rw [ha] at hi
              split at hi
              · rename_i h; exact ⟨n, h, fun h => hqn h.symm⟩
              · exact ⟨w, hi, hw⟩
            have hkq : (g.node q).kind = .phi := by rw [← hk]; exact how.1
            rcases how.2 with ⟨a, b⟩ | ⟨a, b⟩
            · obtain ⟨w0, h1, h2⟩ := some_of _ a
              exact ⟨w0, ⟨hkq, .inl ⟨h1, none_iff _ b⟩⟩, h2⟩
            · obtain ⟨w0, h1, h2⟩ := some_of _ b
              exact ⟨w0, ⟨hkq, .inr ⟨none_iff _ a, h1⟩⟩, h2⟩
          obtain ⟨w0, ho0, hw0⟩ := old
          have no := hq w0 ho0 hw0
          obtain ⟨i, hi⟩ := hu
          rw [ha] at hi
          split at hi
          · exact no n (Option.some.inj hi ▸ hop)
          · exact no u ⟨i, hi⟩
  unfold peepholeNode at e
  split at e
  · rename_i hk
    unfold peepholePhi at e
    split at e
    · rename_i h1 h2
      injection e with e
      refine stay e.symm fun v ho => ?_
      rcases ho.2 with ⟨h, -⟩ | ⟨-, h⟩
      · rw [h1] at h; cases h
      · rw [h2] at h; cases h
    · rename_i v h1 h2
      exact go v ⟨hk, .inr ⟨h1, h2⟩⟩ e
    · rename_i v h1 h2
      exact go v ⟨hk, .inl ⟨h1, h2⟩⟩ e
    · rename_i h1 h2
      injection e with e
      refine stay e.symm fun v ho => ?_
      rcases ho.2 with ⟨-, h⟩ | ⟨h, -⟩
      · rw [h2] at h; cases h
      · rw [h1] at h; cases h
  · rename_i hk
    injection e with e
    exact stay e.symm fun v ho => absurd ho.1 hk

theorem pass_unused {fuel : Nat} : ∀ (l : List Nat) {g g' : Graph}, Inv g → Done g → forEach (peepholeNode fuel) g l = .ok g' →
    ∀ p, Unused g p ∨ p ∈ l → Unused g' p
  | [], g, g', _, _, e, p, hp => by
    injection e with e
    subst e
    rcases hp with h | h
    · exact h
    · cases h
  | n :: l, g, g', hg, hd, e, p, hp => by
    obtain ⟨g1, e1, i1, d1, -⟩ := pass_same (fuel := fuel) [n] hg hd
    have e1 : peepholeNode fuel g n = .ok g1 := by
      rw [forEach] at e1
      cases h : peepholeNode fuel g n with
      | ok x => rw [h] at e1; exact e1
      | fail => rw [h] at e1; cases e1
      | ub => rw [h] at e1; cases e1
      | more => rw [h] at e1; cases e1
    rw [forEach, e1] at e
    obtain ⟨u1, u2⟩ := node_unused hg hd e1
    refine pass_unused l i1 d1 e p ?_
    rcases hp with h | h
    · exact .inl (u2 p h)
    · rcases List.mem_cons.1 h with rfl | h
      · exact .inl u1
      · exact .inr h

end Verif.Peephole
