import Verif.TagsLemmas
/-!
C95: the compiler and C treat a text in the same way.
-/
namespace Verif.Tags
open Verif TagsSpec

theorem bind_bind {α : Type} (t : Nat) (e e' : α) (c : List (Nat → Option α)) : bind t e' (bind t e c) = bind t e' c := by
  cases c with
  | nil => rfl
  | cons x xs =>
    show (fun u => if u = t then some e' else if u = t then some e else x u) :: xs = (fun u => if u = t then some e' else x u) :: xs
    congr 1
    funext u
    split <;> rfl

theorem here_bind {α : Type} (t : Nat) (e : α) {c : List (Nat → Option α)} (h : c ≠ []) : here (bind t e c) t = some e := by
  cases c with
  | nil => exact absurd rfl h
  | cons x xs => exact if_pos rfl

theorem here_of_visible {α : Type} {t : Nat} {c : List (Nat → Option α)} (h : visible c t = none) : here c t = none := by
  cases c with
  | nil => rfl
  | cons x xs =>
    show x t = none
    cases hx : x t with
    | none => rfl
    | some y => unfold visible at h; rw [hx] at h; cases h

theorem Rel.marks {f own} {s : State} {m : St} {c : Marks} (r : Rel f own s m c) : c ≠ [] := by
  obtain ⟨a, as, b, bs, x, xs, h1, h2, h3, _⟩ := r.top
  rw [h3]; exact List.cons_ne_nil _ _

/-- What is known of a tag that is open. -/
theorem Rel.opened {f own} {s : State} {m : St} {c : Marks} (r : Rel f own s m c) {t e : Nat} {k : TagKind}
    (hc : here c t = some (.opened k)) (hs : here s.scopes t = some e) :
    ∃ b bs, m.scopes = b :: bs ∧ b (.ident t) = none ∧ e < s.next ∧ s.kind e = k ∧ f e = none ∧ s.content e = none ∧ own e ≠ none := by
  obtain ⟨a, as, b, bs, x, xs, h1, h2, h3, hl, _, _⟩ := r.top
  subst h3
  obtain ⟨e', q1, q2, q3, q4, q5, q6, q7⟩ := (levelAt_opened (show x t = _ from hc)).1 (hl t)
  rw [h1] at hs
  have hs : a t = some e := hs
  rw [hs] at q1
  injection q1 with q1
  subst q1
  exact ⟨b, bs, h2, q2, q3, q5, q6, q7, by rw [q4]; exact fun h => by cases h⟩

/-- What is known of a tag that is declared. -/
theorem Rel.declared {f own} {s : State} {m : St} {c : Marks} (r : Rel f own s m c) {t : Nat} (hc : here c t = some .declared) :
    ∃ e b bs d, here s.scopes t = some e ∧ m.scopes = b :: bs ∧ b (.ident t) = some d ∧ e < s.next ∧ d.kind = s.kind e ∧
      (d.kind ≠ .enum → f e = some d.data) := by
  obtain ⟨a, as, b, bs, x, xs, h1, h2, h3, hl, _, _⟩ := r.top
  subst h3
  obtain ⟨e, d, q1, q2, q3, _, q5, q6⟩ := (levelAt_declared (show x t = _ from hc)).1 (hl t)
  exact ⟨e, b, bs, d, by rw [h1]; exact q1, h2, q2, q3, q5, q6⟩

theorem Rel.unmarked {f own} {s : State} {m : St} {c : Marks} (r : Rel f own s m c) {t : Nat} (hc : here c t = none) :
    here s.scopes t = none ∧ getCurrent m.scopes (.ident t) = none := by
  obtain ⟨a, as, b, bs, x, xs, h1, h2, h3, hl, _, _⟩ := r.top
  subst h3
  have := (levelAt_none (show x t = _ from hc)).1 (hl t)
  rw [h1, h2]
  exact this

/-- A specifier stands for the same type. -/
theorem out_is {f} {s : State} {m : St} (D : Data f s m) {e d : Nat} (h : f e = some d) : OutsAre f [s.out e] [typeOf m d] := by
  obtain ⟨_, _, h3, h4⟩ := D.dat e d h
  have ho : s.out e = ⟨.record e, (s.content e).isSome⟩ := if_neg h3
  rw [ho]
  refine .cons h ?_ .nil
  show (s.content e).isSome = (m.fields d).isSome
  revert h4
  cases s.content e <;> cases m.fields d <;> intro h4
  · rfl
  · exact h4.elim
  · exact h4.elim
  · rfl

theorem out_enum {f} {s : State} {e : Nat} (h : s.kind e = .enum) : OutsAre f [s.out e] [⟨.int, true⟩] := by
  have ho : s.out e = ⟨.int, true⟩ := if_pos h
  rw [ho]
  exact .cons trivial rfl .nil

theorem grows_name {f own} {s s' : State} {e d : Nat} (hs : s'.scopes = s.scopes) (h1 : s'.next = s.next) (h2 : s'.kind = s.kind)
    (hf : f e = none) (ho : own e ≠ none ∨ s.next ≤ e) : Grows f own s (setF f e d) own s' where
  next := by rw [h1]; exact Nat.le_refl _
  kind _ _ := by rw [h2]
  owner _ _ := rfl
  names := setF_mono hf
  free x hx hn := setF_ne (fun h => by subst h; rcases ho with ho | ho; exact ho hn; omega)
  tail := by rw [hs]
  head _ _ h := by rw [hs]; exact h

theorem grows_keep {f own} {s s' : State} (hs : s'.scopes = s.scopes) (h1 : s'.next = s.next) (h2 : s'.kind = s.kind) : Grows f own s f own s' where
  next := by rw [h1]; exact Nat.le_refl _
  kind _ _ := by rw [h2]
  owner _ _ := rfl
  names _ _ h := h
  free _ _ _ := rfl
  tail := by rw [hs]
  head _ _ h := by rw [hs]; exact h

/-- `struct T` in the members of `T`, for the first time. -/
theorem ref_opened {f own} {s : State} {m : St} {c : Marks} (r : Rel f own s m c) {t e : Nat} {k : TagKind} (hk : k ≠ .enum)
    (hc : here c t = some (.opened k)) (hs : here s.scopes t = some e) (hg : get m.scopes (.ident t) = none) :
    ∃ m' o' f', structRef k (.ident t) m = .ok (m', o') ∧ Rel f' own s m' (bind t .declared c) ∧ Grows f own s f' own s ∧ OutsAre f' [s.out e] [o'] := by
  obtain ⟨b, bs, hb, q2, q3, q4, q5, q6, q7⟩ := r.opened hc hs
  let m' : St := { setFields { m with next := m.next + 1 } m.next none with scopes := (fun x => if x = .ident t then some ⟨k, m.next⟩ else b x) :: bs }
  have D : Data (setF f e m.next) s m' := data_name r.data q3 q5 (by rw [q4]; exact hk) rfl rfl (fun _ _ => rfl) rfl (fun d hd => if_neg hd)
    (by rw [q6, show m'.fields m.next = none from if_pos rfl]; trivial)
  refine ⟨m', typeOf m' m.next, setF f e m.next, ?_, ?_, grows_name rfl rfl rfl q5 (.inl q7), out_is D (setF_self _ _ _)⟩
  · unfold structRef
    rw [hg]
    simp only [register]
    rw [add_eq (m := setFields { m with next := m.next + 1 } m.next none) (b := b) (bs := bs) hb q2]
    rfl
  · exact top_step r hs rfl rfl rfl (fun _ _ => rfl) hb rfl (fun n hn => if_neg hn) (if_pos rfl) rfl rfl D (setF_mono q5)
      (fun _ h => setF_ne h) q4.symm (fun _ => setF_self _ _ _)

/-- `struct T`, where no declaration is visible. -/
theorem ref_new {f own} {s : State} {m : St} {c : Marks} (r : Rel f own s m c) {t : Nat} {k : TagKind} (hk : k ≠ .enum)
    (hc : visible c t = none) :
    ∃ m' o' f' own', structRef k (.ident t) m = .ok (m', o') ∧ Rel f' own' (s.declare k t) m' (bind t .declared c) ∧
      Grows f own s f' own' (s.declare k t) ∧ OutsAre f' [(s.declare k t).out s.next] [o'] := by
  have hh := here_of_visible hc
  have r1 := open_step r k hh
  have hs : here (s.declare k t).scopes t = some s.next := here_bind t s.next r.one
  obtain ⟨m', o', f', h1, h2, h3, h4⟩ := ref_opened r1 hk (here_bind t _ r.marks) hs (visible_none r.levels hc).2
  rw [bind_bind] at h2
  exact ⟨m', o', f', _, h1, h2, (open_grows r k hh).trans h3, h4⟩

/-- `struct T`, where one is visible. -/
theorem ref_seen {f own} {s : State} {m : St} {c : Marks} (r : Rel f own s m c) {t : Nat} (k : TagKind) (hc : visible c t = some .declared) :
    ∃ e, visible s.scopes t = some e ∧
      (s.kind e = k → ∃ o', (if k = .enum then enumRef (.ident t) m else structRef k (.ident t) m) = .ok (m, o') ∧ OutsAre f [s.out e] [o']) ∧
      (∀ m' o', (if k = .enum then enumRef (.ident t) m else structRef k (.ident t) m) = .ok (m', o') → s.kind e = k) := by
  obtain ⟨e, d, h1, h2, h3, h4, h5⟩ := visible_declared r.levels hc
  refine ⟨e, h1, fun hk => ?_, fun m' o' h => ?_⟩
  · by_cases hke : k = .enum
    · rw [if_pos hke]
      subst hke
      refine ⟨⟨.int, true⟩, ?_, out_enum hk⟩
      unfold enumRef
      rw [h2]
      exact if_neg (by rw [h4, hk]; exact fun h => h rfl)
    · rw [if_neg hke]
      refine ⟨typeOf m d.data, ?_, out_is r.data (h5 (by rw [h4, hk]; exact hke))⟩
      unfold structRef
      rw [h2]
      exact if_neg (by rw [h4, hk]; exact fun h => h rfl)
  · rw [← h4]
    by_cases hke : k = .enum
    · rw [if_pos hke] at h
      unfold enumRef at h
      rw [h2] at h
      simp only at h
      split at h
      · cases h
      · rename_i hn
        rw [hke]; exact Decidable.not_not.1 hn
    · rw [if_neg hke] at h
      unfold structRef at h
      rw [h2] at h
      simp only at h
      split at h
      · cases h
      · rename_i hn
        exact Decidable.not_not.1 hn

/-- The closing brace of a tag that is still open. -/
theorem close_opened {f own} {s : State} {m : St} {c : Marks} (r : Rel f own s m c) {t e : Nat} {k : TagKind} {om : List TagsSpec.Out} {om' : List Out}
    (hc : here c t = some (.opened k)) (hs : here s.scopes t = some e) (ho : OutsAre f om om') :
    ∃ m' o' f', (if k = .enum then enumDefine (.ident t) m else structDefine k (.ident t) om' m) = .ok (m', o') ∧
      Rel f' own (s.define e om) m' (bind t .declared c) ∧ Grows f own s f' own (s.define e om) ∧ OutsAre f' [(s.define e om).out e] [o'] := by
  obtain ⟨b, bs, hb, q2, q3, q4, q5, q6, q7⟩ := r.opened hc hs
  have hg : getCurrent m.scopes (.ident t) = none := by rw [hb]; exact q2
  by_cases hk : k = .enum
  · rw [if_pos hk]
    subst hk
    let m' : St := { m with next := m.next + 1, scopes := (fun x => if x = .ident t then some ⟨.enum, m.next⟩ else b x) :: bs }
    have D : Data f (s.define e om) m' := data_keep r.data (Nat.le_refl _) (fun _ _ => rfl)
      (fun x _ hx => if_neg (fun h => by subst h; exact hx q4)) (Nat.le_succ _) (fun _ _ => rfl)
    refine ⟨m', ⟨.int, true⟩, f, ?_, ?_, grows_keep rfl rfl rfl, out_enum q4⟩
    · unfold enumDefine
      rw [hg]
      simp only [register]
      rw [add_eq (m := { m with next := m.next + 1 }) (b := b) (bs := bs) hb q2]
      rfl
    · exact top_step r hs rfl rfl rfl (fun x hx => if_neg hx) hb rfl (fun n hn => if_neg hn) (if_pos rfl) rfl rfl D (fun _ _ h => h)
        (fun _ _ => rfl) q4.symm (fun h => (h rfl).elim)
  · rw [if_neg hk]
    let m' : St := setFields { m with next := m.next + 1, scopes := (fun x => if x = .ident t then some ⟨k, m.next⟩ else b x) :: bs } m.next (some (k, om'))
    have D : Data (setF f e m.next) (s.define e om) m' := data_name r.data q3 q5 (by rw [q4]; exact hk) rfl rfl (fun x hx => if_neg hx) rfl
      (fun d hd => if_neg hd) (by
        rw [show m'.fields m.next = some (k, om') from if_pos rfl, show (s.define e om).content e = some om from if_pos rfl]
        exact ⟨q4.symm, outsAre_mono (setF_mono q5) ho⟩)
    refine ⟨m', typeOf m' m.next, setF f e m.next, ?_, ?_, grows_name rfl rfl rfl q5 (.inl q7), out_is D (setF_self _ _ _)⟩
    · unfold structDefine
      rw [hg]
      simp only [register]
      rw [add_eq (m := { m with next := m.next + 1 }) (b := b) (bs := bs) hb q2]
      rfl
    · exact top_step r hs rfl rfl rfl (fun x hx => if_neg hx) hb rfl (fun n hn => if_neg hn) (if_pos rfl) rfl rfl D (setF_mono q5)
        (fun _ h => setF_ne h) q4.symm (fun _ => setF_self _ _ _)

/-- The closing brace of a tag that is declared. -/
theorem close_declared {f own} {s : State} {m : St} {c : Marks} (r : Rel f own s m c) {t e : Nat} {k : TagKind} {om : List TagsSpec.Out} {om' : List Out}
    (hc : here c t = some .declared) (hs : here s.scopes t = some e) (ho : OutsAre f om om') :
    (s.kind e = k → s.content e = none →
      ∃ m' o', (if k = .enum then enumDefine (.ident t) m else structDefine k (.ident t) om' m) = .ok (m', o') ∧
        Rel f own (s.define e om) m' c ∧ Grows f own s f own (s.define e om) ∧ OutsAre f [(s.define e om).out e] [o']) ∧
    (∀ m' o', k ≠ .enum → structDefine k (.ident t) om' m = .ok (m', o') → s.kind e = k ∧ s.content e = none) := by
  obtain ⟨e', b, bs, d, q1, hb, q2, q3, q4, q5⟩ := r.declared hc
  rw [hs] at q1
  injection q1 with q1
  subst q1
  have hg : getCurrent m.scopes (.ident t) = some d := by rw [hb]; exact q2
  have hbind : bind t Mark.declared c = c := bind_same hc
  refine ⟨fun hk hn => ?_, fun m' o' hke h => ?_⟩
  · by_cases hke : k = .enum
    · rw [if_pos hke]
      subst hke
      have D : Data f (s.define e om) m := data_keep r.data (Nat.le_refl _) (fun _ _ => rfl)
        (fun x _ hx => if_neg (fun h => by subst h; exact hx hk)) (Nat.le_refl _) (fun _ _ => rfl)
      refine ⟨m, ⟨.int, true⟩, ?_, ?_, grows_keep rfl rfl rfl, out_enum hk⟩
      · unfold enumDefine
        rw [hg]
        exact if_neg (by rw [q4, hk]; exact fun h => h rfl)
      · rw [← hbind]
        exact top_step r hs rfl rfl rfl (fun x hx => if_neg hx) hb hb (fun n hn => rfl) q2 rfl rfl D (fun _ _ h => h)
          (fun _ _ => rfl) q4 q5
    · rw [if_neg hke]
      have hf := q5 (by rw [q4, hk]; exact hke)
      let m' : St := setFields m d.data (some (k, om'))
      have hnone : m.fields d.data = none := by
        have := (r.dat _ _ hf).2.2.2
        rw [hn] at this
        revert this
        cases m.fields d.data
        · intro; rfl
        · intro h; exact h.elim
      have D : Data f (s.define e om) m' := data_define r.data hf rfl rfl (fun x hx => if_neg hx) rfl (fun x hx => if_neg hx) (by
        rw [show m'.fields d.data = some (k, om') from if_pos rfl, show (s.define e om).content e = some om from if_pos rfl]
        exact ⟨hk.symm, ho⟩)
      refine ⟨m', typeOf m' d.data, ?_, ?_, grows_keep rfl rfl rfl, out_is D hf⟩
      · unfold structDefine
        rw [hg]
        simp only
        rw [if_neg (by rw [q4, hk]; exact fun h => h rfl), hnone]
        rfl
      · rw [← hbind]
        exact top_step r hs rfl rfl rfl (fun x hx => if_neg hx) hb hb (fun n hn => rfl) q2 rfl rfl D (fun _ _ h => h)
          (fun _ _ => rfl) q4 q5
  · unfold structDefine at h
    rw [hg] at h
    simp only at h
    split at h
    · cases h
    · rename_i hk
      have hk := Decidable.not_not.1 hk
      split at h
      · cases h
      · rename_i hn
        refine ⟨q4 ▸ hk, ?_⟩
        have := (r.dat _ _ (q5 (by rw [hk]; exact hke))).2.2.2
        revert this hn
        cases s.content e <;> cases m.fields d.data
        · intros; rfl
        · intro h; exact absurd rfl h
        · intro _ h; exact h.elim
        · intro h; exact absurd rfl h

/-- The closing brace of a type without a tag. -/
theorem close_unnamed {f own} {s : State} {m : St} {c : Marks} (r : Rel f own s m c) {e : Nat} {k : TagKind} {nm : Name} {om : List TagsSpec.Out} {om' : List Out}
    (he : e < s.next) (hk : s.kind e = k) (hf : f e = none) (hw : own e = none) (hg : getCurrent m.scopes nm = none)
    (n1 : ∀ t, Name.ident t ≠ nm) (n2 : ∀ n, m.anonStructs ≤ n → Name.anonStruct n ≠ nm) (n3 : ∀ n, m.anonEnums ≤ n → Name.anonEnum n ≠ nm)
    (ho : OutsAre f om om') :
    ∃ m' o' f', (if k = .enum then enumDefine nm m else structDefine k nm om' m) = .ok (m', o') ∧
      Rel f' own (s.define e om) m' c ∧ (∀ x y, f x = some y → f' x = some y) ∧ (∀ x, x ≠ e → f' x = f x) ∧ OutsAre f' [(s.define e om).out e] [o'] := by
  obtain ⟨_, _, b, bs, _, _, _, hb, _⟩ := r.top
  have q2 : b nm = none := by rw [hb] at hg; exact hg
  by_cases hke : k = .enum
  · rw [if_pos hke]
    subst hke
    let m' : St := { m with next := m.next + 1, scopes := (fun x => if x = nm then some ⟨.enum, m.next⟩ else b x) :: bs }
    have D : Data f (s.define e om) m' := data_keep r.data (Nat.le_refl _) (fun _ _ => rfl)
      (fun x _ hx => if_neg (fun h => by subst h; exact hx hk)) (Nat.le_succ _) (fun _ _ => rfl)
    refine ⟨m', ⟨.int, true⟩, f, ?_, ?_, fun _ _ h => h, fun _ _ => rfl, out_enum hk⟩
    · unfold enumDefine
      rw [hg]
      simp only [register]
      rw [add_eq (m := { m with next := m.next + 1 }) (b := b) (bs := bs) hb q2]
      rfl
    · exact anon_step r hw rfl rfl rfl (fun x hx => if_neg hx) hb rfl (fun t => if_neg (n1 t))
        (fun h => ⟨fun n hn => (if_neg (n2 n hn)).trans (h.1 n hn), fun n hn => (if_neg (n3 n hn)).trans (h.2 n hn)⟩) rfl rfl D (fun _ _ h => h) (fun _ _ => rfl)
  · rw [if_neg hke]
    let m' : St := setFields { m with next := m.next + 1, scopes := (fun x => if x = nm then some ⟨k, m.next⟩ else b x) :: bs } m.next (some (k, om'))
    have D : Data (setF f e m.next) (s.define e om) m' := data_name r.data he hf (by rw [hk]; exact hke) rfl rfl (fun x hx => if_neg hx) rfl
      (fun d hd => if_neg hd) (by
        rw [show m'.fields m.next = some (k, om') from if_pos rfl, show (s.define e om).content e = some om from if_pos rfl]
        exact ⟨hk.symm, outsAre_mono (setF_mono hf) ho⟩)
    refine ⟨m', typeOf m' m.next, setF f e m.next, ?_, ?_, setF_mono hf, fun _ h => setF_ne h, out_is D (setF_self _ _ _)⟩
    · unfold structDefine
      rw [hg]
      simp only [register]
      rw [add_eq (m := { m with next := m.next + 1 }) (b := b) (bs := bs) hb q2]
      rfl
    · exact anon_step r hw rfl rfl rfl (fun x hx => if_neg hx) hb rfl (fun t => if_neg (n1 t))
        (fun h => ⟨fun n hn => (if_neg (n2 n hn)).trans (h.1 n hn), fun n hn => (if_neg (n3 n hn)).trans (h.2 n hn)⟩) rfl rfl D (setF_mono hf)
        (fun _ h => setF_ne h)

/-- The closing brace. -/
theorem close_any {f own} {s : State} {m : St} {c : Marks} (r : Rel f own s m c) {t e : Nat} {k : TagKind} {om : List TagsSpec.Out} {om' : List Out}
    (hs : here s.scopes t = some e) (hk : s.kind e = k) (hn : s.content e = none) (ho : OutsAre f om om') :
    ∃ m' o' f', (if k = .enum then enumDefine (.ident t) m else structDefine k (.ident t) om' m) = .ok (m', o') ∧
      Rel f' own (s.define e om) m' (bind t .declared c) ∧ Grows f own s f' own (s.define e om) ∧ OutsAre f' [(s.define e om).out e] [o'] := by
  cases hc : here c t with
  | none => rw [(r.unmarked hc).1] at hs; cases hs
  | some mk =>
    cases mk with
    | opened k' =>
      obtain ⟨_, _, _, _, _, q, _⟩ := r.opened hc hs
      rw [hk] at q
      subst q
      exact close_opened r hc hs ho
    | declared =>
      obtain ⟨m', o', h1, h2, h3, h4⟩ := (close_declared r hc hs ho).1 hk hn
      exact ⟨m', o', f, h1, by rw [bind_same hc]; exact h2, h3, h4⟩

/-- If the compiler accepts the closing brace, so does C. -/
theorem close_accepted {f own} {s : State} {m m' : St} {c : Marks} (r : Rel f own s m c) {t e : Nat} {k : TagKind} {om : List TagsSpec.Out}
    {om' : List Out} {o' : Out} (hs : here s.scopes t = some e) (hke : k ≠ .enum)
    (hk : ∀ k', here c t = some (.opened k') → s.kind e = k) (ho : OutsAre f om om')
    (h : structDefine k (.ident t) om' m = .ok (m', o')) : s.kind e = k ∧ s.content e = none := by
  cases hc : here c t with
  | none => rw [(r.unmarked hc).1] at hs; cases hs
  | some mk =>
    cases mk with
    | opened k' =>
      obtain ⟨_, _, _, _, _, _, _, q, _⟩ := r.opened hc hs
      exact ⟨hk k' hc, q⟩
    | declared => exact (close_declared (om := om) r hc hs ho).2 m' o' hke h

/-- The names of a type without a tag. -/
theorem unnamed_name {f own} {s : State} {m m1 : St} {c : Marks} {k : TagKind} {ms : List Item} {om : List Out} (r : Rel f own s m c)
    (h : items ms (nameOf k none m).2 = .ok (m1, om)) : getCurrent m1.scopes (nameOf k none m).1 = none ∧
      (∀ t, Name.ident t ≠ (nameOf k none m).1) ∧ (∀ n, m1.anonStructs ≤ n → Name.anonStruct n ≠ (nameOf k none m).1) ∧
      ∀ n, m1.anonEnums ≤ n → Name.anonEnum n ≠ (nameOf k none m).1 := by
  obtain ⟨_, _, b, bs, _, _, _, hb, _, _, ha, _⟩ := r.top
  have K := items_keeps _ _ _ _ h
  revert K
  unfold nameOf
  by_cases hk : k = .enum
  · simp only [if_pos hk]
    intro K
    refine ⟨(K.anonEnum m.anonEnums (Nat.lt_succ_self _)).trans ?_, fun _ h => (by cases h), fun _ _ h => (by cases h), fun n hn h => ?_⟩
    · show getCurrent m.scopes _ = none
      rw [hb]; exact ha.2 _ (Nat.le_refl _)
    · injection h with h
      have := K.enums
      simp only at this
      omega
  · simp only [if_neg hk]
    intro K
    refine ⟨(K.anonStruct m.anonStructs (Nat.lt_succ_self _)).trans ?_, fun _ h => (by cases h), fun n hn h => ?_, fun _ _ h => (by cases h)⟩
    · show getCurrent m.scopes _ = none
      rw [hb]; exact ha.1 _ (Nat.le_refl _)
    · injection h with h
      have := K.structs
      simp only at this
      omega

theorem clear_cons {i : Item} {is : List Item} {c c' : Marks} (h : clear (i :: is) c = some c') :
    ∃ c1, clearItem i c = some c1 ∧ clear is c1 = some c' := by
  rw [clear] at h
  split at h
  · rename_i c1 h1; exact ⟨c1, h1, h⟩
  · cases h

/-- A specifier that refers to a type. -/
theorem item_ref {k : TagKind} {t : Nat} {al : Bool} {m m' : St} {o : Out}
    (h : (if k = .enum then enumRef (.ident t) m else structRef k (.ident t) m) = .ok (m', o)) : item (.ref k t al) m = .ok (m', [o]) := by
  rw [item]
  show Res.bind (if k = .enum then enumRef (.ident t) m else structRef k (.ident t) m) _ = _
  rw [h]; rfl

/-- The marks of a definition. -/
theorem clear_define {k : TagKind} {t : Nat} {ms : List Item} {c c' : Marks} (h : clearItem (.define k (some t) ms) c = some c') :
    ∃ c1, c' = bind t .declared c1 ∧
      ((here c t = none ∧ clear ms (bind t (.opened k) c) = some c1) ∨ ((∀ k', here c t = some (.opened k') → k' = k) ∧ here c t ≠ none ∧ clear ms c = some c1)) := by
  rw [clearItem] at h
  split at h
  · rename_i h0
    obtain ⟨c1, h1, h2⟩ := Option.map_eq_some_iff.1 h
    exact ⟨c1, h2.symm, .inl ⟨h0, h1⟩⟩
  · rename_i h0
    obtain ⟨c1, h1, h2⟩ := Option.map_eq_some_iff.1 h
    exact ⟨c1, h2.symm, .inr ⟨fun k' h => (by rw [h0] at h; cases h), by rw [h0]; exact fun h => (by cases h), h1⟩⟩
  · rename_i k' h0
    split at h
    · rename_i hk
      obtain ⟨c1, h1, h2⟩ := Option.map_eq_some_iff.1 h
      exact ⟨c1, h2.symm, .inr ⟨fun k'' h => (by rw [h0] at h; injection h with h; injection h with h; rw [← h]; exact hk),
        by rw [h0]; exact fun h => (by cases h), h1⟩⟩
    · cases h

theorem grows_unnamed {f f1 f2 own own1} {s s1 : State} {k : TagKind} {om : List TagsSpec.Out}
    (g : Grows f (fun e => if e = s.next then none else own e) (s.create k) f1 own1 s1)
    (h1 : ∀ x y, f1 x = some y → f2 x = some y) (h2 : ∀ x, x ≠ s.next → f2 x = f1 x) :
    Grows f own s f2 own1 (s1.define s.next om) := by
  have g' := (create_grows (f := f) (own := own) s k).trans g
  exact ⟨g'.next, g'.kind, g'.owner, fun e d h => h1 _ _ (g'.names e d h), fun e he hw => (h2 e (Nat.ne_of_lt he)).trans (g'.free e he hw), g'.tail, g'.head⟩

theorem grows_scope {f f1 own own1} {s s1 : State} (g : Grows f own { s with scopes := (fun _ => none) :: s.scopes } f1 own1 s1) :
    Grows f own s f1 own1 { s1 with scopes := s1.scopes.tail } := by
  have ht : s1.scopes.tail = s.scopes := g.tail
  exact ⟨g.next, g.kind, g.owner, g.names, g.free, by show s1.scopes.tail.tail = _; rw [ht], fun t e h => by show here s1.scopes.tail t = _; rw [ht]; exact h⟩

/-- What C says, the compiler does. -/
theorem says_sim {s s' : State} {is : List Item} {o : List TagsSpec.Out} (h : Says s is s' o) :
    ∀ {f own m c c'}, Rel f own s m c → clear is c = some c' →
      ∃ m' o' f' own', items is m = .ok (m', o') ∧ Rel f' own' s' m' c' ∧ Grows f own s f' own' s' ∧ OutsAre f' o o' := by
  induction h with
  | done s =>
    intro f own m c c' r hc
    rw [clear] at hc
    injection hc with hc
    subst hc
    exact ⟨m, [], f, own, by rw [items], r, Grows.refl _ _ _, .nil⟩
  | @seen s s' k t e is o hv hk hcomp _ ih =>
    intro f own m c c' r hc
    obtain ⟨c1, hc1, hc2⟩ := clear_cons hc
    rw [clearItem] at hc1
    split at hc1
    · rename_i h0; rw [(visible_none r.levels h0).1] at hv; cases hv
    · rename_i h0
      injection hc1 with hc1
      subst hc1
      obtain ⟨e', q1, q2, _⟩ := ref_seen r k h0
      rw [hv] at q1
      injection q1 with q1
      subst q1
      obtain ⟨o', q3, q4⟩ := q2 hk
      obtain ⟨m', o2, f', own', w1, w2, w3, w4⟩ := ih r hc2
      exact ⟨m', _, f', own', items_cons_eq (item_ref q3) w1, w2, w3, outsAre_append (outsAre_mono w3.names q4) w4⟩
    · rename_i k' h0
      split at hc1
      · rename_i h1
        injection hc1 with hc1
        subst hc1
        obtain ⟨h1, h2, h3⟩ := h1
        subst h1
        obtain ⟨a, as, b, bs, x, xs, e1, e2, e3, hl, _, hr⟩ := r.top
        subst e3
        have hx : x t = some (.opened k') := h2
        obtain ⟨e', q1, q2, q3, q4, q5, q6, q7⟩ := (levelAt_opened hx).1 (hl t)
        have he : e' = e := by
          rw [e1] at hv; unfold visible at hv; rw [q1] at hv; injection hv
        subst he
        have hke : k' ≠ .enum := fun w => by
          have := hcomp w
          rw [q7] at this; cases this
        have hg : get m.scopes (.ident t) = none := by
          rw [e2]; unfold get; rw [q2]
          exact (visible_none hr h3).2
        obtain ⟨m1, o1, f1, w1, w2, w3, w4⟩ := ref_opened r hke h2 (by rw [e1]; exact q1) hg
        obtain ⟨m', o2, f', own', v1, v2, v3, v4⟩ := ih w2 hc2
        exact ⟨m', _, f', own', items_cons_eq (item_ref (by rw [if_neg hke]; exact w1)) v1, v2, w3.trans v3,
          outsAre_append (outsAre_mono v3.names w4) v4⟩
      · cases hc1
  | @unseen s s' k t is o hv hk _ ih =>
    intro f own m c c' r hc
    obtain ⟨c1, hc1, hc2⟩ := clear_cons hc
    have h0 : visible c t = none := by
      cases h0 : visible c t with
      | none => rfl
      | some mk =>
        rw [clearItem, h0] at hc1
        cases mk with
        | declared => obtain ⟨e, _, q, _⟩ := visible_declared r.levels h0; rw [hv] at q; cases q
        | opened k' =>
          simp only at hc1
          split at hc1
          · rename_i h1
            obtain ⟨a, as, b, bs, x, xs, e1, e2, e3, hl, _, hr⟩ := r.top
            subst e3
            obtain ⟨e', q1, _⟩ := (levelAt_opened (show x t = some (.opened k') from h1.2.1)).1 (hl t)
            rw [e1] at hv; unfold visible at hv; rw [q1] at hv; cases hv
          · cases hc1
    rw [clearItem, h0] at hc1
    injection hc1 with hc1
    subst hc1
    obtain ⟨m1, o1, f1, own1, w1, w2, w3, w4⟩ := ref_new r hk h0
    obtain ⟨m', o2, f', own', v1, v2, v3, v4⟩ := ih w2 hc2
    exact ⟨m', _, f', own', items_cons_eq (item_ref (by rw [if_neg hk]; exact w1)) v1, v2, w3.trans v3,
      outsAre_append (outsAre_mono v3.names w4) v4⟩
  | @again s s' k t e is o hv hk hke _ ih =>
    intro f own m c c' r hc
    obtain ⟨c1, hc1, hc2⟩ := clear_cons hc
    rw [clearItem] at hc1
    split at hc1
    · rename_i h0
      injection hc1 with hc1
      subst hc1
      have h0v : visible c t = some .declared := by
        obtain ⟨_, _, _, _, x, xs, _, _, e3, _⟩ := r.top
        subst e3
        unfold visible; rw [show x t = _ from h0]; rfl
      obtain ⟨e', q1, q2, _⟩ := ref_seen r k h0v
      have he : e' = e := by
        obtain ⟨a, as, _, _, _, _, e1, _⟩ := r.top
        rw [e1] at hv q1
        unfold visible at q1
        rw [show a t = _ from hv] at q1
        injection q1 with q1
        exact q1.symm
      subst he
      obtain ⟨o', q3, q4⟩ := q2 hk
      obtain ⟨m', o2, f', own', w1, w2, w3, w4⟩ := ih r hc2
      exact ⟨m', _, f', own', items_cons_eq (item_ref q3) w1, w2, w3, outsAre_append (outsAre_mono w3.names q4) w4⟩
    · rename_i h0 _; rw [(r.unmarked h0).1] at hv; cases hv
    · cases hc1
  | @alone s s' k t is o hv hke _ ih =>
    intro f own m c c' r hc
    obtain ⟨c1, hc1, hc2⟩ := clear_cons hc
    rw [clearItem] at hc1
    split at hc1
    · rename_i h0
      obtain ⟨e, _, _, _, q, _⟩ := r.declared h0
      rw [hv] at q; cases q
    · rename_i _ h0
      injection hc1 with hc1
      subst hc1
      obtain ⟨m1, o1, f1, own1, w1, w2, w3, w4⟩ := ref_new r hke h0
      obtain ⟨m', o2, f', own', v1, v2, v3, v4⟩ := ih w2 hc2
      exact ⟨m', _, f', own', items_cons_eq (item_ref (by rw [if_neg hke]; exact w1)) v1, v2, w3.trans v3,
        outsAre_append (outsAre_mono v3.names w4) v4⟩
    · cases hc1
  | @define s s1 s' k t ms is om o hv _ hn _ ih1 ih2 =>
    intro f own m c c' r hc
    obtain ⟨c1, hc1, hc2⟩ := clear_cons hc
    obtain ⟨c2, h1, h2⟩ := clear_define hc1
    subst h1
    have h0 : here c t = none := by
      cases h0 : here c t with
      | none => rfl
      | some mk =>
        obtain ⟨a, as, b, bs, x, xs, e1, e2, e3, hl, _, hr⟩ := r.top
        subst e3
        rw [e1] at hv
        cases mk with
        | opened k' => obtain ⟨_, q, _⟩ := (levelAt_opened (show x t = _ from h0)).1 (hl t); rw [show a t = _ from hv] at q; cases q
        | declared => obtain ⟨_, _, q, _⟩ := (levelAt_declared (show x t = _ from h0)).1 (hl t); rw [show a t = _ from hv] at q; cases q
    have h3 : clear ms (bind t (.opened k) c) = some c2 := by
      rcases h2 with h2 | h2
      · exact h2.2
      · exact absurd h0 h2.2.1
    obtain ⟨m1, om', f1, own1, w1, w2, w3, w4⟩ := ih1 (open_step r k h0) h3
    have hs : here s1.scopes t = some s.next := w3.head _ _ (here_bind t s.next r.one)
    have hk : s1.kind s.next = k := (w3.kind _ (Nat.lt_succ_self _)).trans (if_pos rfl)
    obtain ⟨m2, o1, f2, v1, v2, v3, v4⟩ := close_any w2 hs hk hn w4
    obtain ⟨m', o2, f', own', u1, u2, u3, u4⟩ := ih2 v2 hc2
    refine ⟨m', _, f', own', items_cons_eq (item_define_eq w1 v1) u1, u2, ((open_grows r k h0).trans (w3.trans v3)).trans u3, ?_⟩
    exact outsAre_append (outsAre_append (outsAre_mono u3.names v4) (outsAre_mono (v3.trans u3).names w4)) u4
  | @complete s s1 s' k t e ms is om o hv hk _ hn _ ih1 ih2 =>
    intro f own m c c' r hc
    obtain ⟨c1, hc1, hc2⟩ := clear_cons hc
    obtain ⟨c2, h1, h2⟩ := clear_define hc1
    subst h1
    have h3 : clear ms c = some c2 := by
      rcases h2 with h2 | h2
      · rw [(r.unmarked h2.1).1] at hv; cases hv
      · exact h2.2.2
    obtain ⟨m1, om', f1, own1, w1, w2, w3, w4⟩ := ih1 r h3
    have hlt : e < s.next := by
      obtain ⟨a, as, b, bs, x, xs, e1, e2, e3, hl, _, hr⟩ := r.top
      subst e3
      rw [e1] at hv
      have hv : a t = some e := hv
      have q := hl t
      cases hx : x t with
      | none => rw [levelAt_none hx, hv] at q; cases q.1
      | some mk =>
        cases mk with
        | opened k' => obtain ⟨_, q1, _, q3, _⟩ := (levelAt_opened hx).1 q; rw [hv] at q1; injection q1 with q1; subst q1; exact q3
        | declared => obtain ⟨_, _, q1, _, q3, _⟩ := (levelAt_declared hx).1 q; rw [hv] at q1; injection q1 with q1; subst q1; exact q3
    obtain ⟨m2, o1, f2, v1, v2, v3, v4⟩ := close_any w2 (w3.head _ _ hv) ((w3.kind _ hlt).trans hk) hn w4
    obtain ⟨m', o2, f', own', u1, u2, u3, u4⟩ := ih2 v2 hc2
    refine ⟨m', _, f', own', items_cons_eq (item_define_eq w1 v1) u1, u2, (w3.trans v3).trans u3, ?_⟩
    exact outsAre_append (outsAre_append (outsAre_mono u3.names v4) (outsAre_mono (v3.trans u3).names w4)) u4
  | @unnamed s s1 s' k ms is om o _ _ ih1 ih2 =>
    intro f own m c c' r hc
    obtain ⟨c1, hc1, hc2⟩ := clear_cons hc
    rw [clearItem] at hc1
    have r1 := create_step (nameOf_step r k none) k
    obtain ⟨m1, om', f1, own1, w1, w2, w3, w4⟩ := ih1 r1 hc1
    obtain ⟨n0, n1, n2, n3⟩ := unnamed_name r w1
    have hlt : s.next < (s.create k).next := Nat.lt_succ_self _
    have hf : f1 s.next = none := by
      rw [w3.free s.next hlt (if_pos rfl)]
      cases hf : f s.next with
      | none => rfl
      | some d => exact absurd (r.dat _ _ hf).1 (Nat.lt_irrefl _)
    obtain ⟨m2, o1, f2, v1, v2, v3, v3', v4⟩ := close_unnamed w2 (Nat.lt_of_lt_of_le hlt w3.next) ((w3.kind _ hlt).trans (if_pos rfl)) hf
      ((w3.owner _ hlt).trans (if_pos rfl)) n0 n1 n2 n3 w4
    obtain ⟨m', o2, f', own', u1, u2, u3, u4⟩ := ih2 v2 hc2
    refine ⟨m', _, f', own', items_cons_eq (item_define_eq w1 v1) u1, u2, (grows_unnamed w3 v3 v3').trans u3, ?_⟩
    exact outsAre_append (outsAre_append (outsAre_mono u3.names v4) (outsAre_mono (fun x y h => u3.names _ _ (v3 x y h)) w4)) u4
  | @scope s s1 s' is js oi o _ _ ih1 ih2 =>
    intro f own m c c' r hc
    obtain ⟨c1, hc1, hc2⟩ := clear_cons hc
    rw [clearItem] at hc1
    obtain ⟨c2, h1, h2⟩ := Option.map_eq_some_iff.1 hc1
    subst h2
    obtain ⟨m1, o1, f1, own1, w1, w2, w3, w4⟩ := ih1 (push_step r) h1
    have ht : s1.scopes.tail = s.scopes := w3.tail
    have r2 := pop_step w2 (by rw [ht]; exact r.one)
    obtain ⟨m', o2, f', own', u1, u2, u3, u4⟩ := ih2 r2 hc2
    exact ⟨m', _, f', own', items_cons_eq (item_scope_eq w1) u1, u2, (grows_scope w3).trans u3, outsAre_append (outsAre_mono u3.names w4) u4⟩

/-- `item` for a specifier that refers to a type, backwards. -/
theorem item_ref_ok {k : TagKind} {t : Nat} {al : Bool} {m m' : St} {o : List Out} (h : item (.ref k t al) m = .ok (m', o)) :
    ∃ o1, (if k = .enum then enumRef (.ident t) m else structRef k (.ident t) m) = .ok (m', o1) ∧ o = [o1] := by
  rw [item] at h
  obtain ⟨⟨m1, o1⟩, h1, h2⟩ := Res.bind_eq_ok.1 h
  injection h2 with h2
  injection h2 with h2 h3
  subst h2
  exact ⟨o1, h1, h3.symm⟩

theorem bind_keep {t u : Nat} {c : Marks} : (bind t .declared c).tail = c.tail ∧
    (here c u = some .declared → here (bind t .declared c) u = some .declared) := by
  cases c with
  | nil => exact ⟨rfl, fun h => h⟩
  | cons x xs =>
    refine ⟨rfl, fun h => ?_⟩
    show (if u = t then _ else x u) = _
    split
    · rfl
    · exact h

mutual
theorem clearItem_keep : ∀ (i : Item) {c c' : Marks} {u : Nat}, clearItem i c = some c' →
    c'.tail = c.tail ∧ (here c u = some .declared → here c' u = some .declared)
  | .ref k t false, c, c', u, h => by
    rw [clearItem] at h
    split at h
    · injection h with h; subst h; exact bind_keep
    · injection h with h; subst h; exact ⟨rfl, fun h => h⟩
    · split at h
      · injection h with h; subst h; exact bind_keep
      · cases h
  | .ref k t true, c, c', u, h => by
    rw [clearItem] at h
    split at h
    · injection h with h; subst h; exact ⟨rfl, fun h => h⟩
    · injection h with h; subst h; exact bind_keep
    · cases h
  | .define k (some t) ms, c, c', u, h => by
    obtain ⟨c1, h1, h2⟩ := clear_define h
    subst h1
    rcases h2 with ⟨h0, h2⟩ | ⟨_, _, h2⟩
    · have ih := clear_keep ms (u := u) h2
      refine ⟨(bind_keep (u := u)).1.trans (ih.1.trans ?_), fun hu => bind_keep.2 (ih.2 ?_)⟩
      · cases c <;> rfl
      · cases c with
        | nil => exact hu
        | cons x xs =>
          show (if u = t then _ else x u) = _
          rw [if_neg (fun w => by subst w; rw [h0] at hu; cases hu)]
          exact hu
    · have ih := clear_keep ms (u := u) h2
      exact ⟨(bind_keep (u := u)).1.trans ih.1, fun hu => bind_keep.2 (ih.2 hu)⟩
  | .define k none ms, c, c', u, h => by
    rw [clearItem] at h
    exact clear_keep ms h
  | .scope is, c, c', u, h => by
    rw [clearItem] at h
    obtain ⟨c1, h1, h2⟩ := Option.map_eq_some_iff.1 h
    subst h2
    have ih : c1.tail = c := (clear_keep is (u := u) h1).1
    exact ⟨by rw [ih], fun hu => by rw [ih]; exact hu⟩

/-- A declared tag stays declared. -/
theorem clear_keep : ∀ (is : List Item) {c c' : Marks} {u : Nat}, clear is c = some c' →
    c'.tail = c.tail ∧ (here c u = some .declared → here c' u = some .declared)
  | [], c, c', u, h => by
    rw [clear] at h; injection h with h; subst h; exact ⟨rfl, fun h => h⟩
  | i :: is, c, c', u, h => by
    obtain ⟨c1, h1, h2⟩ := clear_cons h
    have a := clearItem_keep i (u := u) h1
    have b := clear_keep is (u := u) h2
    exact ⟨b.1.trans a.1, fun hu => b.2 (a.2 hu)⟩
end

/-- What the compiler accepts, C does. -/
theorem items_sim : ∀ (is : List Item) {s : State} {m m' : St} {o' : List Out} {f own} {c c' : Marks}, records is = true →
    Rel f own s m c → clear is c = some c' → items is m = .ok (m', o') →
      ∃ s' o f' own', Says s is s' o ∧ Rel f' own' s' m' c' ∧ Grows f own s f' own' s' ∧ OutsAre f' o o'
  | [], s, m, m', o', f, own, c, c', _, r, hc, h => by
    rw [clear] at hc
    injection hc with hc
    subst hc
    rw [items] at h
    injection h with h
    injection h with h h'
    subst h h'
    exact ⟨s, [], f, own, .done s, r, Grows.refl _ _ _, .nil⟩
  | .ref k t false :: is, s, m, m', o', f, own, c, c', he, r, hc, h => by
    obtain ⟨m1, o1, o2, h1, h2, h3⟩ := items_cons h
    obtain ⟨o1', h4, h5⟩ := item_ref_ok h1
    subst h3 h5
    obtain ⟨c1, hc1, hc2⟩ := clear_cons hc
    rw [records, Bool.and_eq_true] at he
    have hke : k ≠ .enum := by have := he.1; rw [recordsItem] at this; exact of_decide_eq_true this
    rw [clearItem] at hc1
    split at hc1
    · rename_i h0
      injection hc1 with hc1
      subst hc1
      obtain ⟨m2, o3, f1, own1, w1, w2, w3, w4⟩ := ref_new r hke h0
      rw [if_neg hke, w1] at h4
      injection h4 with h4
      injection h4 with h4 h4'
      subst h4 h4'
      obtain ⟨s', o, f', own', u1, u2, u3, u4⟩ := items_sim is he.2 w2 hc2 h2
      exact ⟨s', _, f', own', .unseen (visible_none r.levels h0).1 hke u1, u2, w3.trans u3, outsAre_append (outsAre_mono u3.names w4) u4⟩
    · rename_i h0
      injection hc1 with hc1
      subst hc1
      obtain ⟨e, q1, q2, q3⟩ := ref_seen r k h0
      have hk := q3 _ _ h4
      obtain ⟨o3, q4, q5⟩ := q2 hk
      rw [q4] at h4
      injection h4 with h4
      injection h4 with h4 h4'
      subst h4 h4'
      obtain ⟨s', o, f', own', u1, u2, u3, u4⟩ := items_sim is he.2 r hc2 h2
      exact ⟨s', _, f', own', .seen q1 hk (fun w => absurd w hke) u1, u2, u3, outsAre_append (outsAre_mono u3.names q5) u4⟩
    · rename_i k' h0
      split at hc1
      · rename_i hh
        injection hc1 with hc1
        subst hc1
        obtain ⟨hk', hh1, hh2⟩ := hh
        subst hk'
        obtain ⟨a, as, b, bs, x, xs, e1, e2, e3, hl, _, hr⟩ := r.top
        subst e3
        have hx : x t = some (.opened k') := hh1
        obtain ⟨e, q1, q2, q3, q4, q5, q6, q7⟩ := (levelAt_opened hx).1 (hl t)
        have hg : get m.scopes (.ident t) = none := by
          rw [e2]; unfold get; rw [q2]
          exact (visible_none hr hh2).2
        obtain ⟨m2, o3, f1, w1, w2, w3, w4⟩ := ref_opened r hke hh1 (by rw [e1]; exact q1) hg
        rw [if_neg hke, w1] at h4
        injection h4 with h4
        injection h4 with h4 h4'
        subst h4 h4'
        obtain ⟨s', o, f', own', u1, u2, u3, u4⟩ := items_sim is he.2 w2 hc2 h2
        have hvis : visible s.scopes t = some e := by rw [e1]; unfold visible; rw [q1]; rfl
        exact ⟨s', _, f', own', .seen hvis q5 (fun w => absurd w hke) u1, u2, w3.trans u3, outsAre_append (outsAre_mono u3.names w4) u4⟩
      · cases hc1
  | .ref k t true :: is, s, m, m', o', f, own, c, c', he, r, hc, h => by
    obtain ⟨m1, o1, o2, h1, h2, h3⟩ := items_cons h
    obtain ⟨o1', h4, h5⟩ := item_ref_ok h1
    subst h3 h5
    obtain ⟨c1, hc1, hc2⟩ := clear_cons hc
    rw [records, Bool.and_eq_true] at he
    have hke : k ≠ .enum := by have := he.1; rw [recordsItem] at this; exact of_decide_eq_true this
    rw [clearItem] at hc1
    split at hc1
    · rename_i h0
      injection hc1 with hc1
      subst hc1
      have h0v : visible c t = some .declared := by
        obtain ⟨_, _, _, _, x, xs, _, _, e3, _⟩ := r.top
        subst e3
        unfold visible; rw [show x t = _ from h0]; rfl
      obtain ⟨e, q1, q2, q3⟩ := ref_seen r k h0v
      have hhere : here s.scopes t = some e := by
        obtain ⟨e', _, _, _, p1, _⟩ := r.declared h0
        obtain ⟨a, as, _, _, _, _, e1, _⟩ := r.top
        rw [e1] at p1 q1 ⊢
        unfold visible at q1
        rw [show a t = _ from p1] at q1
        injection q1 with q1
        rw [← q1]; exact p1
      have hk := q3 _ _ h4
      obtain ⟨o3, q4, q5⟩ := q2 hk
      rw [q4] at h4
      injection h4 with h4
      injection h4 with h4 h4'
      subst h4 h4'
      obtain ⟨s', o, f', own', u1, u2, u3, u4⟩ := items_sim is he.2 r hc2 h2
      exact ⟨s', _, f', own', .again hhere hk hke u1, u2, u3, outsAre_append (outsAre_mono u3.names q5) u4⟩
    · rename_i hh h0
      injection hc1 with hc1
      subst hc1
      obtain ⟨m2, o3, f1, own1, w1, w2, w3, w4⟩ := ref_new r hke h0
      rw [if_neg hke, w1] at h4
      injection h4 with h4
      injection h4 with h4 h4'
      subst h4 h4'
      obtain ⟨s', o, f', own', u1, u2, u3, u4⟩ := items_sim is he.2 w2 hc2 h2
      exact ⟨s', _, f', own', .alone (r.unmarked hh).1 hke u1, u2, w3.trans u3, outsAre_append (outsAre_mono u3.names w4) u4⟩
    · cases hc1
  | .define k (some t) ms :: is, s, m, m', o', f, own, c, c', he, r, hc, h => by
    obtain ⟨m1, o1, o2, h1, h2, h3⟩ := items_cons h
    subst h3
    obtain ⟨m2, om', o3, h4, h5, h6⟩ := item_define h1
    subst h6
    obtain ⟨c1, hc1, hc2⟩ := clear_cons hc
    obtain ⟨c2, h7, h8⟩ := clear_define hc1
    subst h7
    rw [records, Bool.and_eq_true] at he
    have hke : k ≠ .enum := by have := he.1; rw [recordsItem, Bool.and_eq_true] at this; exact of_decide_eq_true this.1
    have hms : records ms = true := by have := he.1; rw [recordsItem, Bool.and_eq_true] at this; exact this.2
    rcases h8 with ⟨h0, h8⟩ | ⟨hop, h0, h8⟩
    · obtain ⟨s1, om, f1, own1, w1, w2, w3, w4⟩ := items_sim ms hms (open_step r k h0) h8 h4
      have hs : here s1.scopes t = some s.next := w3.head _ _ (here_bind t s.next r.one)
      have hk : s1.kind s.next = k := (w3.kind _ (Nat.lt_succ_self _)).trans (if_pos rfl)
      have hn := (close_accepted w2 hs hke (fun _ _ => hk) w4 (by rw [if_neg hke] at h5; exact h5)).2
      obtain ⟨m3, o4, f2, v1, v2, v3, v4⟩ := close_any w2 hs hk hn w4
      rw [show (nameOf k (some t) m).1 = .ident t from rfl, v1] at h5
      injection h5 with h5
      injection h5 with h5 h5'
      subst h5 h5'
      obtain ⟨s', o, f', own', u1, u2, u3, u4⟩ := items_sim is he.2 v2 hc2 h2
      refine ⟨s', _, f', own', .define (r.unmarked h0).1 w1 hn u1, u2, ((open_grows r k h0).trans (w3.trans v3)).trans u3, ?_⟩
      exact outsAre_append (outsAre_append (outsAre_mono u3.names v4) (outsAre_mono (v3.trans u3).names w4)) u4
    · obtain ⟨s1, om, f1, own1, w1, w2, w3, w4⟩ := items_sim ms hms r h8 h4
      obtain ⟨e, hs, hlt, hkind⟩ : ∃ e, here s.scopes t = some e ∧ e < s.next ∧ ∀ k', here c t = some (.opened k') → s.kind e = k := by
        cases hc : here c t with
        | none => exact absurd hc h0
        | some mk =>
          obtain ⟨a, as, b, bs, x, xs, e1, e2, e3, hl, _, hr⟩ := r.top
          subst e3
          cases mk with
          | opened k' =>
            obtain ⟨e, q1, _, q3, _, q5, _⟩ := (levelAt_opened (show x t = _ from hc)).1 (hl t)
            exact ⟨e, by rw [e1]; exact q1, q3, fun _ _ => q5.trans (hop k' hc)⟩
          | declared =>
            obtain ⟨e, _, q1, _, q3, _⟩ := (levelAt_declared (show x t = _ from hc)).1 (hl t)
            exact ⟨e, by rw [e1]; exact q1, q3, fun _ h => by cases h⟩
      have hs1 := w3.head _ _ hs
      have hcl : s1.kind e = k ∧ s1.content e = none := by
        cases hc1 : here c2 t with
        | none => rw [(w2.unmarked hc1).1] at hs1; cases hs1
        | some mk =>
          rw [if_neg hke] at h5
          cases mk with
          | declared => exact (close_declared (om := om) w2 hc1 hs1 w4).2 _ _ hke h5
          | opened k' =>
            obtain ⟨_, _, _, _, _, q, _, q', _⟩ := w2.opened hc1 hs1
            refine ⟨?_, q'⟩
            cases hc : here c t with
            | none => exact absurd hc h0
            | some mk =>
              cases mk with
              | opened k'' => exact (w3.kind _ hlt).trans (hkind k'' hc)
              | declared =>
                rw [(clear_keep ms h8).2 hc] at hc1; cases hc1
      obtain ⟨m3, o4, f2, v1, v2, v3, v4⟩ := close_any w2 hs1 hcl.1 hcl.2 w4
      rw [show (nameOf k (some t) m).1 = .ident t from rfl, v1] at h5
      injection h5 with h5
      injection h5 with h5 h5'
      subst h5 h5'
      obtain ⟨s', o, f', own', u1, u2, u3, u4⟩ := items_sim is he.2 v2 hc2 h2
      refine ⟨s', _, f', own', .complete hs ((w3.kind _ hlt).symm.trans hcl.1) w1 hcl.2 u1, u2, (w3.trans v3).trans u3, ?_⟩
      exact outsAre_append (outsAre_append (outsAre_mono u3.names v4) (outsAre_mono (v3.trans u3).names w4)) u4
  | .define k none ms :: is, s, m, m', o', f, own, c, c', he, r, hc, h => by
    obtain ⟨m1, o1, o2, h1, h2, h3⟩ := items_cons h
    subst h3
    obtain ⟨m2, om', o3, h4, h5, h6⟩ := item_define h1
    subst h6
    obtain ⟨c1, hc1, hc2⟩ := clear_cons hc
    rw [clearItem] at hc1
    rw [records, Bool.and_eq_true] at he
    have hms : records ms = true := by have := he.1; rw [recordsItem, Bool.and_eq_true] at this; exact this.2
    have r1 := create_step (nameOf_step r k none) k
    obtain ⟨s1, om, f1, own1, w1, w2, w3, w4⟩ := items_sim ms hms r1 hc1 h4
    obtain ⟨n0, n1, n2, n3⟩ := unnamed_name r h4
    have hlt : s.next < (s.create k).next := Nat.lt_succ_self _
    have hf : f1 s.next = none := by
      rw [w3.free s.next hlt (if_pos rfl)]
      cases hf : f s.next with
      | none => rfl
      | some d => exact absurd (r.dat _ _ hf).1 (Nat.lt_irrefl _)
    obtain ⟨m3, o4, f2, v1, v2, v3, v3', v4⟩ := close_unnamed w2 (Nat.lt_of_lt_of_le hlt w3.next) ((w3.kind _ hlt).trans (if_pos rfl)) hf
      ((w3.owner _ hlt).trans (if_pos rfl)) n0 n1 n2 n3 w4
    rw [v1] at h5
    injection h5 with h5
    injection h5 with h5 h5'
    subst h5 h5'
    obtain ⟨s', o, f', own', u1, u2, u3, u4⟩ := items_sim is he.2 v2 hc2 h2
    refine ⟨s', _, f', own', .unnamed w1 u1, u2, (grows_unnamed w3 v3 v3').trans u3, ?_⟩
    exact outsAre_append (outsAre_append (outsAre_mono u3.names v4) (outsAre_mono (fun x y h => u3.names _ _ (v3 x y h)) w4)) u4
  | .scope js :: is, s, m, m', o', f, own, c, c', he, r, hc, h => by
    obtain ⟨m1, o1, o2, h1, h2, h3⟩ := items_cons h
    subst h3
    obtain ⟨m2, h4, h5⟩ := item_scope h1
    subst h5
    obtain ⟨c1, hc1, hc2⟩ := clear_cons hc
    rw [clearItem] at hc1
    obtain ⟨c2, h7, h8⟩ := Option.map_eq_some_iff.1 hc1
    subst h8
    rw [records, Bool.and_eq_true] at he
    have hjs : records js = true := by have := he.1; rw [recordsItem] at this; exact this
    obtain ⟨s1, oi, f1, own1, w1, w2, w3, w4⟩ := items_sim js hjs (push_step r) h7 h4
    have ht : s1.scopes.tail = s.scopes := w3.tail
    have r2 := pop_step w2 (by rw [ht]; exact r.one)
    obtain ⟨s', o, f', own', u1, u2, u3, u4⟩ := items_sim is he.2 r2 hc2 h2
    exact ⟨s', _, f', own', .scope w1 u1, u2, (grows_scope w3).trans u3, outsAre_append (outsAre_mono u3.names w4) u4⟩

end Verif.Tags
