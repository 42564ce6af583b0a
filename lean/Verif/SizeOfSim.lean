import Verif.SizeOfLemmas
/-! The parser follows the specification; lemmas for SizeOfProps. -/
namespace Verif.SizeOf
open Verif SizeOfSpec

/-- The names of the parser stand for the names in scope. -/
def EnvRep (Γ : Env) (p : P) (regs : Nat → V) : Prop :=
  ∀ x, (∀ c, Γ x = some (.tdef c) → ∃ t, p.find x = some (.tdef t) ∧ Rep regs p.next t c) ∧
    (∀ c, Γ x = some (.obj c) → ∃ t, p.find x = some (.obj t) ∧ Rep regs p.next t c)

theorem EnvRep.mono {Γ : Env} {p q : P} {regs regs' : Nat → V} (h : EnvRep Γ p regs) (hs : Same p.next regs regs')
    (hn : q.names = p.names) (hk : p.next ≤ q.next) : EnvRep Γ q regs' := by
  intro x
  have hf : q.find x = p.find x := by simp only [P.find, hn]
  refine ⟨fun c hc => ?_, fun c hc => ?_⟩
  · obtain ⟨t, h1, h2⟩ := (h x).1 c hc
    exact ⟨t, by rw [hf, h1], Rep.mono hs hk t c h2⟩
  · obtain ⟨t, h1, h2⟩ := (h x).2 c hc
    exact ⟨t, by rw [hf, h1], Rep.mono hs hk t c h2⟩

/-- What has been written from `p` to `q`: it changes no variable and no earlier instruction. -/
structure Step (m : M) (p q : P) (r r' : R) : Prop where
  names : q.names = p.names
  next : p.next ≤ q.next
  code : ∃ code, q.code = p.code ++ code ∧ runAll m code r = ([], r')
  same : Same p.next r.regs r'.regs

theorem Step.refl (m : M) (p : P) (r : R) : Step m p p r r :=
  ⟨rfl, Nat.le_refl _, ⟨[], by simp, rfl⟩, Same.refl _ _⟩

theorem Step.trans {m : M} {p q o : P} {r r1 r2 : R} (h1 : Step m p q r r1) (h2 : Step m q o r1 r2) : Step m p o r r2 := by
  obtain ⟨a, b, ⟨c, d, e⟩, f⟩ := h1
  obtain ⟨a', b', ⟨c', d', e'⟩, f'⟩ := h2
  exact ⟨a'.trans a, Nat.le_trans b b', ⟨c ++ c', by rw [d', d, List.append_assoc], runAll_two e e'⟩, f.trans f' b⟩

theorem Step.env {m : M} {Γ : Env} {p q : P} {r r' : R} (h : Step m p q r r') (he : EnvRep Γ p r.regs) :
    EnvRep Γ q r'.regs := he.mono h.same h.names h.next

/-- An expression has been read as it should. -/
structure SoundE (m : M) (Γ : Env) (W : List Nat) (e : E) (c : CT) (p : P) (r : R) (te : TE) (t : Ty) (q : P) (r' : R) : Prop where
  parse : parseE e p = .ok (te, t, q)
  step : Step m p q r r'
  vars : r'.vars = r.vars
  rep : Rep r'.regs q.next t c
  pure : writesE e = [] → ∀ regs vars, (te.eval m regs vars).2 = vars
  const : (∃ v, te = .const v) → constE Γ e = true ∧ c = .ulong
  value : ∀ regs vars, Same q.next r'.regs regs → (∀ x, x ∉ W → vars x = r.vars x) → ∀ v vars',
    evalE m Γ e vars = some (v, vars') → te.eval m regs vars = (⟨8, v⟩, vars')

/-- A type has been evaluated as it should. -/
structure SoundV (m : M) (Γ : Env) (t : T) (ty : Ty) (q : P) (r : R) (ty' : Ty) (q' : P) (r' : R) : Prop where
  eval : evaluateVla ty q = (ty', q')
  step : Step m q q' r r'
  done : Done ty'
  kind : hasVariableSize ty' = hasVariableSize ty
  pure : writesT t = [] → r'.vars = r.vars

/-- A type has been read as it should. -/
structure SoundT (m : M) (Γ : Env) (W : List Nat) (t : T) (p : P) (r : R) (ty : Ty) (q : P) (r' : R) : Prop where
  parse : parseT t p = .ok (ty, q)
  step : Step m p q r r'
  vars : r'.vars = r.vars
  const : hasVariableSize ty = false → constT Γ t = true
  evaluate : ∀ q1 r1, q.next ≤ q1.next → Same q.next r'.regs r1.regs → ∃ ty' q2 r2,
    SoundV m Γ t ty q1 r1 ty' q2 r2 ∧
    ((∀ x, x ∉ W → r1.vars x = r.vars x) → ∀ c s', evalT m Γ t r1.vars = some (c, s') →
      r2.vars = s' ∧ Rep r2.regs q2.next ty' c)

theorem decay_rep {regs : Nat → V} {n : Nat} {t : Ty} {c u : CT} (h : Rep regs n t c) (hc : c.decay = .pointer u) :
    ∃ v, decay t = .pointer v ∧ Rep regs n v u := by
  cases t with
  | vla len t =>
    cases len with
    | pending e => cases c <;> simp [Rep] at h
    | done r =>
      cases c <;> simp only [Rep] at h
      simp only [CT.decay, CT.pointer.injEq] at hc; subst hc
      exact ⟨t, rfl, h.2.2⟩
  | array v t =>
    cases c <;> simp only [Rep] at h
    simp only [CT.decay, CT.pointer.injEq] at hc; subst hc
    exact ⟨t, rfl, h.2.2⟩
  | unknown t =>
    cases c <;> simp only [Rep] at h
    simp only [CT.decay, CT.pointer.injEq] at hc; subst hc
    exact ⟨t, rfl, h⟩
  | pointer t =>
    cases c <;> simp only [Rep] at h
    simp only [CT.decay, CT.pointer.injEq] at hc; subst hc
    exact ⟨t, rfl, h⟩
  | _ => cases c <;> simp_all [Rep, CT.decay]

theorem Rep.ulong {regs : Nat → V} {n : Nat} {t : Ty} (h : Rep regs n t .ulong) : t = .ulong := by
  cases t with
  | vla len t => cases len <;> simp [Rep] at h
  | ulong => rfl
  | _ => simp [Rep] at h

theorem Rep.pointer {regs : Nat → V} {n : Nat} {t : Ty} {c : CT} (h : Rep regs n t (.pointer c)) : ∃ u, t = .pointer u := by
  cases t with
  | vla len t => cases len <;> simp [Rep] at h
  | pointer u => exact ⟨u, rfl⟩
  | _ => simp [Rep] at h

theorem decay_modest {c u : CT} (h : c.Modest) (hc : c.decay = .pointer u) : u.Modest := by
  cases c <;> simp only [CT.decay, CT.pointer.injEq, reduceCtorEq] at hc <;> subst hc <;> simp only [CT.Modest] at h
  · exact h
  · exact h
  · exact h.2

/-- The types of expressions are modest. -/
theorem modest_typeE {Γ : Env} (hΓ : EnvModest Γ) : ∀ (e : E) (c : CT), typeE Γ e = some c → c.Modest
  | .lit _, c, h => by simp only [typeE, Option.some.injEq] at h; subst h; trivial
  | .var x, c, h => by
    simp only [typeE] at h
    split at h
    · rename_i t ht
      split at h
      · simp only [Option.some.injEq] at h; subst h; exact (hΓ x).2 _ ht
      · cases h
    · cases h
  | .assign x e, c, h => by
    simp only [typeE] at h
    split at h
    · simp only [Option.some.injEq] at h; subst h; trivial
    · rename_i t c1 ht _
      split at h
      · simp only [Option.some.injEq] at h; subst h; exact (hΓ x).2 _ ht
      · cases h
    · cases h
  | .add a b, c, h => by
    simp only [typeE] at h
    split at h
    · simp only [Option.some.injEq] at h; subst h; trivial
    · cases h
  | .mul a b, c, h => by
    simp only [typeE] at h
    split at h
    · simp only [Option.some.injEq] at h; subst h; trivial
    · cases h
  | .plus a b, c, h => by
    simp only [typeE] at h
    split at h
    · rename_i c1 h1 _
      split at h
      · rename_i t ht
        split at h
        · simp only [Option.some.injEq] at h; subst h
          rw [CT.Modest]
          exact decay_modest (modest_typeE hΓ a c1 h1) ht
        · cases h
      · cases h
    · cases h
  | .deref a, c, h => by
    simp only [typeE] at h
    split at h
    · rename_i c1 h1
      split at h
      · rename_i t ht
        simp only [Option.some.injEq] at h; subst h
        exact decay_modest (modest_typeE hΓ a c1 h1) ht
      · cases h
    · cases h
  | .comma a b, c, h => by
    simp only [typeE] at h
    split at h
    · simp only [Option.some.injEq] at h; subst h; trivial
    · cases h
  | .cond _ a b, c, h => by
    simp only [typeE] at h
    split at h
    · simp only [Option.some.injEq] at h; subst h; trivial
    · cases h
  | .sizeofType t, c, h => by
    simp only [typeE] at h
    split at h
    · simp only [Option.some.injEq] at h; subst h; trivial
    · cases h
  | .sizeofExpr e, c, h => by
    simp only [typeE] at h
    split at h
    · simp only [Option.some.injEq] at h; subst h; trivial
    · cases h

/-- Two operands one after the other. -/
theorem SoundE.then_value {m : M} {Γ : Env} {W : List Nat} {a b : E} {ca cb : CT} {p q o : P} {r r1 r2 : R} {ta tb : TE} {tya tyb : Ty}
    (ha : SoundE m Γ W a ca p r ta tya q r1) (hb : SoundE m Γ W b cb q r1 tb tyb o r2) (hw : ∀ x ∈ writesE a, x ∈ W)
    {regs : Nat → V} {vars s1 s2 : Vars} {v w : BitVec 64} (hs : Same o.next r2.regs regs) (hv : ∀ x, x ∉ W → vars x = r.vars x)
    (h1 : evalE m Γ a vars = some (v, s1)) (h2 : evalE m Γ b s1 = some (w, s2)) :
    ta.eval m regs vars = (⟨8, v⟩, s1) ∧ tb.eval m regs s1 = (⟨8, w⟩, s2) ∧ (∀ x, x ∉ W → s1 x = r.vars x) := by
  have hf : ∀ x, x ∉ W → s1 x = r.vars x := fun x hx => by
    rw [evalE_frame m Γ x a _ _ _ h1 (fun h => hx (hw x h)), hv x hx]
  refine ⟨ha.value regs vars ?_ hv v s1 h1, hb.value regs s1 hs (by rw [ha.vars]; exact hf) w s2 h2, hf⟩
  exact hb.step.same.trans hs hb.step.next

/-- The first operand alone. -/
theorem SoundE.first_value {m : M} {Γ : Env} {W : List Nat} {a : E} {ca : CT} {p q o : P} {r r1 r2 : R} {ta : TE} {tya : Ty}
    (ha : SoundE m Γ W a ca p r ta tya q r1) (hb : Step m q o r1 r2)
    {regs : Nat → V} {vars s1 : Vars} {v : BitVec 64} (hs : Same o.next r2.regs regs) (hv : ∀ x, x ∉ W → vars x = r.vars x)
    (h1 : evalE m Γ a vars = some (v, s1)) : ta.eval m regs vars = (⟨8, v⟩, s1) :=
  ha.value regs vars (hb.same.trans hs hb.next) hv v s1 h1

theorem binary_eval (m : M) (op : TE → TE → TE) (f : BitVec 64 → BitVec 64 → BitVec 64)
    (hop : ∀ a b regs vars, (op a b).eval m regs vars =
      (⟨8, f (a.eval m regs vars).1.bits (b.eval m regs (a.eval m regs vars).2).1.bits⟩, (b.eval m regs (a.eval m regs vars).2).2))
    (a b : TE) (regs : Nat → V) (vars : Vars) : (binary op f a b).eval m regs vars =
      (⟨8, f (a.eval m regs vars).1.bits (b.eval m regs (a.eval m regs vars).2).1.bits⟩, (b.eval m regs (a.eval m regs vars).2).2) := by
  unfold binary
  split
  · rfl
  · exact hop a b regs vars

theorem binary_const {op : TE → TE → TE} {f : BitVec 64 → BitVec 64 → BitVec 64} (hop : ∀ a b v, op a b ≠ .const v)
    {a b : TE} {v : BitVec 64} (h : binary op f a b = .const v) : (∃ v, a = .const v) ∧ (∃ v, b = .const v) := by
  unfold binary at h
  split at h
  · exact ⟨⟨_, rfl⟩, ⟨_, rfl⟩⟩
  · exact (hop _ _ _ h).elim

/-- A product or a sum. -/
theorem sound_binary {m : M} {Γ : Env} {W : List Nat} {a b e : E} {p q o : P} {r r1 r2 : R} {ta tb : TE} {tya tyb : Ty} {ca cb : CT}
    {op : TE → TE → TE} {f : BitVec 64 → BitVec 64 → BitVec 64}
    (hop : ∀ a b regs vars, (op a b).eval m regs vars =
      (⟨8, f (a.eval m regs vars).1.bits (b.eval m regs (a.eval m regs vars).2).1.bits⟩, (b.eval m regs (a.eval m regs vars).2).2))
    (hoc : ∀ a b v, op a b ≠ .const v)
    (ha : SoundE m Γ W a ca p r ta tya q r1) (hb : SoundE m Γ W b cb q r1 tb tyb o r2) (hw : ∀ x ∈ writesE a, x ∈ W)
    (hpe : parseE e p = .ok (binary op f ta tb, .ulong, o)) (hwe : writesE e = writesE a ++ writesE b)
    (hce : constE Γ e = (constE Γ a && constE Γ b))
    (hee : ∀ s v s', evalE m Γ e s = some (v, s') → ∃ v1 s1 v2, evalE m Γ a s = some (v1, s1) ∧ evalE m Γ b s1 = some (v2, s') ∧ v = f v1 v2) :
    SoundE m Γ W e .ulong p r (binary op f ta tb) .ulong o r2 := by
  refine ⟨hpe, ha.step.trans hb.step, hb.vars.trans ha.vars, trivial, ?_, ?_, ?_⟩
  · intro h regs vars
    rw [hwe, List.append_eq_nil_iff] at h
    rw [binary_eval m op f hop]
    dsimp only
    rw [hb.pure h.2, ha.pure h.1]
  · rintro ⟨v, hv⟩
    obtain ⟨h1, h2⟩ := binary_const hoc hv
    rw [hce, (ha.const h1).1, (hb.const h2).1]
    exact ⟨rfl, rfl⟩
  · intro regs vars hs hv v vars' he
    obtain ⟨v1, s1, v2, h1, h2, rfl⟩ := hee _ _ _ he
    obtain ⟨h3, h4, _⟩ := ha.then_value hb hw hs hv h1 h2
    rw [binary_eval m op f hop, h3]
    dsimp only
    rw [h4]

mutual
/-- Reading an expression. -/
theorem soundE (m : M) (Γ : Env) (hΓ : EnvModest Γ) (W : List Nat) : ∀ (e : E) (c : CT) (p : P) (r : R), EnvRep Γ p r.regs →
    typeE Γ e = some c → TameE m Γ e → (∀ x ∈ writesE e, x ∈ W) → (∀ x ∈ lengthsE e, x ∉ W) →
    ∃ te t q r', SoundE m Γ W e c p r te t q r'
  | .lit v, c, p, r, _, ht, _, _, _ => by
    simp only [typeE, Option.some.injEq] at ht
    subst ht
    refine ⟨.const v, .ulong, p, r, by rw [parseE], .refl _ _ _, rfl, trivial, fun _ _ _ => rfl, fun _ => ⟨by rw [constE], rfl⟩, ?_⟩
    intro regs vars _ _ w s h
    simp only [evalE, Option.some.injEq, Prod.mk.injEq] at h
    obtain ⟨rfl, rfl⟩ := h
    rfl
  | .var x, c, p, r, hr, ht, _, _, _ => by
    simp only [typeE] at ht
    split at ht
    · rename_i c1 hc
      split at ht
      · rename_i hk
        simp only [Option.some.injEq] at ht
        subst ht
        obtain ⟨t, h1, h2⟩ := (hr x).2 _ hc
        have hld : (t = .ulong ∨ ∃ u, t = .pointer u) → c1.isArray = false →
            ∃ te t q r', SoundE m Γ W (.var x) c1 p r te t q r' := by
          intro ht hca
          refine ⟨.load x, t, p, r, ?_, .refl _ _ _, rfl, h2, fun _ _ _ => rfl, (by rintro ⟨v, hv⟩; cases hv), ?_⟩
          · rw [parseE, h1]
            rcases ht with rfl | ⟨u, rfl⟩ <;> rfl
          · intro regs vars _ _ w s h
            rw [evalE, hc] at h
            simp only [hca, Bool.false_eq_true, if_false, Option.some.injEq, Prod.mk.injEq] at h
            obtain ⟨rfl, rfl⟩ := h
            rfl
        have had : ((∃ n u, t = .array n u) ∨ (∃ u, t = .unknown u) ∨ (∃ l u, t = .vla l u)) → c1.isArray = true →
            ∃ te t q r', SoundE m Γ W (.var x) c1 p r te t q r' := by
          intro ht hca
          refine ⟨.addr x, t, p, r, ?_, .refl _ _ _, rfl, h2, fun _ _ _ => rfl, (by rintro ⟨v, hv⟩; cases hv), ?_⟩
          · rw [parseE, h1]
            rcases ht with ⟨n, u, rfl⟩ | ⟨u, rfl⟩ | ⟨l, u, rfl⟩ <;> rfl
          · intro regs vars _ _ w s h
            rw [evalE, hc] at h
            simp only [hca, if_true, Option.some.injEq, Prod.mk.injEq] at h
            obtain ⟨rfl, rfl⟩ := h
            rfl
        cases c1 with
        | ulong => exact hld (.inl h2.ulong) rfl
        | pointer u => exact hld (.inr h2.pointer) rfl
        | array n b u => exact had (by cases t <;> simp_all [Rep]) rfl
        | unknown u => exact had (by cases t <;> simp_all [Rep]) rfl
        | _ => simp [CT.isArray, CT.isPointer] at hk
      · cases ht
    · cases ht
  | .assign x e, c, p, r, hr, ht, hta, hw, hl => by
    simp only [TameE] at hta
    simp only [writesE, List.mem_cons] at hw
    simp only [lengthsE] at hl
    have hte : ∃ ce, typeE Γ e = some ce := by
      simp only [typeE] at ht
      split at ht
      · rename_i h; exact ⟨_, h⟩
      · rename_i h; exact ⟨_, h⟩
      · cases ht
    obtain ⟨ce, hce⟩ := hte
    obtain ⟨te, t, q, r', h⟩ := soundE m Γ hΓ W e ce p r hr hce hta (fun y hy => hw y (.inr hy)) hl
    have hr' := h.step.env hr
    have fin : ∀ t1, parseE (.assign x e) p = .ok (.assign x te, t1, q) → Rep r'.regs q.next t1 c →
        ∃ te t q r', SoundE m Γ W (.assign x e) c p r te t q r' := by
      intro t1 hp hrep
      refine ⟨.assign x te, t1, q, r', hp, h.step, h.vars, hrep, by simp [writesE], (by rintro ⟨v, hv⟩; cases hv), ?_⟩
      intro regs vars hs hv w s he
      simp only [evalE] at he
      split at he
      · rename_i v1 s1 h1
        simp only [Option.some.injEq, Prod.mk.injEq] at he
        obtain ⟨rfl, rfl⟩ := he
        simp only [TE.eval, h.value regs vars hs hv _ _ h1]
      · cases he
    simp only [typeE] at ht
    split at ht
    · rename_i hx _
      simp only [Option.some.injEq] at ht; subst ht
      obtain ⟨t1, h1, h2⟩ := (hr' x).2 _ hx
      have : t1 = .ulong := h2.ulong
      subst this
      exact fin .ulong (by rw [parseE, h.parse, Res.bind_ok]; simp only [h1]) h2
    · rename_i u _ hx _
      split at ht
      · simp only [Option.some.injEq] at ht; subst ht
        obtain ⟨t1, h1, h2⟩ := (hr' x).2 _ hx
        have : ∃ v, t1 = .pointer v := h2.pointer
        obtain ⟨v, rfl⟩ := this
        exact fin (.pointer v) (by rw [parseE, h.parse, Res.bind_ok]; simp only [h1]) h2
      · cases ht
    · cases ht
  | .add a b, c, p, r, hr, ht, hta, hw, hl => by
    simp only [TameE] at hta
    simp only [writesE, List.mem_append] at hw
    simp only [lengthsE, List.mem_append] at hl
    simp only [typeE] at ht
    split at ht
    · rename_i hab
      simp only [Option.some.injEq] at ht; subst ht
      obtain ⟨ta, tya, q, r1, h1⟩ := soundE m Γ hΓ W a _ p r hr hab.1 hta.1 (fun y hy => hw y (.inl hy)) (fun y hy => hl y (.inl hy))
      obtain ⟨tb, tyb, o, r2, h2⟩ := soundE m Γ hΓ W b _ q r1 (h1.step.env hr) hab.2 hta.2 (fun y hy => hw y (.inr hy)) (fun y hy => hl y (.inr hy))
      refine ⟨_, _, o, r2, sound_binary (op := .add) (f := (· + ·)) (fun _ _ _ _ => rfl) (fun _ _ _ h => by cases h) h1 h2
        (fun y hy => hw y (.inl hy)) (by rw [parseE, h1.parse, Res.bind_ok]; simp only [h2.parse, Res.bind_ok]) rfl rfl ?_⟩
      intro s v s' he
      simp only [evalE] at he
      split at he
      · rename_i e1
        split at he
        · rename_i e2
          simp only [Option.some.injEq, Prod.mk.injEq] at he
          obtain ⟨rfl, rfl⟩ := he
          exact ⟨_, _, _, e1, e2, rfl⟩
        · cases he
      · cases he
    · cases ht
  | .mul a b, c, p, r, hr, ht, hta, hw, hl => by
    simp only [TameE] at hta
    simp only [writesE, List.mem_append] at hw
    simp only [lengthsE, List.mem_append] at hl
    simp only [typeE] at ht
    split at ht
    · rename_i hab
      simp only [Option.some.injEq] at ht; subst ht
      obtain ⟨ta, tya, q, r1, h1⟩ := soundE m Γ hΓ W a _ p r hr hab.1 hta.1 (fun y hy => hw y (.inl hy)) (fun y hy => hl y (.inl hy))
      obtain ⟨tb, tyb, o, r2, h2⟩ := soundE m Γ hΓ W b _ q r1 (h1.step.env hr) hab.2 hta.2 (fun y hy => hw y (.inr hy)) (fun y hy => hl y (.inr hy))
      refine ⟨_, _, o, r2, sound_binary (op := .mul) (f := (· * ·)) (fun _ _ _ _ => rfl) (fun _ _ _ h => by cases h) h1 h2
        (fun y hy => hw y (.inl hy)) (by rw [parseE, h1.parse, Res.bind_ok]; simp only [h2.parse, Res.bind_ok]) rfl rfl ?_⟩
      intro s v s' he
      simp only [evalE] at he
      split at he
      · rename_i e1
        split at he
        · rename_i e2
          simp only [Option.some.injEq, Prod.mk.injEq] at he
          obtain ⟨rfl, rfl⟩ := he
          exact ⟨_, _, _, e1, e2, rfl⟩
        · cases he
      · cases he
    · cases ht
  | .plus a b, c, p, r, hr, ht, hta, hw, hl => by
    simp only [TameE] at hta
    simp only [writesE, List.mem_append] at hw
    simp only [lengthsE, List.mem_append] at hl
    simp only [typeE] at ht
    split at ht
    · rename_i c1 hc1 hc2
      split at ht
      · rename_i u hu
        split at ht
        · rename_i hsz
          simp only [Option.some.injEq] at ht; subst ht
          obtain ⟨k, hk⟩ := Option.isSome_iff_exists.mp hsz
          obtain ⟨ta, tya, q, r1, h1⟩ := soundE m Γ hΓ W a _ p r hr hc1 hta.1 (fun y hy => hw y (.inl hy)) (fun y hy => hl y (.inl hy))
          obtain ⟨tb, tyb, o, r2, h2⟩ := soundE m Γ hΓ W b _ q r1 (h1.step.env hr) hc2 hta.2 (fun y hy => hw y (.inr hy)) (fun y hy => hl y (.inr hy))
          obtain ⟨v, hd, hrep⟩ := decay_rep (Rep.mono h2.step.same h2.step.next _ _ h1.rep) hu
          obtain ⟨se, s1, s2, s3⟩ := sizeof_total m v (Rep.done _ _ hrep)
          have hmod : u.Modest := decay_modest (modest_typeE hΓ a c1 hc1) hu
          refine ⟨.padd ta tb se, .pointer v, o, r2, ?_, h1.step.trans h2.step, h2.vars.trans h1.vars, hrep, ?_,
            (by rintro ⟨v, hv⟩; cases hv), ?_⟩
          · rw [parseE, h1.parse, Res.bind_ok]
            simp only [h2.parse, Res.bind_ok, hd, s1]
          · intro h regs vars
            rw [writesE, List.append_eq_nil_iff] at h
            simp only [TE.eval]
            rw [s2, h2.pure h.2, h1.pure h.1]
          · intro regs vars hs hv w s he
            simp only [evalE] at he
            split at he
            · rename_i e1
              split at he
              · rename_i e2
                simp only [hc1, Option.map_some, hu, hk, Option.some.injEq, Prod.mk.injEq] at he
                obtain ⟨rfl, rfl⟩ := he
                obtain ⟨h3, h4, _⟩ := h1.then_value h2 (fun y hy => hw y (.inl hy)) hs hv e1 e2
                simp only [TE.eval, h3, h4, sizeof_value m hs v u k se hrep hmod hk s1]
              · cases he
            · cases he
        · cases ht
      · cases ht
    · cases ht
  | .deref a, c, p, r, hr, ht, hta, hw, hl => by
    simp only [TameE] at hta
    simp only [writesE] at hw
    simp only [lengthsE] at hl
    simp only [typeE] at ht
    split at ht
    · rename_i c1 hc1
      split at ht
      · rename_i u hu
        simp only [Option.some.injEq] at ht; subst ht
        obtain ⟨ta, tya, q, r1, h1⟩ := soundE m Γ hΓ W a _ p r hr hc1 hta hw hl
        obtain ⟨v, hd, hrep⟩ := decay_rep h1.rep hu
        have hnc : ¬ ∃ v, ta = .const v := by
          intro h
          have := (h1.const h).2
          subst this
          cases hu
        have harr : ((∃ n u, v = .array n u) ∨ (∃ u, v = .unknown u) ∨ (∃ l u, v = .vla l u)) → u.isArray = true →
            ∃ te t q r', SoundE m Γ W (.deref a) u p r te t q r' := by
          intro hv hua
          refine ⟨ta, v, q, r1, ?_, h1.step, h1.vars, hrep, ?_, fun h => (hnc h).elim, ?_⟩
          · rw [parseE, h1.parse, Res.bind_ok]
            simp only [hd]
            rcases hv with ⟨n, u, rfl⟩ | ⟨u, rfl⟩ | ⟨l, u, rfl⟩ <;> rfl
          · intro h; rw [writesE] at h; exact h1.pure h
          · intro regs vars hs hv w s he
            simp only [evalE] at he
            split at he
            · rename_i e1
              simp only [hc1, Option.map_some, hu, hua, if_true, Option.some.injEq, Prod.mk.injEq] at he
              obtain ⟨rfl, rfl⟩ := he
              exact h1.value regs vars hs hv _ _ e1
            · cases he
        have hmem : (∀ n u, v ≠ .array n u) → (∀ u, v ≠ .unknown u) → (∀ l u, v ≠ .vla l u) → u.isArray = false →
            ∃ te t q r', SoundE m Γ W (.deref a) u p r te t q r' := by
          intro hv1 hv2 hv3 hua
          refine ⟨.mem ta, v, q, r1, ?_, h1.step, h1.vars, hrep, ?_, (by rintro ⟨v, hv⟩; cases hv), ?_⟩
          · rw [parseE, h1.parse, Res.bind_ok]
            simp only [hd]
          · intro h regs vars; rw [writesE] at h; simp only [TE.eval]; exact h1.pure h _ _
          · intro regs vars hs hv w s he
            simp only [evalE] at he
            split at he
            · rename_i e1
              simp only [hc1, Option.map_some, hu, hua, Bool.false_eq_true, if_false, Option.some.injEq, Prod.mk.injEq] at he
              obtain ⟨rfl, rfl⟩ := he
              simp only [TE.eval, h1.value regs vars hs hv _ _ e1]
            · cases he
        cases u with
        | array n b u => exact harr (by cases v <;> simp_all [Rep]) rfl
        | unknown u => exact harr (by cases v <;> simp_all [Rep]) rfl
        | _ => exact hmem (by rintro n u rfl; simp [Rep] at hrep) (by rintro u rfl; simp [Rep] at hrep)
                (by rintro l u rfl; cases l <;> simp [Rep] at hrep) rfl
      · cases ht
    · cases ht
  | .comma a b, c, p, r, hr, ht, hta, hw, hl => by
    simp only [TameE] at hta
    simp only [writesE, List.mem_append] at hw
    simp only [lengthsE, List.mem_append] at hl
    simp only [typeE] at ht
    split at ht
    · rename_i hab
      simp only [Option.some.injEq] at ht; subst ht
      obtain ⟨ca, hca⟩ := Option.isSome_iff_exists.mp hab.1
      obtain ⟨ta, tya, q, r1, h1⟩ := soundE m Γ hΓ W a _ p r hr hca hta.1 (fun y hy => hw y (.inl hy)) (fun y hy => hl y (.inl hy))
      obtain ⟨tb, tyb, o, r2, h2⟩ := soundE m Γ hΓ W b _ q r1 (h1.step.env hr) hab.2 hta.2 (fun y hy => hw y (.inr hy)) (fun y hy => hl y (.inr hy))
      refine ⟨.comma ta tb, tyb, o, r2, ?_, h1.step.trans h2.step, h2.vars.trans h1.vars, h2.rep, ?_, (by rintro ⟨v, hv⟩; cases hv), ?_⟩
      · rw [parseE, h1.parse, Res.bind_ok]
        simp only [h2.parse, Res.bind_ok]
      · intro h regs vars
        rw [writesE, List.append_eq_nil_iff] at h
        simp only [TE.eval]
        rw [h2.pure h.2, h1.pure h.1]
      · intro regs vars hs hv w s he
        simp only [evalE] at he
        split at he
        · rename_i e1
          obtain ⟨h3, h4, _⟩ := h1.then_value h2 (fun y hy => hw y (.inl hy)) hs hv e1 he
          simp only [TE.eval, h3, h4]
        · cases he
    · cases ht
  | .cond e a b, c, p, r, hr, ht, hta, hw, hl => by
    simp only [TameE] at hta
    simp only [writesE, List.mem_append] at hw
    simp only [lengthsE, List.mem_append] at hl
    simp only [typeE] at ht
    split at ht
    · rename_i hab
      simp only [Option.some.injEq] at ht; subst ht
      obtain ⟨te, tye, q, r1, h1⟩ := soundE m Γ hΓ W e _ p r hr hab.1 hta.1 (fun y hy => hw y (.inl hy)) (fun y hy => hl y (.inl hy))
      obtain ⟨ta, tya, o, r2, h2⟩ := soundE m Γ hΓ W a _ q r1 (h1.step.env hr) hab.2.1 hta.2.1 (fun y hy => hw y (.inr (.inl hy))) (fun y hy => hl y (.inr (.inl hy)))
      obtain ⟨tb, tyb, o2, r3, h3⟩ := soundE m Γ hΓ W b _ o r2 (h2.step.env (h1.step.env hr)) hab.2.2 hta.2.2 (fun y hy => hw y (.inr (.inr hy))) (fun y hy => hl y (.inr (.inr hy)))
      refine ⟨.cond te ta tb, tya, o2, r3, ?_, h1.step.trans (h2.step.trans h3.step), h3.vars.trans (h2.vars.trans h1.vars),
        Rep.mono h3.step.same h3.step.next _ _ h2.rep, ?_, (by rintro ⟨v, hv⟩; cases hv), ?_⟩
      · rw [parseE, h1.parse, Res.bind_ok]
        simp only [h2.parse, h3.parse, Res.bind_ok]
      · intro h regs vars
        rw [writesE, List.append_eq_nil_iff, List.append_eq_nil_iff] at h
        simp only [TE.eval]
        split
        · rw [h3.pure h.2.2, h1.pure h.1]
        · rw [h2.pure h.2.1, h1.pure h.1]
      · intro regs vars hs hv w s he
        simp only [evalE] at he
        split at he
        · rename_i v1 s1 e1
          have hf : ∀ x, x ∉ W → s1 x = r.vars x := fun x hx => by
            rw [evalE_frame m Γ x e _ _ _ e1 (fun h => hx (hw x (.inl h))), hv x hx]
          have k1 := h1.first_value (h2.step.trans h3.step) hs hv e1
          simp only [TE.eval, k1]
          split at he
          · rename_i hz
            rw [if_pos hz]
            exact h3.value regs s1 hs (by rw [h2.vars, h1.vars]; exact hf) _ _ he
          · rename_i hz
            rw [if_neg hz]
            exact h2.value regs s1 (h3.step.same.trans hs h3.step.next) (by rw [h1.vars]; exact hf) _ _ he
        · cases he
    · cases ht
  | .sizeofType t, c, p, r, hr, ht, hta, hw, hl => by
    simp only [TameE] at hta
    simp only [writesE] at hw
    simp only [lengthsE] at hl
    simp only [typeE] at ht
    split at ht
    · rename_i hok
      simp only [Option.some.injEq] at ht; subst ht
      obtain ⟨ty, q, r1, h⟩ := soundT m Γ hΓ W t p r hr hok hta.1 (by rw [hta.2]; simp) (fun x hx => hl x (lengthsT_reads x t hx))
      obtain ⟨ty', q2, r2, hv, he⟩ := h.evaluate q r1 (Nat.le_refl _) (Same.refl _ _)
      obtain ⟨se, s1, s2, s3⟩ := sizeof_total m ty' hv.done
      refine ⟨se, .ulong, q2, r2, ?_, h.step.trans hv.step, (hv.pure hta.2).trans h.vars, trivial, fun _ => s2, ?_, ?_⟩
      · rw [parseE, h.parse, Res.bind_ok]
        simp only [hv.eval, s1, Res.bind_ok]
      · intro hc
        exact ⟨by rw [constE]; exact h.const (by rw [← hv.kind]; exact s3 hc), rfl⟩
      · intro regs vars hs hvs w s hev
        simp only [evalE] at hev
        split at hev
        · rename_i ct s4 e1
          split at hev
          · rename_i k hk
            simp only [Option.some.injEq, Prod.mk.injEq] at hev
            obtain ⟨rfl, rfl⟩ := hev
            obtain rfl := evalT_pure e1 hta.2
            have e2 := evalT_congr m Γ t s4 r1.vars ct hta.2 (fun x hx => by rw [h.vars]; exact hvs x (hl x hx)) e1
            have e3 := (he (fun x _ => by rw [h.vars]) ct _ e2).2
            exact sizeof_value m hs ty' ct k se e3 (modest_evalT hΓ t _ _ _ hta.1 e1) hk s1 s4
          · cases hev
        · cases hev
    · cases ht
  | .sizeofExpr e, c, p, r, hr, ht, hta, hw, hl => by
    simp only [TameE] at hta
    simp only [writesE] at hw
    simp only [lengthsE] at hl
    simp only [typeE] at ht
    split at ht
    · rename_i hok
      simp only [Option.some.injEq] at ht; subst ht
      obtain ⟨ce, hce⟩ := Option.isSome_iff_exists.mp hok
      obtain ⟨te, ty, q, r1, h⟩ := soundE m Γ hΓ W e ce p r hr hce hta.1 hw hl
      obtain ⟨se, s1, s2, s3⟩ := sizeof_total m ty (Rep.done _ _ h.rep)
      refine ⟨se, .ulong, q, r1, ?_, h.step, h.vars, trivial, fun _ => s2, ?_, ?_⟩
      · rw [parseE, h.parse, Res.bind_ok]
        simp only [s1, Res.bind_ok]
      · intro hc
        refine ⟨?_, rfl⟩
        rw [constE, hce]
        simp [Rep.const _ _ h.rep (s3 hc)]
      · intro regs vars hs hvs w s hev
        rw [evalE, hce] at hev
        dsimp only at hev
        split at hev
        · rename_i k hk
          have hval := sizeof_value m hs ty ce k se h.rep (modest_typeE hΓ e ce hce) hk s1 vars
          split at hev
          · rename_i hvar
            split at hev
            · rename_i v1 s4 e1
              simp only [Option.some.injEq, Prod.mk.injEq] at hev
              obtain ⟨rfl, rfl⟩ := hev
              rcases hta.2 with h5 | h5
              · rw [evalE_pure e1 h5]; exact hval
              · rw [h5 ce hce] at hvar; cases hvar
            · cases hev
          · simp only [Option.some.injEq, Prod.mk.injEq] at hev
            obtain ⟨rfl, rfl⟩ := hev
            exact hval
        · cases hev
    · cases ht

/-- Reading a type. -/
theorem soundT (m : M) (Γ : Env) (hΓ : EnvModest Γ) (W : List Nat) : ∀ (t : T) (p : P) (r : R), EnvRep Γ p r.regs →
    okT Γ t = true → TameT m Γ t → (∀ x ∈ writesT t, x ∈ W) → (∀ x ∈ lengthsT t, x ∉ W) →
    ∃ ty q r', SoundT m Γ W t p r ty q r'
  | .ulong, p, r, _, _, _, _, _ => by
    refine ⟨.ulong, p, r, by rw [parseT], .refl _ _ _, rfl, fun _ => by rw [constT] <;> simp, fun q1 r1 _ _ =>
      ⟨.ulong, q1, r1, ⟨rfl, .refl _ _ _, trivial, rfl, fun _ => rfl⟩, fun _ c s h => ?_⟩⟩
    simp only [evalT, Option.some.injEq, Prod.mk.injEq] at h
    obtain ⟨rfl, rfl⟩ := h
    exact ⟨rfl, trivial⟩
  | .base n, p, r, _, _, _, _, _ => by
    refine ⟨.base n, p, r, by rw [parseT], .refl _ _ _, rfl, fun _ => by rw [constT] <;> simp, fun q1 r1 _ _ =>
      ⟨.base n, q1, r1, ⟨rfl, .refl _ _ _, trivial, rfl, fun _ => rfl⟩, fun _ c s h => ?_⟩⟩
    simp only [evalT, Option.some.injEq, Prod.mk.injEq] at h
    obtain ⟨rfl, rfl⟩ := h
    exact ⟨rfl, rfl⟩
  | .void, p, r, _, _, _, _, _ => by
    refine ⟨.void, p, r, by rw [parseT], .refl _ _ _, rfl, fun _ => by rw [constT] <;> simp, fun q1 r1 _ _ =>
      ⟨.void, q1, r1, ⟨rfl, .refl _ _ _, trivial, rfl, fun _ => rfl⟩, fun _ c s h => ?_⟩⟩
    simp only [evalT, Option.some.injEq, Prod.mk.injEq] at h
    obtain ⟨rfl, rfl⟩ := h
    exact ⟨rfl, trivial⟩
  | .func, p, r, _, _, _, _, _ => by
    refine ⟨.func, p, r, by rw [parseT], .refl _ _ _, rfl, fun _ => by rw [constT] <;> simp, fun q1 r1 _ _ =>
      ⟨.func, q1, r1, ⟨rfl, .refl _ _ _, trivial, rfl, fun _ => rfl⟩, fun _ c s h => ?_⟩⟩
    simp only [evalT, Option.some.injEq, Prod.mk.injEq] at h
    obtain ⟨rfl, rfl⟩ := h
    exact ⟨rfl, trivial⟩
  | .pointer t, p, r, hr, hok, hta, hw, hl => by
    simp only [okT] at hok
    simp only [TameT] at hta
    simp only [writesT] at hw
    simp only [lengthsT] at hl
    obtain ⟨ty, q, r', h⟩ := soundT m Γ hΓ W t p r hr hok hta hw hl
    refine ⟨.pointer ty, q, r', by rw [parseT, h.parse, Res.bind_ok], h.step, h.vars, fun _ => by rw [constT] <;> simp, ?_⟩
    intro q1 r1 hq hs
    obtain ⟨ty', q2, r2, hv, he⟩ := h.evaluate q1 r1 hq hs
    refine ⟨.pointer ty', q2, r2, ⟨by rw [evaluateVla, hv.eval], hv.step, hv.done, rfl, hv.pure⟩, ?_⟩
    intro hx c s hev
    simp only [evalT] at hev
    split at hev
    · rename_i e1
      simp only [Option.some.injEq, Prod.mk.injEq] at hev
      obtain ⟨rfl, rfl⟩ := hev
      exact he hx _ _ e1
    · cases hev
  | .unknown t, p, r, hr, hok, hta, hw, hl => by
    simp only [okT] at hok
    simp only [TameT] at hta
    simp only [writesT] at hw
    simp only [lengthsT] at hl
    obtain ⟨ty, q, r', h⟩ := soundT m Γ hΓ W t p r hr hok hta hw hl
    refine ⟨.unknown ty, q, r', by rw [parseT, h.parse, Res.bind_ok], h.step, h.vars, fun _ => by rw [constT] <;> simp, ?_⟩
    intro q1 r1 hq hs
    obtain ⟨ty', q2, r2, hv, he⟩ := h.evaluate q1 r1 hq hs
    refine ⟨.unknown ty', q2, r2, ⟨by rw [evaluateVla, hv.eval], hv.step, hv.done, rfl, hv.pure⟩, ?_⟩
    intro hx c s hev
    simp only [evalT] at hev
    split at hev
    · rename_i e1
      split at hev
      · simp only [Option.some.injEq, Prod.mk.injEq] at hev
        obtain ⟨rfl, rfl⟩ := hev
        exact he hx _ _ e1
      · cases hev
    · cases hev
  | .array e t, p, r, hr, hok, hta, hw, hl => by
    simp only [okT, Bool.and_eq_true, decide_eq_true_eq] at hok
    simp only [TameT] at hta
    simp only [writesT, List.mem_append] at hw
    simp only [lengthsT, List.mem_append] at hl
    obtain ⟨te, tye, q0, r0, h0⟩ := soundE m Γ hΓ W e _ p r hr hok.1 hta.1 (fun x hx => hw x (.inl hx)) (fun x hx => hl x (.inl hx))
    obtain ⟨ty, q, r', h⟩ := soundT m Γ hΓ W t q0 r0 (h0.step.env hr) hok.2 hta.2.1 (fun x hx => hw x (.inr hx)) (fun x hx => hl x (.inr hx))
    by_cases hc : ∃ v, te = .const v
    · obtain ⟨v, rfl⟩ := hc
      have hce := (h0.const ⟨v, rfl⟩).1
      refine ⟨.array v ty, q, r', by rw [parseT, h0.parse, Res.bind_ok]; simp only [h.parse, Res.bind_ok], h0.step.trans h.step,
        h.vars.trans h0.vars, fun hv => by rw [constT, hce, h.const (by rw [hasVariableSize] at hv; exact hv)]; rfl, ?_⟩
      intro q1 r1 hq hs
      obtain ⟨ty', q2, r2, hv, he⟩ := h.evaluate q1 r1 hq hs
      have hval : ∀ s1 w s2, r2.vars = s1 → (∀ x, x ∉ W → r1.vars x = r.vars x) → (∀ x, x ∉ writesT t → s1 x = r1.vars x) →
          evalE m Γ e s1 = some (w, s2) → w = v ∧ s2 = s1 := by
        intro s1 w s2 h1 h2 h3 h4
        have := h0.value r0.regs s1 (Same.refl _ _) (fun x hx => by rw [h3 x (fun hh => hx (hw x (.inr hh))), h2 x hx]) w s2 h4
        simp only [TE.eval, Prod.mk.injEq, V.mk.injEq, true_and] at this
        exact ⟨this.1.symm, this.2.symm⟩
      refine ⟨.array v ty', q2, r2, ⟨by rw [evaluateVla, hv.eval], hv.step, hv.done, by rw [hasVariableSize, hasVariableSize, hv.kind],
        fun hw => hv.pure (by rw [writesT, List.append_eq_nil_iff] at hw; exact hw.2)⟩, ?_⟩
      intro hx c s hev
      simp only [evalT] at hev
      split at hev
      · rename_i c1 s1 e1
        split at hev
        · rename_i w s2 e2
          split at hev
          · simp only [Option.some.injEq, Prod.mk.injEq] at hev
            obtain ⟨rfl, rfl⟩ := hev
            obtain ⟨k1, k2⟩ := he (fun x hx' => by rw [hx x hx', h0.vars]) _ _ e1
            obtain ⟨rfl, rfl⟩ := hval s1 w s2 k1 hx (fun x hx' => evalT_frame m Γ x t _ _ _ e1 hx') e2
            exact ⟨k1, rfl, by simp [hce], k2⟩
          · cases hev
        · cases hev
      · cases hev
    · refine ⟨.vla (.pending te) ty, q, r', ?_, h0.step.trans h.step, h.vars.trans h0.vars,
        fun hv => (by rw [hasVariableSize] at hv; cases hv), ?_⟩
      · rw [parseT, h0.parse, Res.bind_ok]
        simp only [h.parse, Res.bind_ok]
        cases te <;> first | rfl | exact (hc ⟨_, rfl⟩).elim
      intro q1 r1 hq hs
      obtain ⟨ty', q2, r2, hv, he⟩ := h.evaluate q1 r1 hq hs
      have hq2 : q0.next ≤ q2.next := Nat.le_trans h.step.next (Nat.le_trans hq hv.step.next)
      let r3 : R := ⟨(te.eval m r2.regs r2.vars).2, fun i => if i = q2.next then (te.eval m r2.regs r2.vars).1 else r2.regs i⟩
      let q3 : P := { q2 with code := q2.code ++ [.len q2.next te], next := q2.next + 1 }
      have hstep : Step m q2 q3 r2 r3 := by
        refine ⟨rfl, by show q2.next ≤ q2.next + 1; omega, ⟨[.len q2.next te], rfl, rfl⟩, ?_⟩
        intro i hi
        show (if i = q2.next then _ else _) = _
        rw [if_neg (by omega)]
      refine ⟨.vla (.done q2.next) ty', q3, r3, ⟨by rw [evaluateVla, hv.eval], hv.step.trans hstep, hv.done, rfl, ?_⟩, ?_⟩
      · intro hw
        rw [writesT, List.append_eq_nil_iff] at hw
        show (te.eval m r2.regs r2.vars).2 = _
        rw [h0.pure hw.1, hv.pure hw.2]
      · intro hx c s hev
        simp only [evalT] at hev
        split at hev
        · rename_i c1 s1 e1
          split at hev
          · rename_i w s2 e2
            split at hev
            · simp only [Option.some.injEq, Prod.mk.injEq] at hev
              obtain ⟨rfl, rfl⟩ := hev
              obtain ⟨k1, k2⟩ := he (fun x hx' => by rw [hx x hx', h0.vars]) _ _ e1
              have hsame : Same q0.next r0.regs r2.regs :=
                (h.step.same.trans (hs.trans hv.step.same hq) h.step.next)
              have hval := h0.value r2.regs r2.vars hsame (fun x hx' => by
                rw [k1, evalT_frame m Γ x t _ _ _ e1 (fun hh => hx' (hw x (.inr hh))), hx x hx']) w s2 (by rw [k1]; exact e2)
              refine ⟨?_, ?_⟩
              · show (te.eval m r2.regs r2.vars).2 = _
                rw [hval]
              · refine ⟨by show q2.next < q2.next + 1; omega, ?_, Rep.mono hstep.same hstep.next _ _ k2⟩
                show (if q2.next = q2.next then (te.eval m r2.regs r2.vars).1 else _) = _
                rw [if_pos rfl, hval]
                simp
            · cases hev
          · cases hev
        · cases hev
  | .name x, p, r, hr, hok, _, _, _ => by
    simp only [okT] at hok
    split at hok
    · rename_i c hc
      obtain ⟨t, h1, h2⟩ := (hr x).1 c hc
      refine ⟨t, p, r, by rw [parseT, h1], .refl _ _ _, rfl, ?_, ?_⟩
      · intro hv
        rw [constT, hc]
        simp [Rep.const _ _ h2 hv]
      · intro q1 r1 hq hs
        refine ⟨t, q1, r1, ⟨evaluate_done q1 t (Rep.done _ _ h2), .refl _ _ _, Rep.done _ _ h2, rfl, fun _ => rfl⟩, ?_⟩
        intro _ c' s hev
        rw [evalT, hc] at hev
        simp only [Option.some.injEq, Prod.mk.injEq] at hev
        obtain ⟨rfl, rfl⟩ := hev
        exact ⟨rfl, Rep.mono hs hq _ _ h2⟩
    · cases hok
end

end Verif.SizeOf

namespace Verif.SizeOf
open Verif SizeOfSpec

theorem EnvModest.add {Γ : Env} (h : EnvModest Γ) (x : Nat) {c : CT} (hc : c.Modest) :
    EnvModest (Γ.add x (.tdef c)) ∧ EnvModest (Γ.add x (.obj c)) := by
  constructor <;> intro y <;> by_cases hy : y = x
  · simp only [Env.add, if_pos hy]
    exact ⟨fun c' h' => by cases h'; exact hc, fun c' h' => by cases h'⟩
  · simp only [Env.add, if_neg hy]; exact h y
  · simp only [Env.add, if_pos hy]
    exact ⟨fun c' h' => (nomatch h'), fun c' h' => by cases h'; exact hc⟩
  · simp only [Env.add, if_neg hy]; exact h y

theorem EnvRep.addType {Γ : Env} {p : P} {regs : Nat → V} (h : EnvRep Γ p regs) (x : Nat) {t : Ty} {c : CT} (hc : Rep regs p.next t c) :
    EnvRep (Γ.add x (.tdef c)) { p with names := (x, .tdef t) :: p.names } regs := by
  intro y
  by_cases hy : y = x
  · subst hy
    simp only [Env.add, if_true, P.find, List.lookup, beq_self_eq_true]
    exact ⟨fun c' h' => by cases h'; exact ⟨t, rfl, hc⟩, fun c' h' => by cases h'⟩
  · have hb : (y == x) = false := by simpa using hy
    simp only [Env.add, if_neg hy, P.find, List.lookup, hb]
    exact h y

theorem EnvRep.addObj {Γ : Env} {p : P} {regs : Nat → V} (h : EnvRep Γ p regs) (x : Nat) {t : Ty} {c : CT} (code : List Ins)
    (hc : Rep regs p.next t c) : EnvRep (Γ.add x (.obj c)) { p with names := (x, .obj t) :: p.names, code := code } regs := by
  intro y
  by_cases hy : y = x
  · subst hy
    simp only [Env.add, if_true, P.find, List.lookup, beq_self_eq_true]
    exact ⟨fun c' h' => (nomatch h'), fun c' h' => by cases h'; exact ⟨t, rfl, hc⟩⟩
  · have hb : (y == x) = false := by simpa using hy
    simp only [Env.add, if_neg hy, P.find, List.lookup, hb]
    exact h y

/-- Reading and evaluating a type. -/
theorem sound_type {m : M} {Γ : Env} (hΓ : EnvModest Γ) {t : T} {p : P} {r : R} {s' : Vars} {c : CT} (hr : EnvRep Γ p r.regs)
    (hok : okT Γ t = true) (hta : TameT m Γ t) (hl : ∀ y ∈ lengthsT t, y ∉ writesT t) (he : evalT m Γ t r.vars = some (c, s')) :
    ∃ ty q ty' q' r', parseT t p = .ok (ty, q) ∧ evaluateVla ty q = (ty', q') ∧ Step m p q' r r' ∧ r'.vars = s' ∧
      Rep r'.regs q'.next ty' c ∧ c.Modest := by
  obtain ⟨ty, q, r1, h⟩ := soundT m Γ hΓ (writesT t) t p r hr hok hta (fun _ h => h) hl
  obtain ⟨ty', q', r2, hv, hx⟩ := h.evaluate q r1 (Nat.le_refl _) (Same.refl _ _)
  obtain ⟨h1, h2⟩ := hx (fun x _ => by rw [h.vars]) c s' (by rw [h.vars]; exact he)
  exact ⟨ty, q, ty', q', r2, h.parse, hv.eval, h.step.trans hv.step, h1, h2, modest_evalT hΓ t _ _ _ hta he⟩

theorem block_sound (m : M) : ∀ (ss : List S) (Γ : Env) (s s' : Vars) (os : List Out) (p : P) (r : R),
    EnvModest Γ → EnvRep Γ p r.regs → r.vars = s → evalBlock m ss Γ s = some (os, s') → SteadyBlock m ss Γ s →
    ∃ q code r', parseBlock ss p = .ok q ∧ q.code = p.code ++ code ∧ runAll m code r = (os, r') ∧ r'.vars = s' := by
  intro ss
  induction ss with
  | nil =>
    intro Γ s s' os p r _ _ hs he _
    simp only [evalBlock, Option.some.injEq, Prod.mk.injEq] at he
    obtain ⟨rfl, rfl⟩ := he
    exact ⟨p, [], r, rfl, by simp, rfl, hs⟩
  | cons st ss ih =>
    intro Γ s s' os p r hΓ hr hs he hst
    subst hs
    cases st with
    | typedef x t =>
      simp only [evalBlock] at he
      simp only [SteadyBlock] at hst
      split at he
      · rename_i hok
        split at he
        · rename_i c s1 e1
          obtain ⟨ty, q, ty', q', r', h1, h2, h3, h4, h5, h6⟩ := sound_type hΓ hr hok hst.1 hst.2.1 e1
          subst h4
          obtain ⟨o, code, r2, g1, g2, g3, g4⟩ := ih _ _ _ _ _ r' (hΓ.add x h6).1 ((h3.env hr).addType x h5) rfl he (hst.2.2 _ _ e1)
          obtain ⟨code0, k1, k2⟩ := h3.code
          refine ⟨o, code0 ++ code, r2, ?_, ?_, ?_, g4⟩
          · rw [parseBlock, parseS, h1, Res.bind_ok]
            simp only [h2, Res.bind_ok]
            exact g1
          · rw [g2]; simp only [k1, List.append_assoc]
          · rw [runAll_append, k2, g3]; rfl
        · cases he
      · cases he
    | decl x t =>
      simp only [evalBlock] at he
      simp only [SteadyBlock] at hst
      split at he
      · rename_i hok
        split at he
        · rename_i c s1 e1
          split at he
          · rename_i n os1 s2 hn e2
            simp only [Option.some.injEq, Prod.mk.injEq] at he
            obtain ⟨rfl, rfl⟩ := he
            obtain ⟨ty, q, ty', q', r', h1, h2, h3, h4, h5, h6⟩ := sound_type hΓ hr hok hst.1 hst.2.1 e1
            subst h4
            obtain ⟨se, z1, _, _⟩ := sizeof_total m ty' (Rep.done _ _ h5)
            have hval := sizeof_value m (Same.refl _ r'.regs) ty' c n se h5 h6 hn z1 r'.vars
            obtain ⟨o, code, r2, g1, g2, g3, g4⟩ := ih _ _ _ _ _ r' (hΓ.add x h6).2
              ((h3.env hr).addObj x (q'.code ++ [.alloc x se]) h5) rfl e2 (hst.2.2 _ _ e1)
            obtain ⟨code0, k1, k2⟩ := h3.code
            refine ⟨o, code0 ++ (.alloc x se :: code), r2, ?_, ?_, ?_, g4⟩
            · rw [parseBlock, parseS, h1, Res.bind_ok]
              simp only [h2, z1, Res.bind_ok]
              exact g1
            · rw [g2]; simp only [k1, List.append_assoc, List.cons_append, List.nil_append]
            · rw [runAll_append, k2]
              simp only [runAll, Ins.run, hval, g3, List.nil_append, List.cons_append]
          · cases he
        · cases he
      · cases he
    | expr e =>
      simp only [evalBlock] at he
      simp only [SteadyBlock] at hst
      split at he
      · rename_i hok
        obtain ⟨c, hc⟩ := Option.isSome_iff_exists.mp hok
        split at he
        · rename_i v s1 e1
          split at he
          · rename_i os1 s2 e2
            simp only [Option.some.injEq, Prod.mk.injEq] at he
            obtain ⟨rfl, rfl⟩ := he
            obtain ⟨te, ty, q, r1, h⟩ := soundE m Γ hΓ (writesE e) e c p r hr hc hst.1 (fun _ h => h) hst.2.1
            have hval := h.value r1.regs r1.vars (Same.refl _ _) (fun x _ => by rw [h.vars]) v s1 (by rw [h.vars]; exact e1)
            have henv : EnvRep Γ { q with code := q.code ++ [.expr te] } r1.regs :=
              (h.step.env hr).mono (Same.refl _ _) rfl (Nat.le_refl _)
            obtain ⟨o, code, r2, g1, g2, g3, g4⟩ := ih _ _ _ _ _ ⟨s1, r1.regs⟩ hΓ henv rfl e2 (hst.2.2 _ _ e1)
            obtain ⟨code0, k1, k2⟩ := h.step.code
            refine ⟨o, code0 ++ (.expr te :: code), r2, ?_, ?_, ?_, g4⟩
            · rw [parseBlock, parseS, h.parse, Res.bind_ok]
              simp only [Res.bind_ok]
              exact g1
            · rw [g2]; simp only [k1, List.append_assoc, List.cons_append, List.nil_append]
            · rw [runAll_append, k2]
              simp only [runAll, Ins.run, hval, g3, List.nil_append, List.cons_append]
          · cases he
        · cases he
      · cases he

end Verif.SizeOf
