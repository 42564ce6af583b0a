import Verif.TentativeSpec
import Verif.TypesLemmas
/-! Lemmas about definitions of objects (TentativeProps.lean). -/
namespace Verif.Tentative
open Verif Types

/-! ### Types -/

theorem complete_eq {n : Nat} {t : Ty} (h : isComplete t = true) : complete n t = t := by
  obtain ⟨k, c, ch⟩ := t
  cases k <;> simp_all [complete, isComplete, tag, Kind.tag]

theorem complete_complete (n : Nat) (t : Ty) : isComplete (complete n t) = true := by
  obtain ⟨k, c, ch⟩ := t
  cases k <;> simp [complete, isComplete, tag, Kind.tag]

theorem complete_function (n : Nat) (t : Ty) : tag (complete n t) = .function ↔ tag t = .function := by
  obtain ⟨k, c, ch⟩ := t
  cases k <;> simp [complete, tag, Kind.tag]

theorem composite_cases {a b c : Ty} (h : composite a b = some c) (ho : tag a ≠ .function) :
    (a = b ∧ c = a) ∨ (tag a = .array ∧ tag b = .incompleteArray ∧ c = a) ∨
    (tag b = .array ∧ tag a = .incompleteArray ∧ c = b) := by
  obtain ⟨ka, ca, cha⟩ := a
  obtain ⟨kb, cb, chb⟩ := b
  unfold composite at h
  split at h
  · rename_i he
    rw [Ty.beq_iff] at he
    simp only [Option.some.injEq] at h
    exact .inl ⟨he, h.symm⟩
  · dsimp only at h
    split at h
    · rename_i he
      simp only [Option.some.injEq] at h
      exact .inr (.inl ⟨he.1, he.2, h.symm⟩)
    · split at h
      · rename_i he
        simp only [Option.some.injEq] at h
        exact .inr (.inr ⟨he.1, he.2, h.symm⟩)
      · split at h
        · simp at h
        · split at h
          · exact absurd rfl ho
          · simp at h

theorem composite_left {a b c : Ty} (h : composite a b = some c) (ho : tag a ≠ .function)
    (hc : isComplete a = true) : c = a := by
  rcases composite_cases h ho with ⟨_, h2⟩ | ⟨_, _, h2⟩ | ⟨_, h1, _⟩
  · exact h2
  · exact h2
  · simp [isComplete, h1] at hc

theorem composite_right {a b c : Ty} (h : composite a b = some c) (ho : tag a ≠ .function)
    (hc : isComplete b = true) : c = b := by
  rcases composite_cases h ho with ⟨h1, h2⟩ | ⟨_, h1, _⟩ | ⟨_, h1, h2⟩
  · rw [h2, h1]
  · simp [isComplete, h1] at hc
  · exact h2

theorem composite_unknown {a b c : Ty} (h : composite a b = some c) (ho : tag a ≠ .function)
    (hc : isComplete a = false) : c = b := by
  rcases composite_cases h ho with ⟨h1, h2⟩ | ⟨h1, _, _⟩ | ⟨_, _, h2⟩
  · rw [h2, h1]
  · simp [isComplete, h1] at hc
  · exact h2

theorem composite_object {a b c : Ty} (h : composite a b = some c) (ho : tag a ≠ .function) :
    tag c ≠ .function := by
  rcases composite_cases h ho with ⟨_, h2⟩ | ⟨_, _, h2⟩ | ⟨h1, _, h2⟩
  · rw [h2]; exact ho
  · rw [h2]; exact ho
  · rw [h2, h1]; decide

/-! ### The type of a symbol -/

/-- The type kept for an object: as `objectType`, without the rule that an array nobody sizes has
one element. -/
def symType (ds : List Decl) : Option Ty :=
  match ds.find? (fun d => isComplete d.type) with
  | some d => some d.type
  | none =>
    match ds with
    | [] => none
    | d :: _ =>
      match initialiser ds with
      | some (_, n) => some (complete n d.type)
      | none => some d.type

theorem symType_object {ds : List Decl}
    (h : (ds.any fun d => isComplete d.type) = true ∨ (ds.any Decl.isDefinition) = true) :
    objectType ds = symType ds := by
  unfold objectType symType
  cases hf : ds.find? (fun d => isComplete d.type) with
  | some d => rfl
  | none =>
    cases ds with
    | nil => rfl
    | cons d ds =>
      dsimp only
      cases hi : initialiser (d :: ds) with
      | some p => rfl
      | none =>
        exfalso
        rcases h with h | h
        · rw [List.any_eq_true] at h
          obtain ⟨e, he, hc⟩ := h
          rw [List.find?_eq_none] at hf
          exact hf e he hc
        · rw [List.any_eq_true] at h
          obtain ⟨e, he, hc⟩ := h
          rw [initialiser, List.findSome?_eq_none_iff] at hi
          rw [Decl.isDefinition, hi e he] at hc
          simp at hc

theorem initialiser_none {ds : List Decl} (h : (ds.any Decl.isDefinition) = false) :
    initialiser ds = none := by
  rw [initialiser, List.findSome?_eq_none_iff]
  intro d hd
  rw [List.any_eq_false] at h
  have := h d hd
  cases hi : d.init <;> simp_all [Decl.isDefinition]

theorem initialiser_some {ds : List Decl} (h : (ds.any Decl.isDefinition) = true) :
    ∃ p, initialiser ds = some p := by
  cases hi : initialiser ds with
  | some p => exact ⟨p, rfl⟩
  | none =>
    rw [initialiser, List.findSome?_eq_none_iff] at hi
    rw [List.any_eq_true] at h
    obtain ⟨d, hd, h⟩ := h
    rw [Decl.isDefinition, hi d hd] at h
    simp at h

theorem initialiser_snoc (ds : List Decl) (d : Decl) :
    initialiser (ds ++ [d]) = (initialiser ds).or d.init := by
  rw [initialiser, initialiser, List.findSome?_append]
  cases hi : d.init <;> simp [List.findSome?, hi]

/-- What one more declaration makes of the type. -/
theorem symType_snoc {ds : List Decl} {d : Decl} {t c : Ty} (hs : symType ds = some t)
    (hc : composite d.type t = some c) (ho : tag d.type ≠ .function)
    (h1 : d.init.isSome = true → ds.any Decl.isDefinition = false) :
    symType (ds ++ [d]) = some (match d.init with
      | some (_, n) => complete n c
      | none => c) := by
  unfold symType at hs ⊢
  rw [List.find?_append]
  cases hf : ds.find? (fun d => isComplete d.type) with
  | some e =>
    rw [hf] at hs
    simp only [Option.some.injEq] at hs
    have hce : isComplete t = true := by
      have := List.find?_some hf
      rw [← hs]; exact this
    have := composite_right hc ho hce
    subst this
    rw [Option.some_or]
    dsimp only
    rw [hs]
    cases hi : d.init with
    | none => rfl
    | some p => dsimp only; rw [complete_eq hce]
  | none =>
    rw [hf] at hs
    dsimp only at hs
    rw [Option.none_or]
    cases hdc : isComplete d.type with
    | true =>
      have := composite_left hc ho hdc
      subst this
      have hfd : [d].find? (fun d => isComplete d.type) = some d := by simp [hdc]
      rw [hfd]
      dsimp only
      cases hi : d.init with
      | none => rfl
      | some p => dsimp only; rw [complete_eq hdc]
    | false =>
      have := composite_unknown hc ho hdc
      subst this
      have hfd : [d].find? (fun d => isComplete d.type) = none := by simp [hdc]
      rw [hfd]
      dsimp only
      cases ds with
      | nil => simp at hs
      | cons e es =>
        dsimp only at hs
        rw [initialiser_snoc, List.cons_append]
        dsimp only
        cases hi : d.init with
        | none =>
          rw [Option.or_none]
          exact hs
        | some p =>
          have := initialiser_none (h1 (by rw [hi]; rfl))
          rw [this] at hs ⊢
          simp only [Option.some.injEq] at hs
          rw [Option.none_or, hs]

theorem symType_single (d : Decl) :
    symType [d] = some (match d.init with
      | some (_, n) => complete n d.type
      | none => d.type) := by
  unfold symType initialiser
  cases hdc : isComplete d.type with
  | true =>
    have hfd : [d].find? (fun d => isComplete d.type) = some d := by simp [hdc]
    rw [hfd]
    cases hi : d.init with
    | none => rfl
    | some p => dsimp only; rw [complete_eq hdc]
  | false =>
    have hfd : [d].find? (fun d => isComplete d.type) = none := by simp [hdc]
    rw [hfd]
    cases hi : d.init <;> simp [List.findSome?, hi]

theorem symType_complete {ds : List Decl} {t : Ty} (hs : symType ds = some t)
    (h : ds.any Decl.isDefinition = true) : isComplete t = true := by
  unfold symType at hs
  cases hf : ds.find? (fun d => isComplete d.type) with
  | some e =>
    rw [hf] at hs
    simp only [Option.some.injEq] at hs
    have := List.find?_some hf
    rw [← hs]; exact this
  | none =>
    rw [hf] at hs
    obtain ⟨p, hp⟩ := initialiser_some h
    cases ds with
    | nil => simp at hs
    | cons d ds =>
      rw [hp] at hs
      simp only [Option.some.injEq] at hs
      rw [← hs]; exact complete_complete _ _

/-! ### Local labels -/

theorem decimal_eq (n : Nat) : decimal n =
    if n < 10 then [BitVec.ofNat 8 (48 + n)] else decimal (n / 10) ++ [BitVec.ofNat 8 (48 + n % 10)] := by
  rw [decimal]

/-- The number read from decimal digits. -/
def number (l : Str) : Nat := l.foldl (fun a b => a * 10 + (b.toNat - 48)) 0

theorem digit_toNat {n : Nat} (h : n < 10) : (BitVec.ofNat 8 (48 + n)).toNat = 48 + n := by
  rw [BitVec.toNat_ofNat]; omega

theorem number_decimal (n : Nat) : number (decimal n) = n := by
  induction n using Nat.strongRecOn with
  | ind n ih =>
    rw [decimal_eq]
    split
    · rename_i h
      simp only [number, List.foldl_cons, List.foldl_nil, digit_toNat h]; omega
    · have := ih (n / 10) (by omega)
      unfold number at this ⊢
      rw [List.foldl_append, this]
      simp only [List.foldl_cons, List.foldl_nil, digit_toNat (Nat.mod_lt n (by decide : 0 < 10))]
      omega

theorem decimal_digits (n : Nat) : ∀ b ∈ decimal n, 48 ≤ b.toNat ∧ b.toNat ≤ 57 := by
  induction n using Nat.strongRecOn with
  | ind n ih =>
    rw [decimal_eq]
    split
    · rename_i h
      intro b hb
      simp only [List.mem_singleton] at hb
      rw [hb, digit_toNat h]; omega
    · intro b hb
      simp only [List.mem_append, List.mem_singleton] at hb
      rcases hb with hb | hb
      · exact ih (n / 10) (by omega) b hb
      · rw [hb, digit_toNat (Nat.mod_lt n (by decide : 0 < 10))]; omega

theorem digits_prefix : ∀ (a b x y : Str), a ++ x = b ++ y → IsIdentifier x → IsIdentifier y →
    (∀ c ∈ a, 48 ≤ c.toNat ∧ c.toNat ≤ 57) → (∀ c ∈ b, 48 ≤ c.toNat ∧ c.toNat ≤ 57) → a = b
  | [], [], _, _, _, _, _, _, _ => rfl
  | [], c :: b, x, y, h, hx, _, _, hb => by
    obtain ⟨d, r, hd, _, hn⟩ := hx
    subst hd
    simp only [List.nil_append, List.cons_append, List.cons.injEq] at h
    exact absurd (hb c (by simp)) (h.1 ▸ hn)
  | c :: a, [], x, y, h, _, hy, ha, _ => by
    obtain ⟨d, r, hd, _, hn⟩ := hy
    subst hd
    simp only [List.nil_append, List.cons_append, List.cons.injEq] at h
    exact absurd (ha c (by simp)) (h.1 ▸ hn)
  | c :: a, d :: b, x, y, h, hx, hy, ha, hb => by
    simp only [List.cons_append, List.cons.injEq] at h
    rw [h.1, digits_prefix a b x y h.2 hx hy (fun c hc => ha c (by simp [hc])) (fun c hc => hb c (by simp [hc]))]

theorem localLabel_inj {n m : Nat} {x y : Str} (hx : IsIdentifier x) (hy : IsIdentifier y)
    (h : localLabel n x = localLabel m y) : n = m := by
  unfold localLabel at h
  have h := List.append_cancel_left h
  have := digits_prefix _ _ _ _ h hx hy (decimal_digits n) (decimal_digits m)
  rw [← number_decimal n, ← number_decimal m, this]

theorem localLabel_ne {n : Nat} {x y : Str} (hy : IsIdentifier y) : localLabel n x ≠ y := by
  obtain ⟨b, r, hb, h, _⟩ := hy
  intro he
  rw [hb] at he
  simp only [localLabel, List.cons_append, List.cons.injEq] at he
  exact h he.1.symm

/-! ### The invariant of one name -/

theorem valid_prefix {ds es : List Decl} (h : Valid (ds ++ es)) : Valid ds := by
  cases ds with
  | nil => exact ⟨by simp, by simp, by simp, by simp, by simp⟩
  | cons d ds =>
    refine ⟨fun e he => h.object e (List.mem_append_left _ he), fun e he => h.specifiers e (List.mem_append_left _ he),
      fun e he => h.isInternal e (List.mem_append_left _ he), fun e he => h.isExternal e (List.mem_append_left _ he), ?_⟩
    have := h.once
    rw [List.filter_append, List.length_append] at this
    omega

theorem labelled_append (x : Str) (a b : List Var) : labelled x (a ++ b) = labelled x a ++ labelled x b :=
  List.filter_append ..

theorem labelled_single (x : Str) (v : Var) (h : v.label = x) : labelled x [v] = [v] := by
  simp [labelled, h]

theorem labelled_other (x : Str) (v : Var) (h : v.label ≠ x) : labelled x [v] = [] := by
  simp [labelled, h]

/-- What the state holds about a name after its declarations `ds`. -/
structure Inv (x : Str) (ds : List Decl) (st : St) : Prop where
  empty : ds = [] → st.syms x = none ∧ labelled x st.vars = []
  sym : ∀ d, ds.getLast? = some d → ∃ s, st.syms x = some s ∧ symType ds = some s.type ∧
    s.alignment = d.alignment ∧
    (ds.any Decl.isDefinition = true → s.hasDefinition = true ∧ s.isTentative = false ∧
      ∃ v, labelled x st.vars = [v] ∧ v.init = (initialiser ds).map (·.1) ∧ v.isGlobal = !Internal ds ∧
        symType ds = some v.type ∧ ∀ a, (∀ d ∈ ds, d.alignment = a) → v.alignment = a) ∧
    (ds.any Decl.isDefinition = false → s.hasDefinition = false ∧ s.isTentative = !d.isExtern ∧
      labelled x st.vars = [] ∧ (s.isTentative = true → x ∈ st.names ∧ s.isGlobal = !Internal ds))

theorem inv_start (x : Str) : Inv x [] St.start := ⟨fun _ => ⟨rfl, rfl⟩, fun d h => by simp at h⟩

/-- A state that differs only in what does not concern the name. -/
theorem inv_other {x : Str} {ds : List Decl} {st st' : St} (h : Inv x ds st)
    (h1 : st'.syms x = st.syms x) (h2 : labelled x st'.vars = labelled x st.vars)
    (h3 : x ∈ st.names → x ∈ st'.names) : Inv x ds st' := by
  refine ⟨fun he => by rw [h1, h2]; exact h.empty he, fun d hd => ?_⟩
  obtain ⟨s, a, b, c, d, e⟩ := h.sym d hd
  refine ⟨s, by rw [h1]; exact a, b, c, by rw [h2]; exact d, ?_⟩
  intro hf
  obtain ⟨p, q, r, t⟩ := e hf
  exact ⟨p, q, by rw [h2]; exact r, fun ht => ⟨h3 (t ht).1, (t ht).2⟩⟩

theorem inv_block {x : Str} {ds : List Decl} {st st' : St} {d : Decl} (hx : IsIdentifier x) (h : Inv x ds st)
    (hr : blockDeclarator d st = .ok st') : Inv x ds st' := by
  unfold blockDeclarator at hr
  split at hr
  · split at hr
    · simp at hr
    · simp only [Res.ok.injEq] at hr; rw [← hr]; exact h
  · split at hr
    · simp at hr
    · split at hr
      · simp only [Res.ok.injEq] at hr
        rw [← hr]
        refine inv_other h rfl ?_ (fun h => h)
        dsimp only
        rw [labelled_append, labelled_other _ _ (localLabel_ne hx), List.append_nil]
      · simp only [Res.ok.injEq] at hr; rw [← hr]; exact h

theorem setSym_self (f : Str → Option Sym) (x : Str) (s : Sym) : setSym f x s x = some s := by simp [setSym]

theorem setSym_other (f : Str → Option Sym) {x y : Str} (s : Sym) (h : y ≠ x) : setSym f x s y = f y := by
  simp [setSym, h]

theorem mem_names {x y : Str} {l : List Str} (b : Bool) (h : x ∈ l) :
    x ∈ (if b = true then l ++ [y] else l) := by
  cases b with
  | false => exact h
  | true => exact List.mem_append_left _ h

theorem inv_file_other {x : Str} {ds : List Decl} {st st' : St} {d : Decl} (hx : d.name ≠ x) (h : Inv x ds st)
    (hr : fileDeclarator d st = .ok st') : Inv x ds st' := by
  unfold fileDeclarator at hr
  dsimp only at hr
  rw [Res.bind_eq_ok] at hr
  obtain ⟨type, _, hr⟩ := hr
  split at hr
  · split at hr
    · simp at hr
    · simp only [Res.ok.injEq] at hr
      rw [← hr]
      exact inv_other h (setSym_other _ _ (Ne.symm hx)) rfl (fun h => h)
  · split at hr
    · simp at hr
    · split at hr
      · simp only [Res.ok.injEq] at hr
        rw [← hr]
        refine inv_other h (setSym_other _ _ (Ne.symm hx)) ?_ ?_
        · dsimp only
          rw [labelled_append, labelled_other _ _ hx, List.append_nil]
        · dsimp only
          intro hm
          exact mem_names _ hm
      · simp only [Res.ok.injEq] at hr
        rw [← hr]
        refine inv_other h (setSym_other _ _ (Ne.symm hx)) rfl ?_
        dsimp only
        intro hm
        exact mem_names _ hm

theorem internal_snoc {ds : List Decl} {d : Decl} (h : ds ≠ []) : Internal (ds ++ [d]) = Internal ds := by
  cases ds with
  | nil => exact absurd rfl h
  | cons e es => rfl

/-- The linkage a declaration that is not `extern` gives is that of the object. -/
theorem global_snoc {ds : List Decl} {d : Decl} (hv : Valid (ds ++ [d])) (he : d.isExtern = false) :
    (!d.isStatic) = !Internal (ds ++ [d]) := by
  cases hs : d.isStatic with
  | true => rw [hv.isInternal d (by simp) hs]
  | false => rw [hv.isExternal d (by simp) hs he]

theorem once_snoc {ds : List Decl} {d : Decl} (hv : Valid (ds ++ [d])) (hi : d.init.isSome = true) :
    ds.any Decl.isDefinition = false := by
  have := hv.once
  rw [List.filter_append, List.length_append] at this
  have h1 : ([d].filter Decl.isDefinition).length = 1 := by simp [Decl.isDefinition, hi]
  rw [h1] at this
  have h0 : ds.filter Decl.isDefinition = [] := List.length_eq_zero_iff.mp (by omega)
  rw [List.any_eq_false]
  intro e he
  rw [List.filter_eq_nil_iff] at h0
  exact h0 e he

theorem inv_file {x : Str} {ds : List Decl} {st st' : St} {d : Decl} (hx : d.name = x) (hv : Valid (ds ++ [d]))
    (h : Inv x ds st) (hr : fileDeclarator d st = .ok st') : Inv x (ds ++ [d]) st' := by
  have ho := hv.object d (by simp)
  refine ⟨fun he => by simp at he, fun d' hd' => ?_⟩
  have hd' : d = d' := by simpa using hd'
  subst hd'
  unfold fileDeclarator at hr
  dsimp only at hr
  rw [Res.bind_eq_ok] at hr
  obtain ⟨type, ha, hr⟩ := hr
  -- the type
  have ht : symType (ds ++ [d]) = some (match d.init with
      | some (_, n) => complete n type
      | none => type) ∧ tag type ≠ .function := by
    rw [hx] at ha
    cases ds with
    | nil =>
      rw [(h.empty rfl).1] at ha
      simp only [agree, Res.ok.injEq] at ha
      subst ha
      exact ⟨symType_single d, ho⟩
    | cons e es =>
      obtain ⟨s, hs, hty, _⟩ := h.sym ((e :: es).getLast (by simp)) (List.getLast?_eq_some_getLast (by simp))
      rw [hs] at ha
      simp only [agree] at ha
      cases hc : composite d.type s.type with
      | none => rw [hc] at ha; simp at ha
      | some c =>
        rw [hc] at ha
        simp only [Res.ok.injEq] at ha
        subst ha
        exact ⟨symType_snoc hty hc ho (once_snoc hv), composite_object hc ho⟩
  rw [if_neg ht.2] at hr
  split at hr
  · simp at hr
  rename_i hex
  -- what was known of the name
  have hprev : (ds.any Decl.isDefinition = true ∧ d.init = none ∧ ∃ p, st.syms x = some p ∧ p.hasDefinition = true ∧
        p.isTentative = false ∧ symType ds = some p.type ∧
        ∃ v, labelled x st.vars = [v] ∧ v.init = (initialiser ds).map (·.1) ∧ v.isGlobal = !Internal ds ∧
        symType ds = some v.type ∧ ∀ a, (∀ d ∈ ds, d.alignment = a) → v.alignment = a) ∨
      (ds.any Decl.isDefinition = false ∧ labelled x st.vars = [] ∧
        hasDefinition (st.syms x) = false) := by
    cases ds with
    | nil => exact .inr ⟨rfl, (h.empty rfl).2, by rw [(h.empty rfl).1]; rfl⟩
    | cons e es =>
      obtain ⟨s, hs, hty, _, h1, h2⟩ := h.sym ((e :: es).getLast (by simp)) (List.getLast?_eq_some_getLast (by simp))
      cases hd : (e :: es).any Decl.isDefinition with
      | false =>
        obtain ⟨a, _, c, _⟩ := h2 hd
        exact .inr ⟨rfl, c, by rw [hs]; exact a⟩
      | true =>
        obtain ⟨a, b, c⟩ := h1 hd
        refine .inl ⟨rfl, ?_, s, hs, a, b, hty, c⟩
        cases hi : d.init with
        | none => rfl
        | some p =>
          have := once_snoc hv (by rw [hi]; rfl)
          rw [hd] at this
          simp at this
  have hdef : (ds ++ [d]).any Decl.isDefinition = (ds.any Decl.isDefinition || d.init.isSome) := by
    simp [Decl.isDefinition]
  rw [hx] at hr
  rcases hprev with ⟨hd, hi, p, hp, hp1, hp2, hp3, v, hv1, hv2, hv3, hv4, hv5⟩ | ⟨hd, hl, hp⟩
  · -- there is a definition already
    rw [hp, hi] at hr
    simp only [hasDefinition, hp1, Option.isSome_none, Bool.and_false, Bool.false_eq_true, if_false,
      Bool.not_true, Bool.true_eq_false, Res.ok.injEq] at hr
    have hne : ds ≠ [] := by intro h0; subst h0; simp at hd
    rw [hi] at ht
    have hvt : v.type = type := by
      -- the type did not change
      rw [hx, hp] at ha
      simp only [agree] at ha
      cases hc : composite d.type p.type with
      | none => rw [hc] at ha; simp at ha
      | some c =>
        rw [hc] at ha
        simp only [Res.ok.injEq] at ha
        subst ha
        have := composite_right hc ho (symType_complete hp3 hd)
        rw [this]
        rw [hv4] at hp3
        exact Option.some.inj hp3
    refine ⟨{ p with type := type, alignment := d.alignment }, ?_, ht.1, rfl, ?_, ?_⟩
    · rw [← hr]; dsimp only; rw [setSym_self]; simp [hp1]
    · intro _
      refine ⟨hp1, hp2, v, ?_, ?_, ?_, ?_, ?_⟩
      · rw [← hr]; exact hv1
      · rw [initialiser_snoc, hi, Option.or_none]; exact hv2
      · rw [internal_snoc hne]; exact hv3
      · rw [ht.1, hvt]
      · intro a hall
        exact hv5 a (fun e he => hall e (List.mem_append_left _ he))
    · intro hf
      rw [hdef, hd] at hf
      simp at hf
  · rw [hp] at hr
    simp only [if_true] at hr
    cases hi : d.init with
    | none =>
      rw [hi] at hr ht
      simp only [Option.isSome_none, Bool.and_false, Bool.false_eq_true, if_false, Res.ok.injEq] at hr
      refine ⟨⟨type, !d.isExtern, !d.isStatic, false, d.alignment⟩, ?_, ht.1, rfl, ?_, ?_⟩
      · rw [← hr]; dsimp only; rw [setSym_self]; simp
      · intro hf
        rw [hdef, hd, hi] at hf
        simp at hf
      · intro _
        refine ⟨rfl, rfl, by rw [← hr]; exact hl, ?_⟩
        intro htn
        have hte : d.isExtern = false := by simpa using htn
        refine ⟨?_, global_snoc hv hte⟩
        rw [← hr]
        dsimp only
        rw [hte]
        simp
    | some q =>
      have hex : d.isExtern = false := by
        rw [hi] at hex; simpa using hex
      rw [hi, hex] at hr
      rw [hi] at ht
      simp only [Option.isSome_some, Bool.not_false, Bool.and_true, Bool.not_true, if_true, Res.ok.injEq] at hr
      obtain ⟨q1, q2⟩ := q
      refine ⟨⟨complete q2 type, false, !d.isStatic, true, d.alignment⟩, ?_, ht.1, rfl, ?_, ?_⟩
      · rw [← hr]; dsimp only; rw [setSym_self]; simp
      · intro _
        refine ⟨rfl, rfl, ⟨x, complete q2 type, some q1, !d.isStatic, d.alignment⟩, ?_, ?_, ?_, ht.1, ?_⟩
        · rw [← hr]; dsimp only
          rw [labelled_append, hl, labelled_single x _ rfl]; simp
        · rw [initialiser_snoc, hi, initialiser_none hd]; rfl
        · exact global_snoc hv hex
        · intro a hall; exact hall d (by simp)
      · intro hf
        rw [hdef, hd, hi] at hf
        simp at hf

theorem inv_items {x : Str} (hx : IsIdentifier x) : ∀ (is : List Item) (ds : List Decl) (st st' : St),
    Valid (ds ++ declarations x is) → Inv x ds st → items is st = .ok st' → Inv x (ds ++ declarations x is) st'
  | [], ds, st, st', _, h, hr => by
    simp only [items, Res.ok.injEq] at hr
    rw [← hr]
    simpa [declarations] using h
  | .block d :: is, ds, st, st', hv, h, hr => by
    simp only [items, item] at hr
    rw [Res.bind_eq_ok] at hr
    obtain ⟨st1, h1, hr⟩ := hr
    exact inv_items hx is ds st1 st' hv (inv_block hx h h1) hr
  | .file d :: is, ds, st, st', hv, h, hr => by
    simp only [items, item] at hr
    rw [Res.bind_eq_ok] at hr
    obtain ⟨st1, h1, hr⟩ := hr
    by_cases hn : d.name = x
    · simp only [declarations, hn, if_true] at hv ⊢
      have hv' : Valid ((ds ++ [d]) ++ declarations x is) := by simpa using hv
      have := inv_items hx is (ds ++ [d]) st1 st' hv' (inv_file hn (valid_prefix hv') h h1) hr
      simpa using this
    · simp only [declarations, hn, if_false] at hv ⊢
      exact inv_items hx is ds st1 st' hv (inv_file_other hn h h1) hr

/-! ### The tentative definitions -/

theorem tentative_none {x : Str} : ∀ (names : List Str) (st : St),
    (∀ s, st.syms x = some s → s.isTentative = false) →
    labelled x (tentative names st).vars = labelled x st.vars
  | [], _, _ => rfl
  | y :: ys, st, h => by
    rw [tentative]
    cases hs : st.syms y with
    | none => exact tentative_none ys st h
    | some s =>
      dsimp only
      split
      · rename_i ht
        have hne : y ≠ x := by
          intro he; subst he
          rw [h s hs] at ht; simp at ht
        rw [tentative_none ys]
        · dsimp only
          rw [labelled_append, labelled_other _ _ hne, List.append_nil]
        · dsimp only
          intro s' hs'
          rw [setSym_other _ _ (Ne.symm hne)] at hs'
          exact h s' hs'
      · exact tentative_none ys st h

theorem tentative_some {x : Str} {s : Sym} (ht : s.isTentative = true) : ∀ (names : List Str) (st : St),
    st.syms x = some s → x ∈ names →
    labelled x (tentative names st).vars = labelled x st.vars ++ [⟨x, s.type, none, s.isGlobal, s.alignment⟩]
  | [], _, _, hm => by simp at hm
  | y :: ys, st, h, hm => by
    rw [tentative]
    by_cases he : y = x
    · subst he
      rw [h]
      dsimp only
      rw [if_pos ht, tentative_none]
      · dsimp only
        rw [labelled_append, labelled_single y _ rfl]
      · dsimp only
        intro s' hs'
        rw [setSym_self] at hs'
        rw [← Option.some.inj hs']
    · have hm' : x ∈ ys := by
        simp only [List.mem_cons] at hm
        rcases hm with hm | hm
        · exact absurd hm.symm he
        · exact hm
      cases hs : st.syms y with
      | none => exact tentative_some ht ys st h hm'
      | some s2 =>
        dsimp only
        split
        · rw [tentative_some ht ys _ (by dsimp only; rw [setSym_other _ _ (Ne.symm he)]; exact h) hm']
          dsimp only
          rw [labelled_append, labelled_other _ _ he, List.append_nil]
        · exact tentative_some ht ys st h hm'

theorem unit_eq {is : List Item} {vars : List Var} (h : unit is = .ok vars) :
    ∃ st, items is St.start = .ok st ∧ vars = (tentative st.names st).vars := by
  unfold unit at h
  rw [Res.bind_eq_ok] at h
  obtain ⟨st, h1, h2⟩ := h
  simp only [Res.ok.injEq] at h2
  exact ⟨st, h1, h2.symm⟩

/-! ### Labels of variables in blocks -/

/-- The labels used so far. -/
structure Labels (names : List Str) (st : St) : Prop where
  isLocal : ∀ v ∈ st.vars, v.label ∈ names ∨ ∃ n x, n < st.localVar ∧ IsIdentifier x ∧ v.label = localLabel n x
  few : ∀ n x, IsIdentifier x → (labelled (localLabel n x) st.vars).length ≤ 1

theorem labelled_fresh {names : List Str} {st : St} (h : Labels names st) (hn : ∀ x ∈ names, IsIdentifier x)
    {n : Nat} {x : Str} (hx : IsIdentifier x) (hlt : st.localVar ≤ n) : labelled (localLabel n x) st.vars = [] := by
  unfold labelled
  rw [List.filter_eq_nil_iff]
  intro v hv hc
  simp only [decide_eq_true_eq] at hc
  rcases h.isLocal v hv with hm | ⟨m, y, hm, hy, he⟩
  · exact localLabel_ne (hn _ hm) hc.symm
  · rw [hc] at he
    have := localLabel_inj hx hy he
    omega

theorem labels_append {names : List Str} {st : St} (h : Labels names st) (hn : ∀ x ∈ names, IsIdentifier x)
    {syms : Str → Option Sym} {nm : List Str} {v : Var} (hv : v.label ∈ names) :
    Labels names { st with syms := syms, names := nm, vars := st.vars ++ [v] } := by
  refine ⟨?_, ?_⟩
  · intro w hw
    simp only [List.mem_append, List.mem_singleton] at hw
    rcases hw with hw | hw
    · exact h.isLocal w hw
    · rw [hw]; exact .inl hv
  · intro n x hx
    dsimp only
    rw [labelled_append, labelled_other _ _ (fun he => localLabel_ne (hn _ hv) he.symm), List.append_nil]
    exact h.few n x hx

/-- Every name the items declare is an identifier. -/
def Named : List Item → Prop
  | [] => True
  | .file d :: is => IsIdentifier d.name ∧ Named is
  | .block d :: is => IsIdentifier d.name ∧ Named is

/-- The names of file scope. -/
def fileNames : List Item → List Str
  | [] => []
  | .file d :: is => d.name :: fileNames is
  | .block _ :: is => fileNames is

theorem labels_mono {a b : List Str} {st : St} (h : Labels a st) (hs : ∀ x ∈ a, x ∈ b) : Labels b st := by
  refine ⟨fun v hv => ?_, h.few⟩
  rcases h.isLocal v hv with hm | hm
  · exact .inl (hs _ hm)
  · exact .inr hm

theorem labels_congr {names : List Str} {st st' : St} (h : Labels names st) (h1 : st'.vars = st.vars)
    (h2 : st'.localVar = st.localVar) : Labels names st' :=
  ⟨by rw [h1, h2]; exact h.isLocal, by rw [h1]; exact h.few⟩

theorem labels_item {names : List Str} {st st' : St} {i : Item} (h : Labels names st)
    (hn : ∀ x ∈ names, IsIdentifier x) (hi : Named [i]) (hf : ∀ d, i = .file d → d.name ∈ names)
    (hr : item i st = .ok st') : Labels names st' := by
  cases i with
  | file d =>
    simp only [item] at hr
    unfold fileDeclarator at hr
    dsimp only at hr
    rw [Res.bind_eq_ok] at hr
    obtain ⟨type, _, hr⟩ := hr
    split at hr
    · split at hr
      · simp at hr
      · simp only [Res.ok.injEq] at hr
        rw [← hr]
        exact labels_congr h rfl rfl
    · split at hr
      · simp at hr
      · split at hr
        · simp only [Res.ok.injEq] at hr
          rw [← hr]
          exact labels_append h hn (hf d rfl)
        · simp only [Res.ok.injEq] at hr
          rw [← hr]
          exact labels_congr h rfl rfl
  | block d =>
    simp only [item] at hr
    unfold blockDeclarator at hr
    split at hr
    · split at hr
      · simp at hr
      · simp only [Res.ok.injEq] at hr; rw [← hr]; exact h
    · split at hr
      · simp at hr
      · split at hr
        · simp only [Res.ok.injEq] at hr
          rw [← hr]
          refine ⟨?_, ?_⟩
          · intro v hv
            simp only [List.mem_append, List.mem_singleton] at hv
            rcases hv with hv | hv
            · rcases h.isLocal v hv with hm | ⟨n, x, a, b, c⟩
              · exact .inl hm
              · exact .inr ⟨n, x, Nat.lt_succ_of_lt a, b, c⟩
            · rw [hv]
              exact .inr ⟨st.localVar, d.name, Nat.lt_succ_self _, hi.1, rfl⟩
          · intro n x hx
            dsimp only
            rw [labelled_append]
            by_cases he : localLabel st.localVar d.name = localLabel n x
            · have hnn := localLabel_inj hi.1 hx he
              rw [labelled_fresh h hn hx (by omega)]
              rw [List.nil_append]
              exact List.length_filter_le _ [_]
            · rw [labelled_other _ _ he, List.append_nil]
              exact h.few n x hx
        · simp only [Res.ok.injEq] at hr; rw [← hr]; exact h

theorem labels_items {names : List Str} (hn : ∀ x ∈ names, IsIdentifier x) : ∀ (is : List Item) (st st' : St),
    Named is → (∀ x ∈ fileNames is, x ∈ names) → Labels names st → items is st = .ok st' → Labels names st'
  | [], st, st', _, _, h, hr => by
    simp only [items, Res.ok.injEq] at hr
    rw [← hr]; exact h
  | i :: is, st, st', hi, hf, h, hr => by
    simp only [items] at hr
    rw [Res.bind_eq_ok] at hr
    obtain ⟨st1, h1, hr⟩ := hr
    have hi1 : Named [i] ∧ Named is := by
      cases i <;> exact ⟨⟨hi.1, trivial⟩, hi.2⟩
    refine labels_items hn is st1 st' hi1.2 ?_ (labels_item h hn hi1.1 ?_ h1) hr
    · intro x hx
      apply hf
      cases i
      · exact List.mem_cons_of_mem _ hx
      · exact hx
    · intro d hd
      subst hd
      exact hf _ (by simp [fileNames])

theorem labels_tentative {names : List Str} (hn : ∀ x ∈ names, IsIdentifier x) : ∀ (l : List Str) (st : St),
    (∀ x ∈ l, x ∈ names) → Labels names st → Labels names (tentative l st)
  | [], st, _, h => h
  | y :: ys, st, hl, h => by
    rw [tentative]
    have hys : ∀ x ∈ ys, x ∈ names := fun x hx => hl x (by simp [hx])
    cases hs : st.syms y with
    | none => exact labels_tentative hn ys st hys h
    | some s =>
      dsimp only
      split
      · exact labels_tentative hn ys _ hys (labels_append h hn (hl y (by simp)))
      · exact labels_tentative hn ys st hys h

theorem names_items {names : List Str} : ∀ (is : List Item) (st st' : St),
    (∀ x ∈ fileNames is, x ∈ names) → (∀ x ∈ st.names, x ∈ names) → items is st = .ok st' →
    ∀ x ∈ st'.names, x ∈ names
  | [], st, st', _, h, hr => by
    simp only [items, Res.ok.injEq] at hr
    rw [← hr]; exact h
  | i :: is, st, st', hf, h, hr => by
    simp only [items] at hr
    rw [Res.bind_eq_ok] at hr
    obtain ⟨st1, h1, hr⟩ := hr
    refine names_items is st1 st' ?_ ?_ hr
    · intro x hx
      apply hf
      cases i
      · exact List.mem_cons_of_mem _ hx
      · exact hx
    · cases i with
      | file d =>
        have hd : d.name ∈ names := hf _ (by simp [fileNames])
        simp only [item] at h1
        unfold fileDeclarator at h1
        dsimp only at h1
        rw [Res.bind_eq_ok] at h1
        obtain ⟨type, _, h1⟩ := h1
        have key : ∀ b : Bool, ∀ x ∈ (if b = true then st.names ++ [d.name] else st.names), x ∈ names := by
          intro b x hx
          cases b with
          | false => exact h x hx
          | true =>
            simp only [if_true, List.mem_append, List.mem_singleton] at hx
            rcases hx with hx | hx
            · exact h x hx
            · rw [hx]; exact hd
        split at h1
        · split at h1
          · simp at h1
          · simp only [Res.ok.injEq] at h1
            rw [← h1]; exact h
        · split at h1
          · simp at h1
          · split at h1
            · simp only [Res.ok.injEq] at h1
              rw [← h1]; exact key _
            · simp only [Res.ok.injEq] at h1
              rw [← h1]; exact key _
      | block d =>
        simp only [item] at h1
        unfold blockDeclarator at h1
        split at h1
        · split at h1
          · simp at h1
          · simp only [Res.ok.injEq] at h1; rw [← h1]; exact h
        · split at h1
          · simp at h1
          · split at h1
            · simp only [Res.ok.injEq] at h1; rw [← h1]; exact h
            · simp only [Res.ok.injEq] at h1; rw [← h1]; exact h

theorem named_fileNames : ∀ (is : List Item), Named is → ∀ x ∈ fileNames is, IsIdentifier x
  | [], _, x, hx => by simp [fileNames] at hx
  | .file d :: is, h, x, hx => by
    simp only [fileNames, List.mem_cons] at hx
    rcases hx with hx | hx
    · rw [hx]; exact h.1
    · exact named_fileNames is h.2 x hx
  | .block d :: is, h, x, hx => named_fileNames is h.2 x hx

theorem declarations_nil {x : Str} : ∀ (is : List Item), x ∉ fileNames is → declarations x is = []
  | [], _ => rfl
  | .file d :: is, h => by
    simp only [fileNames, List.mem_cons, not_or] at h
    simp only [declarations, if_neg (Ne.symm h.1)]
    exact declarations_nil is h.2
  | .block d :: is, h => declarations_nil is h

end Verif.Tentative
