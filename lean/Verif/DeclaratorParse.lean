import Verif.DeclaratorLemmas
/-!
Lemmas for declarators: parsing the tokens of a declarator builds its tree.
-/
namespace Verif.DeclaratorLemmas
open Verif Simple Declarator DeclaratorSpec
open Verif.Types (Ty Kind)
open Verif.Run (Ends)

theorem addName_ok (ns : List (Option Nat)) (n : Option Nat) (rest : List (Option Nat)) (h : Distinct (ns ++ n :: rest)) :
    addName ns n = .ok (ns ++ [n]) := by
  cases n with
  | none => rfl
  | some n =>
    show (if some n ∈ ns then Res.fail else _) = _
    rw [if_neg]
    intro hm
    unfold Distinct at h
    rw [List.filterMap_append, List.nodup_append] at h
    exact h.2.2 n (List.mem_filterMap.2 ⟨some n, hm, rfl⟩) n (by simp) rfl

theorem abs_name (n : Option Nat) : (if n.isNone = true then none else n) = n := by cases n <;> rfl

/-- One parameter and what follows it. -/
theorem parameterList_step (env : Nat → Option Ty) (s : Spec) (d : D) (hs : s.Valid env) (hd : d.Valid env true)
    (ts : List Ty) (ns : List (Option Nat)) (more : List (Option Nat)) (hn : Distinct (ns ++ d.name? :: more)) (r : List DTok)
    (hr : NotSpec r) (x)
    (hp : Ends (fun f => declarator env f none (d.toks ++ r)) (.ok (ast? d, d.name?.isNone, keep d none, r)))
    (h : Ends (fun f => (match r with
      | .rpar :: _ => parameterList.finish (ts ++ [adjusted d.bracketQuals (d.denote s.type)]) (ns ++ [d.name?]) r
      | .comma :: r => parameterList env f (ts ++ [adjusted d.bracketQuals (d.denote s.type)]) (ns ++ [d.name?]) r
      | _ => .fail)) x) :
    Ends (fun f => parameterList env f ts ns (s.toks ++ (d.toks ++ r))) x := by
  obtain ⟨t, e1, e2⟩ := parameter_type env s d hs hd
  refine Ends.succ ?_
  have hsp := specifiers_toks env s hs (d.toks ++ r) (notSpec_toks d r hr)
  refine Ends.congr (g := fun f => declarator env f none (d.toks ++ r) >>= fun (a, abs, _, r) => (do
      let (t, name) ← Run.ofRes (astToType? true (applyTq s.base (tally ⟨0, 0⟩ (s.pre ++ s.post))) a)
      let ns ← Run.ofRes (addName ns (if abs then none else name))
      let ts := ts ++ [adjust t]
      match r with
      | .rpar :: _ => parameterList.finish ts ns r
      | .comma :: r => parameterList env f ts ns r
      | _ => .fail)) (fun f => ?_) ?_
  · show (Run.ofRes (specifiers env ⟨0, 0⟩ none false (s.toks ++ (d.toks ++ r))) >>= _) = _
    rw [hsp]; rfl
  · refine Ends.bindOk hp ?_
    simp only
    rw [e1]
    simp only [Run.ofRes_ok, Run.bind_ok]
    rw [abs_name, addName_ok _ _ _ hn, e2]
    simp only [Run.ofRes_ok, Run.bind_ok]
    exact h

theorem not_void_tokens (ps : Ps) (hu : ps.isList = true) (hv : ps.soleVoid = false) (r : List DTok) :
    (∀ r', ps.toks ++ .rpar :: r ≠ .rpar :: r') ∧ (∀ r', ps.toks ++ .rpar :: r ≠ .kvoid :: .rpar :: r') := by
  have sp : ∀ (s : Spec) l, (∀ r', s.toks ++ l ≠ .rpar :: r') ∧
      ((∃ r', s.toks ++ l = .kvoid :: .rpar :: r') → s.pre = [] ∧ s.ty = .void ∧ s.post = [] ∧ ∃ r', l = .rpar :: r') := by
    intro s l
    obtain ⟨pre, ty, post⟩ := s
    cases pre with
    | cons a p => exact ⟨fun r' h => (by cases h), fun ⟨r', h⟩ => by cases h⟩
    | nil =>
      cases ty with
      | type t => exact ⟨fun r' h => (by cases h), fun ⟨r', h⟩ => by cases h⟩
      | tdef n t => exact ⟨fun r' h => (by cases h), fun ⟨r', h⟩ => by cases h⟩
      | void =>
        refine ⟨fun r' h => (by cases h), fun ⟨r', h⟩ => ?_⟩
        cases post with
        | cons a p => cases h
        | nil =>
          refine ⟨rfl, rfl, rfl, r', ?_⟩
          have : DTok.kvoid :: l = .kvoid :: .rpar :: r' := h
          simpa using this
  have hd : ∀ (d : D) l, (∀ r', l ≠ .rpar :: r') → ∀ r', d.toks ++ l ≠ .rpar :: r' := by
    intro d l hl r' h
    rcases toks_head d l with ⟨h1, -⟩ | ⟨l, n, h1, -⟩ | ⟨l, h1⟩ | ⟨l, h1⟩ | ⟨l, h1⟩ <;> rw [h1] at h <;> first | exact hl _ h | cases h
  cases ps with
  | unspec => cases hu
  | more s d q =>
    rw [Ps.toks]
    rw [show s.toks ++ d.toks ++ DTok.comma :: q.toks ++ DTok.rpar :: r = s.toks ++ (d.toks ++ DTok.comma :: (q.toks ++ DTok.rpar :: r)) by simp]
    refine ⟨(sp s _).1, fun r' h => ?_⟩
    obtain ⟨-, -, -, r'', h⟩ := (sp s _).2 ⟨r', h⟩
    exact hd d _ (fun _ h => by cases h) _ h
  | last s d v =>
    rw [Ps.toks]
    cases v with
    | true =>
      rw [show s.toks ++ d.toks ++ (if true = true then [DTok.comma, DTok.ellipsis] else []) ++ DTok.rpar :: r = s.toks ++ (d.toks ++ DTok.comma :: DTok.ellipsis :: DTok.rpar :: r) by simp]
      refine ⟨(sp s _).1, fun r' h => ?_⟩
      obtain ⟨-, -, -, r'', h⟩ := (sp s _).2 ⟨r', h⟩
      exact hd d _ (fun _ h => by cases h) _ h
    | false =>
      rw [show s.toks ++ d.toks ++ (if false = true then [DTok.comma, DTok.ellipsis] else []) ++ DTok.rpar :: r = s.toks ++ (d.toks ++ DTok.rpar :: r) by simp]
      refine ⟨(sp s _).1, fun r' h => ?_⟩
      obtain ⟨h1, h2, h3, r'', h⟩ := (sp s _).2 ⟨r', h⟩
      rcases toks_head d (DTok.rpar :: r) with ⟨-, h4⟩ | ⟨l, n, h4, -⟩ | ⟨l, h4⟩ | ⟨l, h4⟩ | ⟨l, h4⟩
      · obtain ⟨pre, ty, post⟩ := s
        cases h1; cases h2; cases h3; subst h4
        cases hv
      all_goals rw [h4] at h; cases h

theorem functionParameters_list (env : Nat → Option Ty) (f : Nat) (k : Kept) (a : Ast) (r : List DTok)
    (h1 : ∀ r', r ≠ .rpar :: r') (h2 : ∀ r', r ≠ .kvoid :: .rpar :: r') :
    functionParameters env (f + 1) k a r = (parameterList env f [] [] r >>= fun (ts, ns, v, r) =>
      .ok (.function ts ns v a, (match k with | some none => some (some ns) | k => k), r)) := by
  rw [functionParameters]
  · rfl
  · exact fun r' h => h1 r' h
  · exact fun r' h => h2 r' h

/-- What parsing a declarator gives, with or without suffixes after it. -/
def Parses (env : Nat → Option Ty) (d : D) : Prop :=
  (∀ k r, Stop r → Ends (fun f => declarator env f k (d.toks ++ r)) (.ok (ast? d, d.name?.isNone, keep d k, r))) ∧
  (d.direct = true → d.isEmpty = false → ∀ k r a k' r', Ends (fun f => suffixes env f (keep d k) (ast d) r) (.ok (a, k', r')) →
    Ends (fun f => declarator env f k (d.toks ++ r)) (.ok (some a, d.name?.isNone, k', r')))

/-- It is enough to know the second half. -/
theorem Parses.direct {env : Nat → Option Ty} {d : D} (he : d.isEmpty = false)
    (h : ∀ k r a k' r', Ends (fun f => suffixes env f (keep d k) (ast d) r) (.ok (a, k', r')) →
      Ends (fun f => declarator env f k (d.toks ++ r)) (.ok (some a, d.name?.isNone, k', r'))) : Parses env d := by
  refine ⟨fun k r hr => ?_, fun _ _ => h⟩
  have := h k r _ _ _ (suffixes_stop env _ _ r hr)
  unfold ast?
  rw [he]
  exact this

/-- After `d`, which may be empty, come suffixes. -/
theorem Parses.suffix {env : Nat → Option Ty} {d : D} (h : Parses env d) (hd : d.direct = true) (k : Kept) (r : List DTok) (a k' r')
    (hs : Ends (fun f => suffixes env f (keep d k) (ast d) (.lbrack :: r)) (.ok (a, k', r'))) :
    Ends (fun f => declarator env f k (d.toks ++ .lbrack :: r)) (.ok (some a, d.name?.isNone, k', r')) := by
  cases he : d.isEmpty with
  | false => exact h.2 hd he k _ _ _ _ hs
  | true =>
    have : d = .empty := by cases d <;> first | rfl | cases he
    subst this
    exact Ends.succ (Ends.bindOk hs (Ends.const _))

mutual
theorem parses (env : Nat → Option Ty) (param : Bool) : (d : D) → d.Valid env param → Parses env d
  | .name n, _ => Parses.direct rfl (fun _ _ _ _ _ h => Ends.succ (Ends.bindOk h (Ends.const _)))
  | .empty, _ => ⟨fun k r hr => declarator_stop env k r hr, fun _ h => by cases h⟩
  | .ptr qs d, hv => by
    rw [D.Valid] at hv
    have ih := parses env param d hv.2
    refine ⟨fun k r hr => ?_, fun h => by cases h⟩
    have hq := quals_toks qs ⟨0, 0⟩ (d.toks ++ r) (notQual_toks d r hr)
    rw [D.toks, List.cons_append, List.append_assoc]
    refine Ends.succ ?_
    refine Ends.congr (g := fun f => declarator env f k (d.toks ++ r) >>= fun (p, abs, k, r) => (
      match p with
      | none => do
        let (a, k, r) ← suffixes env f k (.pointer (tally ⟨0, 0⟩ qs) (.terminal none)) r
        .ok (some a, true, k, r)
      | some p => do
        let (a, k, r) ← suffixes env f k (.pointer (tally ⟨0, 0⟩ qs) p) r
        .ok (some a, abs, k, r))) (fun f => ?_) ?_
    · rw [declarator]
      simp only
      rw [hq]
      rfl
    · refine Ends.bindOk (ih.1 k r hr) ?_
      cases he : d.isEmpty with
      | false =>
        rw [show ast? d = some (ast d) by unfold ast?; rw [he]; rfl]
        exact Ends.bindOk (suffixes_stop env _ _ r hr) (Ends.const _)
      | true =>
        have : d = .empty := by cases d <;> first | rfl | cases he
        subst this
        exact Ends.bindOk (suffixes_stop env _ _ r hr) (Ends.const _)
  | .paren d, hv => by
    rw [D.Valid] at hv
    obtain ⟨he, ht, hv⟩ := hv
    have ih := parses env param d hv
    refine Parses.direct rfl (fun k r a k' r' h => ?_)
    rw [D.toks, List.cons_append, List.append_assoc]
    have h2 : Ends (fun f => if atTypedef env (d.toks ++ ([DTok.rpar] ++ r)) then Run.ok (none, true, k, d.toks ++ ([DTok.rpar] ++ r))
        else declarator env f k (d.toks ++ ([DTok.rpar] ++ r))) (.ok (some (ast d), d.name?.isNone, keep d k, [DTok.rpar] ++ r)) := by
      simp only [atTypedef_toks env d ht he]
      have := ih.1 k ([DTok.rpar] ++ r) trivial
      rw [show ast? d = some (ast d) by unfold ast?; rw [he]; rfl] at this
      exact this
    exact Ends.succ (Ends.bindOk h2 (Ends.bindOk h (Ends.const _)))
  | .arr d s1 qs s2 size, hv => by
    rw [D.Valid] at hv
    obtain ⟨hdir, hd, hs, -, -, h12, hz⟩ := hv
    have ih := parses env param d hd
    refine Parses.direct rfl (fun k r a k' r' h => ?_)
    rw [D.toks]
    rw [show d.toks ++ DTok.lbrack :: (staticToks s1 ++ qualToks qs ++ staticToks s2 ++ sizeToks size ++ [DTok.rbrack]) ++ r =
      d.toks ++ DTok.lbrack :: (bracketToks s1 qs s2 size ++ r) by simp [bracketToks]]
    exact ih.suffix hdir k _ _ _ _ (suffixes_arr env _ _ s1 qs s2 size r _ hs h12 hz h)
  | .fn d ps, hv => by
    rw [D.Valid] at hv
    obtain ⟨hdir, hd, hps, hvoid, hdist⟩ := hv
    have ih := parses env param d hd
    have ihp := parsesPs env ps hps
    refine Parses.direct rfl (fun k r a k' r' h => ?_)
    have hfp : ∀ k b, Ends (fun f => functionParameters env f k b (ps.toks ++ DTok.rpar :: r))
        (.ok (.function (if ps.soleVoid then [] else ps.types) ps.names ps.variadic b, keepPs ps k, r)) := by
      intro k b
      cases hl : ps.isList with
      | false =>
        have : ps = .unspec := by cases ps <;> first | rfl | cases hl
        subst this
        rw [Ps.toks, Ps.types]
        exact Ends.succ (Ends.const _)
      | true =>
        cases hsv : ps.soleVoid with
        | true =>
          have : ∃ s, ps = .last s .empty false ∧ s.pre = [] ∧ s.post = [] ∧ s.ty = .void := by
            revert hvoid hsv
            unfold Ps.soleVoid Ps.VoidKeyword
            split
            · intro h1 h2; exact ⟨_, rfl, h1 h2⟩
            · intro _ h; cases h
          obtain ⟨⟨_, _, _⟩, rfl, rfl, rfl, rfl⟩ := this
          rw [Ps.toks, D.toks]
          exact Ends.succ (Ends.const _)
        | false =>
          obtain ⟨t1, t2⟩ := not_void_tokens ps hl hsv r
          refine Ends.succ (Ends.congr (fun f => functionParameters_list env f k b _ t1 t2) ?_)
          refine Ends.bindOk (ihp hl [] [] (by simpa using hdist) r) ?_
          unfold Ps.names keepPs
          rw [hsv, hl]
          exact Ends.const _
    rw [D.toks, List.append_assoc, List.cons_append, List.append_assoc]
    show Ends (fun f => declarator env f k (d.toks ++ DTok.lpar :: (ps.toks ++ DTok.rpar :: r))) _
    cases he : d.isEmpty with
    | false => exact ih.2 hdir he k _ _ _ _ (suffixes_fn env _ _ _ _ _ _ _ (hfp _ _) h)
    | true =>
      have : d = .empty := by cases d <;> first | rfl | cases he
      subst this
      rw [D.toks]
      exact declarator_fn_empty env ps hps k r _ _ _ _ _ (hfp _ _) h

theorem parsesPs (env : Nat → Option Ty) : (ps : Ps) → ps.Valid env → ps.isList = true → ∀ ts ns, Distinct (ns ++ ps.listed) → ∀ r,
    Ends (fun f => parameterList env f ts ns (ps.toks ++ .rpar :: r)) (.ok (ts ++ ps.types, ns ++ ps.listed, ps.variadic, r))
  | .unspec, _, h, _, _, _, _ => by cases h
  | .last s d v, hv, _, ts, ns, hn, r => by
    rw [Ps.Valid] at hv
    have ih := parses env true d hv.2
    rw [Ps.toks, Ps.types]
    cases v with
    | true =>
      rw [show s.toks ++ d.toks ++ (if true = true then [DTok.comma, DTok.ellipsis] else []) ++ DTok.rpar :: r = s.toks ++ (d.toks ++ DTok.comma :: DTok.ellipsis :: DTok.rpar :: r) by simp]
      refine parameterList_step env s d hv.1 hv.2 ts ns [] hn (DTok.comma :: DTok.ellipsis :: DTok.rpar :: r) trivial _ (ih.1 _ _ trivial) ?_
      exact Ends.succ (Ends.const _)
    | false =>
      rw [show s.toks ++ d.toks ++ (if false = true then [DTok.comma, DTok.ellipsis] else []) ++ DTok.rpar :: r = s.toks ++ (d.toks ++ DTok.rpar :: r) by simp]
      refine parameterList_step env s d hv.1 hv.2 ts ns [] hn (DTok.rpar :: r) trivial _ (ih.1 _ _ trivial) ?_
      exact Ends.const _
  | .more s d q, hv, _, ts, ns, hn, r => by
    rw [Ps.Valid] at hv
    have ih := parses env true d hv.2.1
    rw [Ps.toks, Ps.types]
    rw [show s.toks ++ d.toks ++ DTok.comma :: q.toks ++ DTok.rpar :: r = s.toks ++ (d.toks ++ DTok.comma :: (q.toks ++ DTok.rpar :: r)) by simp]
    refine parameterList_step env s d hv.1 hv.2.1 ts ns q.listed hn (DTok.comma :: (q.toks ++ DTok.rpar :: r)) trivial _ (ih.1 _ _ trivial) ?_
    have := parsesPs env q hv.2.2.1 hv.2.2.2 (ts ++ [adjusted d.bracketQuals (d.denote s.type)]) (ns ++ [d.name?])
      (by rw [List.append_assoc]; exact hn) r
    rw [List.append_assoc, List.append_assoc] at this
    exact this
end

/-! ### The scope of the parameters -/

theorem keep_some (d : D) (ns : List (Option Nat)) : keep d (some (some ns)) = some (some ns) := by
  induction d using D.rec (motive_2 := fun _ => True) with
  | name n => rfl
  | empty => rfl
  | paren d ih => exact ih
  | ptr qs d ih => exact ih
  | arr d _ _ _ _ ih => exact ih
  | fn d ps ih _ => show keepPs ps (keep d _) = _; rw [ih]; unfold keepPs; split <;> rfl
  | unspec => trivial
  | last => trivial
  | more => trivial

theorem keep_bare (d : D) (h : d.bare = true) (k : Kept) : keep d k = k := by
  induction d using D.rec (motive_2 := fun _ => True) with
  | name n => rfl
  | empty => rfl
  | paren d ih => exact ih h
  | ptr qs d ih => cases h
  | arr d _ _ _ _ ih => cases h
  | fn d ps ih _ => cases h
  | unspec => trivial
  | last => trivial
  | more => trivial

theorem ast_bare (d : D) (h : d.bare = true) : ast d = .terminal d.name? := by
  induction d using D.rec (motive_2 := fun _ => True) with
  | name n => rfl
  | empty => rfl
  | paren d ih => exact ih h
  | ptr qs d ih => cases h
  | arr d _ _ _ _ ih => cases h
  | fn d ps ih _ => cases h
  | unspec => trivial
  | last => trivial
  | more => trivial

theorem ast_not_bare (d : D) (h : d.bare = false) : ∀ n, ast d ≠ .terminal n := by
  induction d using D.rec (motive_2 := fun _ => True) with
  | name n => cases h
  | empty => cases h
  | paren d ih => exact ih h
  | ptr qs d ih => intro n h; cases h
  | arr d _ _ _ _ ih => intro n h; cases h
  | fn d ps ih _ => intro n h; cases h
  | unspec => trivial
  | last => trivial
  | more => trivial

theorem getParameters_ast (d : D) (ps : Ps) (h : d.function? = some ps) : getParameters (ast d) = .ok ps.names := by
  induction d using D.rec (motive_2 := fun _ => True) with
  | name n => cases h
  | empty => cases h
  | paren d ih => exact ih h
  | ptr qs d ih => exact ih h
  | arr d _ _ _ _ ih => exact ih h
  | fn d qs ih _ =>
    cases hb : d.bare with
    | true =>
      have : qs = ps := by unfold D.function? at h; rw [hb] at h; exact Option.some.inj h
      subst this
      show getParameters (.function _ _ _ (ast d)) = _
      rw [ast_bare d hb]; rfl
    | false =>
      have h' : d.function? = some ps := by unfold D.function? at h; rw [hb] at h; exact h
      rw [← ih h']
      show getParameters (.function _ _ _ (ast d)) = _
      have := ast_not_bare d hb
      cases e : ast d with
      | terminal n => exact (this n e).elim
      | _ => rfl
  | unspec => trivial
  | last => trivial
  | more => trivial

theorem names_nil (ps : Ps) : ps.names = [] ↔ (ps.isList && !ps.soleVoid) = false := by
  cases ps with
  | unspec => exact ⟨fun _ => rfl, fun _ => rfl⟩
  | last s d v =>
    unfold Ps.names
    show _ ↔ (true && !Ps.soleVoid (.last s d v)) = false
    cases Ps.soleVoid (.last s d v) <;> simp [Ps.listed]
  | more s d r =>
    unfold Ps.names
    simp [Ps.soleVoid, Ps.isList, Ps.listed]

/-- The names in a scope that stays open. -/
def scopeOf : Kept → List (Option Nat)
  | some (some ns) => ns
  | _ => []

theorem keep_function (d : D) (ps : Ps) (h : d.function? = some ps) (hne : ps.names ≠ []) : keep d (some none) = some (some ps.names) := by
  induction d using D.rec (motive_2 := fun _ => True) with
  | name n => cases h
  | empty => cases h
  | paren d ih => exact ih h
  | ptr qs d ih => exact ih h
  | arr d _ _ _ _ ih => exact ih h
  | fn d qs ih _ =>
    show keepPs qs (keep d (some none)) = _
    cases hb : d.bare with
    | true =>
      have : qs = ps := by unfold D.function? at h; rw [hb] at h; exact Option.some.inj h
      subst this
      rw [keep_bare d hb]
      unfold keepPs
      cases hc : (qs.isList && !qs.soleVoid) with
      | false => exact (hne ((names_nil qs).2 hc)).elim
      | true =>
        have : qs.soleVoid = false := by cases h : qs.soleVoid <;> simp_all
        unfold Ps.names
        rw [this]; rfl
    | false =>
      have h' : d.function? = some ps := by unfold D.function? at h; rw [hb] at h; exact h
      rw [ih h']
      unfold keepPs; split <;> rfl
  | unspec => trivial
  | last => trivial
  | more => trivial

theorem keep_nothing (d : D) (h : ∀ ps ∈ d.functions, ps.names = []) : keep d (some none) = some none := by
  induction d using D.rec (motive_2 := fun _ => True) with
  | name n => rfl
  | empty => rfl
  | paren d ih => exact ih h
  | ptr qs d ih => exact ih h
  | arr d _ _ _ _ ih => exact ih h
  | fn d qs ih _ =>
    show keepPs qs (keep d (some none)) = _
    have hf : (D.fn d qs).functions = d.functions ++ [qs] := rfl
    rw [hf] at h
    rw [ih (fun ps hp => h ps (by simp [hp]))]
    unfold keepPs
    rw [(names_nil qs).1 (h qs (by simp))]; rfl
  | unspec => trivial
  | last => trivial
  | more => trivial

end Verif.DeclaratorLemmas
