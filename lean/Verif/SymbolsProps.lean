import Verif.SymbolsLemmas
/-!
C25 scoped symbol table, C71 typedef names and inner declarations.
-/
namespace Verif.Symbols
open Verif

/-- C25: for every hash function and every history, the table reports an error exactly when
the stack of scopes does, and otherwise every lookup gives the innermost declaration, every
lookup in the current scope that scope's, every file-scope lookup the file scope's. -/
theorem symbol_table (h : Id → Nat) (mem : Nat → Entry) (os : List Op) :
    (specRun os [fun _ => none] = none → run h os (init mem) = .fail) ∧
    (∀ ms, specRun os [fun _ => none] = some ms → ∃ s, run h os (init mem) = .ok s ∧
      ∀ id, get h s id = .ok (lookup id ms) ∧
        getCurrent h s id = .ok (ms.head?.bind (fun m => m id)) ∧
        getGlobal h s id = .ok (ms.getLast?.bind (fun m => m id))) := by
  obtain ⟨h1, h2⟩ := run_rel os (init mem) _ (rel_init h mem)
  refine ⟨h2, ?_⟩
  intro ms hms
  obtain ⟨s, e, I, O, rfl⟩ := h1 ms hms
  refine ⟨s, e, fun id => ⟨get_spec I O id, ?_, ?_⟩⟩
  · rw [getCurrent_spec I O]
    obtain ⟨ns, hns, _⟩ := scopes_cons s s.cur
    rw [hns]; rfl
  · rw [getGlobal_spec I]
    have : ∀ c, (scopes s c).getLast? = some (scopeOf s 0) := by
      intro c
      induction c with
      | zero => rfl
      | succ c ih =>
        obtain ⟨ns, hns, _⟩ := scopes_cons s c
        rw [scopes, hns, List.getLast?_cons_cons, ← hns, ih]
    rw [this]; rfl

/-- Two nested blocks, each with an `x`. -/
example : ∃ ms, specRun [.addIdentifier [120] 1, .push, .addIdentifier [120] 2, .push, .addGlobal [102] 3, .pop]
    [fun _ => none] = some ms ∧ lookup (.identifier, [120]) ms = some 2 ∧ lookup (.identifier, [102]) ms = some 3 := by
  refine ⟨_, rfl, ?_, ?_⟩ <;> decide

/-- C25: a block in which nothing is declared at file scope leaves every lookup as it was. -/
theorem scope_restores (h : Id → Nat) (mem : Nat → Entry) (before body : List Op) (s s' : St)
    (hl : ∀ o ∈ body, o.isLocal = true) (hb : Balanced body 0)
    (h1 : run h before (init mem) = .ok s) (h2 : run h (.push :: body ++ [.pop]) s = .ok s') :
    ∀ id, get h s' id = get h s id ∧ getCurrent h s' id = getCurrent h s id ∧ getGlobal h s' id = getGlobal h s id := by
  obtain ⟨r1, r2⟩ := run_rel before (init mem) _ (rel_init h mem)
  cases e : specRun before [fun _ => none] with
  | none => rw [r2 e] at h1; simp at h1
  | some ms =>
    obtain ⟨s0, e0, R⟩ := r1 ms e
    rw [e0] at h1
    simp only [Res.ok.injEq] at h1
    subst h1
    obtain ⟨q1, q2⟩ := run_rel (.push :: body ++ [.pop]) s0 ms R
    cases e2 : specRun (.push :: body ++ [.pop]) ms with
    | none => rw [q2 e2] at h2; simp at h2
    | some ms2 =>
      obtain ⟨s1, e1, R1⟩ := q1 ms2 e2
      rw [e1] at h2
      simp only [Res.ok.injEq] at h2
      subst h2
      have heq : ms2 = ms := by
        rw [List.cons_append, specRun] at e2
        simp only [specStep, Option.bind_some] at e2
        rw [specRun_append] at e2
        cases e3 : specRun body ((fun _ => none) :: ms) with
        | none => rw [e3] at e2; simp at e2
        | some m3 =>
          obtain ⟨y, rfl⟩ := balanced_keeps body [] ms m3 hl (by simpa using hb) (fun _ => none) e3
          rw [e3] at e2
          simp only [Option.bind_some, specRun] at e2
          cases ms with
          | nil => simp [specStep] at e2
          | cons m ms => simpa [specStep] using e2.symm
      subst heq
      intro id
      have a := R.eq
      have b := R1.eq
      obtain ⟨ns, hns, _⟩ := scopes_cons s0 s0.cur
      obtain ⟨ns1, hns1, _⟩ := scopes_cons s1 s1.cur
      have hlast : ∀ (t : St) c, (scopes t c).getLast? = some (scopeOf t 0) := by
        intro t c
        induction c with
        | zero => rfl
        | succ c ih =>
          obtain ⟨ns, hns, _⟩ := scopes_cons t c
          rw [scopes, hns, List.getLast?_cons_cons, ← hns, ih]
      refine ⟨?_, ?_, ?_⟩
      · rw [get_spec R.inv R.opn, get_spec R1.inv R1.opn, ← a, ← b]
      · rw [getCurrent_spec R.inv R.opn, getCurrent_spec R1.inv R1.opn]
        rw [a] at b
        rw [hns, hns1] at b
        simp only [List.cons.injEq] at b
        rw [b.1]
      · rw [getGlobal_spec R.inv, getGlobal_spec R1.inv]
        have := hlast s0 s0.cur
        rw [← a, b, hlast s1 s1.cur] at this
        simp only [Option.some.injEq] at this
        rw [this]

example : Balanced [.addIdentifier [120] 1, .push, .addIdentifier [120] 2, .pop] 0 ∧
    (∀ o ∈ [Op.addIdentifier [120] 1, .push, .addIdentifier [120] 2, .pop], o.isLocal = true) := by
  refine ⟨by simp [Balanced], by decide⟩

/-! ### C71 -/

/-- C71 violated: after `typedef int T; { int T;` the name is still a typedef name
(`symbols_get_typedef` decides that, src/parser/declaration.c:162, 820), so `T = 1;` is
parsed as a declaration. -/
theorem typedef_hidden_violated (h : Id → Nat) (mem : Nat → Entry) :
    ¬ (∀ (os : List Op) (s : St), run h os (init mem) = .ok s → ∀ name d,
        getCurrent h s (.identifier, name) = .ok (some d) → get h s (.typedef, name) = .ok none) := by
  intro hall
  obtain ⟨s, e, hs⟩ := (symbol_table h mem [.addTypedef [84] 1, .push, .addIdentifier [84] 2]).2 _ rfl
  have a := hs (.identifier, [84])
  have b := hs (.typedef, [84])
  have := hall _ s e [84] 2 (by rw [a.2.1]; rfl)
  rw [b.1] at this
  revert this
  decide

end Verif.Symbols
