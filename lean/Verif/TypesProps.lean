import Verif.TypesLemmas
/-!
C22 type identity, C23 composite types, C24 member lookup.
-/
namespace Verif.Types
open Verif Simple

/-- C22: for every hash function and every sequence of constructor calls, every call returns,
and two calls return the same pointer exactly when they were asked for the same type. -/
theorem type_identity (h : BitVec 32 → BitVec 32) (qs : List Req) (hw : WellFormed qs 0) :
    ∃ rs s, run h qs [] {} = .ok (rs, s) ∧ rs.length = qs.length ∧
      ∀ i j, i < qs.length → j < qs.length → (rs[i]? = rs[j]? ↔ (trees qs [])[i]? = (trees qs [])[j]?) := by
  have I0 : Inv h {} [] := ⟨⟨rfl, by simp⟩, List.nodup_nil, by simp⟩
  obtain ⟨rs, s, us, e, I, hl, hl2, hr⟩ := run_spec qs [] {} [] [] I0 rfl hw (by simp)
  refine ⟨rs, s, e, by simpa using hl2, ?_⟩
  intro i j hi hj
  have hi' : i < rs.length := by simp at hl2; omega
  have hj' : j < rs.length := by simp at hl2; omega
  obtain ⟨ai, bi⟩ := hr i hi'
  obtain ⟨aj, bj⟩ := hr j hj'
  have g : ∀ {α} (l : List α) (k : Nat) (d : α), k < l.length → l[k]? = some (l.getD k d) := by
    intro α l k d hk
    rw [List.getD_eq_getElem?_getD, List.getElem?_eq_getElem hk]; rfl
  rw [g rs i 0 hi', g rs j 0 hj', g (trees qs []) i dTy (by omega), g (trees qs []) j dTy (by omega)]
  simp only [Option.some.injEq]
  constructor
  · intro he; rw [← bi, ← bj, he]
  · intro he
    rw [← bi, ← bj] at he
    have hlen := I.den.len
    have n := I.nodup
    have hi2 : rs.getD i 0 < ([] ++ us).length := by omega
    have hj2 : rs.getD j 0 < ([] ++ us).length := by omega
    generalize rs.getD i 0 = x at hi2 he
    generalize rs.getD j 0 = y at hj2 he
    rw [List.getD_eq_getElem?_getD, List.getD_eq_getElem?_getD, List.getElem?_eq_getElem hi2,
      List.getElem?_eq_getElem hj2] at he
    simp only [Option.getD_some] at he
    exact (List.getElem_inj n).mp he

/-- Two structures, pointers to them made twice, arrays of those, `const` variants. -/
example : WellFormed [⟨.simple .int, false, []⟩, ⟨.pointer, false, [0]⟩, ⟨.pointer, false, [0]⟩, ⟨.array 3, true, [2]⟩,
    ⟨.function true, false, [1, 3]⟩] 0 := by simp [WellFormed]

/-! ### C23 -/

/-- C23 violated, too lenient: `int a[3]` and `char a[]` are merged. -/
theorem composite_sound_violated :
    ¬ (∀ a b c : Ty, composite a b = some c → Compat a b) := by
  intro h
  have := h (.arr 3 (.simple .int)) (.inc (.simple .char)) _ rfl
  cases this with
  | arrInc h => cases h

/-- C23 violated, too lenient: `int f()` and `char f(int)` are merged. -/
theorem composite_return_violated :
    ∃ a b c : Ty, composite a b = some c ∧ ¬ Compat a b :=
  ⟨.oldFn (.simple .int), .fn false (.simple .char) [.simple .int], _, rfl, by
    intro h
    cases h with
    | oldL h => cases h⟩

/-- C23 violated, too strict: `int (*p)[3]` and `int (*p)[]` are compatible. -/
theorem composite_complete_violated :
    ¬ (∀ a b : Ty, Compat a b → ∃ c, composite a b = some c) := by
  intro h
  obtain ⟨c, hc⟩ := h (.ptr (.arr 3 (.simple .int))) (.ptr (.inc (.simple .int))) (.ptr (.arrInc (.same _)))
  simp [composite, Ty.beq, Ty.beqs, Kind.tag] at hc

/-- C23 violated: the result depends on the order. -/
theorem composite_symmetric_violated :
    ¬ (∀ a b : Ty, composite a b = composite b a) := by
  intro h
  have := h (.oldFn (.simple .int)) (.oldFn (.simple .char))
  simp [composite, Ty.beq, Ty.beqs, Kind.tag] at this

theorem beq_comm (a b : Ty) : a.beq b = b.beq a := by
  rw [Bool.eq_iff_iff, Ty.beq_iff, Ty.beq_iff]; exact eq_comm

/-- C23: whether two types are merged does not depend on the order, and the result neither
unless both are functions without prototype. -/
theorem composite_symmetric_partial (a b : Ty) :
    (composite a b).isSome = (composite b a).isSome ∧
    (¬ (∃ c d r s, a = .node (.function true) c [r] ∧ b = .node (.function true) d [s]) → composite a b = composite b a) := by
  cases a with | node ka ca as => cases b with | node kb cb bs =>
  by_cases e : (Ty.node ka ca as).beq (.node kb cb bs) = true
  · have := (Ty.beq_iff _ _).mp e
    rw [this]; exact ⟨rfl, fun _ => rfl⟩
  · have e2 : ¬ (Ty.node kb cb bs).beq (.node ka ca as) = true := by rwa [beq_comm]
    simp only [composite, e, e2, if_false]
    cases ka <;> cases kb <;> simp [Kind.tag]
    rename_i va vb
    cases va <;> cases vb <;> simp
    constructor
    · by_cases h1 : as.length = 1 <;> by_cases h2 : bs.length = 1 <;> simp [h1, h2]
    · intro hn
      by_cases h1 : as.length = 1 <;> by_cases h2 : bs.length = 1 <;> simp [h1, h2]
      obtain ⟨r, rfl⟩ := List.length_eq_one_iff.mp h1
      obtain ⟨s, rfl⟩ := List.length_eq_one_iff.mp h2
      exact absurd rfl (hn r rfl s)

example : composite (.arr 3 (.simple .int)) (.inc (.simple .int)) = some (.arr 3 (.simple .int)) := rfl

/-- `b` says at least as much as `a`: it is the same type, or the array with its length, or
the function with its parameters. -/
inductive Completes : Ty → Ty → Prop
  | same (t : Ty) : Completes t t
  | arr {n : Nat} {c d : Bool} {a b : Ty} : Completes (.node .incompleteArray c [a]) (.node (.array n) d [b])
  | fn {v c d : Bool} {a b : Ty} {ps : List Ty} : Completes (.node (.function true) c [a]) (.node (.function v) d (b :: ps))

/-- Arrays have one component, functions at least one; as the constructors build them. -/
def Formed : Ty → Prop
  | .node (.array _) _ l => l.length = 1
  | .node .incompleteArray _ l => l.length = 1
  | .node (.function _) _ l => l ≠ []
  | _ => True

/-- The component on which the merge does not look: element type, return type, qualifier. -/
def Head : Ty → Option Ty × Bool
  | .node _ c l => (l.head?, c)

/-- C23, what is right: the composite is one of the two types and completes both; if element
or return type and qualifiers agree, the types are compatible. -/
theorem composite_sound_partial (a b c : Ty) (ha : Formed a) (hb : Formed b) (h : composite a b = some c) :
    (c = a ∨ c = b) ∧ Completes a c ∧ Completes b c ∧ (Head a = Head b → Compat a b) := by
  by_cases e : a.beq b = true
  · unfold composite at h; rw [if_pos e] at h
    have e := (Ty.beq_iff _ _).mp e
    subst e; cases h
    exact ⟨.inl rfl, .same _, .same _, fun _ => .same _⟩
  · unfold composite at h; rw [if_neg e] at h
    cases a with | node ka ca as => cases b with | node kb cb bs =>
    cases ka <;> cases kb <;> simp [Kind.tag] at h
    · subst h
      obtain ⟨x, rfl⟩ := List.length_eq_one_iff.mp ha
      obtain ⟨y, rfl⟩ := List.length_eq_one_iff.mp hb
      refine ⟨.inl rfl, .same _, .arr, ?_⟩
      intro he; simp [Head] at he; obtain ⟨rfl, rfl⟩ := he
      exact .arrInc (.same _)
    · subst h
      obtain ⟨x, rfl⟩ := List.length_eq_one_iff.mp ha
      obtain ⟨y, rfl⟩ := List.length_eq_one_iff.mp hb
      refine ⟨.inr rfl, .arr, .same _, ?_⟩
      intro he; simp [Head] at he; obtain ⟨rfl, rfl⟩ := he
      exact .incArr (.same _)
    · rename_i va vb
      obtain ⟨x, as, rfl⟩ := List.exists_cons_of_ne_nil ha
      obtain ⟨y, bs, rfl⟩ := List.exists_cons_of_ne_nil hb
      split at h
      · next hv =>
        obtain ⟨rfl, hl⟩ := hv
        cases h
        have : as = [] := by simpa using hl
        subst this
        refine ⟨.inr rfl, .fn, .same _, ?_⟩
        intro he; simp [Head] at he; obtain ⟨rfl, rfl⟩ := he
        exact .oldL (.same _)
      · split at h
        case isFalse => simp at h
        next hv =>
        obtain ⟨rfl, hl⟩ := hv
        cases h
        have : bs = [] := by simpa using hl
        subst this
        refine ⟨.inl rfl, .same _, .fn, ?_⟩
        intro he; simp [Head] at he; obtain ⟨rfl, rfl⟩ := he
        exact .oldR (.same _)

/-- C23, what is right: equal types, an array with and without length, a function with and
without prototype are merged, in both orders, and the more complete one results. -/
theorem composite_completes_partial (t r : Ty) (n : Nat) (c v : Bool) (ps : List Ty) (hp : v = false ∨ ps ≠ []) :
    composite t t = some t ∧
    composite (.node (.array n) c [t]) (.node .incompleteArray c [t]) = some (.node (.array n) c [t]) ∧
    composite (.node .incompleteArray c [t]) (.node (.array n) c [t]) = some (.node (.array n) c [t]) ∧
    composite (.node (.function v) c (r :: ps)) (.node (.function true) c [r]) = some (.node (.function v) c (r :: ps)) ∧
    composite (.node (.function true) c [r]) (.node (.function v) c (r :: ps)) = some (.node (.function v) c (r :: ps)) := by
  have hne : (Ty.node (.function v) c (r :: ps)) ≠ .node (.function true) c [r] := by
    intro he; simp at he; rcases hp with hp | hp
    · simp [hp] at he
    · exact hp he.2
  have e1 : ¬ (Ty.node (.function v) c (r :: ps)).beq (.node (.function true) c [r]) = true :=
    fun h => hne ((Ty.beq_iff _ _).mp h)
  have e2 : ¬ (Ty.node (.function true) c [r]).beq (.node (.function v) c (r :: ps)) = true :=
    fun h => hne ((Ty.beq_iff _ _).mp h).symm
  refine ⟨by unfold composite; rw [if_pos ((Ty.beq_iff _ _).mpr rfl)], by simp [composite, Ty.beq, Kind.tag],
    by simp [composite, Ty.beq, Kind.tag], ?_, ?_⟩
  · rw [composite, if_neg e1]
    rcases hp with hp | hp
    · simp [Kind.tag, hp]
    · simp [Kind.tag, hp]
  · rw [composite, if_neg e2]; simp [Kind.tag]

example : (false = false ∨ [Ty.simple .int] ≠ []) ∧ Formed (.arr 3 (.simple .int)) ∧ Formed (.inc (.simple .int)) :=
  ⟨.inl rfl, rfl, rfl⟩

/-! ### C24 -/

/-- C24: the expression built for `x.name` follows a path to a member of that name. -/
theorem member_lookup_sound (name : Str) (r : Rec) (e : Access) (h : dotOperator name r = some e) :
    Leads r e.path name := by
  rw [dotOperator] at h
  split at h
  · simp at h
  · next p hp =>
    cases h
    rw [path_foldl]
    simpa [Access.path] using search_sound name r p hp

/-- C24: if some path leads to a member of that name, one is found. -/
theorem member_lookup_complete (name : Str) (r : Rec) (path : List Nat) (h : Leads r path name) :
    ∃ e, dotOperator name r = some e := by
  have := search_complete h
  rw [dotOperator]
  cases e : search name r with
  | none => rw [e] at this; simp at this
  | some p => exact ⟨_, rfl⟩

/-- `struct { int x; struct { int y; union { int z; }; }; }`: `z` is field 0 of field 1 of
field 1. -/
example : dotOperator [122] (.mk [([120], none), ([], some (.mk [([121], none), ([], some (.mk [([122], none)]))]))])
    = some (.member (.member (.member .operand 1) 1) 0) := by decide +kernel

example : Leads (.mk [([120], none), ([], some (.mk [([121], none)]))]) [1, 0] [121] :=
  .through (r' := .mk [([121], none)]) rfl (.here (t := none) rfl)

end Verif.Types
