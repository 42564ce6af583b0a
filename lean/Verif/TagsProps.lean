import Verif.TagsSim
/-!
C95: tags denote the types that C says.
-/
namespace Verif.TagsProps
open Verif Tags TagsSpec

theorem rel_start : Rel (fun _ => none) (fun _ => none) start init [fun _ => none] :=
  ⟨⟨fun _ => (levelAt_none rfl).2 ⟨rfl, rfl⟩, ⟨fun _ _ => rfl, fun _ _ => rfl⟩, trivial⟩, fun _ _ _ h => (by cases h), fun _ _ h => (by cases h),
    List.cons_ne_nil _ _⟩

theorem contentIs_of {f own} {s : State} {m : St} {c : Marks} (r : Rel f own s m c) : ContentIs f s m := by
  intro e d h
  have := (r.dat e d h).2.2.2
  revert this
  cases s.content e <;> cases m.fields d <;> exact fun h => h

/-- Every text within the limits is understood as C says: every specifier stands for the same type
as in C, is complete where it is in C, and the contents of the types are those that C says.
Missing: the texts that are not `Clear`; see the theorems below. -/
theorem tags_partial (is : List Item) (hc : Clear is) : Agrees is := by
  intro s o h
  obtain ⟨c', hc'⟩ := Option.isSome_iff_exists.1 hc
  obtain ⟨m', o', f', own', h1, h2, _, h4⟩ := says_sim h rel_start hc'
  exact ⟨m', o', f', h1, h2.inj, h4, contentIs_of h2⟩

/-- A text without enumerations that C does not allow is rejected. -/
theorem tags_rejected_partial (is : List Item) (hc : Clear is) (hr : records is = true) (h : ¬ ∃ s o, Says start is s o) :
    ∀ r, items is init ≠ .ok r := by
  intro r hr'
  obtain ⟨c', hc'⟩ := Option.isSome_iff_exists.1 hc
  obtain ⟨s, o, _, _, h1, _⟩ := items_sim is (m' := r.1) (o' := r.2) hr rel_start hc' hr'
  exact h ⟨s, o, h1⟩

/-- `struct T { struct T *next; union { struct U *u; } x; };`
`struct U { void (*f)(struct T *, struct V *); };`
`{ struct T { struct U *u; } *p; struct T *q; enum { A } e; }` `struct T *r;` -/
def someText : List Item :=
  [.define .struct (some 0) [.ref .struct 0 false, .define .union none [.ref .struct 1 false]],
   .define .struct (some 1) [.scope [.ref .struct 0 false, .ref .struct 2 false]],
   .scope [.define .struct (some 0) [.ref .struct 1 false], .ref .struct 0 false, .define .enum none []],
   .ref .struct 0 false]

theorem someText_clear : Clear someText := by
  simp [Clear, someText, clear, clearItem, visible, here, TagsSpec.bind]

/-- C allows the text. -/
theorem someText_says : ∃ s o, Says start someText s o := by
  refine ⟨_, _, .define rfl (.seen rfl rfl (by decide) (.unnamed (.unseen rfl (by decide) (.done _)) (.done _))) rfl
    (.complete rfl rfl (.scope (.seen rfl rfl (by decide) (.unseen rfl (by decide) (.done _))) (.done _)) rfl
      (.scope (.define rfl (.seen rfl rfl (by decide) (.done _)) rfl
        (.seen rfl rfl (by decide) (.unnamed (.done _) (.done _)))) (.seen rfl rfl (by decide) (.done _))))⟩

example : ∃ st o f, items someText init = .ok (st, o) ∧ Distinct f := by
  obtain ⟨s, o, h⟩ := someText_says
  obtain ⟨st, o', f, h1, h2, _⟩ := tags_partial someText someText_clear s o h
  exact ⟨st, o', f, h1, h2⟩

/-- The types of the text in the compiler. -/
example : (match items someText init with | .ok (_, o) => o.map (·.den) | _ => []) =
    [.record 0, .record 0, .record 2, .record 1, .record 1, .record 0, .record 3, .record 4, .record 1, .record 4, .int, .record 0] := by
  simp [someText, items, item, structRef, structDefine, enumDefine, nameOf, Tags.get, getCurrent, Tags.add, register, setFields, typeOf, init, Bind.bind, Res.bind]

/-- `struct T { int a; }; struct T { int b; };` is not allowed, and rejected. -/
example : ∀ r, items [.define .struct (some 0) [], .define .struct (some 0) []] init ≠ .ok r := by
  refine tags_rejected_partial _ (by simp [Clear, clear, clearItem, here, TagsSpec.bind]) rfl ?_
  rintro ⟨s, o, h⟩
  cases h with
  | define _ h1 _ h2 =>
    cases h1
    cases h2 with
    | define h3 => cases h3
    | complete h3 _ h4 h5 => cases h4; injection h3 with h3; subst h3; cases h5
  | complete h0 => cases h0

/-- `struct T { int a; }; { struct T { struct T *next; } x; }`: `next` points to the outer `T`. -/
theorem inner_tag_violated : ¬ Agrees [.define .struct (some 0) [], .scope [.define .struct (some 0) [.ref .struct 0 false]]] := by
  intro h
  obtain ⟨st, o', f, h1, _, h3, _⟩ := h _ _ (.define rfl (.done _) rfl (.scope (.define rfl (.seen rfl rfl (by decide) (.done _)) rfl (.done _)) (.done _)))
  have e : (match items [.define .struct (some 0) [], .scope [.define .struct (some 0) [.ref .struct 0 false]]] init with | .ok (_, o) => o | _ => []) =
      [⟨.record 0, true⟩, ⟨.record 1, true⟩, ⟨.record 0, true⟩] := by
    simp [items, item, structRef, structDefine, nameOf, Tags.get, getCurrent, Tags.add, register, setFields, typeOf, init, Bind.bind, Res.bind]
  rw [h1] at e
  have e : o' = [⟨.record 0, true⟩, ⟨.record 1, true⟩, ⟨.record 0, true⟩] := e
  rw [e] at h3
  cases h3 with
  | cons a1 _ h3 =>
    cases h3 with
    | cons a2 _ h3 =>
      cases h3 with
      | cons a3 a4 _ => cases a4

/-- `struct T { void (*f)(struct T *); };`: the parameter of `f` points to another type `T`, which
belongs to the parameter list. -/
theorem parameter_tag_violated : ¬ Agrees [.define .struct (some 0) [.scope [.ref .struct 0 false]]] := by
  intro h
  obtain ⟨st, o', f, h1, _, h3, _⟩ := h _ _ (.define rfl (.scope (.seen rfl rfl (by decide) (.done _)) (.done _)) rfl (.done _))
  have e2 : (match items [.define .struct (some 0) [.scope [.ref .struct 0 false]]] init with | .ok (_, o) => o | _ => []) =
      [⟨.record 1, true⟩, ⟨.record 0, false⟩] := by
    simp [items, item, structRef, structDefine, nameOf, Tags.get, getCurrent, Tags.add, register, setFields, typeOf, init, Bind.bind, Res.bind]
  rw [h1] at e2
  have e2 : o' = [⟨.record 1, true⟩, ⟨.record 0, false⟩] := e2
  rw [e2] at h3
  cases h3 with
  | cons a1 _ h3 =>
    cases h3 with
    | cons a2 _ _ =>
      have b1 : f 0 = some 1 := a1
      have b2 : f 0 = some 0 := a2
      rw [b1] at b2; cases b2

/-- `struct T { int a; }; { struct T; }`: the second declaration does not declare a type. -/
theorem forward_tag_violated : ¬ Agrees [.define .struct (some 0) [], .scope [.ref .struct 0 true]] := by
  intro h
  obtain ⟨st, o', f, h1, h2, h3, _⟩ := h _ _ (.define rfl (.done _) rfl (.scope (.alone rfl (by decide) (.done _)) (.done _)))
  have e2 : (match items [.define .struct (some 0) [], .scope [.ref .struct 0 true]] init with | .ok (_, o) => o | _ => []) =
      [⟨.record 0, true⟩, ⟨.record 0, true⟩] := by
    simp [items, item, structRef, structDefine, nameOf, Tags.get, getCurrent, Tags.add, register, setFields, typeOf, init, Bind.bind, Res.bind]
  rw [h1] at e2
  have e2 : o' = [⟨.record 0, true⟩, ⟨.record 0, true⟩] := e2
  rw [e2] at h3
  cases h3 with
  | cons a1 _ h3 =>
    cases h3 with
    | cons a2 _ _ =>
      have := h2 0 1 0 a1 a2
      cases this

/-- `enum T { A }; enum T { B };` is accepted. -/
theorem enum_twice_violated : (∃ r, items [.define .enum (some 0) [], .define .enum (some 0) []] init = .ok r) ∧
    ¬ ∃ s o, Says start [.define .enum (some 0) [], .define .enum (some 0) []] s o := by
  constructor
  · simp [items, item, enumDefine, nameOf, getCurrent, Tags.add, register, init, Bind.bind, Res.bind]
  · rintro ⟨s, o, h⟩
    cases h with
    | define _ h1 _ h2 =>
      cases h1
      cases h2 with
      | define h3 => cases h3
      | complete h3 _ h4 h5 => cases h4; injection h3 with h3; subst h3; cases h5
    | complete h0 => cases h0

/-- `enum T x;` without a declaration of `T` is accepted. -/
theorem enum_unknown_violated : (∃ r, items [.ref .enum 0 false] init = .ok r) ∧ ¬ ∃ s o, Says start [.ref .enum 0 false] s o := by
  constructor
  · simp [items, item, enumRef, Tags.get, Tags.add, register, init, Bind.bind, Res.bind]
  · rintro ⟨s, o, h⟩
    cases h with
    | seen h0 => cases h0
    | unseen _ h0 => exact h0 rfl

end Verif.TagsProps
