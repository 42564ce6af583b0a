import Verif.DeclaratorParse
/-!
C93: declarators denote the types that C says (6.7.6, 6.7.7).
-/
namespace Verif.DeclaratorProps
open Verif Simple Declarator DeclaratorSpec DeclaratorLemmas
open Verif.Types (Ty Kind)
open Verif.Run (Ends)

/-- `int` -/
private abbrev tint : Ty := .node (.simple .int) false []
/-- `char` -/
private abbrev tchar : Ty := .node (.simple .char) false []
/-- `void` -/
private abbrev tvoid : Ty := .node (.simple .void) false []

/-- The full claim also has sizes `[*p]`, repeated `const`, const with the name of an array type,
`(T)` with a typedef name that is declared anew, and `void` by a typedef name; there the code goes
wrong, see below.  Storage classes and the declarators of structure members are missing.

A declarator with a name: the type and the name are those of C17 6.7.6, whatever token follows that
cannot continue the declarator.  `t` is the type of the specifiers, `qs` their qualifiers. -/
theorem declared_type_partial (env : Nat → Option Ty) (t : Ty) (qs : List Qual) (q : Quals) (d : D) (n : Nat) (rest : List DTok)
    (hd : d.Valid env false) (hn : d.name? = some n) (hq : q.const = qs.count .const) (ho : Once qs)
    (ha : Qual.const ∈ qs → IsArray t = false) (hr : Stop rest) (hb : ∀ r, rest ≠ .lbrace :: r) :
    Ends (fun f => initDeclarator env f t q (d.toks ++ rest)) (.ok (some ⟨d.denote (qualified qs t), some n, none⟩, rest)) := by
  have hp := (parses env false d hd).1 (some none) rest hr
  have he : d.isEmpty = false := by cases d <;> first | rfl | cases hn
  have ht : applyTq t q = qualified qs t := by
    have := applyTq_tally t qs ho
    unfold applyTq at this ⊢
    rw [tally_const] at this
    rw [hq]
    rw [Nat.zero_add] at this
    rw [this]
    unfold qualified
    split
    · next h => rw [constOf_not_array _ (ha h)]
    · rfl
  rw [show ast? d = some (ast d) by unfold ast?; rw [he]; rfl, hn] at hp
  refine Ends.bindOk hp ?_
  simp only [Option.isNone]
  rw [if_neg (by simp), ht, astToType_false env d hd]
  simp only [Run.ofRes_ok, Run.bind_ok]
  rw [hn]
  exact Ends.const _

/-- `(*(*f(int, char b[const 3]))[4])(void)` -/
private def d1 : D :=
  .fn (.paren (.ptr [] (.arr (.paren (.ptr [] (.fn (.name 0)
    (.more ⟨[], .type tint, []⟩ .empty (.last ⟨[], .type tchar, []⟩ (.arr (.name 1) false [.const] false (.num true 3)) false)))))
    false [] false (.num true 4)))) (.last ⟨[], .void, []⟩ .empty false)

private theorem d1_valid : d1.Valid (fun _ => none) false := by
  simp [d1, D.Valid, Ps.Valid, Spec.Valid, Once, NoConstArray, D.direct, D.isEmpty, D.startsTypedef, ValidSize, D.bare,
    Spec.base, IsArray, Ps.VoidKeyword, Distinct, Ps.listed, D.name?, Ps.isList, List.count_cons]

/-- `const int (*(*f(int, char b[const 3]))[4])(void);`: f is a function that returns a pointer to
an array of four pointers to functions without parameters that return const int; `b` is a const
pointer. -/
example : d1.denote (qualified [.const] tint) =
    .node (.function false) false [.node .pointer false [.node (.array 4) false [.node .pointer false
      [.node (.function false) false [.node (.simple .int) true []]]]], tint, .node .pointer true [tchar]] ∧
    Ends (fun f => initDeclarator (fun _ => none) f tint ⟨1, 0⟩ (d1.toks ++ [.other]))
      (.ok (some ⟨d1.denote (qualified [.const] tint), some 0, none⟩, [.other])) :=
  ⟨by simp [d1, D.denote, Ps.types, qualified, constOf, adjusted, arrayOf, Ps.variadic, Ps.soleVoid, Spec.type, Spec.base, isVoid,
      D.bracketQuals, D.bare],
   declared_type_partial _ _ [.const] ⟨1, 0⟩ d1 0 _ d1_valid rfl rfl (by simp [Once]) (fun _ => rfl) trivial (by simp)⟩

/-- A type name: specifiers and an abstract declarator.  Missing: as above. -/
theorem type_name_partial (env : Nat → Option Ty) (s : Spec) (d : D) (rest : List DTok) (hs : s.Valid env) (hd : d.Valid env false)
    (hn : d.name? = none) (hr : Stop rest) (hr2 : NotSpec rest) :
    Ends (fun f => typeName env f (s.toks ++ (d.toks ++ rest))) (.ok (some (d.denote s.type), rest)) := by
  have hp := (parses env false d hd).1 none rest hr
  have hsp := specifiers_toks env s hs (d.toks ++ rest) (notSpec_toks d rest hr2)
  obtain ⟨e, -⟩ := type_of_spec env s hs
  refine Ends.congr (g := fun f => declarator env f none (d.toks ++ rest) >>= fun (a, abs, _, r) =>
    if !abs then .fail
    else do
      let (t, _) ← Run.ofRes (astToType? false (applyTq s.base (tally ⟨0, 0⟩ (s.pre ++ s.post))) a)
      .ok (some t, r)) (fun f => ?_) ?_
  · show (Run.ofRes (specifiers env ⟨0, 0⟩ none false (s.toks ++ (d.toks ++ rest))) >>= _) = _
    rw [hsp]; rfl
  · refine Ends.bindOk hp ?_
    simp only
    rw [hn, if_neg (by simp), e]
    have h := astToType_false env d hd s.type
    have : astToType? false s.type (ast? d) = .ok (d.denote s.type, d.name?) := by
      cases d with
      | empty => rw [D.denote]; rfl
      | _ => exact h
    rw [this]
    exact Ends.const _

/-- `(T, ...)[]` after `*const`, in parentheses: `const char *(*const (T, ...))[]` -/
private def d2 : D := .ptr [] (.arr (.paren (.ptr [.const] (.fn .empty (.last ⟨[], .tdef 7 tint, []⟩ .empty true)))) false [] false .empty)

example : d2.denote (.node (.simple .char) true []) =
    .node (.function true) false [.node .pointer true [.node .incompleteArray false [.node .pointer false [.node (.simple .char) true []]]], tint] ∧
    Ends (fun f => typeName (fun n => if n = 7 then some tint else none) f (Spec.toks ⟨[.const], .type tchar, []⟩ ++ (d2.toks ++ [.rpar])))
      (.ok (some (d2.denote (Spec.type ⟨[.const], .type tchar, []⟩)), [.rpar])) :=
  ⟨by simp [d2, D.denote, Ps.types, qualified, constOf, adjusted, arrayOf, Ps.variadic, Ps.soleVoid, Spec.type, Spec.base, isVoid,
      D.bracketQuals],
   type_name_partial _ _ d2 _ (by simp [Spec.Valid, Once, NoConstArray, Spec.base, IsArray])
    (by simp [d2, D.Valid, Ps.Valid, Spec.Valid, Once, NoConstArray, D.direct, D.isEmpty, D.startsTypedef, ValidSize, D.bare,
      Spec.base, IsArray, Ps.VoidKeyword, Distinct, Ps.listed, D.name?])
    rfl trivial trivial⟩

/-- A declaration must have a name. -/
theorem abstract_declaration_rejected (env : Nat → Option Ty) (t : Ty) (q : Quals) (d : D) (rest : List DTok)
    (hd : d.Valid env false) (hn : d.name? = none) (he : d.isEmpty = false) (hr : Stop rest) :
    Ends (fun f => initDeclarator env f t q (d.toks ++ rest)) .fail := by
  have hp := (parses env false d hd).1 (some none) rest hr
  rw [show ast? d = some (ast d) by unfold ast?; rw [he]; rfl, hn] at hp
  refine Ends.bindOk hp ?_
  exact Ends.const _

example : Ends (fun f => initDeclarator (fun _ => none) f tint ⟨0, 0⟩ ((D.ptr [] .empty).toks ++ [.other])) .fail :=
  abstract_declaration_rejected _ _ _ _ _ (by simp [D.Valid, Once]) rfl rfl trivial

/-- A type name must have none. -/
theorem named_type_rejected (env : Nat → Option Ty) (s : Spec) (d : D) (n : Nat) (rest : List DTok) (hs : s.Valid env) (hd : d.Valid env false)
    (hn : d.name? = some n) (hr : Stop rest) (hr2 : NotSpec rest) :
    Ends (fun f => typeName env f (s.toks ++ (d.toks ++ rest))) .fail := by
  have hp := (parses env false d hd).1 none rest hr
  have hsp := specifiers_toks env s hs (d.toks ++ rest) (notSpec_toks d rest hr2)
  rw [hn] at hp
  refine Ends.congr (g := fun f => declarator env f none (d.toks ++ rest) >>= fun (a, abs, _, r) =>
    if !abs then .fail
    else do
      let (t, _) ← Run.ofRes (astToType? false (applyTq s.base (tally ⟨0, 0⟩ (s.pre ++ s.post))) a)
      .ok (some t, r)) (fun f => ?_) ?_
  · show (Run.ofRes (specifiers env ⟨0, 0⟩ none false (s.toks ++ (d.toks ++ rest))) >>= _) = _
    rw [hsp]; rfl
  · exact Ends.bindOk hp (Ends.const _)

example : Ends (fun f => typeName (fun _ => none) f (Spec.toks ⟨[], .type tint, []⟩ ++ ((D.ptr [] (.name 3)).toks ++ [.rpar]))) .fail :=
  named_type_rejected _ _ _ 3 _ (by simp [Spec.Valid, Once, NoConstArray, Spec.base, IsArray]) (by simp [D.Valid, Once]) rfl trivial trivial

/-! ### The scope of the parameters -/

/-- The full claim has no hypothesis `hk`; there the code goes wrong, see `scope_violated`.

Before the body of a function: the type, the name, and the parameters are those of the function
that the identifier is (6.9.1p7), and it is their names that are in the scope of the body
(6.2.1p4), not those of a function it returns a pointer to. -/
theorem definition_scope_partial (env : Nat → Option Ty) (t : Ty) (q : Quals) (d : D) (n : Nat) (ps : Ps) (r : List DTok)
    (hd : d.Valid env false) (hn : d.name? = some n) (hq : q.const = 0) (hf : d.function? = some ps)
    (hk : ps.names ≠ [] ∨ ∀ qs ∈ d.functions, qs.names = []) :
    Ends (fun f => initDeclarator env f t q (d.toks ++ .lbrace :: r))
      (.ok (some ⟨d.denote t, some n, some (ps.names, ps.names)⟩, .lbrace :: r)) := by
  have hp := (parses env false d hd).1 (some none) (.lbrace :: r) trivial
  have he : d.isEmpty = false := by cases d <;> first | rfl | cases hn
  have ht : applyTq t q = t := by unfold applyTq; rw [hq]; rfl
  have hkeep : scopeOf (keep d (some none)) = ps.names := by
    by_cases h : ps.names = []
    · have := hk.resolve_left (fun h' => h' h)
      rw [keep_nothing d this, h]; rfl
    · rw [keep_function d ps hf h]; rfl
  rw [show ast? d = some (ast d) by unfold ast?; rw [he]; rfl, hn] at hp
  refine Ends.bindOk hp ?_
  simp only [Option.isNone]
  rw [if_neg (by simp), ht, astToType_false env d hd]
  simp only [Run.ofRes_ok, Run.bind_ok]
  rw [getParameters_ast d ps hf, hn]
  simp only [Run.ofRes_ok, Run.bind_ok]
  show Ends (fun _ => Run.ok (some (Declared.mk (d.denote t) (some n) (some (ps.names, scopeOf (keep d (some none))))), DTok.lbrace :: r)) _
  rw [hkeep]
  exact Ends.const _

/-- `(*f(int a))(int b)` -/
private def d3 : D := .fn (.paren (.ptr [] (.fn (.name 0) (.last ⟨[], .type tint, []⟩ (.name 1) false)))) (.last ⟨[], .type tint, []⟩ (.name 2) false)

/-- `int (*f(int a))(int b) { … }`: the parameter is `a`. -/
example : Ends (fun f => initDeclarator (fun _ => none) f tint ⟨0, 0⟩ (d3.toks ++ [.lbrace]))
    (.ok (some ⟨d3.denote tint, some 0, some ([some 1], [some 1])⟩, [.lbrace])) :=
  definition_scope_partial _ _ _ d3 0 (.last ⟨[], .type tint, []⟩ (.name 1) false) _
    (by simp [d3, D.Valid, Ps.Valid, Spec.Valid, Once, NoConstArray, D.direct, D.isEmpty, D.startsTypedef, Spec.base, IsArray,
      Ps.VoidKeyword, Distinct, Ps.listed, D.name?])
    rfl rfl rfl (.inl (by simp [Ps.names, Ps.soleVoid, Ps.listed]))

/-- A declarator has one meaning: valid declarators with the same tokens denote the same. -/
theorem unambiguous (env : Nat → Option Ty) (d e : D) (n : Nat) (hd : d.Valid env false) (he : e.Valid env false)
    (hdn : d.name? = some n) (hen : e.name? ≠ none) (h : d.toks = e.toks) (t : Ty) : d.denote t = e.denote t ∧ e.name? = some n := by
  obtain ⟨m, hem⟩ := Option.ne_none_iff_exists'.1 hen
  obtain ⟨M, h1⟩ := declared_type_partial env t [] ⟨0, 0⟩ d n [] hd hdn rfl (by simp [Once]) (by simp) trivial (by simp)
  obtain ⟨N, h2⟩ := declared_type_partial env t [] ⟨0, 0⟩ e m [] he hem rfl (by simp [Once]) (by simp) trivial (by simp)
  have a := h1 (max M N) (by omega)
  have b := h2 (max M N) (by omega)
  rw [h] at a
  rw [a] at b
  simp only [qualified, List.not_mem_nil, if_false] at b
  injection b with b
  injection b with b
  injection b with b
  injection b with b1 b2
  exact ⟨b1, by rw [hem, ← b2]⟩

/-- `f(int a[static 1])` has two derivations. -/
example : ∃ d e : D, d.Valid (fun _ => none) false ∧ e.Valid (fun _ => none) false ∧ d.name? = some 0 ∧ e.name? ≠ none ∧ d.toks = e.toks :=
  ⟨.fn (.name 0) (.last ⟨[], .type tint, []⟩ (.arr (.name 1) true [] false (.num true 1)) false),
   .fn (.name 0) (.last ⟨[], .type tint, []⟩ (.arr (.name 1) false [] true (.num true 1)) false), by
    refine ⟨?_, ?_, rfl, by simp [D.name?], by simp [D.toks, Ps.toks, staticToks, qualToks]⟩ <;>
    simp [D.Valid, Ps.Valid, Spec.Valid, Once, NoConstArray, D.direct, D.bare, Spec.base, IsArray, Ps.VoidKeyword, Distinct,
      Ps.listed, D.name?, ValidSize, hasSize]⟩

/-! ### Where the code goes wrong -/

/-- `int a[*p];` is rejected: `*` is taken for the star of `[*]`.  In C it declares a
variable-length array. -/
theorem deref_size_violated :
    Ends (fun f => initDeclarator (fun _ => none) f tint ⟨0, 0⟩ ((D.arr (.name 0) false [] false (.expr true 0)).toks ++ [.other])) .fail ∧
    (D.arr (.name 0) false [] false (.expr true 0)).denote tint = .node (.vla 2) false [tint] := by
  refine ⟨⟨3, fun f hf => ?_⟩, by simp [D.denote, arrayOf, exprNo]⟩
  obtain ⟨g, rfl⟩ : ∃ g, f = g + 3 := ⟨f - 3, by omega⟩
  simp only [D.toks, staticToks, qualToks, sizeToks]
  rfl

/-- `typedef void V; int f(V);` declares a function with one parameter, of type void.  In C it has
no parameters (6.7.6.3p10). -/
theorem void_typedef_violated :
    ∃ d : D, d = .fn (.name 0) (.last ⟨[], .tdef 1 tvoid, []⟩ .empty false) ∧
    Ends (fun f => initDeclarator (fun n => if n = 1 then some tvoid else none) f tint ⟨0, 0⟩ (d.toks ++ [.other]))
      (.ok (some ⟨.node (.function false) false [tint, tvoid], some 0, none⟩, [.other])) ∧
    d.denote tint = .node (.function false) false [tint] := by
  refine ⟨_, rfl, ⟨6, fun f hf => ?_⟩, by simp [D.denote, Ps.variadic, Ps.soleVoid, Spec.type, qualified, Spec.base, isVoid]⟩
  obtain ⟨g, rfl⟩ : ∃ g, f = g + 6 := ⟨f - 6, by omega⟩
  simp only [D.toks, Ps.toks, Spec.toks, qualToks, TySpec.tok]
  rfl

/-- `typedef int A[3]; int f(const A x);`: the parameter is a const pointer to int.  In C it is a
pointer to const int (6.7.3p9). -/
theorem const_array_violated :
    ∃ d : D, d = .fn (.name 0) (.last ⟨[.const], .tdef 1 (.node (.array 3) false [tint]), []⟩ (.name 2) false) ∧
    Ends (fun f => initDeclarator (fun n => if n = 1 then some (.node (.array 3) false [tint]) else none) f tint ⟨0, 0⟩ (d.toks ++ [.other]))
      (.ok (some ⟨.node (.function false) false [tint, .node .pointer true [tint]], some 0, none⟩, [.other])) ∧
    d.denote tint = .node (.function false) false [tint, .node .pointer false [.node (.simple .int) true []]] := by
  refine ⟨_, rfl, ⟨6, fun f hf => ?_⟩, by simp [D.denote, Ps.variadic, Ps.soleVoid, Ps.types, Spec.type, qualified, Spec.base,
    constOf, adjusted, D.bracketQuals]⟩
  obtain ⟨g, rfl⟩ : ∃ g, f = g + 6 := ⟨f - 6, by omega⟩
  simp only [D.toks, Ps.toks, Spec.toks, qualToks, TySpec.tok]
  rfl

/-- `typedef char T; … { int (T); }` is rejected: `(T)` is taken for parameters.  In C it declares
`T` anew, as an int; 6.7.6.3p11 is about parameters only. -/
theorem typedef_in_parentheses_violated :
    Ends (fun f => initDeclarator (fun n => if n = 1 then some tchar else none) f tint ⟨0, 0⟩ ((D.paren (.name 1)).toks ++ [.other])) .fail ∧
    (D.paren (.name 1)).denote tint = tint ∧ (D.paren (.name 1)).name? = some 1 := by
  refine ⟨⟨6, fun f hf => ?_⟩, by simp [D.denote], rfl⟩
  obtain ⟨g, rfl⟩ : ∃ g, f = g + 6 := ⟨f - 6, by omega⟩
  simp only [D.toks]
  rfl

/-- `int (*f(void))(int b) { … }`: the scope of the body has `b`, a parameter of the function that is
returned.  In C it has no parameter. -/
theorem scope_violated :
    ∃ d : D, d = .fn (.paren (.ptr [] (.fn (.name 0) (.last ⟨[], .void, []⟩ .empty false)))) (.last ⟨[], .type tint, []⟩ (.name 2) false) ∧
    d.Valid (fun _ => none) false ∧
    Ends (fun f => initDeclarator (fun _ => none) f tint ⟨0, 0⟩ (d.toks ++ [.lbrace]))
      (.ok (some ⟨d.denote tint, some 0, some ([], [some 2])⟩, [.lbrace])) ∧
    d.function?.map Ps.names = some [] := by
  refine ⟨_, rfl, ?_, ⟨9, fun f hf => ?_⟩, rfl⟩
  · simp [D.Valid, Ps.Valid, Spec.Valid, Once, NoConstArray, D.direct, D.isEmpty, D.startsTypedef, Spec.base, IsArray,
      Ps.VoidKeyword, Distinct, Ps.listed, D.name?]
  · obtain ⟨g, rfl⟩ : ∃ g, f = g + 9 := ⟨f - 9, by omega⟩
    simp only [D.toks, Ps.toks, Spec.toks, qualToks, TySpec.tok, D.denote, Ps.types, Ps.soleVoid, Ps.variadic, D.bracketQuals,
      Spec.type, Spec.base, qualified, List.append_nil, List.not_mem_nil, if_false, isVoid, adjusted]
    rfl

end Verif.DeclaratorProps
