import Verif.InitialFinal
/-!
C91: an initialiser gives every part of the object the value that C17 6.7.9 says.
-/
namespace Verif.Initial
open Verif Simple

/-- What is missing from the full statement (`InitObj false t i evs` alone suffices): forms that
the parser rejects or reads otherwise (`comma_after_designator_violated`, `scalar_comma_violated`,
`string_comma_violated`, `const_structure_violated`), which `InitObj true` leaves out; and initialisers that override earlier
ones other than for the same part (`override_list_violated`, `override_value_violated`,
`override_member_violated`), which `Separate` leaves out.

For every type, every initialiser for it with braces, designators and braces left out in any
combination, and any tokens behind: the parser ends, takes exactly the initialiser, gives an array
of unknown size the size that C says, and each part of the object gets in the end the value
that C says and no other. -/
theorem initialiser_parts_partial {t : T} {i : Ini} {evs : List Ev} (h : InitObj true t i evs)
    (hs : Separate t evs) (r : List Tk) :
    ∃ init N, (∀ f, N ≤ f → parseInitializer f t (i.write ++ r) = .ok (fullType t i evs, init, r)) ∧
      ∀ p, codeAt t init p = finalAt t p evs none := by
  obtain ⟨c, hc, hp⟩ := code_final h hs
  obtain ⟨N, hN⟩ := parse_ok h hc r
  refine ⟨c, N, fun f hf => ?_, hp⟩
  rw [hN f hf, resType_full h hc]

/-- What `InitObj true` describes is what C describes. -/
theorem initialiser_forms {t : T} {i : Ini} {evs : List Ev} (h : InitObj true t i evs) : InitObj false t i evs :=
  plain_obj h

/-- C gives an initialiser one meaning. -/
theorem initialiser_meaning {t : T} {i : Ini} {evs evs' : List Ev} (h : InitObj false t i evs)
    (h' : InitObj false t i evs') : evs = evs' :=
  det_obj h h'

/-! ### A case -/

/-- `int`. -/
def int : T := .simple .int
/-- `a`, `b`, `c`, `s`. -/
def nA : Str := [97]
def nB : Str := [98]
def nC : Str := [99]
def nS : Str := [115]
/-- `struct { int a, b; }` -/
def pairT : T := .record false ⟨1, false⟩ (.cons nA int (.cons nB int .nil))
/-- `struct { struct { int a, b; } s; int c; }` -/
def outerT : T := .record false ⟨2, false⟩ (.cons nS pairT (.cons nC int .nil))
/-- `union { int a; int b; }` -/
def unionT : T := .record true ⟨3, false⟩ (.cons nA int (.cons nB int .nil))

theorem names_a : Names nA pairT [0] := .here ⟨rfl, rfl⟩
theorem names_s : Names nS outerT [0] := .here ⟨rfl, rfl⟩

theorem names_one {x : Str} {fs : Fields} {u id} {k : Nat}
    (h : ∀ i t, Fields.named fs i x t → i = k) (he : ∀ i t, ¬ Fields.named fs i [] t) :
    ∀ p, Names x (.record u id fs) p → p = [k] := by
  intro p hp
  cases hp with
  | here hn => rw [h _ _ hn]
  | inner hn _ => exact absurd hn (he _ _)

theorem pair_named {i x t} (h : Fields.named (.cons nA int (.cons nB int .nil)) i x t) :
    (i = 0 ∧ x = nA) ∨ (i = 1 ∧ x = nB) := by
  match i, h with
  | 0, h => exact .inl ⟨rfl, h.1⟩
  | 1, h => exact .inr ⟨rfl, h.1⟩
  | i + 2, h => exact h.elim

theorem outer_named {i x t} (h : Fields.named (.cons nS pairT (.cons nC int .nil)) i x t) :
    (i = 0 ∧ x = nS) ∨ (i = 1 ∧ x = nC) := by
  match i, h with
  | 0, h => exact .inl ⟨rfl, h.1⟩
  | 1, h => exact .inr ⟨rfl, h.1⟩
  | i + 2, h => exact h.elim

theorem member_a {u id} : Resolves (.record u id (.cons nA int (.cons nB int .nil))) [.member nA] [0] := by
  refine .member (p := [0]) (q := []) (by decide) (.here (t := int) ⟨rfl, rfl⟩) ?_ rfl .nil
  refine names_one (fun i t h => ?_) (fun i t h => ?_)
  · rcases pair_named h with ⟨h, _⟩ | ⟨_, h⟩
    · exact h
    · exact absurd h (by decide)
  · rcases pair_named h with ⟨_, h⟩ | ⟨_, h⟩ <;> exact absurd h (by decide)

theorem member_b {u id} : Resolves (.record u id (.cons nA int (.cons nB int .nil))) [.member nB] [1] := by
  refine .member (p := [1]) (q := []) (by decide) (.here (t := int) ⟨rfl, rfl⟩) ?_ rfl .nil
  refine names_one (fun i t h => ?_) (fun i t h => ?_)
  · rcases pair_named h with ⟨_, h⟩ | ⟨h, _⟩
    · exact absurd h (by decide)
    · exact h
  · rcases pair_named h with ⟨_, h⟩ | ⟨_, h⟩ <;> exact absurd h (by decide)

theorem member_s {ds q} (h : Resolves pairT ds q) : Resolves outerT (.member nS :: ds) (0 :: q) := by
  refine .member (p := [0]) (q := q) (by decide) (.here (t := pairT) ⟨rfl, rfl⟩) ?_ rfl h
  refine names_one (fun i t h => ?_) (fun i t h => ?_)
  · rcases outer_named h with ⟨h, _⟩ | ⟨_, h⟩
    · exact h
    · exact absurd h (by decide)
  · rcases outer_named h with ⟨_, h⟩ | ⟨_, h⟩ <;> exact absurd h (by decide)

/-- An expression of type `int`. -/
def ex (e : Nat) : Ini := .expr e none

theorem puts_int (plain : Bool) (e : Nat) : Puts plain int (ex e) [] [.set [] (.value (.expr e) int)] :=
  .here (.whole rfl (fun _ => rfl))

/-- `struct { struct { int a, b; } s; int c; } x[] = { [1].s.a = 10, 11, 12, 13 };` -/
def sampleIni : Ini :=
  .brace (.more [.index 1, .member nS, .member nA] (ex 10) (.more [] (ex 11) (.more [] (ex 12) (.one [] (ex 13) true))))

/-- The values of the example: `x[1].s.a`, `x[1].s.b`, `x[1].c`, `x[2].s.a`. -/
def sampleEvents : List Ev :=
  [.start [], .set [1, 0, 0] (.value (.expr 10) int), .set [1, 0, 1] (.value (.expr 11) int),
    .set [1, 1] (.value (.expr 12) int), .set [2, 0, 0] (.value (.expr 13) int)]

theorem sample_puts (plain : Bool) (e : Nat) :
    Puts plain outerT (ex e) [0, 0] [.set [0, 0] (.value (.expr e) int)] :=
  .down rfl rfl rfl (.down rfl rfl rfl (puts_int plain e))

theorem sample_init : InitObj true (.unknown outerT) sampleIni sampleEvents := by
  refine .list rfl (fun i c h => by cases h) ?_
  refine .more (q := [1, 0, 0]) (u := int) (p := []) (.designated (by simp) ?_) rfl (puts_int _ 10) ?_ ?_
  · exact .index (fun v id fs h => by cases h) (u := outerT) rfl (member_s member_a)
  · refine .more (q := [1, 0, 1]) (u := int) (p := []) .current rfl (puts_int _ 11) ?_ (fun _ h => absurd rfl h)
    refine .more (q := [1, 1]) (u := int) (p := []) .current rfl (puts_int _ 12) ?_ (fun _ h => absurd rfl h)
    exact .one (q := [2]) (u := outerT) (p := [0, 0]) .current rfl (sample_puts _ 13)
  · intro _ _ _; rfl

theorem sample_separate : Separate (.unknown outerT) sampleEvents := by
  simp [Separate, sampleEvents, List.pairwise_cons, harmless, apart, T.sub, outerT, pairT, Fields.get]

/-- The hypotheses hold for a case with designators, braces left out and an array of unknown size. -/
example : ∃ init N, (∀ f, N ≤ f → parseInitializer f (.unknown outerT) (sampleIni.write ++ [.other]) =
      .ok (.array 3 outerT, init, [.other])) ∧
    codeAt (.unknown outerT) init [1, 0, 1] = some (.value (.expr 11) int) ∧
    codeAt (.unknown outerT) init [2, 0, 0] = some (.value (.expr 13) int) ∧
    codeAt (.unknown outerT) init [0, 1] = none := by
  obtain ⟨init, N, h, hp⟩ := initialiser_parts_partial sample_init sample_separate [.other]
  exact ⟨init, N, h, hp _, hp _, hp _⟩

example : InitObj false (.unknown outerT) sampleIni sampleEvents := initialiser_forms sample_init

example : ∀ evs, InitObj false (.unknown outerT) sampleIni evs → evs = sampleEvents :=
  fun _ h => initialiser_meaning h (initialiser_forms sample_init)

/-! ### Where the program departs from C -/

/-- `{ .s.b = 1, 2 }` -/
def commaIni : Ini := .brace (.more [.member nS, .member nB] (ex 1) (.one [] (ex 2) false))

/-- `struct { struct { int a, b; } s; int c; } x = { .s.b = 1, 2 };` is C (`c` gets 2), but the
comma is read when the inner structure is at its end, and the initialiser is rejected. -/
theorem comma_after_designator_violated :
    (∃ evs, InitObj false outerT commaIni evs ∧ Separate outerT evs) ∧
    ∀ f, parseInitializer (f + 12) outerT (commaIni.write ++ [.other]) = .fail := by
  refine ⟨⟨[.start [], .set [0, 1] (.value (.expr 1) int), .set [1] (.value (.expr 2) int)], ?_, ?_⟩, fun f => rfl⟩
  · refine .list rfl (fun i c h => by cases h) ?_
    refine .more (q := [0, 1]) (u := int) (p := []) (.designated (by simp) (member_s member_b)) rfl (puts_int _ 1) ?_ (by simp)
    exact .one (q := [1]) (u := int) (p := []) .current rfl (puts_int _ 2)
  · simp [Separate, List.pairwise_cons, harmless, apart, T.sub, outerT, pairT, Fields.get]

/-- `int x = { 1, };` is C, and is rejected. -/
theorem scalar_comma_violated :
    (∃ evs, InitObj false int (.brace (.one [] (ex 1) true)) evs) ∧
    ∀ f, parseInitializer (f + 12) int ((Ini.brace (.one [] (ex 1) true)).write ++ [.other]) = .fail :=
  ⟨⟨_, .braced rfl (by simp)⟩, fun _ => rfl⟩

/-- `char x[] = { "abc", };` is an array of 4 in C; here it is an array of 1 that holds (the low
byte of) an address. -/
theorem string_comma_violated :
    (∃ evs, InitObj false (.unknown (.simple .char)) (.brace (.one [] (.str .char 7 4) true)) evs ∧
      fullType (.unknown (.simple .char)) (.brace (.one [] (.str .char 7 4) true)) evs = .array 4 (.simple .char)) ∧
    ∀ f, parseInitializer (f + 12) (.unknown (.simple .char)) ((Ini.brace (.one [] (.str .char 7 4) true)).write ++ [.other]) =
      .ok (.array 1 (.simple .char), .brace [.expr (.address 7) (.simple .char)], [.other]) :=
  ⟨⟨_, .braced rfl (by simp), rfl⟩, fun _ => rfl⟩

/-- `{ v, 2 }` with `const struct { int a, b; } v` of the type of `s` -/
def constIni : Ini := .brace (.more [] (.expr 9 (some ⟨1, true⟩)) (.one [] (ex 2) false))

/-- `const struct { int a, b; } v` initialises the whole of `s` in C, and `c` gets 2; here the types
of `v` and `s` differ, so braces are taken to be left out, `v` is for `s.a`, 2 is for `s.b`, and `c`
gets nothing. -/
theorem const_structure_violated :
    ∃ evs init, InitObj false outerT constIni evs ∧ Separate outerT evs ∧
      (∀ f, parseInitializer (f + 12) outerT (constIni.write ++ [.other]) = .ok (outerT, init, [.other])) ∧
      finalAt outerT [0] evs none = some (.value (.expr 9) pairT) ∧ codeAt outerT init [0] = none ∧
      finalAt outerT [1] evs none = some (.value (.expr 2) int) ∧ codeAt outerT init [1] = none ∧
      codeAt outerT init [0, 1] = some (.value (.expr 2) int) := by
  refine ⟨[.start [], .set [0] (.value (.expr 9) pairT), .set [1] (.value (.expr 2) int)],
    .brace [.brace [.expr (.expr 9) int, .expr (.expr 2) int]], ?_, ?_, fun f => rfl, rfl, rfl, rfl, rfl, rfl⟩
  · refine .list rfl (fun i c h => by cases h) ?_
    refine .more (q := [0]) (u := pairT) (p := []) .current rfl (.here (.whole rfl (by simp))) ?_ (fun _ h => absurd rfl h)
    exact .one (q := [1]) (u := int) (p := []) .current rfl (puts_int _ 2)
  · simp [Separate, List.pairwise_cons, harmless, apart, T.sub, outerT, Fields.get]

/-- `{ .s = { 1, 2 }, .s = { 3 } }` -/
def mergeIni : Ini :=
  .brace (.more [.member nS] (.brace (.more [] (ex 1) (.one [] (ex 2) false))) (.one [.member nS] (.brace (.one [] (ex 3) false)) false))

theorem pair_list (plain : Bool) : InitObj plain pairT (.brace (.more [] (ex 1) (.one [] (ex 2) false)))
    [.start [], .set [0] (.value (.expr 1) int), .set [1] (.value (.expr 2) int)] := by
  refine .list rfl (fun i c h => by cases h) ?_
  refine .more (q := [0]) (u := int) (p := []) .current rfl (puts_int _ 1) ?_ (fun _ h => absurd rfl h)
  exact .one (q := [1]) (u := int) (p := []) .current rfl (puts_int _ 2)

theorem pair_one (plain : Bool) : InitObj plain pairT (.brace (.one [] (ex 3) false))
    [.start [], .set [0] (.value (.expr 3) int)] := by
  refine .list rfl (fun i c h => by cases h; rfl) ?_
  exact .one (q := [0]) (u := int) (p := []) .current rfl (puts_int _ 3)

/-- A second list for the same part overrides the first in C (`s.b` is 0); here the two are merged
(`s.b` is 2). -/
theorem override_list_violated :
    ∃ evs init, InitObj true outerT mergeIni evs ∧
      (∀ f, parseInitializer (f + 12) outerT (mergeIni.write ++ [.other]) = .ok (outerT, init, [.other])) ∧
      finalAt outerT [0, 1] evs none = none ∧ codeAt outerT init [0, 1] = some (.value (.expr 2) int) := by
  refine ⟨[.start [], .start [0], .set [0, 0] (.value (.expr 1) int), .set [0, 1] (.value (.expr 2) int),
    .start [0], .set [0, 0] (.value (.expr 3) int)],
    .brace [.brace [.expr (.expr 3) int, .expr (.expr 2) int]], ?_, fun f => rfl, rfl, rfl⟩
  refine .list rfl (fun i c h => by cases h) ?_
  refine .more (q := [0]) (u := pairT) (p := []) (.designated (by simp) (member_s .nil)) rfl (.here (pair_list _)) ?_ (by simp [Items.designated])
  exact .one (q := [0]) (u := pairT) (p := []) (.designated (by simp) (member_s .nil)) rfl (.here (pair_one _))

/-- `{ .s = v, .s.a = 3 }` with `v` of the type of `s` -/
def afterIni : Ini :=
  .brace (.more [.member nS] (.expr 9 (some ⟨1, false⟩)) (.one [.member nS, .member nA] (ex 3) false))

/-- An initialiser for a member of a part that already has a value fails the assertion of
`initializer_add_entry` (src/parser/declaration.c:915). -/
theorem override_value_violated :
    (∃ evs, InitObj true outerT afterIni evs) ∧
    ∀ f, parseInitializer (f + 12) outerT (afterIni.write ++ [.other]) = .fail := by
  refine ⟨⟨_, .list rfl (fun i c h => by cases h)
    (.more (q := [0]) (u := pairT) (p := []) (.designated (by simp) (member_s .nil)) rfl (.here (.whole rfl (fun _ => rfl)))
      (.one (q := [0, 0]) (u := int) (p := []) (.designated (by simp) (member_s member_a)) rfl (puts_int _ 3))
      (by simp [Items.designated]))⟩, fun f => rfl⟩

/-- `{ .b = 2, .a = 1 }` -/
def unionIni : Ini := .brace (.more [.member nB] (ex 2) (.one [.member nA] (ex 1) false))

/-- The last initialiser of a union wins in C; here the member declared last wins. -/
theorem override_member_violated :
    ∃ evs init, InitObj true unionT unionIni evs ∧
      (∀ f, parseInitializer (f + 12) unionT (unionIni.write ++ [.other]) = .ok (unionT, init, [.other])) ∧
      finalAt unionT [0] evs none = some (.value (.expr 1) int) ∧ codeAt unionT init [0] = none ∧
      finalAt unionT [1] evs none = none ∧ codeAt unionT init [1] = some (.value (.expr 2) int) := by
  refine ⟨[.start [], .set [1] (.value (.expr 2) int), .set [0] (.value (.expr 1) int)],
    .brace [.expr (.expr 1) int, .expr (.expr 2) int], ?_, fun f => rfl, rfl, rfl, rfl, rfl⟩
  refine .list rfl (fun i c h => by cases h) ?_
  refine .more (q := [1]) (u := int) (p := []) (.designated (by simp) member_b) rfl (puts_int _ 2) ?_ (by simp [Items.designated])
  exact .one (q := [0]) (u := int) (p := []) (.designated (by simp) member_a) rfl (puts_int _ 1)

end Verif.Initial
