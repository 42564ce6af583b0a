import Verif.ArgsLemmas
/-!
C110: what a call passes (src/parser/expression.c:92-134, 420-506, src/parser/expression_to_ir.c:129-171,
264-280).
-/
namespace Verif.Args
open Verif Simple SimpleSpec CodegenSpec

/-- The full statement is that without the last two hypotheses on the values: a call of a function (or of a
pointer to one), with as many arguments as its type asks for and each allowed for its parameter, is accepted;
the control goes to the function, each argument with a parameter arrives converted to the type of the
parameter, and each other argument arrives after the default argument promotions.

Missing are the conversions between integers and floating numbers that are wrong (`narrow_violated`, C34,
C74), `const` bit-fields (`const_bitfield_violated`) and `long` of 32 bits (C18). -/
theorem calls_partial (F : X86.FP) (d : Decls) (env : Nat → Option V) (callee : Ex) (ic : Nat) (tc : Ty) (fv : V) (k : Nat)
    (as : List Arg) (h0 : callee.Is ic tc none) (h1 : Calls tc k) (h2 : env ic = some fv)
    (h3 : Count (d.sig k) as.length) (h4 : as.length < 128) (h5 : ∀ a ∈ as, a.Ok d env)
    (h6 : ∀ p ∈ (d.sig k).params, Adjusted p)
    (h7 : ∀ (j : Nat) (a : Arg) (p : Ty), as[j]? = some a → (d.sig k).params[j]? = some p → a.Fits p)
    (l1 : ∀ (j : Nat) (a : Arg) (p : Ty), as[j]? = some a → (d.sig k).params[j]? = some p → ConversionLim d a.c (valueType a.t) (valueType p))
    (l2 : ∀ (j : Nat) (a : Arg), as[j]? = some a → (d.sig k).params.length ≤ j → PromotionLim d a) :
    ∃ r, call F d env callee (as.map Arg.e) = .ok r ∧ r.address = fv ∧ r.ret = (d.sig k).ret ∧
      Arrive F d as (d.sig k).params r.args := by
  have hlen : (d.sig k).params.length ≤ as.length := by
    unfold Count at h3
    by_cases hv : (d.sig k).variadic = true
    · rw [if_pos hv] at h3; exact h3
    · rw [if_neg hv] at h3; omega
  have hc : (if (d.sig k).variadic then (d.sig k).params.length ≤ as.length else (d.sig k).params.length = as.length) := by
    unfold Count at h3
    by_cases hv : (d.sig k).variadic = true
    · rw [if_pos hv] at h3 ⊢; exact h3
    · rw [if_neg hv] at h3 ⊢; exact h3.symm
  obtain ⟨rest, ees, rs, r1, r2, r3, r4⟩ := arrive_all (F := F) hlen h5 h6
    (fun j a p ha hp => ⟨h7 j a p ha hp, l1 j a p ha hp⟩) l2
  have h0 : callee = .leaf ic tc (-1) := h0
  obtain ⟨c1, c2, -, -⟩ := decay_leaf F d env ic tc (-1)
  rw [← h0, h1] at c1 c2
  rw [h2] at c2
  refine ⟨⟨fv, rs, (d.sig k).ret⟩, ?_, rfl, rfl, r4⟩
  have e1 : (as.map Arg.e).map Ex.decay = as.map fun a => a.e.decay := by simp
  have p1 : parseCall d callee (as.map Arg.e) =
      .ok ⟨callee.decay, (as.map fun a => a.e.decay).take (d.sig k).params.length ++ rest, (d.sig k).ret⟩ := by
    unfold parseCall makeCall
    rw [List.length_map, if_pos h4, c1]
    dsimp only
    rw [if_pos hc, e1, r1]
    rfl
  unfold call evalCall
  rw [p1]
  simp [bind, Res.bind, c2, r2, r3, EE.var]

/-- 6.5.2.2p2: a call with another number of arguments is rejected, whatever the arguments are. -/
theorem wrong_count (F : X86.FP) (d : Decls) (env : Nat → Option V) (callee : Ex) (ic : Nat) (tc : Ty) (k : Nat)
    (as : List Ex) (h0 : callee.Is ic tc none) (h1 : Calls tc k) (h : ¬ Count (d.sig k) as.length) :
    call F d env callee as = .fail := by
  have h0 : callee = .leaf ic tc (-1) := h0
  obtain ⟨c1, -, -, -⟩ := decay_leaf F d env ic tc (-1)
  rw [← h0, h1] at c1
  have hc : ¬ (if (d.sig k).variadic then (d.sig k).params.length ≤ as.length else (d.sig k).params.length = as.length) := by
    unfold Count at h
    intro hh
    apply h
    by_cases hv : (d.sig k).variadic = true
    · rw [if_pos hv] at hh ⊢; exact hh
    · rw [if_neg hv] at hh ⊢; exact hh.symm
  have p1 : parseCall d callee as = .fail := by
    unfold parseCall makeCall
    rw [c1]
    dsimp only
    rw [if_neg hc]
    split <;> rfl
  unfold call
  rw [p1]
  rfl

/-- 6.5.2.2p1: the full statement is that a call of something else is rejected.  Proved is that it is not
translated; missing is `not_function_violated`. -/
theorem not_function_partial (F : X86.FP) (d : Decls) (env : Nat → Option V) (callee : Ex) (ic : Nat) (tc : Ty)
    (as : List Ex) (h0 : callee.Is ic tc none) (h : ∀ k, ¬ Calls tc k) (r : Passed) : call F d env callee as ≠ .ok r := by
  have h0 : callee = .leaf ic tc (-1) := h0
  obtain ⟨c1, -, -, -⟩ := decay_leaf F d env ic tc (-1)
  rw [← h0] at c1
  intro hr
  have p1 : ∀ c, parseCall d callee as ≠ .ok c := by
    intro c hc
    unfold parseCall makeCall at hc
    rw [c1] at hc
    split at hc
    · cases hv : valueType tc with
      | ptr t c =>
        rw [hv] at hc
        dsimp only at hc
        have hcf : c = false := by have := valueType_unconst tc; rw [hv] at this; exact this
        subst hcf
        cases t with
        | func k => exact h k hv
        | simple s c => cases s <;> cases hc
        | record => cases hc
        | ptr => cases hc
        | array => cases hc
      | simple => rw [hv] at hc; cases hc
      | record => rw [hv] at hc; cases hc
      | array => rw [hv] at hc; cases hc
      | func => rw [hv] at hc; cases hc
    · cases hc
  unfold call at hr
  cases hp : parseCall d callee as with
  | ok c => exact p1 c hp
  | fail => rw [hp] at hr; cases hr
  | ub => rw [hp] at hr; cases hr

/-- `int *p; p(1);` is not rejected: the program reads before its array of arguments. -/
theorem not_function_violated : ∃ (d : Decls) (env : Nat → Option V) (callee : Ex) (tc : Ty) (as : List Ex),
    callee.Is 0 tc none ∧ (∀ k, ¬ Calls tc k) ∧ ∀ F, call F d env callee as = .ub := by
  refine ⟨⟨.sysv, fun _ => ⟨.simple .int false, [], false⟩, fun _ => 0⟩, fun _ => none,
    .leaf 0 (.ptr (.simple .int false) false) (-1), .ptr (.simple .int false) false, [.leaf 1 (.simple .int false) (-1)],
    rfl, ?_, fun _ => rfl⟩
  intro k h
  cases h

/-- The declarations of the examples: `int f(double, struct s)`, `int g(const char *, ...)`,
`int h(double)`, `int u(struct s)`, `int v(float)`. -/
def exampleDecls : Decls :=
  ⟨.sysv, fun
    | 0 => ⟨.simple .int false, [.simple .double false, .record 0 false], false⟩
    | 1 => ⟨.simple .int false, [.ptr (.simple .char true) false], true⟩
    | 2 => ⟨.simple .int false, [.simple .double false], false⟩
    | 3 => ⟨.simple .int false, [.record 0 false], false⟩
    | _ => ⟨.simple .int false, [.simple .float false], false⟩, fun _ => 16⟩

/-- The values of the examples. -/
def exampleEnv : Nat → Option V
  | 0 => some ⟨8, 0x401000⟩
  | 1 => some ⟨8, 0x402000⟩
  | 2 => some ⟨1, 0xff⟩
  | 3 => some ⟨4, 5⟩
  | 4 => some ⟨4, 0x3f800000⟩
  | 5 => some ⟨16, 77⟩
  | _ => none

/-- 6.5.2.2p2: an argument that must not be assigned to the parameter is accepted, here an `int` for a
structure: 4 bytes are passed where the function takes 16. -/
theorem constraint_violated : ∃ (d : Decls) (env : Nat → Option V) (a : Arg) (p : Ty), a.Ok d env ∧ (d.sig 3).params = [p] ∧
    ¬ a.Fits p ∧ ∃ v : V, v.size < d.size 0 ∧ ∀ F, call F d env (.leaf 0 (.func 3) (-1)) [a.e] =
      .ok ⟨⟨8, 0x401000⟩, [(p, v)], .simple .int false⟩ := by
  refine ⟨exampleDecls, exampleEnv, ⟨.leaf 3 (.simple .int false) (-1), 3, .simple .int false, none, .int 5, False⟩,
    .record 0 false, ⟨rfl, ⟨_, rfl, ?_⟩, fun h => h.elim, fun _ h => (nomatch h), ?_⟩, rfl, ?_, ⟨4, 5⟩, by decide, fun _ => rfl⟩
  · exact ⟨by decide, by decide, by decide, by decide⟩
  · intro s c h; cases h; exact .inl (by decide)
  · intro h; cases h

/-- 6.5.2.2p7 with 6.3.1.4: `(signed char)-1` for a parameter of type `double` arrives as 4294967295.0. -/
theorem narrow_violated : ∃ (d : Decls) (env : Nat → Option V) (a : Arg) (p : Ty), a.Ok d env ∧ (d.sig 2).params = [p] ∧
    a.Fits p ∧ ∀ F, ∃ r, call F d env (.leaf 0 (.func 2) (-1)) [a.e] = .ok r ∧ ¬ Arrive F d [a] [p] r.args := by
  refine ⟨exampleDecls, exampleEnv, ⟨.leaf 2 (.simple .schar false) (-1), 2, .simple .schar false, none, .int (-1), False⟩,
    .simple .double false, ⟨rfl, ⟨_, rfl, ?_⟩, fun h => h.elim, fun _ h => (nomatch h), ?_⟩, rfl, ?_, fun F =>
      ⟨_, rfl, ?_⟩⟩
  · exact ⟨by decide, by decide, by decide, by decide⟩
  · intro s c h; cases h; exact .inl (by decide)
  · exact .arith (.inl (by decide)) (.inr (.inr rfl))
  · intro h
    cases h with
    | named h _ =>
      obtain ⟨-, c, h1, h2⟩ := h
      cases h1 with
      | int _ h _ => exact absurd h (by decide)
      | intFlt _ h =>
        cases h
        rcases h2 with ⟨h, -⟩ | ⟨-, h, -⟩
        · cases h
        · exact absurd h (by decide +kernel)

/-- 6.5.2.2p6 with 6.3.1.1p2: a `const unsigned` bit-field of 3 bits is to be passed as an `int` and is passed as an
`unsigned int`. -/
theorem const_bitfield_violated : ∃ (d : Decls) (env : Nat → Option V) (f a : Arg), f.Ok d env ∧ a.Ok d env ∧
    f.Fits (.ptr (.simple .char true) false) ∧ (d.sig 1).params = [.ptr (.simple .char true) false] ∧ a.w = some 3 ∧
    ∀ F, ∃ v, call F d env (.leaf 0 (.func 1) (-1)) [f.e, a.e] =
      .ok ⟨⟨8, 0x401000⟩, [(.ptr (.simple .char true) false, ⟨8, 0x402000⟩), (.simple .uint false, v)], .simple .int false⟩ ∧
      ¬ Promoted d a.t a.w (.simple .uint false) := by
  refine ⟨exampleDecls, exampleEnv,
    ⟨.leaf 1 (.array (.simple .char false)) (-1), 1, .array (.simple .char false), none, .addr 0x402000, False⟩,
    ⟨.leaf 3 (.simple .uint true) 3, 3, .simple .uint true, some 3, .int 5, False⟩,
    ⟨rfl, ⟨_, rfl, ?_⟩, fun h => h.elim, fun _ h => (nomatch h), fun _ _ h => (nomatch h)⟩,
    ⟨rfl, ⟨_, rfl, ?_⟩, fun h => h.elim, ?_, ?_⟩, ?_, rfl, rfl, fun F => ⟨⟨4, 5⟩, rfl, ?_⟩⟩
  · exact ⟨rfl, by decide⟩
  · exact ⟨by decide, by decide, by decide, by decide⟩
  · intro w h; cases h; exact ⟨.uint, true, rfl, by decide, by decide, by decide, 5, rfl, by decide⟩
  · intro s c h; cases h; exact .inl (by decide)
  · exact .ptr ⟨.inl rfl, fun h => (nomatch h)⟩
  · rintro ⟨s, h, -, h2⟩
    cases h
    exact absurd (h2 (by decide)) (by decide)

/-- `f(5, s)`, `g("…", 1.0f)`: the hypotheses of `calls_partial` hold. -/
example (F : X86.FP) : ∃ r, call F exampleDecls exampleEnv (.leaf 0 (.func 1) (-1))
    [.leaf 1 (.array (.simple .char false)) (-1), .leaf 4 (.simple .float true) (-1), .leaf 3 (.simple .uint false) 3] = .ok r ∧
    r.args = [(.ptr (.simple .char true) false, ⟨8, 0x402000⟩),
      (.simple .double false, ⟨8, (F.widen 0x3f800000).toNat⟩), (.simple .int false, ⟨4, 5⟩)] :=
  ⟨_, rfl, rfl⟩

example (F : X86.FP) : ∃ r, call F exampleDecls exampleEnv (.leaf 0 (.ptr (.func 0) true) (-1))
    ([⟨.leaf 3 (.simple .int false) (-1), 3, .simple .int false, none, .int 5, False⟩,
      ⟨.leaf 5 (.record 0 true) (-1), 5, .record 0 true, none, .data 77, False⟩].map Arg.e) = .ok r ∧
    r.address = ⟨8, 0x401000⟩ ∧ r.ret = .simple .int false ∧ Arrive F exampleDecls
      [⟨.leaf 3 (.simple .int false) (-1), 3, .simple .int false, none, .int 5, False⟩,
       ⟨.leaf 5 (.record 0 true) (-1), 5, .record 0 true, none, .data 77, False⟩]
      [.simple .double false, .record 0 false] r.args := by
  refine calls_partial F exampleDecls exampleEnv _ 0 (.ptr (.func 0) true) ⟨8, 0x401000⟩ 0 _ rfl rfl rfl rfl (by decide) ?_ ?_ ?_ ?_ ?_
  · intro a ha
    rcases List.mem_cons.1 ha with rfl | ha
    · exact ⟨rfl, ⟨_, rfl, by exact ⟨by decide, by decide, by decide, by decide⟩⟩, fun h => h.elim, fun _ h => (nomatch h),
        fun s c h => by cases h; exact .inl (by decide)⟩
    · rcases List.mem_cons.1 ha with rfl | ha
      · exact ⟨rfl, ⟨_, rfl, rfl⟩, fun h => h.elim, fun _ h => (nomatch h), fun s c h => (nomatch h)⟩
      · cases ha
  · intro p hp
    rcases List.mem_cons.1 hp with rfl | hp
    · trivial
    · rcases List.mem_cons.1 hp with rfl | hp
      · trivial
      · cases hp
  · intro j a p ha hp
    match j with
    | 0 => cases ha; cases hp; exact .arith (.inl (by decide)) (.inr (.inr rfl))
    | 1 => cases ha; cases hp; exact .record
    | j + 2 => cases ha
  · intro j a p ha hp
    match j with
    | 0 => cases ha; cases hp; exact fun _ _ => by decide
    | 1 => cases ha; cases hp; trivial
    | j + 2 => cases ha
  · intro j a ha hj
    match j with
    | 0 => cases hj
    | 1 => exact absurd hj (by decide)
    | j + 2 => cases ha

example (F : X86.FP) : call F exampleDecls exampleEnv (.leaf 0 (.func 1) (-1)) [] = .fail :=
  wrong_count F _ _ _ 0 (.func 1) 1 _ rfl rfl (by simp [Count, exampleDecls])

example (F : X86.FP) (r : Passed) : call F exampleDecls exampleEnv (.leaf 3 (.simple .int false) (-1)) [] ≠ .ok r :=
  not_function_partial F _ _ _ 3 (.simple .int false) _ rfl (fun _ h => by cases h) r

end Verif.Args
