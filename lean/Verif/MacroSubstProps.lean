import Verif.MacroProps
import Verif.MacroSubst
/-!
# C67, C68: replacement lists with `#` and `##`
-/
namespace Verif.Macro
open Verif DefineMap MacroSpec

/-- The actual arguments of a call are those of the specification, as far as the piece
`e` of the replacement list uses them: `A` has the tokens as written for operands of `##`,
none of them empty (placemarkers are not implemented, `placemarker_violated`), complete
expansions for operands by themselves, and the text for operands of `#`. -/
def Uses (env : Str → Option Define) (input : Bool) (c : Call) (A : Item → Actual) : Element → Prop
  | .one x => Stands c A x ∧ ((∀ t, x ≠ .tok t) → ArgExp env input (argOf c x) (A x).exp)
  | .text x => stringify (argOf c x) = .ok (A x).txt
  | .paste x xs => (∀ y ∈ x :: xs, Stands c A y ∧ (A y).raw ≠ []) ∧ NoGnu x xs

/-- Where a chain `x ## …` begins with a parameter, the tokens of its argument but the
last one are not changed by macro expansion. -/
def FirstPlain (env : Str → Option Define) (input : Bool) (c : Call) : Element → Prop
  | .paste x _ => (∀ t, x ≠ .tok t) → ArgExp env input (argOf c x).dropLast ((argOf c x).dropLast.map pp)
  | _ => True

theorem good_of {env : Str → Option Define} {input : Bool} {c : Call} {A : Item → Actual} {e : Element}
    (h1 : Uses env input c A e) (h2 : FirstPlain env input c e) : Good env input c A e := by
  cases e with
  | one x => exact h1
  | text x => exact h1
  | paste x xs => exact ⟨h1.1, h1.2, h2⟩

/-- Substitution as C17 6.10.3.1-6.10.3.3 has it, for every call of a function-like macro
with as many arguments as parameters. -/
def PastingExact : Prop :=
  ∀ (env : Str → Option Define) (input ret : Bool) (d : Define) (t lpar r : Tok) (as : List (List Tok))
    (es : List Element) (A : Item → Actual) (o : List PP) (ts R : List Tok) (s s0 : St),
    Active env t d → d.func = true → (d.par.map (·.str)).Nodup → lpar.type = .T_LPAR → CallArgs as ts r →
    as.length = d.par.length → ReadsBody (d.par.map (·.str)) d.body es → Subst A es o →
    (∀ e ∈ es, Uses env input ⟨as.map trimBody, [], false⟩ A e) →
    take input s = .ok (t, s0) → (!input && s.buf.isEmpty) = false → pending input s0 = lpar :: ts ++ R →
    ∃ N new s1, new.map pp = o ∧ (∀ u ∈ new, d.name ∈ u.hs) ∧ pending input s1 = new ++ R ∧ s1.out = s0.out ∧
      ∀ n, N ≤ n → expand env input ret (n + 1) s = expand env input ret n s1

/-- **C67, C68.**  A call of a function-like macro is replaced by its replacement list,
parameters by themselves replaced by the complete expansion of their arguments, `# x` by
the string literal of the argument, the operands of `##` by their arguments as written,
pasted together.  Missing: the tokens of the argument on the very left of a `##` chain,
but the last one, must be fixed by macro expansion (`pasting_exact_violated`). -/
theorem macro_call_pasting_partial {env : Str → Option Define} {input ret : Bool} {d : Define} {t lpar r : Tok}
    {as : List (List Tok)} {es : List Element} {A : Item → Actual} {o : List PP} {ts R : List Tok} {s s0 : St}
    (hact : Active env t d) (hf : d.func = true) (hnd : (d.par.map (·.str)).Nodup) (hl : lpar.type = .T_LPAR)
    (hc : CallArgs as ts r) (hn : as.length = d.par.length) (hbody : ReadsBody (d.par.map (·.str)) d.body es)
    (ho : Subst A es o) (hu : ∀ e ∈ es, Uses env input ⟨as.map trimBody, [], false⟩ A e)
    (hleft : ∀ e ∈ es, FirstPlain env input ⟨as.map trimBody, [], false⟩ e)
    (ht : take input s = .ok (t, s0)) (hs : (!input && s.buf.isEmpty) = false)
    (hp : pending input s0 = lpar :: ts ++ R) :
    ∃ N new s1, new.map pp = o ∧ (∀ u ∈ new, d.name ∈ u.hs) ∧ pending input s1 = new ++ R ∧ s1.out = s0.out ∧
      ∀ n, N ≤ n → expand env input ret (n + 1) s = expand env input ret n s1 := by
  obtain ⟨s1, e1, p1, o1⟩ := top_pending (t := lpar) (l := ts ++ R) (by simpa using hp)
  obtain ⟨s2, p2, o2, N1, e2⟩ := arguments_collected (R := R) hf hl hc hn (by simpa using p1) t t.hs
  have hps : paramsOf d = d.par.map (·.str) := by simp [paramsOf, hf]
  rw [← hps] at hnd hbody
  obtain ⟨N, new, h1, h2, h3⟩ := subs_body hnd hbody ho (fun e he => good_of (hu e he) (hleft e he)) e2
  refine ⟨N, new, { s2 with buf := new ++ s2.buf }, h1, h2, by rw [← p2]; simp [pending], by simp [o2, o1],
    fun n hN => ?_⟩
  rw [expand_subs_func hs ht hact hf (pending_nonempty hp) e1 hl, h3 n hN]
  rfl

/-- **C67, C68, variadic macros**: `__VA_ARGS__` is a parameter with the rest of the
arguments (`, ## __VA_ARGS__` excluded). -/
theorem variadic_call_pasting_partial {env : Str → Option Define} {input ret : Bool} {d : Define} {t lpar r : Tok}
    {as : List (List Tok)} {va : List Tok} {es : List Element} {A : Item → Actual} {o : List PP} {ts R : List Tok}
    {s s0 : St} (hact : Active env t d) (hf : d.func = true) (hv : d.vararg = true) (hnd : (d.par.map (·.str)).Nodup)
    (hl : lpar.type = .T_LPAR) (hc : CallVar as va ts r) (hn : as.length = d.par.length)
    (hbody : ReadsBody (d.par.map (·.str)) d.body es)
    (ho : Subst A es o) (hu : ∀ e ∈ es, Uses env input ⟨as.map trimBody, trimBody va, true⟩ A e)
    (hleft : ∀ e ∈ es, FirstPlain env input ⟨as.map trimBody, trimBody va, true⟩ e)
    (ht : take input s = .ok (t, s0)) (hs : (!input && s.buf.isEmpty) = false)
    (hp : pending input s0 = lpar :: ts ++ R) :
    ∃ N new s1, new.map pp = o ∧ (∀ u ∈ new, d.name ∈ u.hs) ∧ pending input s1 = new ++ R ∧ s1.out = s0.out ∧
      ∀ n, N ≤ n → expand env input ret (n + 1) s = expand env input ret n s1 := by
  obtain ⟨s1, e1, p1, o1⟩ := top_pending (t := lpar) (l := ts ++ R) (by simpa using hp)
  obtain ⟨s2, p2, o2, N1, e2⟩ := variadic_arguments_collected (R := R) hf hv hl hc hn (by simpa using p1) t t.hs
  have hps : paramsOf d = d.par.map (·.str) := by simp [paramsOf, hf]
  rw [← hps] at hnd hbody
  obtain ⟨N, new, h1, h2, h3⟩ := subs_body hnd hbody ho (fun e he => good_of (hu e he) (hleft e he)) e2
  refine ⟨N, new, { s2 with buf := new ++ s2.buf }, h1, h2, by rw [← p2]; simp [pending], by simp [o2, o1],
    fun n hN => ?_⟩
  rw [expand_subs_func hs ht hact hf (pending_nonempty hp) e1 hl, h3 n hN]
  rfl

/-- What the operands of an object-like macro stand for: themselves. -/
def themselves : Item → Actual
  | .tok t => { raw := [t] }
  | _ => { raw := [] }

/-- **C68, object-like macros.**  Chains of `##` are pasted; everything else is copied.
(`#` is an ordinary token there; see `hash_in_object_like_violated`.) -/
theorem object_like_pasting {env : Str → Option Define} {input ret : Bool} {d : Define} {t : Tok}
    {es : List Element} {o : List PP} {s s0 : St} (hact : Active env t d) (hf : d.func = false)
    (hbody : ReadsBody [] d.body es) (hva : ∀ u ∈ d.body, u.str ≠ str "__VA_ARGS__") (ho : Subst themselves es o)
    (ht : take input s = .ok (t, s0)) (hs : (!input && s.buf.isEmpty) = false) :
    ∃ N new, new.map pp = o ∧ (∀ u ∈ new, d.name ∈ u.hs) ∧
      ∀ n, N ≤ n → expand env input ret (n + 1) s = expand env input ret n { s0 with buf := new ++ s0.buf } := by
  have hps : paramsOf d = [] := by simp [paramsOf, hf]
  have item : ∀ {u x}, ReadsItem [] u x → u.str ≠ str "__VA_ARGS__" → ∃ y, x = .tok y := by
    intro u x h hu
    cases h with
    | tok => exact ⟨_, rfl⟩
    | par i _ _ h => simp at h
    | va _ h => exact absurd h hu
  have stands : ∀ y, Stands {} themselves (.tok y) ∧ (themselves (.tok y)).raw ≠ [] := fun y =>
    ⟨⟨fun h => absurd rfl (h y), fun z hz => by cases hz; exact ⟨rfl, rfl⟩, fun h => by cases h⟩, by simp [themselves]⟩
  have tail : ∀ {l xs}, ReadsTail [] l xs → (∀ u ∈ l, u.str ≠ str "__VA_ARGS__") → ∀ x ∈ xs, ∃ y, x = .tok y := by
    intro l xs h
    induction h with
    | nil => intro _ x hx; cases hx
    | cons h t x ts xs _ hx _ ih =>
      intro hu y hy
      rcases List.mem_cons.1 hy with rfl | hy
      · exact item hx (hu t (by simp))
      · exact ih (fun u h => hu u (by simp [h])) y hy
  have noGnu : ∀ (xs : List Item) (x : Item), (∀ y ∈ xs, ∃ z, y = .tok z) → NoGnu x xs := by
    intro xs
    induction xs with
    | nil => intro x _; trivial
    | cons y ys ih =>
      intro x h
      refine ⟨?_, ih y (fun z hz => h z (by simp [hz]))⟩
      rintro ⟨rfl, _⟩
      obtain ⟨z, hz⟩ := h .va (by simp)
      cases hz
  have good : ∀ {l es}, ReadsBody [] l es → (∀ u ∈ l, u.str ≠ str "__VA_ARGS__") →
      ∀ e ∈ es, Good env input {} themselves e := by
    intro l es h
    induction h with
    | nil => intro _ e he; cases he
    | one t x ts es hx _ ih =>
      intro hu e he
      rcases List.mem_cons.1 he with rfl | he
      · obtain ⟨y, rfl⟩ := item hx (hu t (by simp))
        exact ⟨(stands y).1, fun h => absurd rfl (h y)⟩
      · exact ih (fun u h => hu u (by simp [h])) e he
    | text h t x ts es _ hx hp _ _ =>
      intro hu
      obtain ⟨y, rfl⟩ := item hx (hu t (by simp))
      exact absurd rfl (hp y)
    | paste t x tl y ys ts es hx htl _ ih =>
      intro hu e he
      rcases List.mem_cons.1 he with rfl | he
      · obtain ⟨z, rfl⟩ := item hx (hu t (by simp))
        have htail := tail htl (fun u h => hu u (by simp [h]))
        refine ⟨fun w hw => ?_, noGnu _ _ htail, fun h => absurd rfl (h z)⟩
        rcases List.mem_cons.1 hw with rfl | hw
        · exact stands z
        · obtain ⟨v, rfl⟩ := htail w hw
          exact stands v
      · exact ih (fun u h => hu u (by simp [h])) e he
  obtain ⟨N, new, h1, h2, h3⟩ := subs_body (env := env) (input := input) (c := {}) (t := t) (s := s0) (s2 := s0)
    (wa := t.whitespaceAfter) (hs := t.hs) (N1 := 0) (by simp [hps]) (hps ▸ hbody) ho (good hbody hva)
    (fun n _ => by simp [readCall, hf])
  exact ⟨N, new, h1, h2, fun n hN => by rw [expand_subs hs ht hact hf, h3 n hN]; rfl⟩

/-- `#define F(a) a ## 1`. -/
def pasteOne : Define :=
  { name := str "F", func := true, par := [idt "a"],
    body := [idt "a", pun .PP_HHASH, { type := .T_NUM, str := str "1" }] }

/-- The argument `F ( 2 ) 3`. -/
def nested : List Tok :=
  [idt "F", pun .T_LPAR, { type := .T_NUM, str := str "2" }, pun .T_RPAR, { type := .T_NUM, str := str "3" }]

/-- What the operands stand for in `F(F(2) 3)`. -/
def nestedActual : Item → Actual
  | .tok t => { raw := [t] }
  | _ => { raw := nested.map pp }

theorem pasteOne_reads : ReadsBody [str "a"] pasteOne.body [.paste (.par 0) [.tok (.T_NUM, str "1")]] :=
  .paste (idt "a") (.par 0) [pun .PP_HHASH, { type := .T_NUM, str := str "1" }] _ _ [] []
    (.par _ 0 rfl (by decide) rfl)
    (.cons _ _ _ _ _ rfl (.tok { type := .T_NUM, str := str "1" } (by decide) (by decide) (by decide) (by decide)) .nil)
    .nil

theorem nested_subst : Subst nestedActual [.paste (.par 0) [.tok (.T_NUM, str "1")]]
    [(.T_IDENT, str "F"), (.T_LPAR, []), (.T_NUM, str "2"), (.T_RPAR, []), (.T_NUM, str "31")] :=
  .paste _ _ _ [] []
    (.cons (.par 0) (.tok (.T_NUM, str "1")) [] (.T_NUM, str "3") (.T_NUM, str "1") (.T_NUM, str "31")
      [(.T_IDENT, str "F"), (.T_LPAR, []), (.T_NUM, str "2"), (.T_RPAR, [])] []
      (.last _) (by decide +kernel) (.num (str "3") (str "1"))) .nil

theorem nested_uses : ∀ e ∈ [Element.paste (.par 0) [.tok (.T_NUM, str "1")]],
    Uses (get bucketOf (add bucketOf init pasteOne)) false ⟨[nested].map trimBody, [], false⟩ nestedActual e := by
  intro e he
  cases List.mem_singleton.1 he
  refine ⟨fun y hy => ?_, ⟨(fun ⟨h, _⟩ => by cases h), trivial⟩⟩
  rcases List.mem_cons.1 hy with rfl | hy
  · exact ⟨⟨fun _ => by decide +kernel, fun t h => (by cases h), fun h => by cases h⟩, by decide +kernel⟩
  · cases List.mem_singleton.1 hy
    exact ⟨⟨fun h => absurd rfl (h _), fun t h => by cases h; exact ⟨rfl, rfl⟩, fun h => by cases h⟩, by simp [nestedActual]⟩

/-- The call `F ( F ( 2 ) 3 )`. -/
def nestedCall : St := { buf := idt "F" :: pun .T_LPAR :: (nested ++ [pun .T_RPAR, eoi]) }

/-- **C68 is violated**: in `F(F(2) 3)` with `#define F(a) a ## 1` the argument is an operand
of `##` and must not be expanded (6.10.3.1p1), the result is `F(2) 31`; the compiler
expands all of it but the last token and makes `21 31`
(src/preprocessor/macro_expander.c:324-354: only `concat`, not `*concat_with_prev`, keeps
the argument from being expanded). -/
theorem pasting_exact_violated : ¬ PastingExact := by
  intro h
  have hact : Active (get bucketOf (add bucketOf init pasteOne)) (idt "F") pasteOne :=
    ⟨rfl, by simp [idt], by decide +kernel, by decide +kernel⟩
  obtain ⟨N, new, s1, h1, h2, h3, _, h5⟩ := h (get bucketOf (add bucketOf init pasteOne)) false true pasteOne (idt "F")
    (pun .T_LPAR) (pun .T_RPAR) [nested] _ nestedActual _ (nested ++ [pun .T_RPAR]) [eoi] nestedCall
    { nestedCall with buf := nestedCall.buf.tail } hact rfl (by decide) rfl
    (.last nested _ (.tok _ _ _ (by decide) (by decide) (by decide)
      (.paren _ (pun .T_LPAR) [{ type := .T_NUM, str := str "2" }] (pun .T_RPAR) _ rfl rfl
        (.tok _ _ _ (by decide) (by decide) (by decide) (.nil _))
        (.tok _ _ _ (by decide) (by decide) (by decide) (.nil _)))) rfl)
    rfl pasteOne_reads nested_subst nested_uses rfl rfl rfl
  have hrun : (expand (get bucketOf (add bucketOf init pasteOne)) false true 20 nestedCall).mapOk (fun r => r.1.map (·.str))
      = .ok (some (str "21")) := by decide +kernel
  have hrun' := (expand_mono (get bucketOf (add bucketOf init pasteOne)) false (show 20 ≤ N + 20 + 1 by omega) true
    nestedCall).mapOk (fun r => r.1.map (·.str)) |>.eq_ok hrun
  rw [h5 (N + 20) (by omega)] at hrun'
  cases new with
  | nil => cases h1
  | cons u new =>
    simp only [List.map_cons, List.cons.injEq] at h1
    have hu := h1.1
    have hmem := h2 u (by simp)
    have hbuf : s1.buf = u :: (new ++ [eoi]) := by simpa [pending] using h3
    have hty : u.type = .T_IDENT := congrArg Prod.fst hu
    have hstr : u.str = str "F" := congrArg Prod.snd hu
    have hcont : StringSet.contains u.hs u.str = true := by
      rw [hstr]; exact (StringSet.contains_iff _ _).2 hmem
    have : expand (get bucketOf (add bucketOf init pasteOne)) false true (N + 20) s1
        = .ok (some u, { s1 with buf := new ++ [eoi] }) := by
      rw [show N + 20 = (N + 19) + 1 by omega, expand]
      simp [hbuf, take, hty, hcont]
    rw [this] at hrun'
    have e : u.str = str "21" := by simpa using hrun'
    rw [hstr] at e
    exact absurd e (by decide)

/-- `#define G(a, b) # a a ## b b`. -/
def mixed : Define :=
  { name := str "G", func := true, par := [idt "a", idt "b"],
    body := [pun .PP_HASH, idt "a", idt "a", pun .PP_HHASH, idt "b", idt "b"] }

/-- In `G(x, y)`, with `#define y z`: `"x" xy z`. -/
def mixedActual : Item → Actual
  | .tok t => { raw := [t] }
  | .par 0 => { raw := [(.T_IDENT, str "x")], txt := str "\"x\"" }
  | _ => { raw := [(.T_IDENT, str "y")], exp := [(.T_IDENT, str "z")] }

/-- The pieces of the replacement list. -/
example : ReadsBody [str "a", str "b"] mixed.body [.text (.par 0), .paste (.par 0) [.par 1], .one (.par 1)] :=
  .text _ _ _ _ _ rfl (.par (idt "a") 0 rfl (by decide) rfl) (by simp)
    (.paste (idt "a") (.par 0) [pun .PP_HHASH, idt "b"] _ _ [idt "b"] _ (.par _ 0 rfl (by decide) rfl)
      (.cons _ _ _ _ _ rfl (.par (idt "b") 1 rfl (by decide) rfl) .nil)
      (.one _ _ _ _ (.par (idt "b") 1 rfl (by decide) rfl) .nil))

/-- What the standard makes of them. -/
example : Subst mixedActual [.text (.par 0), .paste (.par 0) [.par 1], .one (.par 1)]
    [(.T_STRING, str "\"x\""), (.T_IDENT, str "xy"), (.T_IDENT, str "z")] :=
  .text _ _ _ (.paste _ _ [(.T_IDENT, str "xy")] _ _
    (.cons (.par 0) (.par 1) [] (.T_IDENT, str "x") (.T_IDENT, str "y") (.T_IDENT, str "xy") [] []
      (.last _) rfl (.ident (str "x") (str "y"))) (.one (.par 1) [] [] .nil))

/-- The arguments `x` and `y` meet the hypotheses. -/
example (env : Str → Option Define) (input : Bool) (hy : ArgExp env input [idt "y"] [(.T_IDENT, str "z")]) :
    ∀ e ∈ [Element.text (.par 0), .paste (.par 0) [.par 1], .one (.par 1)],
      Uses env input ⟨[[idt "x"], [idt "y"]], [], false⟩ mixedActual e ∧
      FirstPlain env input ⟨[[idt "x"], [idt "y"]], [], false⟩ e := by
  have st : ∀ i, i = 0 ∨ i = 1 → Stands ⟨[[idt "x"], [idt "y"]], [], false⟩ mixedActual (.par i) ∧
      (mixedActual (.par i)).raw ≠ [] := by
    rintro i (rfl | rfl) <;>
      exact ⟨⟨fun _ => by decide +kernel, fun t h => (by cases h), fun h => by cases h⟩, by decide +kernel⟩
  intro e he
  simp only [List.mem_cons, List.not_mem_nil, or_false] at he
  rcases he with rfl | rfl | rfl
  · exact ⟨show stringify [idt "x"] = .ok (str "\"x\"") by decide +kernel, trivial⟩
  · refine ⟨⟨fun y hy => ?_, ⟨(fun ⟨h, _⟩ => by cases h), trivial⟩⟩, fun _ => argExp_nil env input⟩
    simp only [List.mem_cons, List.not_mem_nil, or_false] at hy
    rcases hy with rfl | rfl
    · exact st 0 (.inl rfl)
    · exact st 1 (.inr rfl)
  · exact ⟨⟨(st 1 (.inr rfl)).1, fun _ => hy⟩, trivial⟩

/-- The compiler agrees. -/
example : (expandList (get bucketOf (add bucketOf (add bucketOf init mixed) { name := str "y", body := [idt "z"] })) 30
    [idt "G", pun .T_LPAR, idt "x", pun .T_COMMA, idt "y", pun .T_RPAR] {}).mapOk (fun r => r.1.map (·.str))
      = .ok [str "\"x\"", str "xy", str "z"] := by decide +kernel

/-- `#define H < ## < ## =` is `<<=`. -/
example : ReadsBody [] [pun .T_L, pun .PP_HHASH, pun .T_L, pun .PP_HHASH, pun .T_A]
      [.paste (.tok (.T_L, [])) [.tok (.T_L, []), .tok (.T_A, [])]] ∧
    Subst themselves [.paste (.tok (.T_L, [])) [.tok (.T_L, []), .tok (.T_A, [])]] [(.T_LSHIFTA, [])] :=
  ⟨.paste (pun .T_L) _ [pun .PP_HHASH, pun .T_L, pun .PP_HHASH, pun .T_A] _ _ [] []
      (.tok (pun .T_L) (by decide) (by decide) (by decide) (by decide))
      (.cons _ _ _ _ _ rfl (.tok (pun .T_L) (by decide) (by decide) (by decide) (by decide))
        (.cons _ _ _ _ _ rfl (.tok (pun .T_A) (by decide) (by decide) (by decide) (by decide)) .nil)) .nil,
    .paste _ _ [(.T_LSHIFTA, [])] [] []
      (.cons _ _ _ (.T_L, []) (.T_LEQ, []) (.T_LSHIFTA, []) [] []
        (.cons _ _ _ (.T_L, []) (.T_A, []) (.T_LEQ, []) [] [] (.last _) rfl
          (.punct .T_L .T_A .T_LEQ (str "<") (str "=") [] [] (by decide +kernel) (by decide +kernel) (by decide +kernel)))
        rfl (.punct .T_L .T_LEQ .T_LSHIFTA (str "<") (str "<=") [] [] (by decide +kernel) (by decide +kernel)
          (by decide +kernel))) .nil⟩

end Verif.Macro
