import Verif.MacroSubst
import Verif.MacroStr
/-!
# C14, C63, C66–C69: macro expansion
-/
namespace Verif.Macro
open Verif DefineMap MacroSpec

/-- An identifier token without white space. -/
def idt (s : String) : Tok := { type := .T_IDENT, str := str s }
/-- A punctuator token. -/
def pun (t : TType) : Tok := { type := t }

/-! ## C14: no re-expansion, termination -/

/-- Expansion ends, whatever the macro table and the input (macro calls in the input
being complete is not enough of an excuse for the witness below). -/
def ExpansionTerminates : Prop :=
  ∀ (tab : Table) (s : St), ∃ N, ∀ n, N ≤ n → expand (get bucketOf tab) true true n s ≠ .more

/-- All names of a table. -/
def names (tab : Table) : List Str := (List.range 1024).flatMap (fun i => (tab i).map (·.name))

theorem mem_names {tab : Table} {x : Str} {d : Define} (h : get bucketOf tab x = some d) : x ∈ names tab := by
  have hn := get_name h
  unfold names
  refine List.mem_flatMap.2 ⟨bucketOf x, List.mem_range.2 (Nat.mod_lt _ (by decide)), ?_⟩
  have : ∀ (l : List Define), chainGet x l = some d → d ∈ l := by
    intro l
    induction l with
    | nil => intro h; cases h
    | cons e es ih =>
      intro h
      unfold chainGet at h
      split at h
      · cases h; simp
      · simp [ih h]
  exact List.mem_map.2 ⟨d, this _ h, hn⟩

theorem objTable_of (tab : Table) (h : ∀ x d, get bucketOf tab x = some d → d.func = false) :
    ∃ B, ObjTable (get bucketOf tab) (names tab) B := by
  refine ⟨((names tab).map (fun x => ((get bucketOf tab x).map (·.body.length)).getD 0)).sum, ⟨?_, ?_, ?_⟩⟩
  · exact fun x d _ hd => get_name hd
  · exact fun x d _ hd => h x d hd
  · intro x d hx hd
    have : ∀ (l : List Str), x ∈ l →
        d.body.length ≤ (l.map (fun x => ((get bucketOf tab x).map (·.body.length)).getD 0)).sum := by
      intro l
      induction l with
      | nil => intro h; cases h
      | cons y l ih =>
        intro h
        rw [List.map_cons, List.sum_cons]
        rcases List.mem_cons.1 h with rfl | h
        · simp only [hd, Option.map_some, Option.getD_some]; omega
        · have := ih h; omega
    exact this _ hx

/-- **C14, object-like macros.**  Whatever the table — mutually recursive, with `##`, with
malformed replacement lists — as long as it holds no function-like macro, reading the next
token, or expanding a whole list, ends. -/
theorem object_like_terminates (tab : Table) (h : ∀ x d, get bucketOf tab x = some d → d.func = false)
    (input ret : Bool) (s : St) : ∃ N, ∀ n, N ≤ n → expand (get bucketOf tab) input ret n s ≠ .more := by
  obtain ⟨B, hB⟩ := objTable_of tab h
  exact ⟨_, fun n hn => expand_obj_terminates hB (fun _ _ hd => mem_names hd) input ret _ s (Nat.le_refl _) n hn⟩

/-- **C14, object-like macros, exactly.**  The tokens produced are those of C17 6.10.3.4
(`Expands`): every macro name is replaced except inside its own replacement.  The names
`U` are those reachable from the input; other macros of the table may be anything. -/
theorem object_like_exact (tab : Table) (U : List Str) (ts : List Tok) (s : St)
    (hf : ∀ x d, x ∈ U → get bucketOf tab x = some d → d.func = false ∧
      ∀ t ∈ d.body, PlainTok t ∧ t.hs = [] ∧ Within (get bucketOf tab) U (pp t))
    (ht : ∀ t ∈ ts, PlainTok t ∧ t.hs = [] ∧ Within (get bucketOf tab) U (pp t)) :
    ∃ N o, Expands (lists (get bucketOf tab)) [] (ts.map pp) (o.map pp) ∧
      ∀ n, N ≤ n → expandList (get bucketOf tab) n ts s = .ok (o, s) := by
  have hB : ∃ B, ObjTable (get bucketOf tab) U B := by
    refine ⟨(U.map (fun x => ((get bucketOf tab x).map (·.body.length)).getD 0)).sum, ⟨?_, ?_, ?_⟩⟩
    · exact fun x d _ hd => get_name hd
    · exact fun x d hx hd => (hf x d hx hd).1
    · intro x d hx hd
      clear hf ht
      induction U with
      | nil => cases hx
      | cons y l ih =>
        rw [List.map_cons, List.sum_cons]
        rcases List.mem_cons.1 hx with rfl | h
        · simp only [hd, Option.map_some, Option.getD_some]; omega
        · have := ih h; omega
  obtain ⟨B, hB⟩ := hB
  obtain ⟨o, ho, hrun⟩ := expand_plain hB (fun x d hx hd => (hf x d hx hd).2) false _ [] ts (eoi :: s.buf) s.out s.src
    (Nat.le_refl _) (fun t h => ⟨(ht t h).1, (ht t h).2.2⟩) (fun t h x => by rw [(ht t h).2.1])
  obtain ⟨k, hk⟩ := hrun false rfl
  refine ⟨k + 1, o, ho, fun n hn => ?_⟩
  obtain ⟨m, rfl⟩ : ∃ m, n = (m + 1) + k := ⟨n - k - 1, by omega⟩
  unfold expandList
  simp only [hk]
  simp [expand, take, eoi]

/-- The table of the examples: `#define a b a`, `#define b a b`. -/
def crossed : Table :=
  add bucketOf (add bucketOf init { name := str "a", body := [idt "b", idt "a"] })
    { name := str "b", body := [idt "a", idt "b"] }

/-- Mutually recursive macros satisfy the hypotheses; `a` becomes `a b a`. -/
example : (expandList (get bucketOf crossed) 20 [idt "a"] {}).mapOk (fun r => r.1.map (·.str))
    = .ok [str "a", str "b", str "a"] := by decide +kernel

example : ∀ x d, x ∈ [str "a", str "b"] → get bucketOf crossed x = some d → d.func = false ∧
    ∀ t ∈ d.body, PlainTok t ∧ t.hs = [] ∧ Within (get bucketOf crossed) [str "a", str "b"] (pp t) := by
  intro x d hx hd
  have key : [str "a", str "b"].all (fun x => (get bucketOf crossed x).toList.all (fun d => decide (d.func = false) &&
      d.body.all (fun t => decide (t.type ≠ .T_EOI ∧ t.type ≠ .PP_HASH ∧ t.type ≠ .PP_HHASH ∧ t.str ≠ str "__VA_ARGS__" ∧
        t.str ≠ str "__LINE__" ∧ t.str ≠ str "__FILE__") && (decide (t.hs = []) &&
          decide ((pp t).2 ∈ [str "a", str "b"]))))) = true := by
    decide +kernel
  simp only [List.all_eq_true, Bool.and_eq_true, decide_eq_true_eq] at key
  obtain ⟨h1, h2⟩ := key x hx d (by simp [hd])
  exact ⟨h1, fun t ht => ⟨(h2 t ht).1, (h2 t ht).2.1, fun _ => .inl (h2 t ht).2.2⟩⟩

/-- `#define a z )`, `#define z f (`, `#define f() b`, `#define b y )`, `#define y g (`,
`#define g() a`. -/
def cyclic : Table :=
  [({ name := str "a", body := [idt "z", pun .T_RPAR] } : Define),
   { name := str "z", body := [idt "f", pun .T_LPAR] },
   { name := str "f", func := true, body := [idt "b"] },
   { name := str "b", body := [idt "y", pun .T_RPAR] },
   { name := str "y", body := [idt "g", pun .T_LPAR] },
   { name := str "g", func := true, body := [idt "a"] }].foldl (add bucketOf) init

/-- The token `a` as it comes out of its own replacement. -/
def again : Tok := { idt "a" with hs := [str "g"] }

/-- One replacement step with everything it needs, as a check. -/
def stepOk (env : Str → Option Define) (s s' : St) : Bool :=
  match s.buf with
  | t :: b =>
    match env t.str with
    | some d =>
      t.type = .T_IDENT ∧ t.str ∉ t.hs ∧ builtin t = none ∧
      (d.func = true → (b.head?.map (·.type)) = some .T_LPAR) ∧
      subs (fun _ => .more) true 0 t d { s with buf := b } = .ok s'
    | none => false
  | [] => false

theorem stepOk_run {env : Str → Option Define} {s s' : St} (h : stepOk env s s' = true) (ret : Bool) (n : Nat) :
    expand env true ret (n + 1) s = expand env true ret n s' := by
  unfold stepOk at h
  split at h
  · next t b hb =>
    split at h
    · next d hd =>
      obtain ⟨h1, h2, h3, h4, h5⟩ := of_decide_eq_true h
      refine expand_reaches (s1 := { s with buf := b }) rfl (by simp [take, hb]) ⟨h1, h2, h3, hd⟩ ?_ h5
      intro hf
      cases b with
      | nil => simp at h4; exact absurd hf (by simp [h4])
      | cons p b =>
        refine ⟨p, _, rfl, rfl, ?_, rfl⟩
        simpa using h4 hf
    · cases h
  · cases h

/-- The states the expander runs through, from `a` to `a`. -/
def orbit : Nat → St → List St
  | 0, _ => []
  | n + 1, s =>
    match s.buf with
    | t :: b =>
      match get bucketOf cyclic t.str with
      | some d =>
        match subs (fun _ => .more) true 0 t d { s with buf := b } with
        | .ok s' => s' :: orbit n s'
        | _ => []
      | none => []
    | [] => []

theorem orbit_closes : (orbit 6 { buf := [again] }).getLast? = some { buf := [again] } ∧
    ((({ buf := [again] } : St) :: orbit 6 { buf := [again] }).zip (orbit 6 { buf := [again] })).all
      (fun p => stepOk (get bucketOf cyclic) p.1 p.2) = true ∧ (orbit 6 { buf := [again] }).length = 6 ∧
    stepOk (get bucketOf cyclic) { buf := [idt "a"] } ((orbit 1 { buf := [idt "a"] }).getD 0 {}) = true ∧
    (orbit 6 { buf := [idt "a"] }).getLast? = some { buf := [again] } ∧
    ((({ buf := [idt "a"] } : St) :: orbit 6 { buf := [idt "a"] }).zip (orbit 6 { buf := [idt "a"] })).all
      (fun p => stepOk (get bucketOf cyclic) p.1 p.2) = true ∧ (orbit 6 { buf := [idt "a"] }).length = 6 := by
  decide +kernel

/-- Running along a chain of steps. -/
theorem chain_run {env : Str → Option Define} (ret : Bool) : ∀ (l : List St) (s : St),
    ((s :: l).zip l).all (fun p => stepOk env p.1 p.2) = true → ∀ n,
    expand env true ret (n + l.length) s = expand env true ret n ((s :: l).getLast (by simp)) ∧
    ∀ m < l.length, ∃ s', expand env true ret m s = expand env true ret 0 s' := by
  intro l
  induction l with
  | nil => intro s _ n; exact ⟨rfl, fun m hm => by cases hm⟩
  | cons s' l ih =>
    intro s h n
    simp only [List.zip_cons_cons, List.all_cons, Bool.and_eq_true] at h
    obtain ⟨h1, h2⟩ := h
    refine ⟨?_, fun m hm => ?_⟩
    · rw [List.length_cons, ← Nat.add_assoc, stepOk_run h1, (ih s' h2 n).1]
      simp
    · cases m with
      | zero => exact ⟨s, rfl⟩
      | succ m =>
        rw [stepOk_run h1]
        exact (ih s' h2 n).2 m (by simpa using hm)

/-- **C14 is violated** by function-like macros: `a` is expanded inside its own
replacement, over and over, because `string_set_intersection` forgets `a` when the two
macro calls `f ( )` and `g ( )` close (see `inter_exact_violated`). -/
theorem expansion_terminates_violated : ¬ ExpansionTerminates := by
  intro h
  obtain ⟨c1, c2, c3, _, c4, c5, c6⟩ := orbit_closes
  have loop : ∀ n, expand (get bucketOf cyclic) true true n { buf := [again] } = .more := by
    intro n
    induction n using Nat.strongRecOn with
    | _ n ih =>
      obtain ⟨a, b⟩ := chain_run (env := get bucketOf cyclic) true _ _ c2 (n - 6)
      by_cases hn : n < 6
      · obtain ⟨s', e⟩ := b n (by omega)
        rw [e]; rfl
      · rw [c3, show n - 6 + 6 = n by omega] at a
        rw [a]
        have : (({ buf := [again] } : St) :: orbit 6 { buf := [again] }).getLast (by simp) = { buf := [again] } := by
          have := List.getLast?_cons (a := ({ buf := [again] } : St)) (l := orbit 6 { buf := [again] })
          rw [c1] at this
          rw [List.getLast?_eq_some_getLast (by simp)] at this
          simpa using this
        rw [this]
        exact ih _ (by omega)
  obtain ⟨N, hN⟩ := h cyclic { buf := [idt "a"] }
  have a := (chain_run (env := get bucketOf cyclic) true _ _ c5 N).1
  rw [c6] at a
  refine hN (N + 6) (by omega) ?_
  rw [a]
  have : (({ buf := [idt "a"] } : St) :: orbit 6 { buf := [idt "a"] }).getLast (by simp) = { buf := [again] } := by
    have := List.getLast?_cons (a := ({ buf := [idt "a"] } : St)) (l := orbit 6 { buf := [idt "a"] })
    rw [c4] at this
    rw [List.getLast?_eq_some_getLast (by simp)] at this
    simpa using this
  rw [this]
  exact loop _

/-! ## C66: macro arguments -/

/-- **C66.**  A call with as many arguments as the macro has parameters: the arguments are
the token sequences between the top-level commas (white space at their ends forgotten),
nothing after `)` is read. -/
theorem arguments_collected {input : Bool} {d : Define} {lpar r : Tok} {as : List (List Tok)} {ts R : List Tok} {s : St}
    (hf : d.func = true) (hl : lpar.type = .T_LPAR) (hc : CallArgs as ts r) (hn : as.length = d.par.length)
    (hp : pending input s = lpar :: ts ++ R) (origin : Tok) (hs : List Str) :
    ∃ s1, pending input s1 = R ∧ s1.out = s.out ∧ ∃ N, ∀ n, N ≤ n →
      readCall input n origin d hs s
        = .ok (⟨as.map trimBody, [], false⟩, r.whitespaceAfter, StringSet.inter hs r.hs, s1) := by
  obtain ⟨s0, e0, p0, o0⟩ := take_pending (l := ts ++ R) (by simpa using hp)
  obtain ⟨s1, p1, o1, e1⟩ := parseArgs_exact hc s0 R p0
  obtain ⟨s2, e2, p2, o2⟩ := take_pending p1
  refine ⟨s2, p2, by rw [o2, o1, o0], ts.length, fun n hN => ?_⟩
  have hr := callArgs_rpar hc
  unfold readCall
  simp only [hf, if_true, e0, Run.bind_ok, hl, ne_eq, not_true, if_false, ← hn, e1 n hN, Bool.not_true,
    Bool.and_false]
  simp [parseVararg, e2, hr]

/-- **C66, variadic macros.**  The named parameters take the first arguments, `...` all
the rest, commas included. -/
theorem variadic_arguments_collected {input : Bool} {d : Define} {lpar r : Tok} {as : List (List Tok)}
    {va ts R : List Tok} {s : St} (hf : d.func = true) (hv : d.vararg = true) (hl : lpar.type = .T_LPAR)
    (hc : CallVar as va ts r) (hn : as.length = d.par.length)
    (hp : pending input s = lpar :: ts ++ R) (origin : Tok) (hs : List Str) :
    ∃ s1, pending input s1 = R ∧ s1.out = s.out ∧ ∃ N, ∀ n, N ≤ n →
      readCall input n origin d hs s
        = .ok (⟨as.map trimBody, trimBody va, true⟩, r.whitespaceAfter, StringSet.inter hs r.hs, s1) := by
  obtain ⟨s0, e0, p0, o0⟩ := take_pending (l := ts ++ R) (by simpa using hp)
  obtain ⟨s1, p1, o1, s', e1⟩ := parseArgs_var hc s0 R p0
  obtain ⟨s2, e2, p2, o2⟩ := take_pending p1
  refine ⟨s2, p2, by rw [o2, o1, o0], ts.length, fun n hN => ?_⟩
  have hr := callVar_rpar hc
  obtain ⟨e3, e4⟩ := e1 n hN
  unfold readCall
  simp only [hf, if_true, e0, Run.bind_ok, hl, ne_eq, not_true, if_false, ← hn, e3, hv, Bool.not_false, Bool.and_true]
  simp [parseVararg, e4, e2, hr]

/-- **C66.**  Too few arguments are diagnosed. -/
theorem too_few_arguments_diagnosed {input : Bool} {d : Define} {lpar r : Tok} {as : List (List Tok)}
    {ts R : List Tok} {s : St} (hf : d.func = true) (hl : lpar.type = .T_LPAR) (hc : CallArgs as ts r)
    (hn : as.length < d.par.length) (hp : pending input s = lpar :: ts ++ R) (origin : Tok) (hs : List Str) :
    ∃ N, ∀ n, N ≤ n → readCall input n origin d hs s = .fail := by
  obtain ⟨s0, e0, p0, o0⟩ := take_pending (l := ts ++ R) (by simpa using hp)
  refine ⟨ts.length, fun n hN => ?_⟩
  unfold readCall
  simp [hf, e0, hl, parseArgs_few hc s0 R d.par.length hn p0 n hN]

/-- Too many arguments for a macro that is not variadic are diagnosed. -/
def TooManyDiagnosed : Prop :=
  ∀ (d : Define) (lpar r : Tok) (as : List (List Tok)) (ts : List Tok), d.func = true → d.vararg = false →
    lpar.type = .T_LPAR → CallArgs as ts r → d.par.length < as.length → (d.par = [] → as ≠ [[]]) →
    ∀ (origin : Tok) (hs : List Str) (s : St), pending true s = lpar :: ts →
      ∃ N, ∀ n, N ≤ n → readCall true n origin d hs s = .fail

/-- **C66**, all but one case: the excess is not exactly one empty argument. -/
theorem too_many_arguments_diagnosed_partial {input : Bool} {d : Define} {lpar r : Tok} {as : List (List Tok)}
    {ts R : List Tok} {s : St} (hf : d.func = true) (hv : d.vararg = false) (hl : lpar.type = .T_LPAR)
    (hc : CallArgs as ts r) (hn : d.par.length < as.length) (he : as.drop d.par.length ≠ [[]])
    (hp : pending input s = lpar :: ts ++ R) (origin : Tok) (hs : List Str) :
    ∃ N, ∀ n, N ≤ n → readCall input n origin d hs s = .fail := by
  obtain ⟨s0, e0, p0, o0⟩ := take_pending (l := ts ++ R) (by simpa using hp)
  obtain ⟨s1, ts', hc', p1, o1, e1⟩ := parseArgs_many hc s0 R d.par.length hn p0
  have hfirst : ∃ u us, ts' = u :: us ∧ u.type ≠ .T_RPAR := by
    generalize as.drop d.par.length = l at hc' he
    have bal : ∀ a, Balanced false a → a = [] ∨ ∃ u us, a = u :: us ∧ u.type ≠ .T_RPAR := by
      intro a ha
      cases ha with
      | nil => exact .inl rfl
      | tok _ t ts h1 h2 _ _ => exact .inr ⟨t, ts, rfl, h2⟩
      | paren _ l inner r ts h1 _ _ _ => exact .inr ⟨l, _, rfl, by rw [h1]; decide⟩
    cases hc' with
    | last a _ hb _ =>
      rcases bal a hb with rfl | ⟨u, us, rfl, hu⟩
      · exact absurd rfl he
      · exact ⟨u, _, rfl, hu⟩
    | more a c as ts _ hb hcc _ =>
      rcases bal a hb with rfl | ⟨u, us, rfl, hu⟩
      · exact ⟨c, ts, rfl, by rw [hcc]; decide⟩
      · exact ⟨u, _, rfl, hu⟩
  obtain ⟨u, us, rfl, hu⟩ := hfirst
  obtain ⟨s2, e2, _, _⟩ := take_pending (t := u) (l := us ++ R) (by simpa using p1)
  refine ⟨ts.length, fun n hN => ?_⟩
  unfold readCall
  simp [hf, e0, hl, e1 n hN, hv, parseVararg, e2, hu]

/-- `#define f(x) x`. -/
def oneParam : Define := { name := str "f", func := true, par := [idt "x"], body := [idt "x"] }

/-- **C66 is violated**: `f(1,)` has two arguments, the macro one parameter, and the call
is accepted. -/
theorem too_many_arguments_diagnosed_violated : ¬ TooManyDiagnosed := by
  intro h
  have hone : (idt "y").type = .T_IDENT := rfl
  obtain ⟨N, hN⟩ := h oneParam (pun .T_LPAR) (pun .T_RPAR) [[idt "y"], []] [idt "y", pun .T_COMMA, pun .T_RPAR]
    rfl rfl rfl
    (.more [idt "y"] (pun .T_COMMA) _ [pun .T_RPAR] _
      (.tok _ _ _ (by decide) (by decide) (by decide) (.nil _)) rfl (.last [] _ (.nil _) rfl))
    (by decide) (by decide) (idt "f") []
    { src := [pun .T_LPAR, idt "y", pun .T_COMMA, pun .T_RPAR] } rfl
  have h1 := hN (N + 5) (by omega)
  have h2 : readCall true 5 (idt "f") oneParam [] { src := [pun .T_LPAR, idt "y", pun .T_COMMA, pun .T_RPAR] }
      = .ok (⟨[[idt "y"]], [], false⟩, false, [], {}) := by decide +kernel
  have h3 := (readCall_mono true (show 5 ≤ N + 5 by omega) (idt "f") oneParam []
    { src := [pun .T_LPAR, idt "y", pun .T_COMMA, pun .T_RPAR] }).eq_ok h2
  rw [h1] at h3
  cases h3

/-- `f ( ( a , b ) , c )` has the two arguments `( a , b )` and `c`. -/
example : CallArgs [[pun .T_LPAR, idt "a", pun .T_COMMA, idt "b", pun .T_RPAR], [idt "c"]]
    [pun .T_LPAR, idt "a", pun .T_COMMA, idt "b", pun .T_RPAR, pun .T_COMMA, idt "c", pun .T_RPAR] (pun .T_RPAR) :=
  .more _ _ _ [idt "c", pun .T_RPAR] _
    (.paren false (pun .T_LPAR) [idt "a", pun .T_COMMA, idt "b"] (pun .T_RPAR) [] rfl rfl
      (.tok _ _ _ (by decide) (by decide) (by decide) (.tok _ _ _ (by decide) (by decide) (fun _ => rfl)
        (.tok _ _ _ (by decide) (by decide) (by decide) (.nil _)))) (.nil _)) rfl
    (.last [idt "c"] _ (.tok _ _ _ (by decide) (by decide) (by decide) (.nil _)) rfl)

/-! ## C67: argument substitution -/

/-- Arguments made of object-like macros and ordinary tokens are fully replaced as in
C17 6.10.3.4 before they are substituted. -/
theorem argument_expansion {env : Str → Option Define} {U : List Str} {B : Nat} (h : ObjTable env U B)
    (hb : ∀ x d, x ∈ U → env x = some d → ∀ t ∈ d.body, PlainTok t ∧ t.hs = [] ∧ Within env U (pp t))
    (input : Bool) (a : List Tok) (ha : ∀ t ∈ a, PlainTok t ∧ t.hs = [] ∧ Within env U (pp t)) :
    ∃ o, Expands (lists env) [] (a.map pp) o ∧ ArgExp env input a o := by
  have fact : ∀ ws wa, ∀ t ∈ orEnds ws wa a, PlainTok t ∧ t.hs = [] ∧ Within env U (pp t) := by
    intro ws wa t ht
    have : (pp t, t.hs) ∈ (orEnds ws wa a).map (fun t => (pp t, t.hs)) := List.mem_map_of_mem ht
    rw [orEnds_map (fun t => (pp t, t.hs)) (fun _ _ => rfl) (fun _ _ => rfl)] at this
    obtain ⟨u, hu, e⟩ := List.mem_map.1 this
    simp only [Prod.mk.injEq] at e
    obtain ⟨h1, h2, h3⟩ := ha u hu
    exact ⟨plain_pp h1 e.1.symm, by rw [← e.2, h2], e.1 ▸ h3⟩
  have run : ∀ ws wa R O src, ∃ o : List Tok, Expands (lists env) [] (a.map pp) (o.map pp) ∧
      ∃ k, ∀ n, expand env input false (n + k) ⟨orEnds ws wa a ++ eoi :: R, O, src⟩
        = expand env input false n ⟨eoi :: R, O ++ o, src⟩ := by
    intro ws wa R O src
    obtain ⟨o, h1, h2⟩ := expand_plain h hb input _ [] (orEnds ws wa a) (eoi :: R) O src (Nat.le_refl _)
      (fun t ht => ⟨(fact ws wa t ht).1, (fact ws wa t ht).2.2⟩) (fun t ht x => by rw [(fact ws wa t ht).2.1])
    rw [orEnds_pp] at h1
    exact ⟨o, h1, h2 false rfl⟩
  obtain ⟨o, ho, _⟩ := run false false [] [] []
  refine ⟨o.map pp, ho, fun ws wa R O src => ?_⟩
  obtain ⟨o', ho', k, hk⟩ := run ws wa R O src
  refine ⟨k + 1, o', ho'.unique ho, fun n hn => ?_⟩
  obtain ⟨m, rfl⟩ : ∃ m, n = (m + 1) + k := ⟨n - k - 1, by omega⟩
  rw [hk]
  simp [expand, take, eoi]

/-- **C67.**  A call of a function-like macro whose replacement list has neither `#` nor
`##` is replaced by its replacement list with every parameter replaced by the complete
expansion of its argument; every token of the result carries the macro's name in its
hide set, and the text after the call is untouched. -/
theorem macro_call_substitution {env : Str → Option Define} {input ret : Bool} {d : Define} {t lpar r : Tok}
    {as : List (List Tok)} {os : List (List PP)} {ts R : List Tok} {s s0 : St}
    (hact : Active env t d) (hf : d.func = true) (hl : lpar.type = .T_LPAR)
    (hc : CallArgs as ts r) (hn : as.length = d.par.length) (ho : os.length = as.length)
    (hbody : ∀ u ∈ d.body, PlainBody u)
    (harg : ∀ (i : Nat) (a : List Tok) (o : List PP), as[i]? = some a → os[i]? = some o → ArgExp env input (trimBody a) o)
    (ht : take input s = .ok (t, s0)) (hs : (!input && s.buf.isEmpty) = false)
    (hp : pending input s0 = lpar :: ts ++ R) :
    ∃ N new s1, new.map pp = substitute (d.par.map (·.str)) os (d.body.map pp) ∧
      (∀ u ∈ new, d.name ∈ u.hs) ∧ pending input s1 = new ++ R ∧ s1.out = s0.out ∧
      ∀ n, N ≤ n → expand env input ret (n + 1) s = expand env input ret n s1 := by
  obtain ⟨s1, e1, p1, o1⟩ := top_pending (t := lpar) (l := ts ++ R) (by simpa using hp)
  obtain ⟨s2, p2, o2, N1, e2⟩ := arguments_collected (R := R) hf hl hc hn (by simpa using p1) t t.hs
  obtain ⟨K, new, hnew, hk⟩ := substLoop_func (env := env) (input := input) (d := d)
    (c := ⟨as.map trimBody, [], false⟩) (os := os) hf (by simp [ho])
    (fun i a o h1 h2 => by
      rw [List.getElem?_map] at h1
      cases h3 : as[i]? with
      | none => simp [h3] at h1
      | some a' =>
        simp only [h3, Option.map_some, Option.some.injEq] at h1
        exact h1 ▸ harg i a' o h3 h2)
    (fun i hi => by simp; omega) t.line t.path d.body.reverse (by simpa using hbody) s2
  simp only [List.reverse_reverse] at hnew
  let hs' := StringSet.insert (StringSet.inter t.hs r.hs) d.name
  let new' := orEnds t.whitespace r.whitespaceAfter (new.map (fun u => { u with hs := StringSet.union hs' u.hs }))
  refine ⟨max N1 K, new', { s2 with buf := new' ++ s2.buf }, ?_, ?_, ?_, ?_, fun n hN => ?_⟩
  · rw [orEnds_pp, ← hnew]; simp [pp]
  · intro u hu
    obtain ⟨v, hv, e⟩ := orEnds_hs_mem hu
    obtain ⟨w, _, rfl⟩ := List.mem_map.1 hv
    rw [← e]
    exact (StringSet.mem_union _ _ _).2 (.inl ((StringSet.mem_insert _ _ _).2 (.inl rfl)))
  · rw [← p2]; simp [pending]
  · simp [o2, o1]
  · rw [expand_subs_func hs ht hact hf (pending_nonempty hp) e1 hl]
    unfold subs
    simp only [e2 n (by omega), Run.bind_ok, hk n (by omega)]
    simp [finish, new', hs']

/-- `#define f(x) x x`, `#define y z`: `f(y)` becomes `z z`. -/
example : (expandList (get bucketOf (add bucketOf (add bucketOf init
      { name := str "f", func := true, par := [idt "x"], body := [idt "x", idt "x"] })
      { name := str "y", body := [idt "z"] })) 20 [idt "f", pun .T_LPAR, idt "y", pun .T_RPAR] {}).mapOk
        (fun r => r.1.map (·.str)) = .ok [str "z", str "z"] := by decide +kernel

/-- Arguments of ordinary tokens meet the hypothesis on arguments. -/
example : ∃ o, Expands (lists (fun _ => none)) [] ([idt "y"].map pp) o ∧ ArgExp (fun _ => none) true [idt "y"] o :=
  argument_expansion (U := []) (B := 0) ⟨by simp, by simp, by simp⟩ (by simp) true [idt "y"]
    (by intro t ht; cases List.mem_singleton.1 ht
        exact ⟨⟨by decide, by decide, by decide, by decide, by decide, by decide⟩, rfl, fun _ => .inr rfl⟩)

/-! ## C68: token pasting -/

/-- **C68, punctuators.**  Pasting two punctuators gives the punctuator spelled by both
together, and is rejected when there is none (the complete table of 48 × 48 pairs). -/
theorem paste_punctuators : ∀ a ∈ punctuators, ∀ b ∈ punctuators,
    pasteType b.1 a.1 = ((punctuators.find? (fun p => decide (p.2 = a.2 ++ b.2))).map (·.1)).getD .T_NONE := by
  exact paste_table

/-- **C68.**  A pasted token is spelled by both together and keeps the outer white space. -/
theorem paste_spelling (a b g : Tok) (h : glue a b = .ok g) :
    g.str = b.str ++ a.str ∧ g.whitespace = b.whitespace ∧ g.whitespaceAfter = a.whitespaceAfter ∧
      g.type = pasteType a.type b.type ∧ g.type ≠ .T_NONE := by
  unfold glue at h
  dsimp only at h
  split at h
  · cases h
  · next hn => cases h; exact ⟨rfl, rfl, rfl, rfl, hn⟩

example : glue { idt "b" with whitespaceAfter := true } (idt "a") = .ok { idt "ab" with whitespaceAfter := true } := by
  decide +kernel

/-- `#define F(a,b) x a ## b`. -/
def placemarker : Table := add bucketOf init
  { name := str "F", func := true, par := [idt "a", idt "b"], body := [idt "x", idt "a", pun .PP_HHASH, idt "b"] }

/-- **C68 is violated**: an empty argument next to `##` is a placemarker (C17 6.10.3.3p2),
so `F(,y)` is `x y`; the compiler pastes across it and makes `xy`.  Nor can an encoding
prefix be pasted to a string, although `L"s"` is a token. -/
theorem placemarker_violated :
    (∀ n, 20 ≤ n → (expandList (get bucketOf placemarker) n
        [idt "F", pun .T_LPAR, pun .T_COMMA, idt "y", pun .T_RPAR] {}).mapOk (fun r => r.1.map (·.str))
      = .ok [str "xy"]) ∧
    glue { type := .T_STRING, str := str "\"s\"" } (idt "L") = .fail := by
  refine ⟨fun n hn => ?_, by decide +kernel⟩
  have h : (expandList (get bucketOf placemarker) 20
        [idt "F", pun .T_LPAR, pun .T_COMMA, idt "y", pun .T_RPAR] {}).mapOk (fun r => r.1.map (·.str))
      = .ok [str "xy"] := by decide +kernel
  have hm := expand_mono (get bucketOf placemarker) false hn false
    { buf := [idt "F", pun .T_LPAR, pun .T_COMMA, idt "y", pun .T_RPAR] ++ [eoi] }
  exact ((Le.bind hm fun _ => .rfl').mapOk _).eq_ok h

/-- `#` followed by an identifier in the replacement list of an object-like macro,
`#define H # x`, is an ordinary token (C17 6.10.3.2p1 constrains function-like macros
only); the compiler rejects the use of `H` (src/preprocessor/macro_expander.c:427-452). -/
theorem hash_in_object_like_violated (n : Nat) (h : 5 ≤ n) :
    expandList (get bucketOf (add bucketOf init { name := str "H", body := [pun .PP_HASH, idt "x"] })) n
      [idt "H"] {} = .fail := by
  have h0 : expandList (get bucketOf (add bucketOf init { name := str "H", body := [pun .PP_HASH, idt "x"] })) 5
      [idt "H"] {} = .fail := by decide +kernel
  unfold expandList at h0 ⊢
  refine (Le.bind (expand_mono _ false h false _) fun _ => .rfl').eq_of h0 (fun h => by cases h)

/-! ## C63: stringification -/

/-- The result of `#` is a string literal denoting the text of the argument, for all
tokens: literals of any bytes, other tokens without quotes and backslashes. -/
def StringifyExact : Prop :=
  ∀ ts : List Tok, (∀ t ∈ ts, t.type = .T_STRING ∨ t.type = .T_CHARACTER_CONSTANT ∨
      ∀ b ∈ spelling t, b ≠ ch '\\' ∧ b ≠ ch '"') →
    ∃ v, stringify ts = .ok v ∧ ∀ rest, Escape.escapeString (v ++ rest) v.length .default [] = .ok (text ts)

/-- **C63** for literals without the byte 127. -/
theorem stringify_exact_partial (ts : List Tok) (h : ∀ t ∈ ts, Spellable t) :
    ∃ v, stringify ts = .ok v ∧ ∀ rest, Escape.escapeString (v ++ rest) v.length .default [] = .ok (text ts) := by
  obtain ⟨txt, e, r⟩ := stringifyLoop_reads ts h true false [ch '"']
  refine ⟨[ch '"'] ++ txt ++ [ch '"'], by simp [stringify, e], fun rest => r.literal rest⟩

/-- **C63 is violated** by the byte 127 in a literal: the compiler reads past the end of
`needs_no_escape` (src/escape_sequence.c:104). -/
theorem stringify_exact_violated : ¬ StringifyExact ∧
    stringify [{ type := .T_STRING, str := [ch '"', 127#8, ch '"'] }] = .ub := by
  have h : stringify [{ type := .T_STRING, str := [ch '"', 127#8, ch '"'] }] = .ub := by decide +kernel
  refine ⟨fun hall => ?_, h⟩
  obtain ⟨v, hv, _⟩ := hall [{ type := .T_STRING, str := [ch '"', 127#8, ch '"'] }] (by simp)
  rw [h] at hv
  cases hv

/-- `#` of `"a\n" , x` with its white space. -/
example : stringify [{ type := .T_STRING, str := str "\"a\\n\"" }, { pun .T_COMMA with whitespace := true },
    { idt "x" with whitespace := true }] = .ok (str "\"\\\"a\\\\n\\\" , x\"") := by decide +kernel

/-! ## C69: unterminated macro calls -/

/-- A macro call that the input ends in is diagnosed: whatever follows `(`, if it cannot be
completed to a list of arguments by any prefix, reading the call fails. -/
def UnterminatedDiagnosed : Prop :=
  ∀ (tab : Table) (t lpar : Tok) (d : Define) (ts : List Tok), Active (get bucketOf tab) t d → d.func = true →
    lpar.type = .T_LPAR → (∀ as p q r, ts = p ++ q → ¬ CallArgs as p r) →
    ∃ N, ∀ n, N ≤ n → expand (get bucketOf tab) true true n { src := t :: lpar :: ts } = .fail

/-- **C69 is violated**: a call of `#define f(x) x` that the file ends in is not diagnosed;
the compiler reads the end-of-input token for ever (src/preprocessor/macro_expander.c:292-308). -/
theorem unterminated_call_loops :
    ∀ n, expand (get bucketOf (add bucketOf init oneParam)) true true n
      { src := [idt "f", pun .T_LPAR, idt "y"] } = .more := by
  intro n
  cases n with
  | zero => rfl
  | succ n =>
    have hsrc : ∀ m dep acc, parseArg true false m (dep + 1) acc {} = .more := by
      intro m
      induction m with
      | zero => intro _ _; rfl
      | succ m ih =>
        intro dep acc
        rw [parseArg_succ]
        have : take true {} = .ok (eoi, {}) := rfl
        simp only [this, Run.bind_ok]
        rw [if_neg (by decide), if_neg (by decide), if_neg (by simp [eoi])]
        exact ih _ _
    have hparse : ∀ m, parseArg true false m 1 [] { src := [idt "y"] } = .more := by
      intro m
      cases m with
      | zero => rfl
      | succ m =>
        rw [parseArg_succ]
        have : take true { src := [idt "y"] } = .ok (idt "y", {}) := rfl
        simp only [this, Run.bind_ok]
        rw [if_neg (by decide), if_neg (by decide), if_neg (by simp [idt])]
        exact hsrc m 0 _
    have hact : Active (get bucketOf (add bucketOf init oneParam)) (idt "f") oneParam :=
      ⟨rfl, by simp [idt], by decide +kernel, by decide +kernel⟩
    rw [expand_subs_func (t := idt "f") (d := oneParam) (p := pun .T_LPAR) (s1 := { src := [pun .T_LPAR, idt "y"] })
      (s2 := { buf := [pun .T_LPAR], src := [idt "y"] }) rfl rfl hact rfl rfl rfl rfl]
    have : readCall true n (idt "f") oneParam (idt "f").hs { buf := [pun .T_LPAR], src := [idt "y"] } = .more := by
      unfold readCall
      simp [oneParam, take, pun, parseArgs, hparse]
    unfold subs
    rw [this]
    rfl

theorem unterminated_diagnosed_violated : ¬ UnterminatedDiagnosed := by
  intro h
  obtain ⟨N, hN⟩ := h (add bucketOf init oneParam) (idt "f") (pun .T_LPAR) oneParam [idt "y"]
    ⟨rfl, by simp [idt], by decide +kernel, by decide +kernel⟩ rfl rfl (by
      intro as p q r hp hc
      have hlast : ∀ {as p r}, CallArgs as p r → r ∈ p ∧ r.type = .T_RPAR := by
        intro as p r hc
        induction hc with
        | last a r _ hr => exact ⟨by simp, hr⟩
        | more a c as ts r _ _ _ ih => exact ⟨by simp [ih.1], ih.2⟩
      obtain ⟨h1, h2⟩ := hlast hc
      have : r ∈ [idt "y"] := by rw [hp]; exact List.mem_append_left _ h1
      rw [List.mem_singleton.1 this] at h2
      cases h2)
  have := hN N (Nat.le_refl _)
  rw [unterminated_call_loops] at this
  cases this

/-- A complete call ends: `f ( y )` is `y`. -/
example : expand (get bucketOf (add bucketOf init oneParam)) true true 10
    { src := [idt "f", pun .T_LPAR, idt "y", pun .T_RPAR] } = .ok (some { idt "y" with hs := [str "f"] }, {}) := by
  decide +kernel

end Verif.Macro
