import Verif.MacroCall
/-!
Lemmas: replacement lists with `#` and `##`.
-/
namespace Verif.Macro
open Verif DefineMap MacroSpec

/-- Pasting two punctuators gives the punctuator spelled by both together, and is rejected
when there is none (the complete table of pairs). -/
theorem paste_table : ∀ a ∈ punctuators, ∀ b ∈ punctuators,
    pasteType b.1 a.1 = ((punctuators.find? (fun p => decide (p.2 = a.2 ++ b.2))).map (·.1)).getD .T_NONE := by
  decide +kernel

theorem punctuators_spelling : ∀ a ∈ punctuators, ∀ b ∈ punctuators, a.2 = b.2 → a = b := by decide +kernel

theorem punctuators_kind : ∀ a ∈ punctuators, a.1 ≠ .T_NONE := by decide +kernel

theorem find_spelling {r : TType} {x : Str} (h : (r, x) ∈ punctuators) :
    punctuators.find? (fun p => decide (p.2 = x)) = some (r, x) := by
  cases hf : punctuators.find? (fun p => decide (p.2 = x)) with
  | none => exact absurd (List.find?_eq_none.1 hf _ h) (by simp)
  | some q =>
    have h1 := List.find?_some hf
    simp only [decide_eq_true_eq] at h1
    rw [punctuators_spelling q (List.mem_of_find?_eq_some hf) (r, x) h h1]

theorem pastes_type {a b g : PP} (h : Pastes a b g) : pasteType b.1 a.1 = g.1 ∧ g.1 ≠ .T_NONE ∧ g.2 = a.2 ++ b.2 := by
  cases h with
  | ident => exact ⟨show pasteType .T_IDENT .T_IDENT = .T_IDENT by decide, by simp, rfl⟩
  | digits => exact ⟨show pasteType .T_NUM .T_IDENT = .T_IDENT by decide, by simp, rfl⟩
  | num => exact ⟨show pasteType .T_NUM .T_NUM = .T_NUM by decide, by simp, rfl⟩
  | suffix => exact ⟨show pasteType .T_IDENT .T_NUM = .T_NUM by decide, by simp, rfl⟩
  | punct p q r x y a b h1 h2 h3 =>
    refine ⟨?_, punctuators_kind (r, x ++ y) h3, rfl⟩
    have := paste_table _ h1 _ h2
    dsimp only at this ⊢
    rw [this, find_spelling h3]
    rfl

theorem glueTop_ok {input : Bool} {t u : Tok} {s : St} {b : List Tok} {g : PP} (hs : s.buf = u :: b)
    (h : Pastes (pp t) (pp u) g) :
    ∃ g', pp g' = g ∧ glueTop input t s = .ok { s with buf := g' :: b } := by
  obtain ⟨h1, h2, h3⟩ := pastes_type h
  have h1' : pasteType u.type t.type = g.1 := h1
  refine ⟨{ type := g.1, str := t.str ++ u.str, whitespace := t.whitespace, firstOfLine := t.firstOfLine,
            whitespaceAfter := u.whitespaceAfter, firstOfLineAfter := u.firstOfLineAfter,
            hs := StringSet.inter u.hs t.hs, line := u.line, path := u.path }, ?_, ?_⟩
  · exact Prod.ext rfl h3.symm
  · simp [glueTop, top, hs, glue, h1', h2]

/-- The tokens of an argument. -/
def argOf (c : Call) : Item → List Tok
  | .tok _ => []
  | .par i => c.args.getD i []
  | .va => c.vararg

/-- The parameters as the substitution sees them. -/
def paramsOf (d : Define) : List Str := if d.func then d.par.map (·.str) else []

theorem getParam_tok {d : Define} {t : Tok} (h : t.type = .T_IDENT → t.str ∉ paramsOf d) : getParam d t = none := by
  unfold getParam
  split
  · rfl
  · next hc =>
    simp only [Bool.or_eq_true, Bool.not_eq_true', decide_eq_true_eq, not_or, Bool.not_eq_false, ne_eq,
      Decidable.not_not] at hc
    have := h hc.2
    simp only [paramsOf, hc.1, if_true, List.mem_map, not_exists, not_and] at this
    rw [List.findIdx?_eq_none_iff]
    intro x hx
    simpa using this x hx

theorem getParam_par {d : Define} {t : Tok} {i : Nat} (hn : (paramsOf d).Nodup) (ht : t.type = .T_IDENT)
    (h : (paramsOf d)[i]? = some t.str) : getParam d t = some i := by
  have hf : d.func = true := by
    cases hf : d.func with
    | true => rfl
    | false => simp [paramsOf, hf] at h
  simp only [paramsOf, hf, if_true] at hn h
  have hi : i < d.par.length := by
    rw [List.getElem?_map] at h
    cases h2 : d.par[i]? with
    | none => simp [h2] at h
    | some x => exact (List.getElem?_eq_some_iff.1 h2).1
  have he : d.par[i].str = t.str := by
    rw [List.getElem?_map, List.getElem?_eq_getElem hi] at h
    simpa using h
  unfold getParam
  rw [if_neg (by simp [hf, ht])]
  rw [List.findIdx?_eq_some_iff_getElem]
  refine ⟨hi, by simp [he], fun j hj => ?_⟩
  simp only [decide_eq_true_eq]
  intro hj2
  have := List.pairwise_iff_getElem.1 hn j i (by simp; omega) (by simp; omega) hj
  exact this (by simp [he, hj2])

/-! ### One operand -/

section
variable {env : Str → Option Define} {input : Bool} {d : Define} {c : Call} {line : Int} {path : Str}

/-- The loop with enough fuel for the expansion of arguments. -/
def run (env : Str → Option Define) (input : Bool) (d : Define) (c : Call) (line : Int) (path : Str) (n : Nat) :=
  substLoop (fun s => Run.mapOk (·.2) (expand env input false n s)) input d c line path

/-- What is left of an operand in the call: the argument is that of the specification. -/
structure Stands (c : Call) (A : Item → Actual) (x : Item) : Prop where
  raw : (∀ t, x ≠ .tok t) → (A x).raw = (argOf c x).map pp
  tok : ∀ t, x = .tok t → (A x).raw = [t] ∧ (A x).exp = [t]
  va : x = .va → c.varargIncluded = true

theorem item_type {ps : List Str} {t : Tok} {x : Item} (h : ReadsItem ps t x) :
    t.type ≠ .PP_HASH ∧ t.type ≠ .PP_HHASH := by
  cases h with
  | tok h1 h2 => exact ⟨h1, h2⟩
  | par i h1 _ _ => rw [h1]; exact ⟨by decide, by decide⟩
  | va h1 _ => rw [h1]; exact ⟨by decide, by decide⟩

/-- An operand of neither `#` nor `##`. -/
theorem step_one (hn : (paramsOf d).Nodup) {t : Tok} {x : Item} (h : ReadsItem (paramsOf d) t x) {A : Item → Actual}
    (hA : Stands c A x) (he : (∀ t, x ≠ .tok t) → ArgExp env input (argOf c x) (A x).exp) {rest : List Tok}
    (h1 : rest.head?.map (·.type) ≠ some .PP_HHASH) (h2 : rest.head?.map (·.type) ≠ some .PP_HASH) (s : St) :
    ∃ K new, new.map pp = (A x).exp ∧ ∀ n, K ≤ n →
      run env input d c line path n 0 false (t :: rest) s
        = run env input d c line path n 0 false rest { s with buf := new ++ s.buf } := by
  cases h with
  | tok a1 a2 a3 a4 =>
    refine ⟨0, [{ t with line := line, path := path }], by simp [(hA.tok _ rfl).2, pp], fun n _ => ?_⟩
    unfold run
    rw [substLoop]
    simp [h1, h2, a2, a3, getParam_tok a4, push]
  | par i a1 a2 a3 =>
    obtain ⟨K, o', ho, hk⟩ := expandArgument_plain (he (by simp)) t s
    refine ⟨K, o', ho, fun n hN => ?_⟩
    have a5 : t.type ≠ .PP_HHASH := by rw [a1]; decide
    have hk' := hk n hN
    simp only [argOf] at hk'
    unfold run
    rw [substLoop]
    simp only [getParam_par hn a1 a3]
    generalize c.args.getD i [] = a at *
    simp [h1, h2, a2, a5, getParam_par hn a1 a3, hk']
  | va a1 a2 =>
    obtain ⟨K, o', ho, hk⟩ := expandArgument_plain (he (by simp)) t s
    refine ⟨K, o', ho, fun n hN => ?_⟩
    have a5 : t.type ≠ .PP_HHASH := by rw [a1]; decide
    have hk' := hk n hN
    simp only [argOf] at hk'
    unfold run
    rw [substLoop]
    simp [h1, h2, a2, a5, hA.va rfl, hk']

/-- `# x`. -/
theorem step_text (hn : (paramsOf d).Nodup) {h t : Tok} {x : Item} (hh : h.type = .PP_HASH)
    (hx : ReadsItem (paramsOf d) t x) (hp : ∀ u, x ≠ .tok u) {v : Str} (hv : stringify (argOf c x) = .ok v)
    {rest : List Tok} (s : St) :
    ∃ u, pp u = (.T_STRING, v) ∧ ∀ n,
      run env input d c line path n 0 false (t :: h :: rest) s
        = run env input d c line path n 0 false rest { s with buf := u :: s.buf } := by
  refine ⟨{ t with type := .T_STRING, str := v }, rfl, fun n => ?_⟩
  cases hx with
  | tok => exact absurd rfl (hp _)
  | par i a1 a2 a3 =>
    have a5 : t.type ≠ .PP_HHASH := by rw [a1]; decide
    simp only [argOf] at hv
    unfold run
    rw [substLoop]
    simp only [getParam_par hn a1 a3]
    generalize c.args.getD i [] = a at *
    simp [hh, a2, a5, getParam_par hn a1 a3, hv, Run.ofRes_ok, push, substLoop]
  | va a1 a2 =>
    have a5 : t.type ≠ .PP_HHASH := by rw [a1]; decide
    simp only [argOf] at hv
    unfold run
    rw [substLoop]
    simp [hh, a2, a5, hv, Run.ofRes_ok, push, substLoop]

/-- The last operand of a chain. -/
theorem step_last (hn : (paramsOf d).Nodup) {t h : Tok} {x : Item} (hx : ReadsItem (paramsOf d) t x) {A : Item → Actual}
    (hA : Stands c A x) (hne : (A x).raw ≠ []) (hh : h.type = .PP_HHASH) {rest : List Tok}
    (hc : x = .va → rest.head?.map (·.type) ≠ some .T_COMMA) (s : St) :
    ∃ new, new.map pp = (A x).raw ∧ ∀ n,
      run env input d c line path n 0 false (t :: h :: rest) s
        = run env input d c line path n 0 true rest { s with buf := new ++ s.buf } := by
  cases hx with
  | tok a1 a2 a3 a4 =>
    refine ⟨[{ t with line := line, path := path }], by simp [(hA.tok _ rfl).1, pp], fun n => ?_⟩
    unfold run
    rw [substLoop]
    simp [hh, a2, a3, getParam_tok a4, push, substLoop]
  | par i a1 a2 a3 =>
    have hr := hA.raw (by simp)
    simp only [argOf] at hr
    refine ⟨orEnds t.whitespace t.whitespaceAfter (c.args.getD i []), by rw [orEnds_pp, hr], fun n => ?_⟩
    have a5 : t.type ≠ .PP_HHASH := by rw [a1]; decide
    have a6 : (c.args.getD i []).isEmpty = false := by
      cases hq : c.args.getD i [] with
      | nil => rw [hq] at hr; exact absurd hr hne
      | cons => rfl
    unfold run
    rw [substLoop]
    simp only [getParam_par hn a1 a3]
    generalize c.args.getD i [] = a at *
    simp [hh, a2, a5, getParam_par hn a1 a3, expandArgument, glueLast, substLoop, a6]
  | va a1 a2 =>
    have hr := hA.raw (by simp)
    simp only [argOf] at hr
    refine ⟨orEnds t.whitespace t.whitespaceAfter c.vararg, by rw [orEnds_pp, hr], fun n => ?_⟩
    have a5 : t.type ≠ .PP_HHASH := by rw [a1]; decide
    have a6 : c.vararg.isEmpty = false := by
      cases hq : c.vararg with
      | nil => rw [hq] at hr; exact absurd hr hne
      | cons => rfl
    have hc' := hc rfl
    unfold run
    rw [substLoop]
    simp only [List.getElem?_cons_succ, ← List.head?_eq_getElem?] 
    simp [hh, a2, a5, hA.va rfl, hc', expandArgument, glueLast, substLoop, a6]

/-- An inner operand of a chain. -/
theorem step_inner (hn : (paramsOf d).Nodup) {t h : Tok} {x : Item} (hx : ReadsItem (paramsOf d) t x)
    {A : Item → Actual} (hA : Stands c A x) (hh : h.type = .PP_HHASH) {rest : List Tok}
    (hc : x = .va → rest.head?.map (·.type) ≠ some .T_COMMA) {s : St} {u : Tok} {b : List Tok} (hs : s.buf = u :: b)
    {xs : List PP} {a g : PP} (hr : (A x).raw = xs ++ [a]) (hg : Pastes a (pp u) g) :
    ∃ new g', new.map pp = xs ∧ pp g' = g ∧ ∀ n,
      run env input d c line path n 0 true (t :: h :: rest) s
        = run env input d c line path n 0 true rest { s with buf := new ++ g' :: b } := by
  have split : ∀ l : List Tok, l.map pp = xs ++ [a] → l.isEmpty = false ∧ ∃ z, l.getLast? = some z ∧ pp z = a ∧
      l.dropLast.map pp = xs := by
    intro l hl
    have h1 := congrArg List.getLast? hl
    have h2 := congrArg List.dropLast hl
    simp only [List.getLast?_map, List.getLast?_append, List.getLast?_singleton, Option.some_or] at h1
    simp only [← List.map_dropLast, List.dropLast_concat] at h2
    cases hz : l.getLast? with
    | none => simp [hz] at h1
    | some z =>
      refine ⟨?_, z, rfl, by simpa [hz] using h1, h2⟩
      cases l with
      | nil => simp at hz
      | cons => rfl
  cases hx with
  | tok a1 a2 a3 a4 =>
    have e := (hA.tok _ rfl).1
    rw [e] at hr
    cases xs with
    | cons y ys => simp at hr
    | nil =>
      simp only [List.nil_append, List.cons.injEq, and_true] at hr
      obtain ⟨g', h1, h2⟩ := glueTop_ok (input := input) (t := t) hs (by rw [show pp t = a from hr]; exact hg)
      refine ⟨[], g', rfl, h1, fun n => ?_⟩
      unfold run
      rw [substLoop]
      simp [hh, a2, a3, getParam_tok a4, h2, substLoop]
  | par i a1 a2 a3 =>
    have hr' := hA.raw (by simp)
    rw [hr] at hr'
    obtain ⟨a6, z, hz, hza, hxs⟩ := split _ hr'.symm
    simp only [argOf] at a6 hz hxs
    obtain ⟨g', h1, h2⟩ := glueTop_ok (input := input) (t := z) hs (by rw [hza]; exact hg)
    refine ⟨orEnds t.whitespace t.whitespaceAfter (c.args.getD i []).dropLast, g', by rw [orEnds_pp, hxs], h1,
      fun n => ?_⟩
    have a5 : t.type ≠ .PP_HHASH := by rw [a1]; decide
    unfold run
    rw [substLoop]
    simp only [getParam_par hn a1 a3]
    clear hr'
    generalize c.args.getD i [] = l at *
    simp [hh, a2, a5, expandArgument, glueLast, substLoop, a6, hz, h2]
  | va a1 a2 =>
    have hr' := hA.raw (by simp)
    rw [hr] at hr'
    obtain ⟨a6, z, hz, hza, hxs⟩ := split _ hr'.symm
    simp only [argOf] at a6 hz hxs
    obtain ⟨g', h1, h2⟩ := glueTop_ok (input := input) (t := z) hs (by rw [hza]; exact hg)
    refine ⟨orEnds t.whitespace t.whitespaceAfter c.vararg.dropLast, g', by rw [orEnds_pp, hxs], h1,
      fun n => ?_⟩
    have a5 : t.type ≠ .PP_HHASH := by rw [a1]; decide
    have hc' := hc rfl
    unfold run
    rw [substLoop]
    simp only [List.getElem?_cons_succ, ← List.head?_eq_getElem?]
    simp [hh, a2, a5, hA.va rfl, hc', expandArgument, glueLast, substLoop, a6, hz, h2]

/-- The first operand of a chain. -/
theorem step_first (hn : (paramsOf d).Nodup) {t : Tok} {x : Item} (hx : ReadsItem (paramsOf d) t x)
    {A : Item → Actual} (hA : Stands c A x)
    (he : (∀ t, x ≠ .tok t) → ArgExp env input (argOf c x).dropLast ((argOf c x).dropLast.map pp)) {rest : List Tok}
    (h1 : rest.head?.map (·.type) ≠ some .PP_HHASH) (h2 : rest.head?.map (·.type) ≠ some .PP_HASH)
    {s : St} {u : Tok} {b : List Tok} (hs : s.buf = u :: b)
    {xs : List PP} {a g : PP} (hr : (A x).raw = xs ++ [a]) (hg : Pastes a (pp u) g) :
    ∃ K new g', new.map pp = xs ∧ pp g' = g ∧ ∀ n, K ≤ n →
      run env input d c line path n 0 true (t :: rest) s
        = run env input d c line path n 0 false rest { s with buf := new ++ g' :: b } := by
  have split : ∀ l : List Tok, l.map pp = xs ++ [a] → l.isEmpty = false ∧ ∃ z, l.getLast? = some z ∧ pp z = a ∧
      l.dropLast.map pp = xs := by
    intro l hl
    have h1 := congrArg List.getLast? hl
    have h2 := congrArg List.dropLast hl
    simp only [List.getLast?_map, List.getLast?_append, List.getLast?_singleton, Option.some_or] at h1
    simp only [← List.map_dropLast, List.dropLast_concat] at h2
    cases hz : l.getLast? with
    | none => simp [hz] at h1
    | some z =>
      refine ⟨?_, z, rfl, by simpa [hz] using h1, h2⟩
      cases l with
      | nil => simp at hz
      | cons => rfl
  cases hx with
  | tok a1 a2 a3 a4 =>
    have e := (hA.tok _ rfl).1
    rw [e] at hr
    cases xs with
    | cons y ys => simp at hr
    | nil =>
      simp only [List.nil_append, List.cons.injEq, and_true] at hr
      obtain ⟨g', e1, e2⟩ := glueTop_ok (input := input) (t := t) hs (by rw [show pp t = a from hr]; exact hg)
      refine ⟨0, [], g', rfl, e1, fun n _ => ?_⟩
      unfold run
      rw [substLoop]
      simp [h1, h2, a2, a3, getParam_tok a4, e2]
  | par i a1 a2 a3 =>
    have hr' := hA.raw (by simp)
    rw [hr] at hr'
    obtain ⟨a6, z, hz, hza, hxs⟩ := split _ hr'.symm
    have he' := he (by simp)
    simp only [argOf] at a6 hz hxs he'
    obtain ⟨g', e1, e2⟩ := glueTop_ok (input := input) (t := z) hs (by rw [hza]; exact hg)
    obtain ⟨K, o', ho, hk⟩ := he' t.whitespace t.whitespaceAfter (g' :: b) s.out s.src
    refine ⟨K, o', g', by rw [ho, hxs], e1, fun n hN => ?_⟩
    have a5 : t.type ≠ .PP_HHASH := by rw [a1]; decide
    have hk' := hk n hN
    unfold run
    rw [substLoop]
    simp only [getParam_par hn a1 a3]
    clear hr' hk he' ho
    generalize c.args.getD i [] = l at *
    simp [h1, h2, a2, a5, expandArgument, glueLast, a6, hz, e2, hk']
  | va a1 a2 =>
    have hr' := hA.raw (by simp)
    rw [hr] at hr'
    obtain ⟨a6, z, hz, hza, hxs⟩ := split _ hr'.symm
    have he' := he (by simp)
    simp only [argOf] at a6 hz hxs he'
    obtain ⟨g', e1, e2⟩ := glueTop_ok (input := input) (t := z) hs (by rw [hza]; exact hg)
    obtain ⟨K, o', ho, hk⟩ := he' t.whitespace t.whitespaceAfter (g' :: b) s.out s.src
    refine ⟨K, o', g', by rw [ho, hxs], e1, fun n hN => ?_⟩
    have a5 : t.type ≠ .PP_HHASH := by rw [a1]; decide
    have hk' := hk n hN
    unfold run
    rw [substLoop]
    simp [h1, h2, a2, a5, hA.va rfl, expandArgument, glueLast, a6, hz, e2, hk']

/-! ### Chains and whole replacement lists -/

/-- No `, ## __VA_ARGS__`, which the compiler gives the GNU meaning. -/
def NoGnu : Item → List Item → Prop
  | _, [] => True
  | x, y :: ys => ¬ (y = .va ∧ ∃ s, x = .tok (.T_COMMA, s)) ∧ NoGnu y ys

theorem left_comma {t : Tok} {x y : Item} {ps : List Str} {r : List Tok} (ht : ReadsItem ps t x)
    (h : ¬ (y = .va ∧ ∃ s, x = .tok (.T_COMMA, s))) : y = .va → (t :: r).head?.map (·.type) ≠ some .T_COMMA := by
  intro hy hc
  simp only [List.head?_cons, Option.map_some, Option.some.injEq] at hc
  cases ht with
  | tok => exact h ⟨hy, t.str, by rw [hc]⟩
  | par i a => rw [a] at hc; cases hc
  | va a => rw [a] at hc; cases hc

theorem chain_tail (hn : (paramsOf d).Nodup) {A : Item → Actual} {x : Item} {xs : List Item} {l : List PP}
    (hl : Chain A x xs l) : ∀ {t : Tok} {tl : List Tok}, ReadsItem (paramsOf d) t x → ReadsTail (paramsOf d) tl xs →
    (∀ y ∈ x :: xs, Stands c A y ∧ (A y).raw ≠ []) → NoGnu x xs → ∀ {h : Tok} {rest : List Tok}, h.type = .PP_HHASH →
    (x = .va → rest.head?.map (·.type) ≠ some .T_COMMA) → ∀ (s : St), ∃ new, new.map pp = l ∧ ∀ n,
      run env input d c line path n 0 false ((t :: tl).reverse ++ h :: rest) s
        = run env input d c line path n 0 true rest { s with buf := new ++ s.buf } := by
  induction hl with
  | last x =>
    intro t tl ht htl hA _ h rest hh hc s
    cases htl
    exact step_last hn ht (hA x (by simp)).1 (hA x (by simp)).2 hh hc s
  | cons x y ys a b g xs l _ hr hg ih =>
    intro t tl ht htl hA hG h rest hh hc s
    cases htl with
    | cons h1 t1 _ ts _ hh1 ht1 hts =>
      obtain ⟨new, hnew, e1⟩ := ih ht1 hts (fun z hz => hA z (by simp [List.mem_cons.1 hz])) hG.2 (h := h1)
        (rest := t :: h :: rest) hh1 (left_comma ht hG.1) s
      cases new with
      | nil => cases hnew
      | cons u new =>
        simp only [List.map_cons, List.cons.injEq] at hnew
        obtain ⟨n1, g', p1, p2, e2⟩ := step_inner (env := env) (input := input) (line := line) (path := path) hn ht
          (hA x (by simp)).1 hh hc (s := { s with buf := u :: new ++ s.buf }) (u := u) (b := new ++ s.buf) rfl hr
          (by rw [hnew.1]; exact hg)
        refine ⟨n1 ++ g' :: new, by simp [p1, p2, hnew.2], fun n => ?_⟩
        have : (t :: h1 :: t1 :: ts).reverse ++ h :: rest = (t1 :: ts).reverse ++ h1 :: t :: h :: rest := by simp
        rw [this, e1, e2]
        simp

/-- What the pieces of a replacement list need. -/
def Good (env : Str → Option Define) (input : Bool) (c : Call) (A : Item → Actual) : Element → Prop
  | .one x => Stands c A x ∧ ((∀ t, x ≠ .tok t) → ArgExp env input (argOf c x) (A x).exp)
  | .text x => stringify (argOf c x) = .ok (A x).txt
  | .paste x xs => (∀ y ∈ x :: xs, Stands c A y ∧ (A y).raw ≠ []) ∧ NoGnu x xs ∧
      ((∀ t, x ≠ .tok t) → ArgExp env input (argOf c x).dropLast ((argOf c x).dropLast.map pp))

theorem body_loop (hn : (paramsOf d).Nodup) {A : Item → Actual} {body : List Tok} {es : List Element}
    (hb : ReadsBody (paramsOf d) body es) : ∀ {o : List PP}, Subst A es o → (∀ e ∈ es, Good env input c A e) →
    ∀ (pre : List Tok), (∀ t, pre.getLast? = some t → t.type ≠ .PP_HASH ∧ t.type ≠ .PP_HHASH) → ∀ (s : St),
    ∃ K new, new.map pp = o ∧ ∀ n, K ≤ n →
      run env input d c line path n 0 false (pre ++ body).reverse s
        = run env input d c line path n 0 false pre.reverse { s with buf := new ++ s.buf } := by
  have last : ∀ {pre : List Tok}, (∀ t, pre.getLast? = some t → t.type ≠ .PP_HASH ∧ t.type ≠ .PP_HHASH) →
      pre.reverse.head?.map (·.type) ≠ some .PP_HHASH ∧ pre.reverse.head?.map (·.type) ≠ some .PP_HASH := by
    intro pre h
    rw [List.head?_reverse]
    cases hp : pre.getLast? with
    | none => simp
    | some t => simpa [and_comm] using h t hp
  induction hb with
  | nil =>
    intro o ho _ pre _ s
    cases ho
    exact ⟨0, [], rfl, fun n _ => by simp⟩
  | one t x ts es ht _ ih =>
    intro o ho hg pre hpre s
    cases ho with
    | one _ _ o ho =>
      obtain ⟨K1, n1, p1, e1⟩ := ih ho (fun e he => hg e (by simp [he])) (pre ++ [t])
        (by intro u hu; simp at hu; exact hu ▸ item_type ht) s
      obtain ⟨g1, g2⟩ := hg (.one x) (by simp)
      obtain ⟨K2, n2, p2, e2⟩ := step_one (line := line) (path := path) hn ht g1 g2 (last hpre).1 (last hpre).2
        { s with buf := n1 ++ s.buf }
      refine ⟨max K1 K2, n2 ++ n1, by simp [p1, p2], fun n hN => ?_⟩
      have := e1 n (by omega)
      simp only [List.append_assoc, List.singleton_append, List.reverse_append (as := pre) (bs := [t]),
        List.reverse_singleton] at this
      rw [this, e2 n (by omega)]
      simp
  | text h t x ts es hh ht hp _ ih =>
    intro o ho hg pre hpre s
    cases ho with
    | text _ _ o ho =>
      obtain ⟨K1, n1, p1, e1⟩ := ih ho (fun e he => hg e (by simp [he])) (pre ++ [h, t])
        (by intro u hu; simp at hu; exact hu ▸ item_type ht) s
      obtain ⟨u, p2, e2⟩ := step_text (env := env) (input := input) (line := line) (path := path) (rest := pre.reverse)
        hn hh ht hp (hg (.text x) (by simp)) { s with buf := n1 ++ s.buf }
      refine ⟨K1, u :: n1, by simp [p1, p2], fun n hN => ?_⟩
      have := e1 n (by omega)
      have e : (pre ++ [h, t]).reverse = t :: h :: pre.reverse := by simp
      rw [e, e2] at this
      simpa using this
  | paste t x tl y ys ts es ht htl _ ih =>
    intro o ho hg pre hpre s
    cases ho with
    | paste _ _ l _ o hl ho =>
      obtain ⟨K1, n1, p1, e1⟩ := ih ho (fun e he => hg e (by simp [he])) (pre ++ t :: tl)
        (by
          have tailT : ∀ {tl xs}, ReadsTail (paramsOf d) tl xs → ∀ u, tl.getLast? = some u →
              u.type ≠ .PP_HASH ∧ u.type ≠ .PP_HHASH := by
            intro tl xs h
            induction h with
            | nil => intro u hu; cases hu
            | cons h t x ts xs _ ht _ ih =>
              intro u hu
              rw [List.getLast?_cons_cons] at hu
              rw [List.getLast?_cons] at hu
              cases hq : ts.getLast? with
              | none => simp [hq] at hu; exact hu ▸ item_type ht
              | some v => simp [hq] at hu; exact hu ▸ ih v hq
          intro u hu
          cases htl with
          | cons h1 t1 _ ts' _ hh1 ht1 hts =>
            refine tailT (.cons h1 t1 _ ts' _ hh1 ht1 hts) u ?_
            simpa [List.getLast?_append, List.getLast?_cons] using hu) s
      obtain ⟨g1, g2, g3⟩ := hg (.paste x (y :: ys)) (by simp)
      cases htl with
      | cons h1 t1 _ ts' _ hh1 ht1 hts =>
        cases hl with
        | cons _ _ _ a b g xs l hl hr hp =>
          obtain ⟨n2, p2, e2⟩ := chain_tail (env := env) (input := input) (line := line) (path := path) hn hl ht1 hts
            (fun z hz => g1 z (by simp [List.mem_cons.1 hz])) g2.2 (h := h1) (rest := t :: pre.reverse) hh1
            (left_comma ht g2.1) { s with buf := n1 ++ s.buf }
          cases n2 with
          | nil => cases p2
          | cons u n2 =>
            simp only [List.map_cons, List.cons.injEq] at p2
            obtain ⟨K3, n3, g', p3, p4, e3⟩ := step_first (line := line) (path := path) hn ht (g1 x (by simp)).1 g3
              (last hpre).1 (last hpre).2 (s := { s with buf := u :: n2 ++ (n1 ++ s.buf) }) (u := u)
              (b := n2 ++ (n1 ++ s.buf)) rfl hr (by rw [p2.1]; exact hp)
            refine ⟨max K1 K3, n3 ++ g' :: n2 ++ n1, by simp [p1, p2, p3, p4], fun n hN => ?_⟩
            have := e1 n (by omega)
            have e : (pre ++ t :: h1 :: t1 :: ts').reverse = (t1 :: ts').reverse ++ h1 :: t :: pre.reverse := by simp
            have e' : pre ++ (t :: h1 :: t1 :: ts' ++ ts) = pre ++ t :: h1 :: t1 :: ts' ++ ts := by simp
            rw [e', this, e, e2, e3 n (by omega)]
            simp

end

/-- The whole substitution, once the call has been read. -/
theorem subs_body {env : Str → Option Define} {input : Bool} {d : Define} {c : Call} {t : Tok} {wa : Bool}
    {hs : List Str} {es : List Element} {A : Item → Actual} {o : List PP} {s s2 : St} {N1 : Nat}
    (hn : (paramsOf d).Nodup) (hb : ReadsBody (paramsOf d) d.body es) (ho : Subst A es o)
    (hg : ∀ e ∈ es, Good env input c A e)
    (hr : ∀ n, N1 ≤ n → readCall input n t d t.hs s = .ok (c, wa, hs, s2)) :
    ∃ N new, new.map pp = o ∧ (∀ u ∈ new, d.name ∈ u.hs) ∧ ∀ n, N ≤ n →
      subs (fun s => Run.mapOk (·.2) (expand env input false n s)) input n t d s
        = .ok { s2 with buf := new ++ s2.buf } := by
  obtain ⟨K, new, hnew, hk⟩ := body_loop (env := env) (input := input) (c := c) (line := t.line) (path := t.path)
    hn hb ho hg [] (by simp) s2
  let hs' := StringSet.insert hs d.name
  refine ⟨max N1 K, orEnds t.whitespace wa (new.map (fun u => { u with hs := StringSet.union hs' u.hs })), ?_, ?_,
    fun n hN => ?_⟩
  · rw [orEnds_pp, ← hnew]; simp [pp]
  · intro u hu
    obtain ⟨v, hv, e⟩ := orEnds_hs_mem hu
    obtain ⟨w, _, rfl⟩ := List.mem_map.1 hv
    rw [← e]
    exact (StringSet.mem_union _ _ _).2 (.inl ((StringSet.mem_insert _ _ _).2 (.inl rfl)))
  · have hk' := hk n (by omega)
    unfold run at hk'
    unfold subs
    simp only [hr n (by omega), Run.bind_ok]
    simp only [List.nil_append, List.reverse_nil, substLoop] at hk'
    rw [hk']
    simp [finish, hs']

theorem argExp_nil (env : Str → Option Define) (input : Bool) : ArgExp env input [] [] := by
  intro ws wa R O src
  refine ⟨1, [], rfl, fun n hn => ?_⟩
  obtain ⟨m, rfl⟩ : ∃ m, n = m + 1 := ⟨n - 1, by omega⟩
  simp [orEnds, expand, take, eoi]

end Verif.Macro
