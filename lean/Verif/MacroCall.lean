import Verif.MacroObj
/-!
Lemmas about calls of function-like macros.
-/
namespace Verif.Macro
open Verif DefineMap MacroSpec

/-- The tokens the expander will read next. -/
def pending (input : Bool) (s : St) : List Tok := s.buf ++ (if input then s.src else [])

theorem take_pending {input : Bool} {s : St} {t : Tok} {l : List Tok} (h : pending input s = t :: l) :
    ∃ s1, take input s = .ok (t, s1) ∧ pending input s1 = l ∧ s1.out = s.out := by
  unfold pending at h
  unfold take
  cases hb : s.buf with
  | cons u b =>
    rw [hb] at h
    simp only [List.cons_append, List.cons.injEq] at h
    obtain ⟨rfl, h⟩ := h
    exact ⟨_, rfl, by simpa [pending] using h, rfl⟩
  | nil =>
    cases input with
    | false => simp [hb] at h
    | true =>
      simp only [hb, if_true, List.nil_append] at h
      simp only [h, if_true]
      exact ⟨_, rfl, by simp [pending], rfl⟩

theorem top_pending {input : Bool} {s : St} {t : Tok} {l : List Tok} (h : pending input s = t :: l) :
    ∃ s1, top input s = .ok (t, s1) ∧ pending input s1 = t :: l ∧ s1.out = s.out := by
  unfold top
  cases hb : s.buf with
  | cons u b =>
    have h' := h
    unfold pending at h
    rw [hb] at h
    simp only [List.cons_append, List.cons.injEq] at h
    obtain ⟨rfl, h⟩ := h
    exact ⟨s, rfl, h', rfl⟩
  | nil =>
    unfold pending at h
    cases input with
    | false => simp [hb] at h
    | true =>
      simp only [hb, if_true, List.nil_append] at h
      simp only [h, if_true]
      exact ⟨_, rfl, by simp [pending], rfl⟩

theorem pending_push (input : Bool) (t : Tok) (s : St) : pending input (push t s) = t :: pending input s := by
  simp [pending, push]

theorem pending_nonempty {input : Bool} {s : St} {t : Tok} {l : List Tok} (h : pending input s = t :: l) :
    (!input && s.buf.isEmpty) = false := by
  cases input with
  | true => rfl
  | false =>
    cases hb : s.buf with
    | nil => simp [pending, hb] at h
    | cons u b => rfl

theorem parseArg_succ (input ic : Bool) (n : Nat) (depth : Int) (acc : List Tok) (s : St) :
    parseArg input ic (n + 1) depth acc s = (do
      let (t, s) ← take input s
      if t.type = .T_LPAR then parseArg input ic n (depth + 1) (acc ++ [t]) s
      else if t.type = .T_RPAR then
        if depth - 1 = 0 then pure (trimBody acc, true, push t s)
        else parseArg input ic n (depth - 1) (acc ++ [t]) s
      else if !ic ∧ t.type = .T_COMMA ∧ depth = 1 then pure (trimBody acc, false, s)
      else parseArg input ic n depth (acc ++ [t]) s) := rfl

theorem parseArg_balanced {input ic c : Bool} {ts : List Tok} (hb : Balanced c ts) :
    ∀ (dep : Int) (s : St) (R : List Tok), 1 ≤ dep → (c = true → ic = true ∨ 2 ≤ dep) → pending input s = ts ++ R →
    ∃ s1, pending input s1 = R ∧ s1.out = s.out ∧
      ∀ n acc, parseArg input ic (n + ts.length) dep acc s = parseArg input ic n dep (acc ++ ts) s1 := by
  induction hb with
  | nil c => intro dep s R _ _ hp; exact ⟨s, hp, rfl, fun n acc => by simp⟩
  | tok c t ts h1 h2 h3 _ ih =>
    intro dep s R hd hc hp
    obtain ⟨s0, e0, p0, o0⟩ := take_pending hp
    obtain ⟨s1, p1, o1, e1⟩ := ih dep s0 R hd hc p0
    refine ⟨s1, p1, by rw [o1, o0], fun n acc => ?_⟩
    have hcomma : ¬ ((!ic) = true ∧ t.type = .T_COMMA ∧ dep = 1) := by
      rintro ⟨a, b, d⟩
      rcases hc (h3 b) with e | e
      · simp [e] at a
      · omega
    rw [List.length_cons, ← Nat.add_assoc]
    rw [parseArg_succ]
    simp only [e0, Run.bind_ok, h1, h2, if_false, if_neg hcomma]
    rw [e1]
    simp
  | paren c l inner r ts hl hr _ _ ih1 ih2 =>
    intro dep s R hd hc hp
    obtain ⟨s0, e0, p0, o0⟩ := take_pending (t := l) (l := inner ++ r :: (ts ++ R)) (by simpa using hp)
    obtain ⟨s1, p1, o1, e1⟩ := ih1 (dep + 1) s0 (r :: (ts ++ R)) (by omega) (fun _ => .inr (by omega)) p0
    obtain ⟨s2, e2, p2, o2⟩ := take_pending p1
    obtain ⟨s3, p3, o3, e3⟩ := ih2 dep s2 R hd hc p2
    refine ⟨s3, p3, by rw [o3, o2, o1, o0], fun n acc => ?_⟩
    have hlen : n + (l :: inner ++ r :: ts).length = (((n + ts.length) + 1) + inner.length) + 1 := by simp; omega
    rw [hlen]
    rw [parseArg_succ]
    simp only [e0, Run.bind_ok, hl, if_true]
    rw [e1]
    rw [parseArg_succ]
    have hr' : r.type ≠ .T_LPAR := by rw [hr]; decide
    have hd0 : ¬ (dep + 1 - 1 = 0) := by omega
    have hd1 : dep + 1 - 1 = dep := by omega
    simp only [e2, Run.bind_ok, hr, if_true, if_neg hd0]
    rw [if_neg (by decide), hd1, e3]
    simp

theorem parseArg_rpar {input ic c : Bool} {ts R : List Tok} {r : Tok} {s : St} (hb : Balanced c ts)
    (hc : c = true → ic = true) (hr : r.type = .T_RPAR) (hp : pending input s = ts ++ r :: R) :
    ∃ s1, pending input s1 = r :: R ∧ s1.out = s.out ∧
      ∀ n, ts.length < n → parseArg input ic n 1 [] s = .ok (trimBody ts, true, s1) := by
  obtain ⟨s0, p0, o0, e0⟩ := parseArg_balanced hb 1 s (r :: R) (by omega) (fun h => .inl (hc h)) hp
  obtain ⟨s1, e1, p1, o1⟩ := take_pending p0
  refine ⟨push r s1, by rw [pending_push, p1], by simp [push, o1, o0], fun n hn => ?_⟩
  obtain ⟨n, rfl⟩ : ∃ k, n = k + 1 + ts.length := ⟨n - 1 - ts.length, by omega⟩
  rw [e0]
  rw [parseArg_succ]
  simp only [e1, Run.bind_ok, hr]
  rw [if_neg (by decide)]
  simp

theorem parseArg_comma {input : Bool} {ts R : List Tok} {r : Tok} {s : St} (hb : Balanced false ts)
    (hr : r.type = .T_COMMA) (hp : pending input s = ts ++ r :: R) :
    ∃ s1, pending input s1 = R ∧ s1.out = s.out ∧
      ∀ n, ts.length < n → parseArg input false n 1 [] s = .ok (trimBody ts, false, s1) := by
  obtain ⟨s0, p0, o0, e0⟩ := parseArg_balanced (ic := false) hb 1 s (r :: R) (by omega) (fun h => by cases h) hp
  obtain ⟨s1, e1, p1, o1⟩ := take_pending p0
  refine ⟨s1, p1, by rw [o1, o0], fun n hn => ?_⟩
  obtain ⟨n, rfl⟩ : ∃ k, n = k + 1 + ts.length := ⟨n - 1 - ts.length, by omega⟩
  rw [e0]
  rw [parseArg_succ]
  simp only [e1, Run.bind_ok, hr]
  rw [if_neg (by decide), if_neg (by decide)]
  simp

theorem callArgs_rpar {as ts r} (h : CallArgs as ts r) : r.type = .T_RPAR := by
  induction h with
  | last a r _ hr => exact hr
  | more _ _ _ _ _ _ _ _ ih => exact ih

theorem callArgs_ne {as ts r} (h : CallArgs as ts r) : as ≠ [] := by cases h <;> simp

/-- Reading as many arguments as there are parameters. -/
theorem parseArgs_exact {input : Bool} {as : List (List Tok)} {ts : List Tok} {r : Tok} (h : CallArgs as ts r) :
    ∀ (s : St) (R : List Tok), pending input s = ts ++ R →
    ∃ s1, pending input s1 = r :: R ∧ s1.out = s.out ∧
      ∀ n, ts.length ≤ n → parseArgs input n as.length s = .ok (as.map trimBody, true, s1) := by
  induction h with
  | last a r hb hr =>
    intro s R hp
    obtain ⟨s1, p1, o1, e1⟩ := parseArg_rpar (ic := false) hb (fun h => by cases h) hr
      (R := R) (input := input) (s := s) (by simpa using hp)
    refine ⟨s1, p1, o1, fun n hn => ?_⟩
    simp only [List.length_append, List.length_cons, List.length_nil] at hn
    simp [parseArgs, e1 n (by omega)]
  | more a c as ts r hb hc h ih =>
    intro s R hp
    obtain ⟨s0, p0, o0, e0⟩ := parseArg_comma hb hc (R := ts ++ R) (input := input) (s := s) (by simpa using hp)
    obtain ⟨s1, p1, o1, e1⟩ := ih s0 R p0
    refine ⟨s1, p1, by rw [o1, o0], fun n hn => ?_⟩
    simp only [List.length_append, List.length_cons] at hn
    simp [parseArgs, e0 n (by omega), e1 n (by omega)]

/-- Too few arguments. -/
theorem parseArgs_few {input : Bool} {as : List (List Tok)} {ts : List Tok} {r : Tok} (h : CallArgs as ts r) :
    ∀ (s : St) (R : List Tok) (k : Nat), as.length < k → pending input s = ts ++ R →
      ∀ n, ts.length ≤ n → parseArgs input n k s = .fail := by
  induction h with
  | last a r hb hr =>
    intro s R k hk hp n hn
    obtain ⟨s1, p1, o1, e1⟩ := parseArg_rpar (ic := false) hb (fun h => by cases h) hr
      (R := R) (input := input) (s := s) (by simpa using hp)
    obtain ⟨k, rfl⟩ : ∃ j, k = j + 1 := ⟨k - 1, by simp at hk; omega⟩
    simp only [List.length_append, List.length_cons, List.length_nil] at hn hk
    have : k ≠ 0 := by omega
    simp [parseArgs, e1 n (by omega), this]
  | more a c as ts r hb hc h ih =>
    intro s R k hk hp n hn
    obtain ⟨s0, p0, o0, e0⟩ := parseArg_comma hb hc (R := ts ++ R) (input := input) (s := s) (by simpa using hp)
    obtain ⟨k, rfl⟩ : ∃ j, k = j + 1 := ⟨k - 1, by simp at hk; omega⟩
    simp only [List.length_append, List.length_cons] at hn hk
    simp [parseArgs, e0 n (by omega), ih s0 R k (by omega) p0 n (by omega)]

/-- The first `k` of more arguments: the text left is that of the other arguments. -/
theorem parseArgs_many {input : Bool} {as : List (List Tok)} {ts : List Tok} {r : Tok} (h : CallArgs as ts r) :
    ∀ (s : St) (R : List Tok) (k : Nat), k < as.length → pending input s = ts ++ R →
      ∃ s1 ts', CallArgs (as.drop k) ts' r ∧ pending input s1 = ts' ++ R ∧ s1.out = s.out ∧
      ∀ n, ts.length ≤ n → parseArgs input n k s = .ok ((as.take k).map trimBody, false, s1) := by
  induction h with
  | last a r hb hr =>
    intro s R k hk hp
    have : k = 0 := by simp at hk; omega
    subst this
    exact ⟨s, _, .last a r hb hr, hp, rfl, fun n _ => rfl⟩
  | more a c as ts r hb hc h ih =>
    intro s R k hk hp
    cases k with
    | zero => exact ⟨s, _, .more a c as ts r hb hc h, hp, rfl, fun n _ => rfl⟩
    | succ k =>
      obtain ⟨s0, p0, o0, e0⟩ := parseArg_comma hb hc (R := ts ++ R) (input := input) (s := s) (by simpa using hp)
      obtain ⟨s1, ts', h', p1, o1, e1⟩ := ih s0 R k (by simp at hk; omega) p0
      refine ⟨s1, ts', by simpa using h', p1, by rw [o1, o0], fun n hn => ?_⟩
      simp only [List.length_append, List.length_cons] at hn
      simp [parseArgs, e0 n (by omega), e1 n (by omega)]

theorem callVar_rpar {as va ts r} (h : CallVar as va ts r) : r.type = .T_RPAR := by
  induction h with
  | var _ _ _ hr => exact hr
  | arg _ _ _ _ _ _ _ _ _ ih => exact ih

theorem parseArgs_var {input : Bool} {as : List (List Tok)} {va ts : List Tok} {r : Tok} (h : CallVar as va ts r) :
    ∀ (s : St) (R : List Tok), pending input s = ts ++ R →
    ∃ s1, pending input s1 = r :: R ∧ s1.out = s.out ∧ ∃ s0,
      ∀ n, ts.length ≤ n → parseArgs input n as.length s = .ok (as.map trimBody, false, s0) ∧
        parseArg input true n 1 [] s0 = .ok (trimBody va, true, s1) := by
  induction h with
  | var va r hb hr =>
    intro s R hp
    obtain ⟨s1, p1, o1, e1⟩ := parseArg_rpar (ic := true) hb (fun _ => rfl) hr
      (R := R) (input := input) (s := s) (by simpa using hp)
    refine ⟨s1, p1, o1, s, fun n hn => ⟨rfl, e1 n ?_⟩⟩
    simp only [List.length_append, List.length_cons, List.length_nil] at hn; omega
  | arg a c as va ts r hb hc h ih =>
    intro s R hp
    obtain ⟨s0, p0, o0, e0⟩ := parseArg_comma hb hc (R := ts ++ R) (input := input) (s := s) (by simpa using hp)
    obtain ⟨s1, p1, o1, s2, e1⟩ := ih s0 R p0
    refine ⟨s1, p1, by rw [o1, o0], s2, fun n hn => ?_⟩
    simp only [List.length_append, List.length_cons] at hn
    obtain ⟨e2, e3⟩ := e1 n (by omega)
    exact ⟨by simp [parseArgs, e0 n (by omega), e2], e3⟩

/-! ### Substitution -/

/-- `a`, as an argument, is fully replaced by `o`. -/
def ArgExp (env : Str → Option Define) (input : Bool) (a : List Tok) (o : List PP) : Prop :=
  ∀ (ws wa : Bool) (R O src : List Tok), ∃ K o', o'.map pp = o ∧ ∀ n, K ≤ n →
    expand env input false n ⟨orEnds ws wa a ++ eoi :: R, O, src⟩ = .ok (none, ⟨R, O ++ o', src⟩)

theorem expandArgument_plain {env : Str → Option Define} {input : Bool} {a : List Tok} {o : List PP}
    (h : ArgExp env input a o) (t : Tok) (s : St) :
    ∃ K o', o'.map pp = o ∧ ∀ n, K ≤ n →
      expandArgument (fun s => Run.mapOk (·.2) (expand env input false n s)) input t a false false false s
        = .ok { s with buf := o' ++ s.buf } := by
  obtain ⟨K, o', ho, hk⟩ := h t.whitespace t.whitespaceAfter s.buf s.out s.src
  refine ⟨K, o', ho, fun n hn => ?_⟩
  simp [expandArgument, glueLast, hk n hn]

/-- A token of the replacement list of a function-like macro that is an operand of
neither `#` nor `##`. -/
def PlainBody (t : Tok) : Prop := t.type ≠ .PP_HASH ∧ t.type ≠ .PP_HHASH ∧ t.str ≠ str "__VA_ARGS__"

theorem substLoop_func {env : Str → Option Define} {input : Bool} {d : Define} {c : Call} {os : List (List PP)}
    (hf : d.func = true) (hlen : c.args.length = os.length)
    (ha : ∀ (i : Nat) (a : List Tok) (o : List PP), c.args[i]? = some a → os[i]? = some o → ArgExp env input a o)
    (hpl : ∀ i, i < d.par.length → i < c.args.length) (line : Int) (path : Str)
    (l : List Tok) (hl : ∀ t ∈ l, PlainBody t) : ∀ (s : St), ∃ K new,
      new.map pp = substitute (d.par.map (·.str)) os (l.reverse.map pp) ∧ ∀ n, K ≤ n →
      substLoop (fun s => Run.mapOk (·.2) (expand env input false n s)) input d c line path 0 false l s
        = .ok { s with buf := new ++ s.buf } := by
  induction l with
  | nil => intro s; exact ⟨0, [], rfl, fun n _ => by simp [substLoop]⟩
  | cons t rest ih =>
    intro s
    obtain ⟨h2, h3, h4⟩ := hl t (by simp)
    have hc : (decide (rest.head?.map (·.type) = some .PP_HHASH)) = false := by
      cases rest with
      | nil => rfl
      | cons u us => simp [(hl u (by simp)).2.1]
    have hsf : (decide (rest.head?.map (·.type) = some .PP_HASH)) = false := by
      cases rest with
      | nil => rfl
      | cons u us => simp [(hl u (by simp)).1]
    have hsub : ∀ x : List PP, (match getParam d t with | some i => os.getD i [] | none => [pp t]) = x →
        substitute (d.par.map (·.str)) os ((t :: rest).reverse.map pp)
          = substitute (d.par.map (·.str)) os (rest.reverse.map pp) ++ x := by
      rintro x rfl
      simp only [List.reverse_cons, List.map_append, List.map_cons, List.map_nil, substitute, List.flatMap_append,
        List.flatMap_cons, List.flatMap_nil, List.append_nil]
      congr 1
      have hg : getParam d t = (if (pp t).1 = .T_IDENT then
          (d.par.map (·.str)).findIdx? (fun p => decide (p = (pp t).2)) else none) := by
        by_cases h : t.type = .T_IDENT
        · simp [getParam, hf, pp, h, List.findIdx?_map, Function.comp_def]
        · simp [getParam, pp, h]
      rw [← hg]
      cases getParam d t <;> rfl
    cases hp : getParam d t with
    | none =>
      have hfin := hsub [pp t] (by rw [hp])
      obtain ⟨K, new, hnew, hk⟩ := ih (fun u hu => hl u (by simp [hu])) (push { t with line := line, path := path } s)
      refine ⟨K, new ++ [{ t with line := line, path := path }], by rw [hfin, ← hnew]; simp [pp], fun n hn => ?_⟩
      unfold substLoop
      simp only [hp, hc, hsf, h3, h4, if_false, Bool.false_eq_true, Bool.or_false]
      rw [hk n hn]
      simp [push]
    | some i =>
      have hfin := hsub (os.getD i []) (by rw [hp])
      have hi : i < d.par.length := by
        unfold getParam at hp
        split at hp
        · cases hp
        · exact (List.findIdx?_eq_some_iff_findIdx_eq.1 hp).1
      have hi2 := hpl i hi
      have hi3 : i < os.length := by omega
      have e1 : c.args.getD i [] = c.args[i] := by simp [List.getD, hi2]
      have e2 : os.getD i [] = os[i] := by simp [List.getD, hi3]
      obtain ⟨K1, o', ho, hk1⟩ := expandArgument_plain
        (ha i c.args[i] os[i] (List.getElem?_eq_getElem hi2) (List.getElem?_eq_getElem hi3)) t s
      obtain ⟨K, new, hnew, hk⟩ := ih (fun u hu => hl u (by simp [hu])) { s with buf := o' ++ s.buf }
      refine ⟨max K K1, new ++ o', by rw [hfin, ← hnew, e2, ← ho]; simp, fun n hn => ?_⟩
      unfold substLoop
      simp only [hp, hc, hsf, h3, h4, if_false, Bool.false_eq_true, Bool.or_false, e1]
      rw [hk1 n (by omega)]
      simp only [Run.bind_ok, ite_self]
      rw [hk n (by omega)]
      simp

end Verif.Macro
