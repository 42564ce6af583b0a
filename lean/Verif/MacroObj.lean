import Verif.MacroLemmas
import Verif.MacroSpec
/-!
Lemmas about object-like macros.
-/
namespace Verif.Macro
open Verif DefineMap MacroSpec

/-- Kind and spelling of a token. -/
def pp (t : Tok) : PP := (t.type, t.str)

theorem orEnds_map {α : Type} (f : Tok → α) (h1 : ∀ t w, f { t with whitespace := w } = f t)
    (h2 : ∀ t w, f { t with whitespaceAfter := w } = f t) (a b : Bool) (l : List Tok) :
    (orEnds a b l).map f = l.map f := by
  cases l with
  | nil => rfl
  | cons t ts =>
    unfold orEnds
    rcases List.eq_nil_or_concat ts with rfl | ⟨m, z, rfl⟩
    · simp only [List.getLast?_singleton, List.dropLast_singleton, List.nil_append, List.map_cons, List.map_nil]
      have := h2 { t with whitespace := t.whitespace || a } (t.whitespaceAfter || b)
      simp only [h1] at this
      rw [this]
    · simp [List.getLast?_cons, List.dropLast_cons_of_ne_nil, h1, h2]

theorem orEnds_length (a b : Bool) (l : List Tok) : (orEnds a b l).length = l.length := by
  have := congrArg List.length (orEnds_map (fun _ => ()) (fun _ _ => rfl) (fun _ _ => rfl) a b l)
  simpa using this

theorem orEnds_pp (a b : Bool) (l : List Tok) : (orEnds a b l).map pp = l.map pp :=
  orEnds_map pp (fun _ _ => rfl) (fun _ _ => rfl) a b l

theorem orEnds_hs (a b : Bool) (l : List Tok) : (orEnds a b l).map (·.hs) = l.map (·.hs) :=
  orEnds_map (·.hs) (fun _ _ => rfl) (fun _ _ => rfl) a b l

theorem orEnds_hs_mem {a b : Bool} {l : List Tok} {t : Tok} (h : t ∈ orEnds a b l) : ∃ u ∈ l, u.hs = t.hs := by
  have : t.hs ∈ (orEnds a b l).map (·.hs) := List.mem_map_of_mem h
  rw [orEnds_hs] at this
  simpa using this

/-- `substLoop` for an object-like macro: it stops with a diagnostic or pushes at most
one token for every token of the replacement list. -/
theorem substLoop_obj {exp : St → Run St} {input : Bool} {d : Define} (hd : d.func = false) (line : Int) (path : Str)
    (R : List Tok) (l : List Tok) : ∀ (k : Nat) (cwp : Bool) (P : List Tok) (s : St), s.buf = P ++ R →
    (cwp = true → P ≠ []) →
    substLoop exp input d {} line path k cwp l s = .fail ∨
    ∃ P', substLoop exp input d {} line path k cwp l s = .ok { s with buf := P' ++ R } ∧
      P'.length ≤ P.length + l.length := by
  induction l with
  | nil =>
    intro k cwp P s hb _
    refine .inr ⟨P, ?_, by simp⟩
    cases k <;> simp [substLoop, ← hb]
  | cons t rest ih =>
    intro k cwp P s hb hc
    have weaken : ∀ {x : Run St} {s' : St} {Q : List Tok}, Q.length ≤ P.length + 1 →
        { s' with buf := ([] : List Tok) } = { s with buf := [] } →
        (x = .fail ∨ ∃ P', x = .ok { s' with buf := P' ++ R } ∧ P'.length ≤ Q.length + rest.length) →
        (x = .fail ∨ ∃ P', x = .ok { s with buf := P' ++ R } ∧ P'.length ≤ P.length + (t :: rest).length) := by
      rintro x s' Q hQ he (h | ⟨P', h, hl⟩)
      · exact .inl h
      · refine .inr ⟨P', ?_, by simp; omega⟩
        rw [h]
        injection he with _ h1 h2
        simp [h1, h2]
    cases k with
    | succ k => exact weaken (Q := P) (by omega) rfl (ih k cwp P s hb hc)
    | zero =>
      have hpar : getParam d t = none := by simp [getParam, hd]
      unfold substLoop
      simp only [hpar]
      split
      · exact .inl rfl
      split
      · split
        · exact weaken (Q := P) (by omega) rfl (ih _ cwp P s hb hc)
        · split
          · have : stringify [] = .ok [ch '"', ch '"'] := rfl
            simp only [this, Run.ofRes_ok, Run.bind_ok]
            refine weaken (Q := { t with type := TType.T_STRING, str := [ch '"', ch '"'] } :: P) (by simp) ?_
              (ih _ cwp _ (push { t with type := .T_STRING, str := [ch '"', ch '"'] } s) ?_ (by simp))
            · rfl
            · simp [push, hb]
          · simp only [Bool.false_eq_true, if_false]
            exact weaken (Q := P) (by omega) rfl (ih _ cwp P s hb hc)
      · cases cwp with
        | true =>
          obtain ⟨p, P1, rfl⟩ := List.exists_cons_of_ne_nil (hc rfl)
          have hb' : s.buf = p :: (P1 ++ R) := by simpa using hb
          have ht : top input s = .ok (p, s) := by simp [top, hb']
          simp only [if_true]
          cases hg : glue p t with
          | ok g =>
            have hgt : glueTop input t s = .ok { s with buf := g :: (P1 ++ R) } := by
              simp [glueTop, ht, hg, hb']
            simp only [hgt, Run.bind_ok]
            exact weaken (Q := g :: P1) (by simp) rfl (ih _ _ (g :: P1) _ rfl (by simp))
          | fail =>
            have hgt : glueTop input t s = .fail := by simp [glueTop, ht, hg]
            simp [hgt]
          | ub => simp [glue] at hg; split at hg <;> cases hg
          | more => simp [glue] at hg; split at hg <;> cases hg
        | false =>
          simp only [Bool.false_eq_true, if_false]
          split
          · exact .inl rfl
          · exact weaken (Q := { t with line := line, path := path } :: P) (by simp) rfl
              (ih _ _ _ (push { t with line := line, path := path } s) (by simp [push, hb]) (by simp))

/-- `subs` for an object-like macro. -/
theorem subs_obj {exp : St → Run St} {input : Bool} {n : Nat} {t : Tok} {d : Define} (hd : d.func = false) (s : St) :
    subs exp input n t d s = .fail ∨
    ∃ P, subs exp input n t d s = .ok { s with buf := P ++ s.buf } ∧ P.length ≤ d.body.length ∧
      ∀ u ∈ P, ∀ x, (x = d.name ∨ x ∈ t.hs) → x ∈ u.hs := by
  have hr : readCall input n t d t.hs s = .ok ({}, t.whitespaceAfter, t.hs, s) := by simp [readCall, hd]
  unfold subs
  simp only [hr, Run.bind_ok]
  rcases substLoop_obj (exp := exp) (input := input) hd t.line t.path s.buf d.body.reverse 0 false [] s rfl (by simp)
    with h | ⟨P, h, hl⟩
  · exact .inl (by simp [h])
  · refine .inr ⟨orEnds t.whitespace t.whitespaceAfter
      (P.map (fun u => { u with hs := StringSet.union (StringSet.insert t.hs d.name) u.hs })), ?_, ?_, ?_⟩
    · simp [h, finish]
    · simpa [orEnds_length] using hl
    · intro u hu x hx
      obtain ⟨v, hv, e⟩ := orEnds_hs_mem hu
      obtain ⟨w, _, rfl⟩ := List.mem_map.1 hv
      rw [← e]
      exact (StringSet.mem_union _ _ _).2 (.inl ((StringSet.mem_insert _ _ _).2 hx))

/-! ### Termination -/

theorem countP_lt {α : Type} {p q : α → Bool} {l : List α} (h : ∀ x ∈ l, p x = true → q x = true) {y : α}
    (hy : y ∈ l) (hp : p y = false) (hq : q y = true) : l.countP p < l.countP q := by
  induction l with
  | nil => cases hy
  | cons x l ih =>
    have hle : l.countP p ≤ l.countP q := List.countP_mono_left (fun z hz => h z (by simp [hz]))
    simp only [List.countP_cons]
    rcases List.mem_cons.1 hy with rfl | hy
    · simp [hp, hq]; omega
    · have := ih (fun z hz => h z (by simp [hz])) hy
      cases hpx : p x with
      | false => simp; omega
      | true => simp [h x (by simp) hpx]; omega

/-- How many names of `U` are not hidden in `t`. -/
def free (U : List Str) (t : Tok) : Nat := U.countP (fun x => decide (x ∉ t.hs))

/-- Weight of a token sequence. -/
def weight (B : Nat) (U : List Str) (l : List Tok) : Nat := (l.map (fun t => (B + 1) ^ free U t)).sum

theorem weight_append (B U a b) : weight B U (a ++ b) = weight B U a + weight B U b := by
  simp [weight]

theorem weight_le {B U k} {l : List Tok} (h : ∀ t ∈ l, free U t ≤ k) : weight B U l ≤ l.length * (B + 1) ^ k := by
  induction l with
  | nil => simp [weight]
  | cons t ts ih =>
    have h1 := ih (fun u hu => h u (by simp [hu]))
    have h2 : (B + 1) ^ free U t ≤ (B + 1) ^ k := Nat.pow_le_pow_right (by omega) (h t (by simp))
    simp only [weight, List.map_cons, List.sum_cons, List.length_cons, Nat.succ_mul] at *
    omega

theorem weight_pos (B U t) : 1 ≤ (B + 1) ^ free U t := Nat.one_le_pow _ _ (by omega)

/-- The names in `U` are object-like macros or no macros. -/
structure ObjTable (env : Str → Option Define) (U : List Str) (B : Nat) : Prop where
  name : ∀ x d, x ∈ U → env x = some d → d.name = x
  func : ∀ x d, x ∈ U → env x = some d → d.func = false
  size : ∀ x d, x ∈ U → env x = some d → d.body.length ≤ B

theorem weight_subs {env U B} (h : ObjTable env U B) {t : Tok} {d : Define} (ha : Active env t d) (hU : t.str ∈ U)
    {P : List Tok} (hl : P.length ≤ d.body.length) (hP : ∀ u ∈ P, ∀ x, (x = d.name ∨ x ∈ t.hs) → x ∈ u.hs) :
    weight B U P < (B + 1) ^ free U t := by
  obtain ⟨h1, h2, h3, h4⟩ := ha
  have hlt : ∀ u ∈ P, free U u < free U t := by
    intro u hu
    refine countP_lt (y := t.str) ?_ hU ?_ (by simp [h2])
    · intro x _ hx
      simp only [decide_eq_true_eq] at *
      exact fun hc => hx (hP u hu x (.inr hc))
    · simp [hP u hu t.str (.inl (h.name _ _ hU h4).symm)]
  cases hk : free U t with
  | zero =>
    cases P with
    | nil => simp [weight]
    | cons u us => have := hlt u (by simp); omega
  | succ k =>
    have := weight_le (B := B) (U := U) (k := k) (l := P) (fun u hu => by have := hlt u hu; omega)
    have hB := h.size _ _ hU h4
    have : P.length * (B + 1) ^ k ≤ B * (B + 1) ^ k := Nat.mul_le_mul_right _ (by omega)
    have hp : 1 ≤ (B + 1) ^ k := Nat.one_le_pow _ _ (by omega)
    rw [Nat.pow_succ, Nat.mul_comm ((B + 1) ^ k), Nat.succ_mul]
    omega

theorem take_weight {B U} {input : Bool} {s : St} (hs : (!input && s.buf.isEmpty) = false) :
    ∃ t s1, take input s = .ok (t, s1) ∧ s1.out = s.out ∧
      ((t.type = .T_EOI) ∨ weight B U (s.buf ++ s.src) = (B + 1) ^ free U t + weight B U (s1.buf ++ s1.src)) := by
  unfold take
  cases hb : s.buf with
  | cons t b => exact ⟨t, _, rfl, rfl, .inr (by simp [weight])⟩
  | nil =>
    cases input with
    | false => simp [hb] at hs
    | true =>
      simp only [if_true]
      cases hsrc : s.src with
      | cons t r => exact ⟨t, _, rfl, rfl, .inr (by simp [weight])⟩
      | nil => exact ⟨eoi, s, rfl, rfl, .inl rfl⟩

theorem expand_obj_terminates {env U B} (h : ObjTable env U B) (hc : ∀ x d, env x = some d → x ∈ U)
    (input ret : Bool) :
    ∀ (w : Nat) (s : St), weight B U (s.buf ++ s.src) ≤ w → ∀ n, w < n → expand env input ret n s ≠ .more := by
  intro w
  induction w using Nat.strongRecOn with
  | _ w ih =>
    intro s hw n hn
    obtain ⟨n, rfl⟩ : ∃ k, n = k + 1 := ⟨n - 1, by omega⟩
    cases hs : (!input && s.buf.isEmpty) with
    | true => simp [expand, hs]
    | false =>
      obtain ⟨t, s1, ht, ho, hwt⟩ := take_weight (B := B) (U := U) hs
      by_cases he : t.type = .T_EOI
      · simp [expand, hs, ht, he]
      · replace hwt := hwt.resolve_left he
        have hpos := weight_pos B U t
        have next : ∀ s' : St, weight B U (s'.buf ++ s'.src) < weight B U (s.buf ++ s.src) →
            expand env input ret n s' ≠ .more := fun s' h' => ih _ (by omega) s' (Nat.le_refl _) n (by omega)
        have emit : ∀ t' : Tok,
            (if ret then Run.ok (some t', s1) else expand env input ret n { s1 with out := s1.out ++ [t'] }) ≠ .more := by
          intro t'
          split
          · simp
          · exact next _ (by simp only; omega)
        by_cases hi : Inert env t
        · rw [expand_inert hs ht hi]; exact emit t
        · have h1 : t.type = .T_IDENT := by
            apply Classical.byContradiction; intro c; exact hi ⟨he, .inl c⟩
          have h2 : t.str ∉ t.hs := fun c => hi ⟨he, .inr (.inl c)⟩
          cases h3 : builtin t with
          | some t' => rw [expand_builtin hs ht h1 h2 h3]; exact emit t'
          | none =>
            cases h4 : env t.str with
            | none => exact absurd ⟨he, .inr (.inr ⟨h3, h4⟩)⟩ hi
            | some d =>
              have ha : Active env t d := ⟨h1, h2, h3, h4⟩
              have hU := hc _ _ h4
              rw [expand_subs hs ht ha (h.func _ _ hU h4)]
              rcases subs_obj (exp := fun s => Run.mapOk (·.2) (expand env input false n s)) (input := input) (n := n)
                (t := t) (h.func _ _ hU h4) s1 with hf | ⟨P, hp, hl, hP⟩
              · simp [hf]
              · simp only [hp, Run.bind_ok]
                have := weight_subs h ha hU hl hP
                refine next _ ?_
                simp only [List.append_assoc]
                rw [weight_append]
                omega

/-! ### Exactness -/

/-- A replacement list (or token sequence) without operators and without the names the
compiler treats specially. -/
def PlainTok (t : Tok) : Prop :=
  t.type ≠ .T_EOI ∧ t.type ≠ .PP_HASH ∧ t.type ≠ .PP_HHASH ∧ t.str ≠ str "__VA_ARGS__" ∧
  t.str ≠ str "__LINE__" ∧ t.str ≠ str "__FILE__"

theorem substLoop_plain {exp : St → Run St} {input : Bool} {d : Define} (hd : d.func = false) (line : Int) (path : Str)
    (l : List Tok) (hl : ∀ t ∈ l, PlainTok t) : ∀ (s : St),
    substLoop exp input d {} line path 0 false l s
      = .ok { s with buf := (l.reverse.map (fun t => { t with line := line, path := path })) ++ s.buf } := by
  induction l with
  | nil => intro s; simp [substLoop]
  | cons t rest ih =>
    intro s
    have hpar : getParam d t = none := by simp [getParam, hd]
    obtain ⟨_, h2, h3, h4, _⟩ := hl t (by simp)
    have hc : (decide (rest.head?.map (·.type) = some .PP_HHASH)) = false := by
      cases rest with
      | nil => rfl
      | cons u us => simp [(hl u (by simp)).2.2.1]
    have hsf : (decide (rest.head?.map (·.type) = some .PP_HASH)) = false := by
      cases rest with
      | nil => rfl
      | cons u us => simp [(hl u (by simp)).2.1]
    unfold substLoop
    simp only [hpar, hc, hsf, h3, h4, if_false, Bool.false_eq_true, Bool.or_false]
    rw [ih (fun u hu => hl u (by simp [hu]))]
    simp [push]

/-- One replacement by a plain object-like macro. -/
theorem subs_plain {exp : St → Run St} {input : Bool} {n : Nat} {t : Tok} {d : Define} (hd : d.func = false)
    (hl : ∀ t ∈ d.body, PlainTok t) (s : St) :
    ∃ P, subs exp input n t d s = .ok { s with buf := P ++ s.buf } ∧ P.map pp = d.body.map pp ∧
      P.map (·.hs) = d.body.map (fun u => StringSet.union (StringSet.insert t.hs d.name) u.hs) := by
  have hr : readCall input n t d t.hs s = .ok ({}, t.whitespaceAfter, t.hs, s) := by simp [readCall, hd]
  refine ⟨orEnds t.whitespace t.whitespaceAfter ((d.body.map (fun u => { u with line := t.line, path := t.path })).map
      (fun u => { u with hs := StringSet.union (StringSet.insert t.hs d.name) u.hs })), ?_, ?_, ?_⟩
  · unfold subs
    simp only [hr, Run.bind_ok]
    rw [substLoop_plain hd _ _ _ (by simpa using hl)]
    simp [finish]
  · rw [orEnds_pp]; simp [pp]
  · rw [orEnds_hs]; simp

theorem plain_builtin {t : Tok} (h : PlainTok t) : builtin t = none := by
  obtain ⟨_, _, _, _, h5, h6⟩ := h
  simp [builtin, h5, h6]

theorem plain_pp {t u : Tok} (h : PlainTok t) (e : pp u = pp t) : PlainTok u := by
  simp only [pp, Prod.mk.injEq] at e
  simpa [PlainTok, e.1, e.2] using h

/-- The replacement lists of a table as the specification sees them. -/
def lists (env : Str → Option Define) (x : Str) : Option (List PP) := (env x).map (fun d => d.body.map pp)

/-- An identifier that is no macro name, or one of `U`. -/
def Within (env : Str → Option Define) (U : List Str) (p : PP) : Prop :=
  p.1 = .T_IDENT → p.2 ∈ U ∨ env p.2 = none

theorem expand_plain {env U B} (h : ObjTable env U B)
    (hb : ∀ x d, x ∈ U → env x = some d → ∀ t ∈ d.body, PlainTok t ∧ t.hs = [] ∧ Within env U (pp t)) (input : Bool) :
    ∀ (w : Nat) (H : List Str) (ts R O src : List Tok), weight B U ts ≤ w →
      (∀ t ∈ ts, PlainTok t ∧ Within env U (pp t)) →
      (∀ t ∈ ts, ∀ x, x ∈ t.hs ↔ x ∈ H) →
      ∃ o : List Tok, Expands (lists env) H (ts.map pp) (o.map pp) ∧
        ∀ ret' : Bool, ret' = false → ∃ k, ∀ n, expand env input ret' (n + k) ⟨ts ++ R, O, src⟩ = expand env input ret' n ⟨R, O ++ o, src⟩ := by
  intro w
  induction w using Nat.strongRecOn with
  | _ w ih =>
    intro H ts R O src hw hp hH
    cases ts with
    | nil => exact ⟨[], .nil _, fun _ _ => ⟨0, fun n => by simp⟩⟩
    | cons t ts =>
      have hpos := weight_pos B U t
      have hcons : weight B U (t :: ts) = (B + 1) ^ free U t + weight B U ts := by simp [weight]
      obtain ⟨hpt, hpu⟩ := hp t (by simp)
      have hs : (!input && (St.mk (t :: ts ++ R) O src).buf.isEmpty) = false := by simp
      have ht : take input ⟨t :: ts ++ R, O, src⟩ = .ok (t, ⟨ts ++ R, O, src⟩) := rfl
      by_cases hi : Inert env t
      · obtain ⟨o, ho, hrun⟩ := ih (weight B U ts) (by omega) H ts R (O ++ [t]) src (Nat.le_refl _)
          (fun u hu => hp u (by simp [hu])) (fun u hu => hH u (by simp [hu]))
        refine ⟨t :: o, .keep _ _ _ _ ?_ ho, fun ret' hr => ?_⟩
        · rcases hi.2 with h1 | h1 | h1
          · exact .inl h1
          · exact .inr (.inl ((hH t (by simp) _).1 h1))
          · exact .inr (.inr (by simp [lists, pp, h1.2]))
        · subst hr
          obtain ⟨k, hk⟩ := hrun false rfl
          refine ⟨k + 1, fun n => ?_⟩
          rw [← Nat.add_assoc, expand_inert hs ht hi]
          simp only [Bool.false_eq_true, if_false]
          rw [hk]
          simp
      · have he := hpt.1
        have h1 : t.type = .T_IDENT := by
          apply Classical.byContradiction; intro c; exact hi ⟨he, .inl c⟩
        have h2 : t.str ∉ t.hs := fun c => hi ⟨he, .inr (.inl c)⟩
        have h3 := plain_builtin hpt
        cases h4 : env t.str with
        | none => exact absurd ⟨he, .inr (.inr ⟨h3, h4⟩)⟩ hi
        | some d =>
          have ha : Active env t d := ⟨h1, h2, h3, h4⟩
          have hU : t.str ∈ U := by
            rcases hpu h1 with c | c
            · exact c
            · rw [show env t.str = none from c] at h4; cases h4
          have hdf := h.func _ _ hU h4
          obtain ⟨P, hP, hpp, hhs⟩ := subs_plain (exp := fun _ => .more) (input := input) (n := 0) (t := t) hdf
            (fun u hu => (hb _ _ hU h4 u hu).1) ⟨ts ++ R, O, src⟩
          have hPh : ∀ u ∈ P, ∀ x, x ∈ u.hs ↔ x ∈ t.str :: H := by
            intro u hu x
            have : u.hs ∈ P.map (·.hs) := List.mem_map_of_mem hu
            rw [hhs] at this
            obtain ⟨v, hv, e⟩ := List.mem_map.1 this
            rw [← e, StringSet.mem_union, StringSet.mem_insert, (hb _ _ hU h4 v hv).2.1, h.name _ _ hU h4,
              hH t (by simp)]
            simp
          have hPp : ∀ u ∈ P, PlainTok u ∧ Within env U (pp u) := by
            intro u hu
            have : pp u ∈ P.map pp := List.mem_map_of_mem hu
            rw [hpp] at this
            obtain ⟨v, hv, e⟩ := List.mem_map.1 this
            have := hb _ _ hU h4 v hv
            exact ⟨plain_pp this.1 e.symm, e ▸ this.2.2⟩
          have hlen : P.length ≤ d.body.length := by
            have := congrArg List.length hpp
            simp only [List.length_map] at this
            omega
          have hwP := weight_subs h ha hU hlen (fun u hu x hx => (hPh u hu x).2 (by
            rcases hx with rfl | hx
            · simp [h.name _ _ hU h4]
            · simp [(hH t (by simp) x).1 hx]))
          obtain ⟨o1, ho1, hrun1⟩ := ih (weight B U P) (by omega) (t.str :: H) P (ts ++ R) O src (Nat.le_refl _) hPp hPh
          obtain ⟨o2, ho2, hrun2⟩ := ih (weight B U ts) (by omega) H ts R (O ++ o1) src (Nat.le_refl _)
            (fun u hu => hp u (by simp [hu])) (fun u hu => hH u (by simp [hu]))
          refine ⟨o1 ++ o2, ?_, fun ret' hr => ?_⟩
          · have hppt : pp t = (.T_IDENT, t.str) := by simp [pp, h1]
            simp only [List.map_cons, List.map_append, hppt]
            refine .repl _ _ (d.body.map pp) _ _ _ (fun c => h2 ((hH t (by simp) _).2 c)) (by simp [lists, h4]) ?_ ho2
            rw [← hpp]; exact ho1
          · obtain ⟨k1, hk1⟩ := hrun1 ret' hr
            obtain ⟨k2, hk2⟩ := hrun2 ret' hr
            refine ⟨k2 + k1 + 1, fun n => ?_⟩
            have := expand_reaches (n := n + (k2 + k1)) (ret := ret') hs ht ha (fun c => by rw [hdf] at c; cases c) hP
            rw [← Nat.add_assoc, this]
            simp only
            rw [← Nat.add_assoc, hk1, hk2]
            simp

end Verif.Macro
