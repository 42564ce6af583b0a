import Verif.Directives
import Verif.DirectivesSpec
import Verif.DefineMapLemmas
/-!
Simulation lemmas for C08–C10: running the directive machine over the tokens of a tree.
-/
namespace Verif.Directives
open Verif DefineMap DirectivesSpec Run

/-- Evaluate an `#if` buffer as the specification's partial function. -/
def Par.ev (p : Par) (e : Env) (l : List Tok) : Option Bool :=
  match p.evalBuf e l with
  | .ok b => some b
  | _ => none

/-- The machine about to read the next token. -/
def B (p : Par) (n : Nat) (st : St) : Run (List Tok) := stream p n (next st).1 (next st).2

/-- The machine stands before `toks`, no `#line` in effect. -/
structure At (p : Par) (st : St) (toks : List Tok) (e : Env) (cond : List Int) : Prop where
  rem : st.pushed ++ st.src = toks
  le : st.pushed.length ≤ 1
  ld : st.lineDiff = 0
  np : st.newPath = none
  inv : TabInv st.tab
  env : get p.hash st.tab = e
  cond : st.cond = cond

theorem adjust_id {st : St} (h1 : st.lineDiff = 0) (h2 : st.newPath = none) (t : Tok) :
    adjust st t = t := by
  simp [adjust, h1, h2]

variable {p : Par} {st : St} {e : Env} {c cs : List Int} {top : Int}

theorem At.next_cons {t r} (h : At p st (t :: r) e c) :
    ∃ st', next st = (t, st') ∧ At p st' r e c ∧ st'.pushed = [] := by
  obtain ⟨h1, h2, h3, h4, h5, h6, h7⟩ := h
  cases hp : st.pushed with
  | nil =>
    rw [hp] at h1
    simp only [List.nil_append] at h1
    refine ⟨{ st with src := r }, ?_, ⟨by simp [hp], by simp [hp], h3, h4, h5, h6, h7⟩, hp⟩
    simp [next, hp, h1, adjust_id h3 h4]
  | cons x xs =>
    rw [hp] at h1 h2
    have : xs = [] := by
      cases xs with
      | nil => rfl
      | cons _ _ => simp at h2
    subst this
    simp only [List.cons_append, List.nil_append, List.cons.injEq] at h1
    obtain ⟨rfl, rfl⟩ := h1
    refine ⟨{ st with pushed := [] }, ?_, ⟨by simp, by simp, h3, h4, h5, h6, h7⟩, rfl⟩
    simp [next, hp, adjust_id h3 h4]

theorem At.next_nil (h : At p st [] e c) : next st = (eoi, st) := by
  obtain ⟨h1, h2, h3, h4, h5, h6, h7⟩ := h
  simp only [List.append_eq_nil_iff] at h1
  simp [next, h1.1, h1.2, adjust_id h3 h4]

theorem At.push {t r} (h : At p st r e c) (hp : st.pushed = []) :
    push t st = .ok { st with pushed := [t] } ∧ At p { st with pushed := [t] } (t :: r) e c := by
  refine ⟨by simp [Directives.push, hp], ⟨?_, by simp, h.ld, h.np, h.inv, h.env, h.cond⟩⟩
  have := h.rem
  rw [hp] at this
  simpa using this

theorem readLine_at {f : Tok} {r : List Tok} (hf : f.firstOfLine = true) (ts : List Tok)
    (hts : ∀ x ∈ ts, x.firstOfLine = false) (t : Tok) (rem : List Tok) (st : St)
    (heq : t :: rem = ts ++ f :: r) (hp : st.pushed = []) (h : At p st rem e c) :
    ∃ st', At p st' (f :: r) e c ∧ ∀ n, ts.length < n → readLine n t st = .ok (ts, st') := by
  induction ts generalizing t rem st with
  | nil =>
    simp only [List.nil_append, List.cons.injEq] at heq
    obtain ⟨rfl, rfl⟩ := heq
    obtain ⟨h1, h2⟩ := h.push (t := t) hp
    refine ⟨_, h2, fun n hn => ?_⟩
    obtain ⟨m, rfl⟩ : ∃ m, n = m + 1 := ⟨n - 1, by simp at hn; omega⟩
    simp [readLine, hf, h1]
  | cons x xs ih =>
    simp only [List.cons_append, List.cons.injEq] at heq
    obtain ⟨rfl, rfl⟩ := heq
    have hx : t.firstOfLine = false := hts t (by simp)
    have : ∃ y ys, xs ++ f :: r = y :: ys := by cases xs <;> simp
    obtain ⟨y, ys, hy⟩ := this
    rw [hy] at h
    obtain ⟨st1, e1, a1, p1⟩ := h.next_cons
    obtain ⟨st', a', hn'⟩ := ih (fun x hx => hts x (by simp [hx])) y ys st1 hy.symm p1 a1
    refine ⟨st', a', fun n hn => ?_⟩
    obtain ⟨m, rfl⟩ : ∃ m, n = m + 1 := ⟨n - 1, by simp at hn; omega⟩
    simp [readLine, hx, e1, hn' m (by simp at hn; omega)]

theorem readParams_at {r : List Tok} {rp : Tok} (hrp : rp.type = .T_RPAR) (ps : Params)
    (first : Bool) (hw : ps.WF first) (st : St) (h : At p st (ps.render ++ rp :: r) e c) :
    ∃ st', At p st' r e c ∧ st'.pushed = [] ∧ ∀ n, ps.render.length < n →
      readParams n first st = .ok (ps.names, ps.variadic, st') := by
  induction ps generalizing first st with
  | none =>
    obtain ⟨st1, e1, a1, p1⟩ := h.next_cons
    refine ⟨st1, a1, p1, fun n hn => ?_⟩
    obtain ⟨m, rfl⟩ : ∃ m, n = m + 1 := ⟨n - 1, by omega⟩
    simp only [Params.WF] at hw
    simp [readParams, e1, hw, hrp, Params.names, Params.variadic]
  | dots t =>
    obtain ⟨st1, e1, a1, p1⟩ := h.next_cons
    obtain ⟨st2, e2, a2, p2⟩ := a1.next_cons
    refine ⟨st2, a2, p2, fun n hn => ?_⟩
    obtain ⟨m, rfl⟩ : ∃ m, n = m + 1 := ⟨n - 1, by omega⟩
    simp [readParams, e1, e2, hw.2, hrp, Params.names, Params.variadic]
  | last t =>
    obtain ⟨st1, e1, a1, p1⟩ := h.next_cons
    obtain ⟨st2, e2, a2, p2⟩ := a1.next_cons
    refine ⟨st2, a2, p2, fun n hn => ?_⟩
    obtain ⟨m, rfl⟩ : ∃ m, n = m + 1 := ⟨n - 1, by omega⟩
    simp [readParams, e1, e2, hw.2, hrp, Params.names, Params.variadic]
  | more t cm ps ih =>
    obtain ⟨w1, w2, w3, w4, w5⟩ := hw
    obtain ⟨st1, e1, a1, p1⟩ := h.next_cons
    obtain ⟨st2, e2, a2, p2⟩ := a1.next_cons
    obtain ⟨st3, a3, p3, h3⟩ := ih false w5 st2 a2
    refine ⟨st3, a3, p3, fun n hn => ?_⟩
    obtain ⟨m, rfl⟩ : ∃ m, n = m + 1 := ⟨n - 1, by omega⟩
    have := h3 m (by simp [Params.render] at hn; omega)
    simp [readParams, e1, e2, w2, w4, this, Params.names, Params.variadic]

theorem definedTok_eq (b : Bool) : definedTok b = numTok b := rfl

theorem condItem_render_len (i : CondItem) : 1 ≤ i.render.length := by
  cases i <;> simp [CondItem.render]

theorem condItem_render_fol {i : CondItem} (h : i.WF) :
    ∀ x ∈ i.render, Inner x := by
  cases i with
  | tok t => simp only [CondItem.render, List.mem_singleton]; rintro x rfl; exact h.1
  | defd kw n =>
    obtain ⟨h1, _, h2, _⟩ := h
    simp only [CondItem.render, List.mem_cons, List.not_mem_nil, or_false]
    rintro x (rfl | rfl) <;> assumption
  | defdP kw lp n rp =>
    obtain ⟨h1, _, h2, _, h3, h4, _⟩ := h
    simp only [CondItem.render, List.mem_cons, List.not_mem_nil, or_false]
    rintro x (rfl | rfl | rfl | rfl) <;> assumption

theorem cond_render_inner {c : Cond} (h : c.WF) : ∀ x ∈ c.render, Inner x := by
  cases c with
  | ifdef n => simp only [Cond.render, List.mem_singleton]; rintro x rfl; exact h
  | ifndef n => simp only [Cond.render, List.mem_singleton]; rintro x rfl; exact h
  | expr l =>
    simp only [Cond.render, List.mem_flatMap]
    rintro x ⟨i, hi, hx⟩
    exact condItem_render_fol (h i hi) x hx

theorem readCond_at {f : Tok} {r : List Tok} (hf : f.firstOfLine = true) (l : List CondItem)
    (hl : ∀ i ∈ l, i.WF) (t : Tok) (rem : List Tok) (st : St)
    (heq : t :: rem = l.flatMap CondItem.render ++ f :: r) (hp : st.pushed = [])
    (h : At p st rem e c) :
    ∃ st', At p st' (f :: r) e c ∧
      ∀ n, l.length < n → readCond p n t st = .ok (l.map (CondItem.subst e), st') := by
  induction l generalizing t rem st with
  | nil =>
    simp only [List.flatMap_nil, List.nil_append, List.cons.injEq] at heq
    obtain ⟨rfl, rfl⟩ := heq
    obtain ⟨h1, h2⟩ := h.push (t := t) hp
    refine ⟨_, h2, fun n hn => ?_⟩
    obtain ⟨m, rfl⟩ : ∃ m, n = m + 1 := ⟨n - 1, by simp at hn; omega⟩
    simp [readCond, hf, h1]
  | cons i is ih =>
    have hi := hl i (by simp)
    have : ∃ y ys, is.flatMap CondItem.render ++ f :: r = y :: ys := by
      cases is.flatMap CondItem.render <;> simp
    obtain ⟨y, ys, hy⟩ := this
    have ih' := fun st1 p1 a1 => ih (fun x hx => hl x (by simp [hx])) y ys st1 hy.symm p1 a1
    rw [List.flatMap_cons, List.append_assoc, hy] at heq
    cases i with
    | tok x =>
      simp only [CondItem.render, List.cons_append, List.nil_append, List.cons.injEq] at heq
      obtain ⟨rfl, rfl⟩ := heq
      obtain ⟨st1, e1, a1, p1⟩ := h.next_cons
      obtain ⟨st', a', hn'⟩ := ih' st1 p1 a1
      refine ⟨st', a', fun n hn => ?_⟩
      obtain ⟨m, rfl⟩ : ∃ m, n = m + 1 := ⟨n - 1, by simp at hn; omega⟩
      simp [readCond, hi.1.1, hi.2, e1, hn' m (by simp at hn; omega), CondItem.subst]
    | defd kw nm =>
      obtain ⟨w1, w2, w3, w4⟩ := hi
      simp only [CondItem.render, List.cons_append, List.nil_append, List.cons.injEq] at heq
      obtain ⟨rfl, rfl⟩ := heq
      obtain ⟨st1, e1, a1, p1⟩ := h.next_cons
      obtain ⟨st2, e2, a2, p2⟩ := a1.next_cons
      obtain ⟨st', a', hn'⟩ := ih' st2 p2 a2
      refine ⟨st', a', fun n hn => ?_⟩
      obtain ⟨m, rfl⟩ : ∃ m, n = m + 1 := ⟨n - 1, by simp at hn; omega⟩
      simp [readCond, w1.1, w2, e1, e2, w4, hn' m (by simp at hn; omega), CondItem.subst,
        definedTok_eq, a1.env]
    | defdP kw lp nm rp =>
      obtain ⟨w1, w2, w3, w4, w5, w6, w7⟩ := hi
      simp only [CondItem.render, List.cons_append, List.nil_append, List.cons.injEq] at heq
      obtain ⟨rfl, rfl⟩ := heq
      obtain ⟨st1, e1, a1, p1⟩ := h.next_cons
      obtain ⟨st2, e2, a2, p2⟩ := a1.next_cons
      obtain ⟨st3, e3, a3, p3⟩ := a2.next_cons
      obtain ⟨st4, e4, a4, p4⟩ := a3.next_cons
      obtain ⟨st', a', hn'⟩ := ih' st4 p4 a4
      refine ⟨st', a', fun n hn => ?_⟩
      obtain ⟨m, rfl⟩ : ∃ m, n = m + 1 := ⟨n - 1, by simp at hn; omega⟩
      simp [readCond, w1.1, w2, e1, e2, e3, e4, w4, w7, hn' m (by simp at hn; omega),
        CondItem.subst, definedTok_eq, a2.env]

/-- Evaluation of a condition by the machine, in front of the next line. -/
theorem evalCond_at {f : Tok} {r : List Tok} (hf : f.firstOfLine = true) (cd : Cond) (hw : cd.WF)
    (nm : Str) (hnm : nm = cd.ifName ∨ nm = cd.elifName) (b : Bool) (hb : cd.holds p.ev e = some b)
    (h : At p st (cd.render ++ f :: r) e c) :
    ∃ st' k, At p st' (f :: r) e c ∧ ∀ n, k ≤ n → evalCond p n nm st = .ok (b, st') := by
  cases cd with
  | ifdef x =>
    obtain ⟨st1, e1, a1, p1⟩ := h.next_cons
    simp only [Cond.holds, Option.some.injEq] at hb
    refine ⟨st1, 0, a1, fun n _ => ?_⟩
    simp only [Cond.ifName, Cond.elifName] at hnm
    simp [evalCond, hnm, e1, a1.env, hb]
  | ifndef x =>
    obtain ⟨st1, e1, a1, p1⟩ := h.next_cons
    simp only [Cond.holds, Option.some.injEq] at hb
    refine ⟨st1, 0, a1, fun n _ => ?_⟩
    simp only [Cond.ifName, Cond.elifName] at hnm
    rcases hnm with rfl | rfl
    · simp only [evalCond, e1, a1.env, hb]
      rw [if_neg (by decide), if_pos (by decide)]
    · simp only [evalCond, e1, a1.env, hb]
      rw [if_neg (by decide), if_pos (by decide)]
  | expr l =>
    have : ∃ y ys, l.flatMap CondItem.render ++ f :: r = y :: ys := by
      cases l.flatMap CondItem.render <;> simp
    obtain ⟨y, ys, hy⟩ := this
    rw [Cond.render, hy] at h
    obtain ⟨st1, e1, a1, p1⟩ := h.next_cons
    obtain ⟨st', a', hn'⟩ := readCond_at hf l hw y ys st1 hy.symm p1 a1
    refine ⟨st', l.length + 1, a', fun n hn => ?_⟩
    have hev : p.evalBuf e (l.map (CondItem.subst e)) = .ok b := by
      simp only [Cond.holds, Par.ev] at hb
      split at hb
      · next h => cases hb; exact h
      · cases hb
    have : evalCond p n nm st = evalLine p n st := by
      simp only [Cond.ifName, Cond.elifName] at hnm
      rcases hnm with rfl | rfl
      · simp only [evalCond]
        rw [if_neg (by decide), if_neg (by decide), if_pos (by decide)]
      · simp only [evalCond]
        rw [if_neg (by decide), if_neg (by decide), if_pos (by decide)]
    rw [this]
    simp [evalLine, e1, hn' n (by omega), a'.env, hev]

/-! ### Steps of the machine -/

theorem step_text {t r} (h : At p st (t :: r) e (1 :: cs)) (h1 : t.type ≠ .PP_DIRECTIVE)
    (h2 : t.type ≠ .T_EOI) :
    ∃ st', At p st' r e (1 :: cs) ∧
      Reaches (B p · st) (fun n => mapOk (t :: ·) (B p n st')) := by
  obtain ⟨st1, e1, a1, p1⟩ := h.next_cons
  refine ⟨st1, a1, Reaches.of_eq 1 fun n => ?_⟩
  simp [B, e1, stream, a1.cond, h1, h2]

theorem step_skip {t r} (h : At p st (t :: r) e (top :: cs)) (ht : top ≠ 1)
    (h1 : t.type ≠ .PP_DIRECTIVE) :
    ∃ st', At p st' r e (top :: cs) ∧ Reaches (B p · st) (B p · st') := by
  obtain ⟨st1, e1, a1, p1⟩ := h.next_cons
  refine ⟨st1, a1, Reaches.of_eq 1 fun n => ?_⟩
  simp [B, e1, stream, a1.cond, h1, ht]

theorem skip_list (ts : List Tok) {r} (h : At p st (ts ++ r) e (top :: cs)) (ht : top ≠ 1)
    (h1 : ∀ x ∈ ts, x.type ≠ .PP_DIRECTIVE) :
    ∃ st', At p st' r e (top :: cs) ∧ Reaches (B p · st) (B p · st') := by
  induction ts generalizing st with
  | nil => exact ⟨st, h, Reaches.refl _⟩
  | cons t ts ih =>
    obtain ⟨st1, a1, r1⟩ := step_skip h ht (h1 t (by simp))
    obtain ⟨st2, a2, r2⟩ := ih a1 (fun x hx => h1 x (by simp [hx]))
    exact ⟨st2, a2, r1.trans r2⟩

theorem text_list (ts : List Tok) {r} (h : At p st (ts ++ r) e (1 :: cs))
    (h1 : ∀ x ∈ ts, x.type ≠ .PP_DIRECTIVE ∧ x.type ≠ .T_EOI) :
    ∃ st', At p st' r e (1 :: cs) ∧
      Reaches (B p · st) (fun n => mapOk (ts ++ ·) (B p n st')) := by
  induction ts generalizing st with
  | nil => exact ⟨st, h, by simpa [mapOk_id] using Reaches.refl _⟩
  | cons t ts ih =>
    obtain ⟨st1, a1, r1⟩ := step_text h (h1 t (by simp)).1 (h1 t (by simp)).2
    obtain ⟨st2, a2, r2⟩ := ih a1 (fun x hx => h1 x (by simp [hx]))
    refine ⟨st2, a2, r1.trans ?_⟩
    have := r2.mapOk (t :: ·)
    simpa [mapOk_mapOk] using this

/-- A directive line: after `# name` the machine runs `handle`. -/
theorem dir_step {d : Dir} {s r} (hd : d.WF s) (h : At p st (d.hash :: d.name :: r) e (top :: cs)) :
    ∃ st2, At p st2 r e (top :: cs) ∧ st2.pushed = [] ∧
      ∀ st3 m, (∀ n, m ≤ n → handle p n d.hash d.name top cs st2 = .ok (false, st3)) →
        Reaches (B p · st) (B p · st3) := by
  obtain ⟨w1, w2, w3, w4, w5⟩ := hd
  obtain ⟨st1, e1, a1, p1⟩ := h.next_cons
  obtain ⟨st2, e2, a2, p2⟩ := a1.next_cons
  refine ⟨st2, a2, p2, fun st3 m hm => Reaches.step m fun n hn => ?_⟩
  simp [B, e1, e2, stream, a1.cond, w1, w3, w5, hm n hn]

theorem setCond_at {r} (h : At p st r e c) (c') : At p { st with cond := c' } r e c' :=
  ⟨h.rem, h.le, h.ld, h.np, h.inv, h.env, rfl⟩

/-- `#if` in a skipped group. -/
theorem if_skipped {d : Dir} {cd : Cond} {r} (hd : d.WF cd.ifName) (ht : top ≠ 1)
    (h : At p st (d.hash :: d.name :: r) e (top :: cs)) :
    ∃ st', At p st' r e (-1 :: top :: cs) ∧ Reaches (B p · st) (B p · st') := by
  obtain ⟨st2, a2, p2, hr⟩ := dir_step hd h
  refine ⟨_, setCond_at a2 _, hr _ 0 fun n _ => ?_⟩
  have : isIf d.name.str = true := by
    rw [hd.2.2.2.1]; cases cd <;> simp only [Cond.ifName] <;> decide
  simp [handle, this, ht]

/-- `#elif` (any form) after a group was selected or inside a skipped section. -/
theorem elif_skipped {d : Dir} {s r} (hd : d.WF s) (hs : isIf s = false) (hs2 : isElif s = true)
    (ht : top ≠ 0) (h : At p st (d.hash :: d.name :: r) e (top :: cs)) :
    ∃ st', At p st' r e (-1 :: cs) ∧ Reaches (B p · st) (B p · st') := by
  obtain ⟨st2, a2, p2, hr⟩ := dir_step hd h
  refine ⟨_, setCond_at a2 _, hr _ 0 fun n _ => ?_⟩
  simp [handle, hd.2.2.2.1, hs, hs2, ht]

/-- `#endif`. -/
theorem endif_step {d : Dir} {r} (hd : d.WF (str "endif"))
    (h : At p st (d.hash :: d.name :: r) e (top :: cs)) :
    ∃ st', At p st' r e cs ∧ Reaches (B p · st) (B p · st') := by
  obtain ⟨st2, a2, p2, hr⟩ := dir_step hd h
  refine ⟨_, setCond_at a2 _, hr _ 0 fun n _ => ?_⟩
  have h1 : isIf (str "endif") = false := by decide
  have h2 : isElif (str "endif") = false := by decide
  simp [handle, hd.2.2.2.1, h1, h2]

theorem elif_names (cd : Cond) : isIf cd.elifName = false ∧ isElif cd.elifName = true := by
  cases cd <;> simp only [Cond.elifName] <;> decide

theorem if_name (cd : Cond) : isIf cd.ifName = true := by
  cases cd <;> simp only [Cond.ifName] <;> decide

theorem other_names {s : Str} (h : s ∉ condNames) :
    isIf s = false ∧ isElif s = false ∧ s ≠ str "endif" := by
  simp only [condNames, List.mem_cons, List.not_mem_nil, or_false, not_or] at h
  simp [isIf, isElif, h]

/-- Any other directive in a skipped group does nothing. -/
theorem other_skipped {d : Dir} {s r} (hd : d.WF s) (hs : s ∉ condNames) (ht : top ≠ 1)
    (h : At p st (d.hash :: d.name :: r) e (top :: cs)) :
    ∃ st', At p st' r e (top :: cs) ∧ Reaches (B p · st) (B p · st') := by
  obtain ⟨st2, a2, p2, hr⟩ := dir_step hd h
  obtain ⟨h1, h2, h3⟩ := other_names hs
  refine ⟨st2, a2, hr _ 0 fun n _ => ?_⟩
  simp [handle, hd.2.2.2.1, h1, h2, h3, ht]

/-- `#elif` (any form) while no group has been selected yet. -/
theorem elif_taken {d : Dir} {cd : Cond} {f r} (hf : f.firstOfLine = true) (hw : cd.WF)
    (hd : d.WF cd.elifName) (b : Bool) (hb : cd.holds p.ev e = some b)
    (h : At p st (d.hash :: d.name :: (cd.render ++ f :: r)) e (0 :: cs)) :
    ∃ st', At p st' (f :: r) e ((if b then 1 else 0) :: cs) ∧ Reaches (B p · st) (B p · st') := by
  obtain ⟨st2, a2, p2, hr⟩ := dir_step hd h
  obtain ⟨st3, k, a3, h3⟩ := evalCond_at hf cd hw cd.elifName (Or.inr rfl) b hb a2
  refine ⟨_, setCond_at a3 _, hr _ k fun n hn => ?_⟩
  simp [handle, hd.2.2.2.1, elif_names cd, h3 n hn]

/-- `#if` (any form) in a selected group. -/
theorem if_taken {d : Dir} {cd : Cond} {f r} (hf : f.firstOfLine = true) (hw : cd.WF)
    (hd : d.WF cd.ifName) (b : Bool) (hb : cd.holds p.ev e = some b)
    (h : At p st (d.hash :: d.name :: (cd.render ++ f :: r)) e (1 :: cs)) :
    ∃ st', At p st' (f :: r) e ((if b then 1 else 0) :: 1 :: cs) ∧
      Reaches (B p · st) (B p · st') := by
  obtain ⟨st2, a2, p2, hr⟩ := dir_step hd h
  obtain ⟨st3, k, a3, h3⟩ := evalCond_at hf cd hw cd.ifName (Or.inl rfl) b hb a2
  refine ⟨_, setCond_at a3 _, hr _ k fun n hn => ?_⟩
  simp [handle, hd.2.2.2.1, if_name cd, h3 n hn]

/-- `#else` while no group has been selected yet. -/
theorem else_taken {d : Dir} {r} (hd : d.WF (str "else"))
    (h : At p st (d.hash :: d.name :: r) e (0 :: cs)) :
    ∃ st', At p st' r e (1 :: cs) ∧ Reaches (B p · st) (B p · st') := by
  obtain ⟨st2, a2, p2, hr⟩ := dir_step hd h
  refine ⟨_, setCond_at a2 _, hr _ 0 fun n _ => ?_⟩
  have h1 : isIf (str "else") = false := by decide
  have h2 : isElif (str "else") = true := by decide
  simp only [handle, hd.2.2.2.1, h1, h2]
  have : evalCond p n (str "else") st2 = .ok (true, st2) := by
    simp only [evalCond]
    rw [if_neg (by decide), if_neg (by decide), if_neg (by decide), if_pos trivial]
  simp [this]

/-! ### Skipping whole trees -/

theorem hash_start {d : Dir} {s : Str} (h : d.WF s) : LineStart d.hash :=
  ⟨h.2.1, by simp [h.1]⟩

theorem params_inner (ps : Params) (first : Bool) (hw : ps.WF first) :
    ∀ x ∈ ps.render, Inner x := by
  induction ps generalizing first with
  | none => simp [Params.render]
  | dots t => simpa [Params.render] using hw.1
  | last t => simpa [Params.render] using hw.1
  | more t c ps ih =>
    obtain ⟨w1, w2, w3, w4, w5⟩ := hw
    intro x hx
    simp only [Params.render, List.mem_cons] at hx
    rcases hx with rfl | rfl | hx
    · exact w1
    · exact w3
    · exact ih false w5 x hx

theorem group_head (g : Group) (hg : g.WF) {r}
    (hr : ∃ f fs, r = f :: fs ∧ LineStart f) :
    ∃ f fs, g.render ++ r = f :: fs ∧ LineStart f := by
  cases g with
  | nil => exact hr
  | cons i g =>
    cases i with
    | text l =>
      obtain ⟨t, ts, h1, h2, _⟩ := hg.1
      subst h1
      exact ⟨t, ts ++ g.render ++ r, rfl, h2⟩
    | define d n b => exact ⟨d.hash, _, rfl, hash_start hg.1.1⟩
    | defineF d n lp ps rp b => exact ⟨d.hash, _, rfl, hash_start hg.1.1⟩
    | undef d n => exact ⟨d.hash, _, rfl, hash_start hg.1.1⟩
    | null h => exact ⟨h, _, rfl, hg.1.2, by simp [hg.1.1]⟩
    | other d r' =>
      obtain ⟨s, _, hs⟩ := hg.1.1
      exact ⟨d.hash, _, rfl, hash_start hs⟩
    | nonIdent h r' => exact ⟨h, _, rfl, hg.1.2.1, by simp [hg.1.1]⟩
    | sect d c' g' t => exact ⟨d.hash, _, rfl, hash_start hg.1.1⟩
theorem tail_head (t : Tail) (ht : t.WF) {r} :
    ∃ f fs, t.render ++ r = f :: fs ∧ LineStart f := by
  cases t with
  | endif d => exact ⟨d.hash, _, rfl, hash_start ht⟩
  | els d g e => exact ⟨d.hash, _, rfl, hash_start ht.1⟩
  | elif d c g t => exact ⟨d.hash, _, rfl, hash_start ht.1⟩
mutual
theorem skip_group (g : Group) (hg : g.WF) {r} {st : St} {top cs} (ht : top ≠ 1)
    (h : At p st (g.render ++ r) e (top :: cs)) (hr : ∃ f fs, r = f :: fs ∧ LineStart f) :
    ∃ st', At p st' r e (top :: cs) ∧ Reaches (B p · st) (B p · st') := by
  cases g with
  | nil => exact ⟨st, h, Reaches.refl _⟩
  | cons i g =>
    rw [Group.render, List.append_assoc] at h
    have hr2 : ∃ f fs, g.render ++ r = f :: fs ∧ LineStart f :=
      group_head g hg.2 hr
    obtain ⟨st1, a1, r1⟩ := skip_item i hg.1 ht h hr2
    obtain ⟨st2, a2, r2⟩ := skip_group g hg.2 ht a1 hr
    exact ⟨st2, a2, r1.trans r2⟩
theorem skip_item (i : Item) (hi : i.WF) {r} {st : St} {top cs} (ht : top ≠ 1)
    (h : At p st (i.render ++ r) e (top :: cs)) (hr : ∃ f fs, r = f :: fs ∧ LineStart f) :
    ∃ st', At p st' r e (top :: cs) ∧ Reaches (B p · st) (B p · st') := by
  cases i with
  | text l =>
    obtain ⟨t, ts, h1, h2, h3, h4, h5⟩ := hi
    refine skip_list l h ht ?_
    subst h1
    intro x hx
    rcases List.mem_cons.mp hx with rfl | hx
    · exact h3
    · exact (h5 x hx).2.1
  | define d n b =>
    obtain ⟨w1, w2, w3, w4⟩ := hi
    rw [Item.render, List.cons_append, List.cons_append] at h
    obtain ⟨st1, a1, r1⟩ := other_skipped w1 (by decide) ht h
    obtain ⟨st2, a2, r2⟩ := skip_list (n :: b) a1 ht (by
      intro x hx
      rcases List.mem_cons.mp hx with rfl | hx
      · exact w2.2.1
      · exact (w3 x hx).2.1)
    exact ⟨st2, a2, r1.trans r2⟩
  | defineF d n lp ps rp b =>
    obtain ⟨w1, w2, w3, w4, w5, w6⟩ := hi
    rw [Item.render, List.cons_append, List.cons_append] at h
    obtain ⟨st1, a1, r1⟩ := other_skipped w1 (by decide) ht h
    obtain ⟨st2, a2, r2⟩ := skip_list (n :: lp :: (ps.render ++ rp :: b)) a1 ht (by
      intro x hx
      simp only [List.mem_cons, List.mem_append] at hx
      rcases hx with rfl | rfl | hx | rfl | hx
      · exact w2.2.1
      · exact w3.1.2.1
      · exact (params_inner ps true w4 x hx).2.1
      · exact w5.1.2.1
      · exact (w6 x hx).2.1)
    exact ⟨st2, a2, r1.trans r2⟩
  | undef d n =>
    obtain ⟨w1, w2⟩ := hi
    rw [Item.render, List.cons_append, List.cons_append] at h
    obtain ⟨st1, a1, r1⟩ := other_skipped w1 (by decide) ht h
    obtain ⟨st2, a2, r2⟩ := skip_list [n] a1 ht (by
      intro x hx
      rw [List.mem_singleton.mp hx]; exact w2.2.1)
    exact ⟨st2, a2, r1.trans r2⟩
  | null hash =>
    obtain ⟨w1, w2⟩ := hi
    obtain ⟨f, fs, rfl, hf⟩ := hr
    rw [Item.render, List.cons_append, List.nil_append] at h
    obtain ⟨st1, e1, a1, p1⟩ := h.next_cons
    obtain ⟨st2, e2, a2, p2⟩ := a1.next_cons
    refine ⟨st1, a1, Reaches.of_eq 1 fun n => ?_⟩
    simp [B, e1, e2, stream, a1.cond, w1, hf.1]
  | other d r' =>
    obtain ⟨⟨s, w1, w2⟩, w3⟩ := hi
    rw [Item.render, List.cons_append, List.cons_append] at h
    obtain ⟨st1, a1, r1⟩ := other_skipped w2 w1 ht h
    obtain ⟨st2, a2, r2⟩ := skip_list r' a1 ht (fun x hx => (w3 x hx).2.1)
    exact ⟨st2, a2, r1.trans r2⟩
  | nonIdent hash r' =>
    obtain ⟨w1, w2, t, ts, rfl, w4, w5⟩ := hi
    rw [Item.render, List.cons_append] at h
    obtain ⟨st1, e1, a1, p1⟩ := h.next_cons
    have a1' := a1
    rw [List.cons_append] at a1'
    obtain ⟨st2, e2, a2, p2⟩ := a1'.next_cons
    obtain ⟨st3, a3, r3⟩ := skip_list (t :: ts) a1 ht (fun x hx => (w5 x hx).2.1)
    refine ⟨st3, a3, Reaches.trans (Reaches.of_eq 1 fun n => ?_) r3⟩
    have := (w5 t (by simp)).1
    simp [B, e1, e2, stream, a1.cond, w1, this, w4, ht]
  | sect d cd g t =>
    obtain ⟨w1, w2, w3, w4⟩ := hi
    rw [Item.render, List.cons_append, List.cons_append, List.append_assoc, List.append_assoc] at h
    obtain ⟨st1, a1, r1⟩ := if_skipped w1 ht h
    obtain ⟨st2, a2, r2⟩ := skip_list cd.render a1 (by decide)
      (fun x hx => (cond_render_inner w2 x hx).2.1)
    obtain ⟨st3, a3, r3⟩ := skip_group g w3 (by decide) a2 (tail_head t w4)
    obtain ⟨st4, a4, r4⟩ := skip_tail t w4 (by decide) a3
    exact ⟨st4, a4, r1.trans (r2.trans (r3.trans r4))⟩
theorem skip_tail (t : Tail) (hw : t.WF) {r} {st : St} {top cs} (ht : top ≠ 0)
    (h : At p st (t.render ++ r) e (top :: cs)) :
    ∃ st', At p st' r e cs ∧ Reaches (B p · st) (B p · st') := by
  cases t with
  | endif d => exact endif_step hw h
  | els d g e' =>
    obtain ⟨w1, w2, w3⟩ := hw
    rw [Tail.render, List.cons_append, List.cons_append, List.append_assoc] at h
    obtain ⟨st1, a1, r1⟩ := elif_skipped w1 (by decide) (by decide) ht h
    obtain ⟨st2, a2, r2⟩ := skip_group g w2 (by decide) a1 ⟨e'.hash, _, rfl, hash_start w3⟩
    obtain ⟨st3, a3, r3⟩ := endif_step w3 a2
    exact ⟨st3, a3, r1.trans (r2.trans r3)⟩
  | elif d cd g t =>
    obtain ⟨w1, w2, w3, w4⟩ := hw
    rw [Tail.render, List.cons_append, List.cons_append, List.append_assoc, List.append_assoc] at h
    obtain ⟨st1, a1, r1⟩ := elif_skipped w1 (elif_names cd).1 (elif_names cd).2 ht h
    obtain ⟨st2, a2, r2⟩ := skip_list cd.render a1 (by decide)
      (fun x hx => (cond_render_inner w2 x hx).2.1)
    obtain ⟨st3, a3, r3⟩ := skip_group g w3 (by decide) a2 (tail_head t w4)
    obtain ⟨st4, a4, r4⟩ := skip_tail t w4 (by decide) a3
    exact ⟨st4, a4, r1.trans (r2.trans (r3.trans r4))⟩
end

/-! ### Selected groups -/

/-- What follows a selected group: a new line, or the end of the file after a line that
does not read ahead. -/
def Follows (g : Group) (r : List Tok) : Prop :=
  (∃ f fs, r = f :: fs ∧ LineStart f) ∨ (r = [] ∧ g.EndsSafely)

/-- The same for one item. -/
def FollowsItem (i : Item) (r : List Tok) : Prop :=
  (∃ f fs, r = f :: fs ∧ LineStart f) ∨ (r = [] ∧ (Group.cons i .nil).EndsSafely)

theorem endsSafely_tail {i g} (h : (Group.cons i g).EndsSafely) : g.EndsSafely := by
  cases g with
  | nil => trivial
  | cons j g => cases i <;> exact h

theorem follows_cons {i g r} (hg : g.WF) (h : Follows (.cons i g) r) :
    FollowsItem i (g.render ++ r) ∧ Follows g r := by
  rcases h with h | ⟨h1, h2⟩
  · exact ⟨Or.inl (group_head g hg h), Or.inl h⟩
  · subst h1
    refine ⟨?_, Or.inr ⟨rfl, endsSafely_tail h2⟩⟩
    cases g with
    | nil => exact Or.inr ⟨rfl, h2⟩
    | cons j g =>
      left
      have := group_head (.cons j g) hg (r := [{ firstOfLine := true }]) ⟨_, _, rfl, rfl, by simp⟩
      obtain ⟨f, fs, h3, h4⟩ := this
      refine ⟨f, fs.dropLast, ?_, h4⟩
      have hne : (Group.cons j g).render ≠ [] := by
        intro hn
        cases j with
        | text l =>
          obtain ⟨⟨t, ts, rfl, _⟩, _⟩ := hg
          simp [Group.render, Item.render] at hn
        | _ => simp [Group.render, Item.render] at hn
      cases hl : (Group.cons j g).render with
      | nil => exact absurd hl hne
      | cons x xs =>
        rw [hl] at h3
        simp only [List.cons_append, List.cons.injEq] at h3
        obtain ⟨rfl, rfl⟩ := h3
        simp

theorem get_upd_add {h : Str → Nat} {t : Table} {d : Define} :
    get h (add h t d) = upd (get h t) d.name (some (stored d)) := by
  funext n
  rw [get_add]
  unfold upd
  by_cases hn : d.name = n
  · simp [hn, stored, stripEnds_eq_trim]
  · have : n ≠ d.name := fun hh => hn hh.symm
    simp [hn, this]

theorem get_upd_remove {h : Str → Nat} {t : Table} {n : Str} (ht : TabInv t) :
    get h (remove h t n) = upd (get h t) n none := by
  funext m
  rw [get_remove ht]
  unfold upd
  by_cases hn : n = m
  · simp [hn]
  · have : m ≠ n := fun hh => hn hh.symm
    simp [hn, this]

/-- `#define` (object-like) in a selected group. -/
theorem define_step {d : Dir} {nm : Tok} {b : List Tok} {f r} (hf : LineStart f)
    (hd : d.WF (str "define")) (hb : ∀ x ∈ b, x.firstOfLine = false)
    (hh : ∀ x ∈ b.head?, ¬ (x.type = .T_LPAR ∧ x.whitespace = false))
    (h : At p st (d.hash :: d.name :: nm :: (b ++ f :: r)) e (1 :: cs)) :
    ∃ st', At p st' (f :: r) (upd e nm.str (some (stored { name := nm.str, body := b }))) (1 :: cs) ∧
      Reaches (B p · st) (B p · st') := by
  obtain ⟨st2, a2, p2, hr⟩ := dir_step hd h
  obtain ⟨st3, e3, a3, p3⟩ := a2.next_cons
  have : ∃ y ys, b ++ f :: r = y :: ys := by cases b <;> simp
  obtain ⟨y, ys, hy⟩ := this
  rw [hy] at a3
  obtain ⟨st4, e4, a4, p4⟩ := a3.next_cons
  obtain ⟨st5, a5, h5⟩ := readLine_at hf.1 b hb y ys st4 hy.symm p4 a4
  have hy2 : ¬ (y.type = .T_LPAR ∧ y.whitespace = false) := by
    cases b with
    | nil =>
      simp only [List.nil_append, List.cons.injEq] at hy
      rw [← hy.1]; intro h; simp [hf.2 h.1] at h
    | cons x xs =>
      simp only [List.cons_append, List.cons.injEq] at hy
      rw [← hy.1]; exact hh x (by simp)
  refine ⟨{ st5 with tab := add p.hash st5.tab { name := nm.str, body := b } },
    ⟨a5.rem, a5.le, a5.ld, a5.np, tabInv_add a5.inv, ?_, a5.cond⟩,
    hr _ (b.length + 1) fun n hn => ?_⟩
  · rw [get_upd_add, a5.env]
  · have h1 : isIf (str "define") = false := by decide
    have h2 : isElif (str "define") = false := by decide
    have h3 : ¬ (str "define" = str "endif") := by decide
    have h6 : defineDir p n st2
        = .ok { st5 with tab := add p.hash st5.tab { name := nm.str, body := b } } := by
      simp only [defineDir, e3, e4]
      rw [if_neg (by simpa using hy2)]
      simp [h5 n (by omega)]
    simp [handle, hd.2.2.2.1, h1, h2, h3, h6]

/-- `#define` (function-like) in a selected group. -/
theorem defineF_step {d : Dir} {nm lp rp : Tok} {ps : Params} {b : List Tok} {f r}
    (hf : LineStart f) (hd : d.WF (str "define")) (hb : ∀ x ∈ b, x.firstOfLine = false)
    (hl : lp.type = .T_LPAR) (hlw : lp.whitespace = false) (hps : ps.WF true)
    (hrp : rp.type = .T_RPAR)
    (h : At p st (d.hash :: d.name :: nm :: lp :: (ps.render ++ rp :: (b ++ f :: r))) e (1 :: cs)) :
    ∃ st', At p st' (f :: r) (upd e nm.str (some (stored
        { name := nm.str, func := true, vararg := ps.variadic, par := ps.names, body := b })))
        (1 :: cs) ∧
      Reaches (B p · st) (B p · st') := by
  obtain ⟨st2, a2, p2, hr⟩ := dir_step hd h
  obtain ⟨st3, e3, a3, p3⟩ := a2.next_cons
  obtain ⟨st4, e4, a4, p4⟩ := a3.next_cons
  obtain ⟨st5, a5, p5, h5⟩ := readParams_at hrp ps true hps st4 a4
  have : ∃ y ys, b ++ f :: r = y :: ys := by cases b <;> simp
  obtain ⟨y, ys, hy⟩ := this
  rw [hy] at a5
  obtain ⟨st6, e6, a6, p6⟩ := a5.next_cons
  obtain ⟨st7, a7, h7⟩ := readLine_at hf.1 b hb y ys st6 hy.symm p6 a6
  refine ⟨{ st7 with tab := add p.hash st7.tab { name := nm.str, func := true, vararg := ps.variadic, par := ps.names, body := b } },
    ⟨a7.rem, a7.le, a7.ld, a7.np, tabInv_add a7.inv, ?_, a7.cond⟩,
    hr _ (b.length + ps.render.length + 1) fun n hn => ?_⟩
  · rw [get_upd_add, a7.env]
  · have h1 : isIf (str "define") = false := by decide
    have h2 : isElif (str "define") = false := by decide
    have h3 : ¬ (str "define" = str "endif") := by decide
    have h6 : defineDir p n st2
        = .ok { st7 with tab := add p.hash st7.tab { name := nm.str, func := true, vararg := ps.variadic, par := ps.names, body := b } } := by
      simp only [defineDir, e3, e4]
      rw [if_pos (by simp [hl, hlw])]
      simp [h5 n (by omega), e6, h7 n (by omega)]
    simp [handle, hd.2.2.2.1, h1, h2, h3, h6]

/-- `#undef` in a selected group. -/
theorem undef_step {d : Dir} {nm : Tok} {r} (hd : d.WF (str "undef"))
    (h : At p st (d.hash :: d.name :: nm :: r) e (1 :: cs)) :
    ∃ st', At p st' r (upd e nm.str none) (1 :: cs) ∧ Reaches (B p · st) (B p · st') := by
  obtain ⟨st2, a2, p2, hr⟩ := dir_step hd h
  obtain ⟨st3, e3, a3, p3⟩ := a2.next_cons
  refine ⟨{ st3 with tab := remove p.hash st3.tab nm.str },
    ⟨a3.rem, a3.le, a3.ld, a3.np, tabInv_remove a3.inv, ?_, a3.cond⟩, hr _ 0 fun n _ => ?_⟩
  · rw [get_upd_remove a3.inv, a3.env]
  · have h1 : isIf (str "undef") = false := by decide
    have h2 : isElif (str "undef") = false := by decide
    have h3 : ¬ (str "undef" = str "endif") := by decide
    have h4 : ¬ (str "undef" = str "define") := by decide
    simp [handle, hd.2.2.2.1, h1, h2, h3, h4, e3]

mutual
theorem keep_group (g : Group) (hg : g.WF) {e : Env} {r out e'} {st : St} {cs}
    (hev : g.eval p.ev e = some (out, e'))
    (h : At p st (g.render ++ r) e (1 :: cs)) (hr : Follows g r) :
    ∃ st', At p st' r e' (1 :: cs) ∧
      Reaches (B p · st) (fun n => mapOk (out ++ ·) (B p n st')) := by
  cases g with
  | nil =>
    simp only [Group.eval, Option.some.injEq, Prod.mk.injEq] at hev
    obtain ⟨rfl, rfl⟩ := hev
    exact ⟨st, h, by simpa [mapOk_id] using Reaches.refl _⟩
  | cons i g =>
    rw [Group.render, List.append_assoc] at h
    obtain ⟨f1, f2⟩ := follows_cons hg.2 hr
    simp only [Group.eval] at hev
    split at hev
    · cases hev
    · next o1 e1 h1 =>
      split at hev
      · cases hev
      · next o2 e2 h2 =>
        simp only [Option.some.injEq, Prod.mk.injEq] at hev
        obtain ⟨rfl, rfl⟩ := hev
        obtain ⟨st1, a1, r1⟩ := keep_item i hg.1 h1 h f1
        obtain ⟨st2, a2, r2⟩ := keep_group g hg.2 h2 a1 f2
        refine ⟨st2, a2, r1.trans ?_⟩
        have := r2.mapOk (o1 ++ ·)
        simpa [mapOk_mapOk] using this
theorem keep_item (i : Item) (hi : i.WF) {e : Env} {r out e'} {st : St} {cs}
    (hev : i.eval p.ev e = some (out, e'))
    (h : At p st (i.render ++ r) e (1 :: cs)) (hr : FollowsItem i r) :
    ∃ st', At p st' r e' (1 :: cs) ∧
      Reaches (B p · st) (fun n => mapOk (out ++ ·) (B p n st')) := by
  cases i with
  | text l =>
    simp only [Item.eval, Option.some.injEq, Prod.mk.injEq] at hev
    obtain ⟨rfl, rfl⟩ := hev
    obtain ⟨t, ts, h1, h2, h3, h4, h5⟩ := hi
    refine text_list l h ?_
    subst h1
    intro x hx
    rcases List.mem_cons.mp hx with rfl | hx
    · exact ⟨h3, h4⟩
    · exact (h5 x hx).2
  | define d n b =>
    simp only [Item.eval, Option.some.injEq, Prod.mk.injEq] at hev
    obtain ⟨rfl, rfl⟩ := hev
    obtain ⟨w1, w2, w3, w4⟩ := hi
    rcases hr with ⟨f, fs, rfl, hf⟩ | ⟨_, hbad⟩
    · rw [Item.render, List.cons_append, List.cons_append, List.cons_append] at h
      obtain ⟨st', a, r⟩ := define_step hf w1 (fun x hx => (w3 x hx).1) w4 h
      exact ⟨st', a, by simpa [mapOk_id] using r⟩
    · exact absurd hbad (by simp [Group.EndsSafely])
  | defineF d n lp ps rp b =>
    simp only [Item.eval, Option.some.injEq, Prod.mk.injEq] at hev
    obtain ⟨rfl, rfl⟩ := hev
    obtain ⟨w1, w2, w3, w4, w5, w6⟩ := hi
    rcases hr with ⟨f, fs, rfl, hf⟩ | ⟨_, hbad⟩
    · have hx : (Item.defineF d n lp ps rp b).render ++ f :: fs
          = d.hash :: d.name :: n :: lp :: (ps.render ++ rp :: (b ++ f :: fs)) := by
        simp [Item.render]
      rw [hx] at h
      obtain ⟨st', a, r⟩ := defineF_step hf w1 (fun x hx => (w6 x hx).1) w3.2.1 w3.2.2 w4 w5.2 h
      exact ⟨st', a, by simpa [mapOk_id] using r⟩
    · exact absurd hbad (by simp [Group.EndsSafely])
  | undef d n =>
    simp only [Item.eval, Option.some.injEq, Prod.mk.injEq] at hev
    obtain ⟨rfl, rfl⟩ := hev
    obtain ⟨w1, w2⟩ := hi
    rw [Item.render, List.cons_append, List.cons_append] at h
    obtain ⟨st', a, r⟩ := undef_step w1 h
    exact ⟨st', a, by simpa [mapOk_id] using r⟩
  | null hash =>
    simp only [Item.eval, Option.some.injEq, Prod.mk.injEq] at hev
    obtain ⟨rfl, rfl⟩ := hev
    obtain ⟨w1, w2⟩ := hi
    rcases hr with ⟨f, fs, rfl, hf⟩ | ⟨_, hbad⟩
    · rw [Item.render, List.cons_append, List.nil_append] at h
      obtain ⟨st1, e1, a1, p1⟩ := h.next_cons
      obtain ⟨st2, e2, a2, p2⟩ := a1.next_cons
      refine ⟨st1, a1, Reaches.of_eq 1 fun n => ?_⟩
      simp [B, e1, e2, stream, a1.cond, w1, hf.1, mapOk_id]
    · exact absurd hbad (by simp [Group.EndsSafely])
  | other d r' => simp [Item.eval] at hev
  | nonIdent hash r' => simp [Item.eval] at hev
  | sect d cd g t =>
    obtain ⟨w1, w2, w3, w4⟩ := hi
    rw [Item.render, List.cons_append, List.cons_append, List.append_assoc, List.append_assoc] at h
    obtain ⟨f, fs, hx, hf⟩ := group_head g w3 (tail_head t w4 (r := r))
    simp only [Item.eval] at hev
    split at hev
    · cases hev
    · next hb =>
      rw [hx] at h
      obtain ⟨st1, a1, r1⟩ := if_taken hf.1 w2 w1 true hb h
      rw [← hx] at a1
      obtain ⟨st2, a2, r2⟩ := keep_group g w3 hev a1 (Or.inl (tail_head t w4))
      obtain ⟨st3, a3, r3⟩ := skip_tail t w4 (by decide) a2
      refine ⟨st3, a3, r1.trans (r2.trans (r3.mapOk _))⟩
    · next hb =>
      rw [hx] at h
      obtain ⟨st1, a1, r1⟩ := if_taken hf.1 w2 w1 false hb h
      rw [← hx] at a1
      obtain ⟨st2, a2, r2⟩ := skip_group g w3 (by decide) a1 (tail_head t w4)
      obtain ⟨st3, a3, r3⟩ := keep_tail t w4 hev a2
      exact ⟨st3, a3, r1.trans (r2.trans r3)⟩
theorem keep_tail (t : Tail) (hw : t.WF) {e : Env} {r out e'} {st : St} {cs}
    (hev : t.eval p.ev e = some (out, e'))
    (h : At p st (t.render ++ r) e (0 :: 1 :: cs)) :
    ∃ st', At p st' r e' (1 :: cs) ∧
      Reaches (B p · st) (fun n => mapOk (out ++ ·) (B p n st')) := by
  cases t with
  | endif d =>
    simp only [Tail.eval, Option.some.injEq, Prod.mk.injEq] at hev
    obtain ⟨rfl, rfl⟩ := hev
    obtain ⟨st', a, r⟩ := endif_step hw h
    exact ⟨st', a, by simpa [mapOk_id] using r⟩
  | els d g e2 =>
    obtain ⟨w1, w2, w3⟩ := hw
    rw [Tail.render, List.cons_append, List.cons_append, List.append_assoc] at h
    obtain ⟨st1, a1, r1⟩ := else_taken w1 h
    obtain ⟨st2, a2, r2⟩ := keep_group g w2 hev a1 (Or.inl ⟨e2.hash, _, rfl, hash_start w3⟩)
    obtain ⟨st3, a3, r3⟩ := endif_step w3 a2
    exact ⟨st3, a3, r1.trans (r2.trans (r3.mapOk _))⟩
  | elif d cd g t =>
    obtain ⟨w1, w2, w3, w4⟩ := hw
    rw [Tail.render, List.cons_append, List.cons_append, List.append_assoc, List.append_assoc] at h
    obtain ⟨f, fs, hx, hf⟩ := group_head g w3 (tail_head t w4 (r := r))
    simp only [Tail.eval] at hev
    split at hev
    · cases hev
    · next hb =>
      rw [hx] at h
      obtain ⟨st1, a1, r1⟩ := elif_taken hf.1 w2 w1 true hb h
      rw [← hx] at a1
      obtain ⟨st2, a2, r2⟩ := keep_group g w3 hev a1 (Or.inl (tail_head t w4))
      obtain ⟨st3, a3, r3⟩ := skip_tail t w4 (by decide) a2
      refine ⟨st3, a3, r1.trans (r2.trans (r3.mapOk _))⟩
    · next hb =>
      rw [hx] at h
      obtain ⟨st1, a1, r1⟩ := elif_taken hf.1 w2 w1 false hb h
      rw [← hx] at a1
      obtain ⟨st2, a2, r2⟩ := skip_group g w3 (by decide) a1 (tail_head t w4)
      obtain ⟨st3, a3, r3⟩ := keep_tail t w4 hev a2
      exact ⟨st3, a3, r1.trans (r2.trans r3)⟩
end

end Verif.Directives

/-! ### Divergence at the end of the input -/
namespace Verif.Directives
open Verif DefineMap DirectivesSpec Run
variable {p : Par} {st : St} {e : Env} {c cs : List Int} {top : Int}

/-- Inside a skipped group the end of the input is never noticed. -/
theorem skip_eoi_more (h : At p st [] e (top :: cs)) (ht : top ≠ 1) (n : Nat) :
    B p n st = .more := by
  have hn := h.next_nil
  simp only [B, hn]
  induction n with
  | zero => rfl
  | succ n ih =>
    simp only [stream, h.cond, ht, hn]
    simpa [eoi] using ih

theorem atoiDigits_dec (s : Str) (acc : Nat) (h : ∀ c ∈ s, 48 ≤ c.toNat ∧ c.toNat ≤ 57) :
    atoiDigits acc s = s.foldl (fun a c => a * 10 + (c.toNat - 48)) acc := by
  induction s generalizing acc with
  | nil => rfl
  | cons x xs ih =>
    have hx := h x (by simp)
    simp only [atoiDigits, List.foldl_cons]
    rw [if_pos hx, ih _ (fun c hc => h c (by simp [hc]))]

theorem atoi_dec {s : Str} (h : IsLineNumber s) : atoi s = .ok (decVal s : Int) := by
  simp only [atoi, atoiDigits_dec s 0 h.1]
  exact if_pos h.2

/-- The machine before the physical tokens `toks` with offset `off`; the token at the
front, if it was already read ahead, carries an extra shift `pend`. -/
structure AtL (st : St) (toks : List Tok) (off pend : Int) (file : Option Str) : Prop where
  ld : st.lineDiff = off
  np : st.newPath = file
  cond : st.cond = [1]
  rem : (st.pushed = [] ∧ st.src = toks ∧ pend = 0) ∨
    ∃ t r q, toks = t :: r ∧ st.src = r ∧ (file = none → q = t.path) ∧
      st.pushed = [{ t with line := t.line + pend, path := q }]

theorem AtL.next_cons {t r off pend file} (h : AtL st (t :: r) off pend file) :
    ∃ st', next st = ({ t with line := t.line + pend + off, path := file.getD t.path }, st') ∧
      AtL st' r off 0 file ∧ st'.pushed = [] := by
  obtain ⟨h1, h2, h3, h4⟩ := h
  rcases h4 with ⟨h4, h5, rfl⟩ | ⟨t', r', q, h4, h5, h6, h7⟩
  · refine ⟨{ st with src := r }, ?_, ⟨h1, h2, h3, Or.inl ⟨h4, rfl, rfl⟩⟩, h4⟩
    simp [next, h4, h5, adjust, h1, h2]
  · cases h4
    refine ⟨{ st with pushed := [] }, ?_, ⟨h1, h2, h3, Or.inl ⟨rfl, h5, rfl⟩⟩, rfl⟩
    simp only [next, h7, adjust, h1, h2]
    cases file with
    | none => simp [h6 rfl]
    | some f => simp

theorem textL (ts : List Tok) {r off file} (h : AtL st (ts ++ r) off 0 file)
    (h1 : ∀ x ∈ ts, x.type ≠ .PP_DIRECTIVE ∧ x.type ≠ .T_EOI) :
    ∃ st', AtL st' r off 0 file ∧ Reaches (B p · st) (fun n => mapOk
      (ts.map (fun t => { t with line := t.line + off, path := file.getD t.path }) ++ ·) (B p n st')) := by
  induction ts generalizing st with
  | nil => exact ⟨st, h, by simpa [mapOk_id] using Reaches.refl _⟩
  | cons t ts ih =>
    obtain ⟨st1, e1, a1, p1⟩ := h.next_cons
    obtain ⟨st2, a2, r2⟩ := ih a1 (fun x hx => h1 x (by simp [hx]))
    refine ⟨st2, a2, Reaches.trans (g := fun n => mapOk
      ({ t with line := t.line + off, path := file.getD t.path } :: ·) (B p n st1))
      (Reaches.of_eq 1 fun n => ?_) ?_⟩
    · have := h1 t (by simp)
      simp [B, e1, stream, a1.cond, this.1, this.2]
    · have := r2.mapOk ({ t with line := t.line + off, path := file.getD t.path } :: ·)
      simpa [mapOk_mapOk] using this

/-- One text line whose first token may carry an extra shift. -/
theorem textL_pend (t : Tok) (ts : List Tok) {r off pend file} (h : AtL st (t :: ts ++ r) off pend file)
    (h1 : ∀ x ∈ t :: ts, x.type ≠ .PP_DIRECTIVE ∧ x.type ≠ .T_EOI) :
    ∃ st', AtL st' r off 0 file ∧ Reaches (B p · st) (fun n => mapOk
      (({ t with line := t.line + pend + off, path := file.getD t.path } ::
        ts.map (fun t => { t with line := t.line + off, path := file.getD t.path })) ++ ·) (B p n st')) := by
  rw [List.cons_append] at h
  obtain ⟨st1, e1, a1, p1⟩ := h.next_cons
  obtain ⟨st2, a2, r2⟩ := textL (p := p) ts a1 (fun x hx => h1 x (by simp [hx]))
  refine ⟨st2, a2, Reaches.trans (g := fun n => mapOk
    ({ t with line := t.line + pend + off, path := file.getD t.path } :: ·) (B p n st1))
    (Reaches.of_eq 1 fun n => ?_) ?_⟩
  · have := h1 t (by simp)
    simp [B, e1, stream, a1.cond, this.1, this.2]
  · have := r2.mapOk ({ t with line := t.line + pend + off, path := file.getD t.path } :: ·)
    simpa [mapOk_mapOk] using this

theorem line_names : isIf (str "line") = false ∧ isElif (str "line") = false ∧
    ¬ (str "line" = str "endif") ∧ ¬ (str "line" = str "define") ∧ ¬ (str "line" = str "undef") ∧
    ¬ (str "line" = str "error") ∧ ¬ (str "line" = str "include") ∧
    ¬ (str "line" = str "pragma") := by decide

theorem lineStep {h d n f : Tok} {r off pend file} (hw : (LItem.line h d n).WF)
    (hf : f.firstOfLine = true)
    (ha : AtL st (h :: d :: n :: f :: r) off pend file) :
    ∃ st', AtL st' (f :: r) (decVal n.str - (d.line + 1)) off file ∧
      Reaches (B p · st) (B p · st') := by
  obtain ⟨⟨w1, w2, w3, w4, w5⟩, w6, w7, w8⟩ := hw
  simp only at w1 w2 w3 w4 w5
  obtain ⟨st1, e1, a1, p1⟩ := ha.next_cons
  obtain ⟨st2, e2, a2, p2⟩ := a1.next_cons
  obtain ⟨st3, e3, a3, p3⟩ := a2.next_cons
  obtain ⟨st4, e4, a4, p4⟩ := a3.next_cons
  obtain ⟨n1, n2, n3, n4, n5, n6, n7, n8⟩ := line_names
  refine ⟨{ st4 with
      pushed := [{ f with line := f.line + off, path := file.getD f.path }],
      lineDiff := st4.lineDiff + (decVal n.str - (d.line + 0 + off) - 1) }, ⟨?_, a4.np, a4.cond, ?_⟩,
    Reaches.of_eq 1 fun m => ?_⟩
  · have := a4.ld
    simp only [this]; omega
  · right
    rcases a4.rem with ⟨_, hs, _⟩ | ⟨_, _, _, _, _, _, h7⟩
    · exact ⟨f, r, _, rfl, hs, by rintro rfl; rfl, rfl⟩
    · rw [p4] at h7; cases h7
  · simp [B, e1, e2, e3, e4, stream, a1.cond, w1, w3, w4, w5, handle, n1, n2, n3, n4, n5, n6, n7, n8,
      lineDir, w6, w7, hf, push, p4, atoi_dec w8]

theorem lineFileStep {h d n f : Tok} {r off pend file} (hw : (LItem.lineFile h d n f).WF)
    (ha : AtL st (h :: d :: n :: f :: r) off pend file) :
    ∃ st', AtL st' r (decVal n.str - (d.line + 1)) 0 (some ((f.str.drop 1).dropLast)) ∧
      Reaches (B p · st) (B p · st') := by
  obtain ⟨⟨w1, w2, w3, w4, w5⟩, w6, w7, w8, w9, w10⟩ := hw
  simp only at w1 w2 w3 w4 w5
  obtain ⟨st1, e1, a1, p1⟩ := ha.next_cons
  obtain ⟨st2, e2, a2, p2⟩ := a1.next_cons
  obtain ⟨st3, e3, a3, p3⟩ := a2.next_cons
  obtain ⟨st4, e4, a4, p4⟩ := a3.next_cons
  obtain ⟨n1, n2, n3, n4, n5, n6, n7, n8⟩ := line_names
  refine ⟨{ st4 with
      lineDiff := st4.lineDiff + (decVal n.str - (d.line + 0 + off) - 1),
      newPath := some ((f.str.drop 1).take (f.str.length - 2)) }, ⟨?_, ?_, a4.cond, ?_⟩,
    Reaches.of_eq 1 fun m => ?_⟩
  · have := a4.ld
    simp only [this]; omega
  · rw [List.dropLast_eq_take, List.length_drop]; congr 2
  · left
    rcases a4.rem with ⟨_, hs, _⟩ | ⟨_, _, _, _, _, _, h7⟩
    · exact ⟨p4, hs, rfl⟩
    · rw [p4] at h7; cases h7
  · simp [B, e1, e2, e3, e4, stream, a1.cond, w1, w3, w4, w5, handle, n1, n2, n3, n4, n5, n6, n7, n8,
      lineDir, w6, w7, w9, w10, atoi_dec w8]

end Verif.Directives
