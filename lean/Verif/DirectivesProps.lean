import Verif.DirectivesLemmas
/-!
Properties C08 (conditional inclusion), C09 (malformed conditionals), C10 (`#line`) and
C65 (directives on the last line).

"For all sufficient fuel" is written `∃ k, ∀ n, k ≤ n → …`; a run that yields `more` for
all sufficient fuel never terminates.
-/
namespace Verif.Directives
open Verif DefineMap DirectivesSpec Run

/-- No macro defined. -/
def noMacros : Env := fun _ => none

theorem at_start (p : Par) (src : List Tok) :
    At p { src := src, cond := [1] } src noMacros [1] :=
  ⟨rfl, by simp, rfl, rfl, fun _ => by simp [init, Distinct], by
    funext n; simp [DefineMap.get, init, noMacros, chainGet], rfl⟩

instance (t : Tok) : Decidable (Inner t) := by unfold Inner; infer_instance
instance (t : Tok) : Decidable (LineStart t) := by unfold LineStart; infer_instance
instance (d : Dir) (s : Str) : Decidable (d.WF s) := by unfold Dir.WF; infer_instance
instance (s : Str) : Decidable (IsLineNumber s) := by unfold IsLineNumber; infer_instance
instance : (i : CondItem) → Decidable i.WF
  | .tok _ => by unfold CondItem.WF; infer_instance
  | .defd _ _ => by unfold CondItem.WF; infer_instance
  | .defdP _ _ _ _ => by unfold CondItem.WF; infer_instance

theorem eoi_ok {p : Par} {st : St} {e : Env} {cs} (h : At p st [] e (1 :: cs)) (n : Nat) :
    B p (n + 1) st = .ok [] := by
  simp [B, h.next_nil, stream, h.cond, eoi]

/-- The concrete parameters used in examples: djb2 hash, `#if` accepts `0` and `1`. -/
def exPar : Par where
  hash := bucketOf
  evalBuf _ l := match l with
    | [t] => if t.str = str "1" then .ok true else if t.str = str "0" then .ok false else .fail
    | _ => .fail

/-- Example tokens. -/
def hashT : Tok := { type := .PP_DIRECTIVE, str := str "#", firstOfLine := true, whitespace := true }
def idT (s : String) : Tok := { type := .T_IDENT, str := str s, whitespace := true }
def numT (s : String) (l : Int := 0) : Tok := { type := .T_NUM, str := str s, whitespace := true, line := l }
def lineT (s : String) (l : Int := 0) : Tok :=
  { type := .T_IDENT, str := str s, firstOfLine := true, whitespace := true, line := l }
def dirT (s : String) (l : Int := 0) : Dir := ⟨{ hashT with line := l }, { idT s with line := l }⟩

/-! ### C08 -/

/-- **C08**: preprocessing a file made of text, `#define`, `#undef` and arbitrarily nested
`#if` sections delivers exactly the text of the selected groups, whatever the skipped
groups contain. -/
theorem conditional_inclusion (p : Par) (g : Group) (hw : g.WF) (hs : g.EndsSafely)
    {out : List Tok} {e' : Env} (he : g.eval p.ev noMacros = some (out, e')) :
    ∃ k, ∀ n, k ≤ n → preprocess p n g.render = .ok out := by
  have ha : At p { src := g.render, cond := [1] } (g.render ++ []) noMacros [1] := by
    rw [List.append_nil]; exact at_start p _
  obtain ⟨st', a', r'⟩ := keep_group g hw he ha (Or.inr ⟨rfl, hs⟩)
  have r2 : Reaches (B p · { src := g.render, cond := [1] }) (fun _ => .ok out) := by
    refine r'.trans (Reaches.of_eq 1 fun n => ?_)
    simp [eoi_ok a' n]
  exact r2.done fun _ => rfl

/-- **C08** in context: the machine at any point of any kept group, before a whole
section (or any other group) and any following lines: the group contributes its selected
text and nothing else, and the rest is processed under the resulting macro table. -/
theorem conditional_inclusion_in_context (p : Par) (g : Group) (hw : g.WF) {e e' : Env}
    {r out : List Tok} {st : St} {cs : List Int} (he : g.eval p.ev e = some (out, e'))
    (ha : At p st (g.render ++ r) e (1 :: cs)) (hr : ∃ f fs, r = f :: fs ∧ LineStart f) :
    ∃ st', At p st' r e' (1 :: cs) ∧
      Reaches (B p · st) (fun n => mapOk (out ++ ·) (B p n st')) :=
  keep_group g hw he ha (Or.inl hr)

/-- A kept `#error` stops the compiler; so does a kept directive with an unknown name. -/
theorem kept_unknown_fails (p : Par) (g : Group) (hw : g.WF) {out : List Tok} {e' : Env}
    (he : g.eval p.ev noMacros = some (out, e')) (d : Dir) (s : Str) (hd : d.WF s)
    (hs : s ∉ condNames) (hu : s ∉ [str "define", str "undef", str "pragma", str "line"])
    (rest : List Tok) :
    ∃ k, ∀ n, k ≤ n → preprocess p n (g.render ++ d.hash :: d.name :: rest) = .fail := by
  obtain ⟨st1, a1, r1⟩ := keep_group g hw he (at_start p (g.render ++ d.hash :: d.name :: rest))
    (Or.inl ⟨_, _, rfl, hash_start hd⟩)
  have r2 : Reaches (B p · { src := g.render ++ d.hash :: d.name :: rest, cond := [1] })
      (fun _ => .fail) := by
    refine r1.trans (Reaches.of_eq 1 fun n => ?_)
    obtain ⟨st2, e2, a2, p2⟩ := a1.next_cons
    obtain ⟨st3, e3, a3, p3⟩ := a2.next_cons
    obtain ⟨w1, w2, w3, w4, w5⟩ := hd
    obtain ⟨h1, h2, h3⟩ := other_names hs
    simp only [List.mem_cons, List.not_mem_nil, or_false, not_or] at hu
    simp [B, e2, stream, a2.cond, w1, e3, w3, w4, w5, handle, h1, h2, h3, hu]
  exact r2.done fun _ => rfl

/-- Hypotheses of the C08 theorems: a file with nesting, `#elif`, `#else`, a variadic
function-like `#define`, a `#define` seen by a later condition and rubbish in a skipped group. -/
def exGroup : Group :=
  .cons (.define (dirT "define") (idT "A") [numT "7"]) <|
  .cons (.defineF (dirT "define") (idT "F") { type := .T_LPAR, str := str "(" }
    (.more (idT "a") { type := .T_COMMA, str := str "," } (.dots { type := .T_ELLIPSIS, str := str "..." }))
    { type := .T_RPAR, str := str ")" } [idT "a"]) <|
  .cons (.sect (dirT "ifdef") (.ifdef (idT "B"))
      (.cons (.text [lineT "x"]) (.cons (.other (dirT "error") [idT "oops"]) .nil))
      (.elif (dirT "elif") (.expr [.defd (idT "defined") (idT "A")])
        (.cons (.sect (dirT "ifndef") (.ifndef (idT "A")) (.cons (.text [lineT "y"]) .nil)
          (.els (dirT "else") (.cons (.text [lineT "z"]) .nil) (dirT "endif"))) .nil)
        (.endif (dirT "endif")))) <|
  .cons (.text [lineT "w", idT "v"]) .nil

example : exGroup.WF ∧ exGroup.EndsSafely ∧
    (exGroup.eval exPar.ev noMacros).map Prod.fst = some [lineT "z", lineT "w", idT "v"] ∧
    (exGroup.eval exPar.ev noMacros).map (fun r => (r.2 (str "F")).map fun d => (d.func, d.vararg, d.par))
      = some (some (true, true, [idT "a"])) := by
  refine ⟨?_, ?_, by decide +kernel, by decide +kernel⟩
  · have text : ∀ s, (Item.text [lineT s]).WF := fun s =>
      ⟨_, _, rfl, ⟨rfl, fun _ => rfl⟩, by simp [lineT], by simp [lineT], by simp⟩
    refine ⟨⟨by decide, by decide, by decide, by decide⟩,
      ⟨by decide, by decide, by decide, ⟨by decide, by decide, by decide, by decide, by decide, by decide⟩,
        by decide, by decide⟩, ⟨by decide, by simp only [Cond.WF]; decide,
      ⟨text _, ⟨⟨str "error", by decide, by decide⟩, by decide⟩, trivial⟩,
      ⟨by decide, by simp only [Cond.WF]; decide,
        ⟨⟨by decide, by simp only [Cond.WF]; decide, ⟨text _, trivial⟩, by decide,
          ⟨text _, trivial⟩, by decide⟩, trivial⟩, by simp only [Tail.WF]; decide⟩⟩,
      ⟨_, _, rfl, by decide, by decide, by decide, by decide⟩, trivial⟩
  · simp [exGroup, Group.EndsSafely]

/-- The run itself on that file. -/
example : preprocess exPar 60 exGroup.render = .ok [lineT "z", lineT "w", idT "v"] := by
  decide +kernel

/-! ### C09 -/

/-- Full statement of **C09**: unbalanced conditionals are diagnosed. -/
def MalformedDiagnosed : Prop :=
  ∀ (p : Par) (src : List Tok), malformed 0 src = true →
    ∃ k, ∀ n, k ≤ n → preprocess p n src = .fail

/-- A stray `#endif`, after any file prefix, makes the compiler read below its condition
stack. -/
theorem stray_endif_ub (p : Par) (g : Group) (hw : g.WF) {out : List Tok} {e' : Env}
    (he : g.eval p.ev noMacros = some (out, e')) (d : Dir) (hd : d.WF (str "endif"))
    (rest : List Tok) :
    ∃ k, ∀ n, k ≤ n → preprocess p n (g.render ++ d.hash :: d.name :: rest) = .ub := by
  obtain ⟨st1, a1, r1⟩ := keep_group g hw he (at_start p (g.render ++ d.hash :: d.name :: rest))
    (Or.inl ⟨_, _, rfl, hash_start hd⟩)
  obtain ⟨st2, a2, r2⟩ := endif_step hd a1
  have r3 : Reaches (B p · { src := g.render ++ d.hash :: d.name :: rest, cond := [1] })
      (fun _ => .ub) := by
    refine (r1.trans (r2.mapOk _)).trans (Reaches.of_eq 1 fun n => ?_)
    simp [B, stream]
    cases rest with
    | nil => simp [a2.next_nil, a2.cond]
    | cons x xs =>
      obtain ⟨st4, e4, a4, p4⟩ := a2.next_cons
      simp [e4, a4.cond]
  exact r3.done fun _ => rfl

/-- A section whose condition is false and which is never closed: the preprocessor never
terminates. -/
theorem unterminated_skipped_diverges (p : Par) (g g2 : Group) (hw : g.WF) (hw2 : g2.WF)
    {out : List Tok} {e' : Env} (he : g.eval p.ev noMacros = some (out, e'))
    (d : Dir) (c : Cond) (hd : d.WF c.ifName) (hc : c.WF) (hf : c.holds p.ev e' = some false)
    (last : Tok) (ts : List Tok) (h1 : LineStart last)
    (h2 : ∀ x ∈ last :: ts, x.type ≠ .PP_DIRECTIVE) :
    ∃ k, ∀ n, k ≤ n → preprocess p n
      (g.render ++ d.hash :: d.name :: (c.render ++ (g2.render ++ last :: ts))) = .more := by
  obtain ⟨st1, a1, r1⟩ := keep_group g hw he
    (at_start p (g.render ++ d.hash :: d.name :: (c.render ++ (g2.render ++ last :: ts))))
    (Or.inl ⟨_, _, rfl, hash_start hd⟩)
  obtain ⟨f, fs, hff, hfs⟩ := group_head g2 hw2 (r := last :: ts) ⟨_, _, rfl, h1⟩
  rw [hff] at a1
  obtain ⟨st2, a2, r2⟩ := if_taken hfs.1 hc hd false hf a1
  rw [← hff] at a2
  obtain ⟨st3, a3, r3⟩ := skip_group g2 hw2 (by decide) a2 ⟨_, _, rfl, h1⟩
  rw [show last :: ts = (last :: ts) ++ [] by simp] at a3
  obtain ⟨st4, a4, r4⟩ := skip_list (last :: ts) a3 (by decide) h2
  have r5 := r1.trans ((r2.trans (r3.trans r4)).mapOk (out ++ ·))
  obtain ⟨k, hk⟩ := r5.done (x := .more) fun n => by
    simp [skip_eoi_more a4 (by decide) n]
  exact ⟨k, hk⟩

/-- A stray `#else` or `#elif`: the preprocessor skips the rest of the file and never
terminates. -/
theorem stray_else_diverges (p : Par) (g : Group) (hw : g.WF)
    {out : List Tok} {e' : Env} (he : g.eval p.ev noMacros = some (out, e'))
    (d : Dir) (s : Str) (hs : s ∈ [str "else", str "elif", str "elifdef", str "elifndef"])
    (hd : d.WF s) (ts : List Tok) (h2 : ∀ x ∈ ts, x.type ≠ .PP_DIRECTIVE) :
    ∃ k, ∀ n, k ≤ n → preprocess p n (g.render ++ d.hash :: d.name :: ts) = .more := by
  obtain ⟨st1, a1, r1⟩ := keep_group g hw he (at_start p (g.render ++ d.hash :: d.name :: ts))
    (Or.inl ⟨_, _, rfl, hash_start hd⟩)
  have hn : isIf s = false ∧ isElif s = true := by
    simp only [List.mem_cons, List.not_mem_nil, or_false] at hs
    rcases hs with rfl | rfl | rfl | rfl <;> decide
  obtain ⟨st2, a2, r2⟩ := elif_skipped hd hn.1 hn.2 (by decide) a1
  rw [show ts = ts ++ [] by simp] at a2
  obtain ⟨st4, a4, r4⟩ := skip_list ts a2 (by decide) h2
  have r5 := r1.trans ((r2.trans r4).mapOk (out ++ ·))
  obtain ⟨k, hk⟩ := r5.done (x := .more) fun n => by
    simp [skip_eoi_more a4 (by decide) n]
  exact ⟨k, hk⟩

/-- A section whose condition is true and which is never closed is accepted in silence. -/
theorem unterminated_kept_accepted (p : Par) (g g2 : Group) (hw : g.WF) (hw2 : g2.WF)
    (hs : g2.EndsSafely) {out out2 : List Tok} {e' e2 : Env}
    (he : g.eval p.ev noMacros = some (out, e')) (he2 : g2.eval p.ev e' = some (out2, e2))
    (d : Dir) (c : Cond) (hd : d.WF c.ifName) (hc : c.WF) (hf : c.holds p.ev e' = some true)
    (hne : ∃ f fs, g2.render = f :: fs ∧ LineStart f) :
    ∃ k, ∀ n, k ≤ n → preprocess p n
      (g.render ++ d.hash :: d.name :: (c.render ++ g2.render)) = .ok (out ++ out2) := by
  obtain ⟨st1, a1, r1⟩ := keep_group g hw he
    (at_start p (g.render ++ d.hash :: d.name :: (c.render ++ g2.render)))
    (Or.inl ⟨_, _, rfl, hash_start hd⟩)
  obtain ⟨f, fs, hff, hfs⟩ := hne
  rw [hff] at a1
  obtain ⟨st2, a2, r2⟩ := if_taken hfs.1 hc hd true hf a1
  rw [← hff, show g2.render = g2.render ++ [] by simp] at a2
  obtain ⟨st3, a3, r3⟩ := keep_group g2 hw2 he2 a2 (Or.inr ⟨rfl, hs⟩)
  have r5 := r1.trans ((r2.trans r3).mapOk (out ++ ·))
  have r6 : Reaches _ (fun _ => Run.ok (out ++ out2)) := r5.trans (Reaches.of_eq 1 fun n => by
    simp [eoi_ok a3 n])
  exact r6.done fun _ => rfl

/-- **C09 is violated**, in each of its three cases: a stray `#endif` is undefined
behaviour in the compiler, a stray `#else` makes it run for ever, an unclosed `#ifndef X`
whose condition holds is accepted. -/
theorem malformed_diagnosed_violated : ¬ MalformedDiagnosed := by
  intro h
  obtain ⟨k, hk⟩ := h exPar [hashT, idT "endif"] (by decide)
  obtain ⟨k', hk'⟩ := stray_endif_ub exPar .nil trivial (out := []) (e' := noMacros) rfl
    (dirT "endif") (by decide) []
  have a := hk (max k k') (Nat.le_max_left _ _)
  have b := hk' (max k k') (Nat.le_max_right _ _)
  simp only [Group.render, List.nil_append] at b
  rw [show [hashT, idT "endif"] = [(dirT "endif").hash, (dirT "endif").name] from rfl, b] at a
  cases a

/-- **C09 (partial)**: a balanced file, in the sense of the tree grammar, is never
misjudged: it neither fails nor runs for ever nor reads outside the condition stack.
Missing: diagnosis of unbalanced files, which is false (above). -/
theorem balanced_accepted_partial (p : Par) (g : Group) (hw : g.WF) (hs : g.EndsSafely)
    {out : List Tok} {e' : Env} (he : g.eval p.ev noMacros = some (out, e')) :
    ∃ k, ∀ n, k ≤ n → ∃ o, preprocess p n g.render = .ok o := by
  obtain ⟨k, hk⟩ := conditional_inclusion p g hw hs he
  exact ⟨k, fun n hn => ⟨out, hk n hn⟩⟩

/-- The hypotheses of the C09 theorems are satisfiable: each malformed file below. -/
example : malformed 0 [hashT, idT "endif"] = true ∧
    malformed 0 [hashT, idT "else", lineT "x"] = true ∧
    malformed 0 [hashT, idT "ifndef", idT "X", lineT "x"] = true ∧
    malformed 0 exGroup.render = false ∧
    preprocess exPar 60 [hashT, idT "else", lineT "x"] = .more ∧
    preprocess exPar 60 [hashT, idT "ifdef", idT "X", lineT "x"] = .more ∧
    preprocess exPar 60 [hashT, idT "ifndef", idT "X", lineT "x"] = .ok [lineT "x"] := by
  decide +kernel

/-! ### C65: a directive on the last line -/

/-- Full statement of **C65**: a file whose last line is a `#define` is processed (its
text is delivered). -/
def LastDefineAccepted : Prop :=
  ∀ (p : Par) (g : Group) (out : List Tok) (e' : Env), g.WF → g.eval p.ev noMacros = some (out, e') →
    ∀ (d : Dir) (n : Tok) (b : List Tok), (Item.define d n b).WF →
      ∃ k, ∀ m, k ≤ m → preprocess p m (g.render ++ (Item.define d n b).render) = .ok out

theorem readLine_end {p : Par} {e : Env} {c} (n : Nat) (b : List Tok)
    (hb : ∀ x ∈ b, x.firstOfLine = false) {st : St} (h : At p st b e c) :
    readLine n (next st).1 (next st).2 = .more := by
  induction n generalizing b st with
  | zero => rfl
  | succ n ih =>
    cases b with
    | nil =>
      have := ih [] (by simp) h
      rw [h.next_nil] at this ⊢
      simp [readLine, h.next_nil, this, show eoi.firstOfLine = false from rfl]
    | cons x xs =>
      obtain ⟨st', e1, a1, _⟩ := h.next_cons
      have := ih xs (fun y hy => hb y (by simp [hy])) a1
      rw [e1]
      simp [readLine, hb x (by simp), this]

/-- An object-like `#define` on the last line of the file: the preprocessor never
terminates. -/
theorem last_define_diverges (p : Par) (g : Group) (hw : g.WF)
    {out : List Tok} {e' : Env} (he : g.eval p.ev noMacros = some (out, e'))
    (d : Dir) (n : Tok) (b : List Tok) (hd : (Item.define d n b).WF) :
    ∃ k, ∀ m, k ≤ m → preprocess p m (g.render ++ (Item.define d n b).render) = .more := by
  obtain ⟨w1, w2, w3, w4⟩ := hd
  obtain ⟨st1, a1, r1⟩ := keep_group g hw he
    (at_start p (g.render ++ (Item.define d n b).render)) (Or.inl ⟨_, _, rfl, hash_start w1⟩)
  have key : ∀ m, B p m st1 = .more := by
    intro m
    cases m with
    | zero => rfl
    | succ m =>
      simp only [Item.render] at a1
      obtain ⟨st2, e2, a2, _⟩ := a1.next_cons
      obtain ⟨st3, e3, a3, _⟩ := a2.next_cons
      obtain ⟨st4, e4, a4, _⟩ := a3.next_cons
      obtain ⟨v1, v2, v3, v4, v5⟩ := w1
      have hr := readLine_end m b (fun x hx => (w3 x hx).1) a4
      have hl : ¬ ((next st4).1.type = .T_LPAR ∧ (next st4).1.whitespace = false) := by
        cases b with
        | nil => simp [a4.next_nil, eoi]
        | cons x xs =>
          obtain ⟨st5, e5, _, _⟩ := a4.next_cons
          rw [e5]; exact w4 x (by simp)
      have hnm : isIf (str "define") = false ∧ isElif (str "define") = false ∧
          ¬ str "define" = str "endif" := by decide
      have hd' : defineDir p m st3 = .more := by
        simp only [defineDir, e4]
        rw [if_neg (by simpa using hl), hr]; rfl
      simp [B, e2, e3, stream, a2.cond, v1, v3, v4, v5, handle, hnm, hd']
  exact (r1.trans (Reaches.refl _)).done (x := .more) fun m => by simp [key m]

/-- **C65 is violated**: the one-line file `#define A` is never finished. -/
theorem last_define_violated : ¬ LastDefineAccepted := by
  intro h
  have hd : (Item.define (dirT "define") (idT "A") []).WF := by
    simp [Item.WF]; decide
  obtain ⟨k, hk⟩ := h exPar .nil [] noMacros trivial rfl _ _ _ hd
  obtain ⟨k', hk'⟩ := last_define_diverges exPar .nil trivial (out := []) (e' := noMacros) rfl _ _ _ hd
  have a := hk (max k k') (Nat.le_max_left _ _)
  rw [hk' (max k k') (Nat.le_max_right _ _)] at a
  cases a

/-- **C65 (partial)**: files with a line of text (or a closed section) after the last
`#define` are processed.  Missing: the last-line case, which is false (above). -/
theorem define_then_text_partial (p : Par) (g : Group) (hw : g.WF) {out : List Tok} {e' : Env}
    (he : g.eval p.ev noMacros = some (out, e')) (d : Dir) (n : Tok) (b : List Tok)
    (hd : (Item.define d n b).WF) (l : List Tok) (hl : (Item.text l).WF) :
    ∃ k, ∀ m, k ≤ m →
      preprocess p m (g.render ++ ((Item.define d n b).render ++ l)) = .ok (out ++ l) := by
  have hw' : (Group.cons (.define d n b) (.cons (.text l) .nil)).WF := ⟨hd, hl, trivial⟩
  obtain ⟨st1, a1, r1⟩ := keep_group g hw he
    (at_start p (g.render ++ ((Item.define d n b).render ++ l)))
    (Or.inl ⟨_, _, rfl, hash_start hd.1⟩)
  have he2 : (Group.cons (.define d n b) (.cons (.text l) .nil)).eval p.ev e' =
      some (l, upd e' n.str (some (stored { name := n.str, body := b }))) := by
    simp [Group.eval, Item.eval]
  obtain ⟨st2, a2, r2⟩ := keep_group (r := []) _ hw' he2
    (by simpa [Group.render, Item.render] using a1) (Or.inr ⟨rfl, by simp [Group.EndsSafely]⟩)
  have r3 := r1.trans (r2.mapOk (out ++ ·))
  have r4 : Reaches _ (fun _ => Run.ok (out ++ l)) := r3.trans (Reaches.of_eq 1 fun m => by
    simp [eoi_ok a2 m])
  exact r4.done fun _ => rfl

example : (Item.define (dirT "define") (idT "A") [numT "1"]).WF ∧ (Item.text [lineT "A"]).WF ∧
    preprocess exPar 20 ([hashT, idT "define", idT "A", numT "1"] ++ [lineT "A"]) = .ok [lineT "A"] := by
  refine ⟨by simp [Item.WF]; decide, ⟨_, _, rfl, by simp [LineStart]; decide, by decide, by decide, by simp⟩,
    by decide +kernel⟩

/-! ### C10 -/

/-- Full statement of **C10**: tokens are delivered with their presumed position. -/
def LineDirectiveExact : Prop :=
  ∀ (p : Par) (is : List LItem), (∀ i ∈ is, i.WF) →
    (∃ l, is.getLast? = some (.text l)) →
    ∃ k, ∀ n, k ≤ n → preprocess p n (is.flatMap LItem.render) = .ok (presumed 0 none is)

/-- What the code delivers: as `presumed`, but the token read ahead by `#line N` (the
first of the next line) was already shifted by the offset then in force: `pend`. -/
def delivered (off pend : Int) (file : Option Str) : List LItem → List Tok
  | [] => []
  | .text [] :: is => delivered off pend file is
  | .text (t :: ts) :: is =>
    { t with line := t.line + pend + off, path := file.getD t.path } ::
      (ts.map (fun t => { t with line := t.line + off, path := file.getD t.path })
        ++ delivered off 0 file is)
  | .line _ d n :: is => delivered (decVal n.str - (d.line + 1)) off file is
  | .lineFile _ d n f :: is =>
    delivered (decVal n.str - (d.line + 1)) 0 (some ((f.str.drop 1).dropLast)) is

theorem litem_head {i : LItem} (h : i.WF) : ∃ f fs, i.render = f :: fs ∧ f.firstOfLine = true := by
  cases i with
  | text l => obtain ⟨t, ts, rfl, h1, _⟩ := h; exact ⟨t, ts, rfl, h1.1⟩
  | line h' d n => exact ⟨_, _, rfl, h.1.2.1⟩
  | lineFile h' d n f => exact ⟨_, _, rfl, h.1.2.1⟩

theorem delivered_reached (p : Par) (is : List LItem) (hw : ∀ i ∈ is, i.WF)
    (hl : is = [] ∨ ∃ l, is.getLast? = some (.text l)) {st : St} {off pend file}
    (ha : AtL st (is.flatMap LItem.render) off pend file) :
    Reaches (B p · st) (fun _ => .ok (delivered off pend file is)) := by
  induction is generalizing st off pend file with
  | nil =>
    refine Reaches.of_eq 1 fun n => ?_
    obtain ⟨h1, h2, h3, h4⟩ := ha
    rcases h4 with ⟨h4, h5, rfl⟩ | ⟨_, _, _, h4, _⟩
    · simp only [List.flatMap_nil] at h5
      simp [B, next, h4, h5, stream, h3, adjust, eoi, delivered]
    · cases h4
  | cons i is ih =>
    have hi := hw i (by simp)
    have hw' : ∀ i ∈ is, i.WF := fun j hj => hw j (by simp [hj])
    have hl' : is = [] ∨ ∃ l, is.getLast? = some (.text l) := by
      cases is with
      | nil => exact Or.inl rfl
      | cons j js =>
        rcases hl with hl | hl
        · cases hl
        · right; simpa using hl
    rw [List.flatMap_cons] at ha
    have hne : (∀ l, i ≠ .text l) →
        ∃ f fs, is.flatMap LItem.render = f :: fs ∧ f.firstOfLine = true := by
      intro hnl
      cases is with
      | nil =>
        rcases hl with hl | ⟨l', hl⟩
        · cases hl
        · simp only [List.getLast?_singleton, Option.some.injEq] at hl
          exact absurd hl (hnl l')
      | cons j js =>
        obtain ⟨f, fs, e1, e2⟩ := litem_head (hw j (by simp))
        exact ⟨f, fs ++ js.flatMap LItem.render, by simp [List.flatMap_cons, e1], e2⟩
    cases i with
    | text l =>
      obtain ⟨t, ts, rfl, h1, h2, h3, h4⟩ := hi
      obtain ⟨st1, a1, r1⟩ := textL_pend (p := p) t ts ha (by
        intro x hx
        rcases List.mem_cons.1 hx with rfl | hx
        · exact ⟨h2, h3⟩
        · exact (h4 x hx).2)
      have r2 := (ih hw' hl' a1).mapOk (({ t with line := t.line + pend + off, path := file.getD t.path } ::
        ts.map (fun t => { t with line := t.line + off, path := file.getD t.path })) ++ ·)
      simpa [delivered] using r1.trans r2
    | line h d n =>
      obtain ⟨f, fs, e1, e2⟩ := hne (by intro l; simp)
      rw [e1] at ha
      obtain ⟨st1, a1, r1⟩ := lineStep (p := p) hi e2 ha
      rw [← e1] at a1
      exact r1.trans (ih hw' hl' a1)
    | lineFile h d n f =>
      obtain ⟨st1, a1, r1⟩ := lineFileStep (p := p) hi ha
      exact r1.trans (ih hw' hl' a1)

theorem delivered_ok (p : Par) (is : List LItem) (hw : ∀ i ∈ is, i.WF)
    (hl : ∃ l, is.getLast? = some (.text l)) :
    ∃ k, ∀ n, k ≤ n → preprocess p n (is.flatMap LItem.render) = .ok (delivered 0 0 none is) :=
  (delivered_reached p is hw (Or.inr hl)
    (st := { src := is.flatMap LItem.render, cond := [1] })
    ⟨rfl, rfl, rfl, Or.inl ⟨rfl, rfl, rfl⟩⟩).done fun _ => rfl

/-- Every `#line N` without a file name is met while presumed and physical line numbers
agree (`off = 0`), that is: it is the first, or follows one that changed nothing. -/
def PlainFirst (off : Int) : List LItem → Prop
  | [] => True
  | .text _ :: is => PlainFirst off is
  | .line _ d n :: is => off = 0 ∧ PlainFirst (decVal n.str - (d.line + 1)) is
  | .lineFile _ d n _ :: is => PlainFirst (decVal n.str - (d.line + 1)) is

theorem delivered_eq_presumed (is : List LItem) (off : Int) (file : Option Str)
    (h : PlainFirst off is) : delivered off 0 file is = presumed off file is := by
  induction is generalizing off file with
  | nil => rfl
  | cons i is ih =>
    cases i with
    | text l =>
      cases l with
      | nil => simpa [delivered, presumed] using ih off file h
      | cons t ts => simp [delivered, presumed, ih off file h]
    | line _ d n =>
      obtain ⟨rfl, h2⟩ := h
      exact ih _ _ h2
    | lineFile _ d n f => exact ih _ _ h

/-- What the code delivers is `presumed` up to the line numbers: files, spellings, kinds
are always right, and so is every line number that is not the first of its line. -/
theorem delivered_length (is : List LItem) (off pend : Int) (file : Option Str) :
    (delivered off pend file is).map (fun t => (t.type, t.str, t.path)) =
      (presumed off file is).map (fun t => (t.type, t.str, t.path)) := by
  induction is generalizing off pend file with
  | nil => rfl
  | cons i is ih =>
    cases i with
    | text l =>
      cases l with
      | nil => simpa [delivered, presumed] using ih off pend file
      | cons t ts => simp [delivered, presumed, ih off 0 file]
    | line _ d n => exact ih _ _ _
    | lineFile _ d n f => exact ih _ _ _

/-- **C10 (partial)**: in a file whose plain `#line N` directives are met only while no
shift is in force, and with any number of `#line N "file"` directives anywhere, every
token is delivered with its presumed line and file.
Missing: a plain `#line N` while a shift is in force, where it is false (below). -/
theorem line_directive_partial (p : Par) (is : List LItem) (hw : ∀ i ∈ is, i.WF)
    (hl : ∃ l, is.getLast? = some (.text l)) (hp : PlainFirst 0 is) :
    ∃ k, ∀ n, k ≤ n → preprocess p n (is.flatMap LItem.render) = .ok (presumed 0 none is) := by
  rw [← delivered_eq_presumed is 0 none hp]
  exact delivered_ok p is hw hl

/-- **C10 (partial)**, no restriction on the directives: spelling, kind and presumed file
of every token are right. -/
theorem line_directive_file_partial (p : Par) (is : List LItem) (hw : ∀ i ∈ is, i.WF)
    (hl : ∃ l, is.getLast? = some (.text l)) :
    ∃ k, ∀ n, k ≤ n → ∃ out, preprocess p n (is.flatMap LItem.render) = .ok out ∧
      out.map (fun t => (t.type, t.str, t.path)) =
        (presumed 0 none is).map (fun t => (t.type, t.str, t.path)) := by
  obtain ⟨k, hk⟩ := delivered_ok p is hw hl
  exact ⟨k, fun n hn => ⟨_, hk n hn, delivered_length is 0 0 none⟩⟩

/-- `#line 100`, a line of text, `#line 200`, a line of text. -/
def exLine : List LItem :=
  [.line (dirT "line" 1).hash (dirT "line" 1).name (numT "100" 1), .text [lineT "a" 2],
   .line (dirT "line" 3).hash (dirT "line" 3).name (numT "200" 3),
   .text [lineT "b" 4, { idT "c" with line := 4 }]]

theorem exLine_wf : ∀ i ∈ exLine, i.WF := by
  intro i hi
  simp only [exLine, List.mem_cons, List.not_mem_nil, or_false] at hi
  rcases hi with rfl | rfl | rfl | rfl
  · simp only [LItem.WF]; decide
  · exact ⟨_, _, rfl, by decide, by decide, by decide, by simp⟩
  · simp only [LItem.WF]; decide
  · exact ⟨_, _, rfl, by decide, by decide, by decide, by decide⟩

/-- **C10 is violated**: the first token after the second `#line` is reported on line 298
instead of 200; its neighbour is right. -/
theorem line_directive_violated : ¬ LineDirectiveExact := by
  intro h
  have hl : ∃ l, exLine.getLast? = some (.text l) := ⟨_, rfl⟩
  obtain ⟨k, hk⟩ := h exPar exLine exLine_wf hl
  obtain ⟨k', hk'⟩ := delivered_ok exPar exLine exLine_wf hl
  have a := hk (max k k') (Nat.le_max_left _ _)
  rw [hk' (max k k') (Nat.le_max_right _ _)] at a
  revert a
  decide

example : (delivered 0 0 none exLine).map (·.line) = [100, 298, 200] ∧
    (presumed 0 none exLine).map (·.line) = [100, 200, 200] := by decide

/-- The same double shift hits the token read ahead by `#define`: here `a`, on physical
line 3 after `#line 100` on line 1, is presumed to be on line 101. -/
theorem line_after_define_violated :
    (preprocess exPar 20
      ([{ hashT with line := 1 }, { idT "line" with line := 1 }, numT "100" 1] ++
       [{ hashT with line := 2 }, { idT "define" with line := 2 }, { idT "X" with line := 2 }] ++
       [lineT "a" 3, { idT "b" with line := 3 }])) = .ok [lineT "a" 199, { idT "b" with line := 101 }] := by
  decide +kernel

/-- Hypotheses of the partial theorems. -/
def exLine2 : List LItem :=
  [.text [lineT "z" 1], .line (dirT "line" 2).hash (dirT "line" 2).name (numT "100" 2), .text [lineT "a" 3],
   .lineFile (dirT "line" 4).hash (dirT "line" 4).name (numT "7" 4)
     { type := .T_STRING, str := str "\"x.y\"" },
   .text [lineT "b" 5, { idT "c" with line := 5 }], .text [lineT "d" 6]]

example : (∀ i ∈ exLine2, i.WF) ∧ (∃ l, exLine2.getLast? = some (.text l)) ∧ PlainFirst 0 exLine2 ∧
    (presumed 0 none exLine2).map (fun t => (t.line, t.path)) =
      [(1, []), (100, []), (7, str "x.y"), (7, str "x.y"), (8, str "x.y")] := by
  refine ⟨?_, ⟨_, rfl⟩, by simp [exLine2, PlainFirst], by decide⟩
  intro i hi
  simp only [exLine2, List.mem_cons, List.not_mem_nil, or_false] at hi
  rcases hi with rfl | rfl | rfl | rfl | rfl | rfl
  · exact ⟨_, _, rfl, by decide, by decide, by decide, by simp⟩
  · simp only [LItem.WF]; decide
  · exact ⟨_, _, rfl, by decide, by decide, by decide, by simp⟩
  · simp only [LItem.WF]; decide
  · exact ⟨_, _, rfl, by decide, by decide, by decide, by decide⟩
  · exact ⟨_, _, rfl, by decide, by decide, by decide, by simp⟩

end Verif.Directives
