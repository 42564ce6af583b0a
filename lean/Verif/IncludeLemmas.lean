import Verif.IncludeSpec
import Verif.InputProps
import Verif.StringSetProps
/-! Lemmas for `IncludeProps`. -/
namespace Verif.Include
open Verif Input InputSpec IncludeSpec

theorem adjust_zero (t : Tok) : adjust 0 none t = t := by simp [adjust]

/-- A file as its path and the tokens still to come. -/
def flat (f : File) : Str × List Tok := (f.path, f.pushed ++ f.toks)

/-- The state stands for the given tokens, and the current file has at most `k` tokens pushed back. -/
structure Good (paths : List Str) (k : Nat) (fl : List (Str × List Tok)) (D ds : List Str) (st : St) : Prop where
  files : st.files.map flat = fl
  top : ∀ f fs, st.files = f :: fs → f.pushed.length ≤ k
  under : ∀ f fs, st.files = f :: fs → ∀ g ∈ fs, g.pushed.length ≤ 2
  diff : st.lineDiff = 0
  np : st.newPath = none
  paths : st.paths = paths
  dis : ∀ q, q ∈ st.disabled ↔ q ∈ D
  deps : st.deps = ds

variable {paths : List Str} {k : Nat} {D ds : List Str} {st : St} {p : Str} {ts : List Tok} {t : Tok} {r : List (Str × List Tok)}

theorem Good.mono {fl : List (Str × List Tok)} {k' : Nat} (h : Good paths k fl D ds st) (hk : k ≤ k') : Good paths k' fl D ds st :=
  { h with top := fun f fs e => Nat.le_trans (h.top f fs e) hk }

/-- The next token is the next one of the current file. -/
theorem next_good (h : Good paths k ((p, t :: ts) :: r) D ds st) :
    ∃ st1, next st = .ok (t, st1) ∧ Good paths (k - 1) ((p, ts) :: r) D ds st1 := by
  obtain ⟨files, diff, np, ps, dis, deps⟩ := st
  obtain ⟨h1, h2, h3, h4, h5, h6, h7, h8⟩ := h
  dsimp only at *
  subst h4 h5 h6 h8
  cases files with
  | nil => cases h1
  | cons f fs =>
    obtain ⟨fp, ft, fu⟩ := f
    simp only [List.map_cons, flat, List.cons.injEq, Prod.mk.injEq] at h1
    obtain ⟨⟨e1, e2⟩, e3⟩ := h1
    have l2 := h2 _ _ rfl
    have l3 := h3 _ _ rfl
    dsimp only at l2 e2
    cases fu with
    | cons x fu =>
      simp only [List.cons_append, List.cons.injEq] at e2
      obtain ⟨rfl, e2⟩ := e2
      refine ⟨{ files := ⟨fp, ft, fu⟩ :: fs, lineDiff := 0, newPath := none, paths := ps, disabled := dis, deps := deps }, ?_, ?_⟩
      · simp [next, nextFiles, adjust_zero]
      · refine ⟨by simp [flat, e1, e2, e3], ?_, ?_, rfl, rfl, rfl, h7, rfl⟩
        · intro f fs' e
          obtain ⟨rfl, rfl⟩ := List.cons.inj e
          simp only [List.length_cons] at l2
          simp only; omega
        · intro f fs' e
          obtain ⟨rfl, rfl⟩ := List.cons.inj e
          exact l3
    | nil =>
      simp only [List.nil_append] at e2
      subst e2
      refine ⟨{ files := ⟨fp, ts, []⟩ :: fs, lineDiff := 0, newPath := none, paths := ps, disabled := dis, deps := deps }, ?_, ?_⟩
      · simp [next, nextFiles, adjust_zero]
      · refine ⟨by simp [flat, e1, e3], ?_, ?_, rfl, rfl, rfl, h7, rfl⟩
        · intro f fs' e
          obtain ⟨rfl, rfl⟩ := List.cons.inj e
          simp
        · intro f fs' e
          obtain ⟨rfl, rfl⟩ := List.cons.inj e
          exact l3

/-- A token that is pushed back is the next one. -/
theorem push_good (h : Good paths k ((p, ts) :: r) D ds st) (hk : k ≤ 2) (t : Tok) :
    ∃ st1, push t st = .ok st1 ∧ Good paths (k + 1) ((p, t :: ts) :: r) D ds st1 ∧ next st1 = .ok (t, st) := by
  obtain ⟨files, diff, np, ps, dis, deps⟩ := st
  obtain ⟨h1, h2, h3, h4, h5, h6, h7, h8⟩ := h
  dsimp only at *
  subst h4 h5 h6 h8
  cases files with
  | nil => cases h1
  | cons f fs =>
    obtain ⟨fp, ft, fu⟩ := f
    simp only [List.map_cons, flat, List.cons.injEq, Prod.mk.injEq] at h1
    obtain ⟨⟨e1, e2⟩, e3⟩ := h1
    have l2 := h2 _ _ rfl
    have l3 := h3 _ _ rfl
    dsimp only at l2 e2
    have hn : ¬ fu.length > 2 := by omega
    refine ⟨{ files := ⟨fp, ft, t :: fu⟩ :: fs, lineDiff := 0, newPath := none, paths := ps, disabled := dis, deps := deps }, ?_, ?_, ?_⟩
    · simp [push, hn]
    · refine ⟨by simp [flat, e1, e2, e3], ?_, ?_, rfl, rfl, rfl, h7, rfl⟩
      · intro f fs' e
        obtain ⟨rfl, rfl⟩ := List.cons.inj e
        simp only [List.length_cons]; omega
      · intro f fs' e
        obtain ⟨rfl, rfl⟩ := List.cons.inj e
        exact l3
    · simp [next, nextFiles, adjust_zero]

/-- The end of an included file: the token after it is the next one of the parent. -/
theorem next_end {g : Str × List Tok} (h : Good paths k ((p, []) :: g :: r) D ds st) :
    ∃ st1, Good paths 2 (g :: r) D ds st1 ∧ next st = next st1 := by
  obtain ⟨files, diff, np, ps, dis, deps⟩ := st
  obtain ⟨h1, h2, h3, h4, h5, h6, h7, h8⟩ := h
  dsimp only at *
  subst h4 h5 h6 h8
  cases files with
  | nil => cases h1
  | cons f fs =>
    obtain ⟨fp, ft, fu⟩ := f
    simp only [List.map_cons, flat, List.cons.injEq, Prod.mk.injEq, List.append_eq_nil_iff] at h1
    obtain ⟨⟨e1, rfl, rfl⟩, e3⟩ := h1
    have l3 := h3 _ _ rfl
    cases fs with
    | nil => cases e3
    | cons f' fs =>
      refine ⟨{ files := f' :: fs, lineDiff := 0, newPath := none, paths := ps, disabled := dis, deps := deps }, ?_, ?_⟩
      · refine ⟨e3, ?_, ?_, rfl, rfl, rfl, h7, rfl⟩
        · intro f fs' e
          obtain ⟨rfl, rfl⟩ := List.cons.inj e
          exact l3 _ List.mem_cons_self
        · intro f fs' e
          obtain ⟨rfl, rfl⟩ := List.cons.inj e
          exact fun x hx => l3 x (List.mem_cons_of_mem _ hx)
      · show (nextFiles 0 none (⟨fp, [], []⟩ :: f' :: fs)).mapOk _ = (nextFiles 0 none (f' :: fs)).mapOk _
        rw [nextFiles]
        dsimp only
        rw [Run.mapOk_mapOk]
        simp only [adjust_zero]

/-- The end of the source file. -/
theorem next_eoi (h : Good paths k [(p, [])] D ds st) : next st = .ok ({ type := .T_EOI }, st) := by
  obtain ⟨files, diff, np, ps, dis, deps⟩ := st
  obtain ⟨h1, h2, h3, h4, h5, h6, h7, h8⟩ := h
  dsimp only at *
  subst h4 h5 h6 h8
  cases files with
  | nil => cases h1
  | cons f fs =>
    obtain ⟨fp, ft, fu⟩ := f
    simp only [List.map_cons, flat, List.cons.injEq, Prod.mk.injEq, List.append_eq_nil_iff, List.map_eq_nil_iff] at h1
    obtain ⟨⟨e1, rfl, rfl⟩, rfl⟩ := h1
    simp [next, nextFiles, adjust_zero]

theorem parentPath_good (h : Good paths k ((p, ts) :: r) D ds st) : parentPath st = p := by
  have h1 := h.files
  unfold parentPath
  cases hf : st.files with
  | nil => rw [hf] at h1; cases h1
  | cons f fs =>
    rw [hf] at h1
    simp only [List.map_cons, flat, List.cons.injEq, Prod.mk.injEq] at h1
    exact h1.1.1

/-- Opening a file that is not marked puts its tokens in front. -/
theorem pushInput_good {e : Env} {name q : Str} {sys : Bool} {c : List Byte} (h : Good paths 2 ((p, ts) :: r) D ds st)
    (hn : Names e.fs paths p name sys q c) (hq : q ∉ D) :
    ∃ st1, pushInput e name sys st = .ok st1 ∧ Good paths 2 ((q, e.tokenize q (c ++ [0])) :: (p, ts) :: r) D (ds ++ [q]) st1 := by
  obtain ⟨d, hd, hf⟩ := hn
  have hs := include_search (st := { paths := st.paths, disabled := st.disabled }) (system := sys) hd (by rw [h.paths]; exact hf)
  have hq' : q ∉ st.disabled := fun x => hq ((h.dis q).1 x)
  refine ⟨{ st with deps := st.deps ++ [q], files := { path := q, toks := e.tokenize q (c ++ [0]) } :: st.files }, ?_, ?_⟩
  · unfold pushInput
    rw [parentPath_good h, hs]
    simp [hq']
  · refine ⟨by simp [flat, h.files], ?_, ?_, h.diff, h.np, h.paths, h.dis, by simp [h.deps]⟩
    · intro f fs' e
      obtain ⟨rfl, rfl⟩ := List.cons.inj e
      simp
    · intro f fs' e
      obtain ⟨rfl, rfl⟩ := List.cons.inj e
      intro g hg
      cases hfs : st.files with
      | nil => rw [hfs] at hg; cases hg
      | cons f0 fs0 =>
        rw [hfs] at hg
        rcases List.mem_cons.1 hg with rfl | hg
        · exact h.top _ _ hfs
        · exact h.under _ _ hfs g hg

/-- A marked file changes nothing. -/
theorem pushInput_marked {e : Env} {name q : Str} {sys : Bool} {c : List Byte} (h : Good paths k ((p, ts) :: r) D ds st)
    (hn : Names e.fs paths p name sys q c) (hq : q ∈ D) : pushInput e name sys st = .ok st := by
  obtain ⟨d, hd, hf⟩ := hn
  have hs := include_search (st := { paths := st.paths, disabled := st.disabled }) (system := sys) hd (by rw [h.paths]; exact hf)
  have hq' : q ∈ st.disabled := (h.dis q).2 hq
  unfold pushInput
  rw [parentPath_good h, hs]
  simp [hq']

theorem once_good (h : Good paths k ((p, ts) :: r) D ds st) : ∃ st1, once st = .ok st1 ∧ Good paths k ((p, ts) :: r) (p :: D) ds st1 := by
  have hp := parentPath_good h
  unfold parentPath at hp
  unfold once
  have h1 := h.files
  cases hf : st.files with
  | nil => rw [hf] at h1; cases h1
  | cons f fs =>
    rw [hf] at hp
    dsimp only at hp
    refine ⟨_, rfl, ⟨by rw [hf] at h1; exact h1, fun a b c => h.top a b (hf.trans c), fun a b c => h.under a b (hf.trans c), h.diff, h.np, h.paths, ?_, h.deps⟩⟩
    intro q
    simp only [StringSet.mem_insert, hp, List.mem_cons, h.dis]

theorem inner_lt (name : Str) : inner (str "<" ++ name ++ str ">") = name := by
  simp [inner, str]

theorem inner_quote (name : Str) : inner (str "\"" ++ name ++ str "\"") = name := by
  simp [inner, str]

/-- The rest of the line of an `#include` with a macro. -/
theorem readLine_good {u : Tok} (hu : u.firstOfLine = true) : ∀ (ms : List Tok) (m : Tok) (st : St), (∀ x ∈ m :: ms, x.firstOfLine = false) →
    Good paths 0 ((p, ms ++ u :: ts) :: r) D ds st →
    ∃ st1, readLine (ms.length + 2) m st = .ok (m :: ms, st1) ∧ Good paths 1 ((p, u :: ts) :: r) D ds st1
  | [], m, st, hm, h => by
    obtain ⟨st1, e1, g1⟩ := next_good h
    obtain ⟨st2, e2, g2, -⟩ := push_good g1 (by omega) u
    refine ⟨st2, ?_, g2.mono (by omega)⟩
    have := hm m List.mem_cons_self
    simp [readLine, this, e1, Run.bind, hu, e2]
  | m' :: ms, m, st, hm, h => by
    obtain ⟨st1, e1, g1⟩ := next_good h
    obtain ⟨st2, e2, g2⟩ := readLine_good hu ms m' st1 (fun x hx => hm x (List.mem_cons_of_mem _ hx)) g1
    refine ⟨st2, ?_, g2⟩
    have := hm m List.mem_cons_self
    rw [List.length_cons, readLine]
    simp [this, e1, Run.bind, e2]

theorem readLine_mono : ∀ {n m : Nat} {t : Tok} {st : St} {x}, n ≤ m → readLine n t st = .ok x → readLine m t st = .ok x
  | 0, _, _, _, _, _, h => by cases h
  | n + 1, 0, _, _, _, hm, _ => by omega
  | n + 1, m + 1, t, st, x, hm, h => by
    unfold readLine at h ⊢
    by_cases hf : t.firstOfLine
    · simpa [hf] using h
    · simp only [hf, if_false, Bool.false_eq_true] at h ⊢
      cases hn : next st with
      | ok q =>
        rw [hn] at h
        simp only [Run.bind] at h ⊢
        cases hr : readLine n q.1 q.2 with
        | ok y =>
          rw [hr] at h
          rw [readLine_mono (by omega) hr]
          exact h
        | fail => rw [hr] at h; cases h
        | ub => rw [hr] at h; cases h
        | more => rw [hr] at h; cases h
      | fail => rw [hn] at h; cases h
      | ub => rw [hn] at h; cases h
      | more => rw [hn] at h; cases h

theorem directive_mono {e : Env} {n m : Nat} {t d : Tok} {st : St} {x} (hm : n ≤ m) (h : directive e n t d st = .ok x) :
    directive e m t d st = .ok x := by
  unfold directive at h ⊢
  split
  · rename_i h1; simp [h1] at h
  · rename_i h1
    simp only [h1, if_false] at h
    split
    · rename_i h2
      simp only [h2, if_true] at h
      have key : ∀ y, includeDir e n st = .ok y → includeDir e m st = .ok y := by
        intro y hy
        unfold includeDir at hy ⊢
        cases hn : next { st with newPath := none, lineDiff := 0 } with
        | ok q =>
          rw [hn] at hy
          simp only [Run.bind] at hy ⊢
          split at hy
          · rename_i h3; rw [if_pos h3]; exact hy
          · rename_i h3
            rw [if_neg h3]
            split at hy
            · rename_i h4; rw [if_pos h4]; exact hy
            · rename_i h4
              rw [if_neg h4]
              unfold includeMacro at hy ⊢
              cases hr : readLine n q.1 q.2 with
              | ok z =>
                rw [hr] at hy
                rw [readLine_mono hm hr]
                exact hy
              | fail => rw [hr] at hy; cases hy
              | ub => rw [hr] at hy; cases hy
              | more => rw [hr] at hy; cases hy
        | fail => rw [hn] at hy; cases hy
        | ub => rw [hn] at hy; cases hy
        | more => rw [hn] at hy; cases hy
      cases hi : includeDir e n st with
      | ok y => rw [hi] at h; rw [key y hi]; exact h
      | fail => rw [hi] at h; cases h
      | ub => rw [hi] at h; cases h
      | more => rw [hi] at h; cases h
    · rename_i h2
      simp only [h2, if_false] at h
      exact h

theorem bind_ok_inv {α β : Type} {x : Run α} {f : α → Run β} {y : β} (h : x.bind f = .ok y) : ∃ a, x = .ok a ∧ f a = .ok y := by
  cases x with
  | ok a => exact ⟨a, rfl, h⟩
  | fail => cases h
  | ub => cases h
  | more => cases h

theorem mapOk_ok_inv {α β : Type} {x : Run α} {f : α → β} {y : β} (h : x.mapOk f = .ok y) : ∃ a, x = .ok a ∧ f a = y := by
  cases x with
  | ok a => exact ⟨a, rfl, by simpa using h⟩
  | fail => cases h
  | ub => cases h
  | more => cases h

/-- More fuel does not change a result. -/
theorem stream_mono {e : Env} : ∀ {n m : Nat} {b : Bool} {t : Tok} {st : St} {x}, n ≤ m → stream e n b t st = .ok x → stream e m b t st = .ok x
  | 0, _, _, _, _, _, _, h => by cases h
  | n + 1, 0, _, _, _, _, hm, _ => by omega
  | n + 1, m + 1, b, t, st, x, hm, h => by
    unfold stream at h ⊢
    split at h
    · rename_i h1
      rw [if_pos h1]
      split at h
      · rename_i h2; rw [if_pos h2]; exact h
      · rename_i h2
        rw [if_neg h2]
        obtain ⟨q, e1, e2⟩ := bind_ok_inv h
        obtain ⟨z, e3, e4⟩ := mapOk_ok_inv e2
        rw [e1]
        simp only [Run.bind, stream_mono (by omega : n ≤ m) e3, Run.mapOk_ok, e4]
    · rename_i h1
      rw [if_neg h1]
      obtain ⟨q, e1, e2⟩ := bind_ok_inv h
      rw [e1]
      simp only [Run.bind]
      split at e2
      · rename_i h2
        rw [if_pos h2]
        exact stream_mono (by omega) e2
      · rename_i h2
        rw [if_neg h2]
        obtain ⟨z, e3, e4⟩ := bind_ok_inv e2
        obtain ⟨w, e5, e6⟩ := bind_ok_inv e4
        rw [directive_mono (by omega) e3]
        simp only [e5]
        exact stream_mono (by omega) e6

theorem rest_mono {e : Env} {n m : Nat} {st : St} {x} (hm : n ≤ m) (h : rest e n st = .ok x) : rest e m st = .ok x := by
  unfold rest at h ⊢
  obtain ⟨q, e1, e2⟩ := bind_ok_inv h
  rw [e1]
  exact stream_mono hm e2

/-- A token of the text is returned. -/
theorem rest_plain {e : Env} {n : Nat} {out : List Tok} {x : List Str} (ht : Plain t) (h : Good paths 2 ((p, t :: ts) :: r) D ds st)
    (ih : ∀ st1, Good paths 2 ((p, ts) :: r) D ds st1 → rest e n st1 = .ok (out, x)) : rest e (n + 1) st = .ok (t :: out, x) := by
  obtain ⟨st1, e1, g1⟩ := next_good h
  have h2 := ih st1 (g1.mono (by omega))
  unfold rest at h2 ⊢
  rw [e1]
  simp only [Run.bind, stream, ne_eq, ht.1, not_false_eq_true, true_or, if_true, ht.2, if_false]
  cases hn : next st1 with
  | ok q =>
    rw [hn] at h2
    simp only [Run.bind] at h2
    simp only [h2, Run.mapOk_ok]
  | fail => rw [hn] at h2; cases h2
  | ub => rw [hn] at h2; cases h2
  | more => rw [hn] at h2; cases h2

/-- A directive that is executed. -/
theorem rest_directive {e : Env} {n : Nat} {d : Tok} {name : String} {y} (hs : Starts name t d) (h : Good paths 2 ((p, t :: d :: ts) :: r) D ds st)
    (ih : ∀ st1, Good paths 0 ((p, ts) :: r) D ds st1 → ∃ st2, directive e n t d st1 = .ok (false, st2) ∧ rest e n st2 = .ok y) :
    rest e (n + 1) st = .ok y := by
  obtain ⟨h1, h2, h3, h4⟩ := hs
  obtain ⟨st1, e1, g1⟩ := next_good h
  obtain ⟨st2, e2, g2⟩ := next_good g1
  obtain ⟨st3, e3, e4⟩ := ih st2 g2
  unfold rest at e4 ⊢
  rw [e1]
  simp only [Run.bind, stream, ne_eq, h1, not_true_eq_false, Bool.false_eq_true, or_self, if_false, e2, h2, e3]
  exact e4

theorem clean_eq (h : Good paths k r D ds st) : ({ st with newPath := none, lineDiff := 0 } : St) = st := by
  obtain ⟨files, diff, np, ps, dis, deps⟩ := st
  have h4 := h.diff
  have h5 := h.np
  dsimp only at h4 h5
  subst h4 h5
  rfl

/-- `#include` with a header name. -/
theorem include_header {e : Env} {n : Nat} {d h : Tok} {name : Str} {sys : Bool} (hs : Starts "include" t d) (hh : HeaderName h name sys)
    (g : Good paths 0 ((p, h :: ts) :: r) D ds st) :
    ∃ st1, Good paths 0 ((p, ts) :: r) D ds st1 ∧
      directive e n t d st = (pushInput e name sys st1).mapOk fun st => (false, st) := by
  obtain ⟨h1, h2, h3, h4⟩ := hs
  obtain ⟨st1, e1, g1⟩ := next_good g
  refine ⟨st1, g1, ?_⟩
  unfold directive
  simp only [h3, ne_eq, not_true_eq_false, if_false, h4, if_true]
  unfold includeDir
  rw [clean_eq g, e1]
  rcases hh with ⟨a, b, rfl⟩ | ⟨a, b, rfl⟩
  · simp only [Run.bind, a, if_true, b, inner_lt]
  · simp only [Run.bind, a, if_true, b, inner_quote]
    rfl

/-- The tokens of the current file up to its end, then what follows. -/
theorem rest_yields {e : Env} {ts : List Tok} {out : List Tok} {os : List Str} {D' : List Str}
    (hy : Yields e.fs e.tokenize e.expand paths D p ts out os D') :
    ∀ (r : List (Str × List Tok)) (ds : List Str) (n : Nat) (out' : List Tok) (x : List Str),
      (∀ st', Good paths 2 ((p, []) :: r) D' (ds ++ os) st' → rest e n st' = .ok (out', x)) →
      ∃ m, n ≤ m ∧ ∀ st, Good paths 2 ((p, ts) :: r) D ds st → rest e m st = .ok (out ++ out', x) := by
  induction hy with
  | nil =>
    intro r ds n out' x h
    exact ⟨n, Nat.le_refl _, fun st g => h st (by simpa using g)⟩
  | plain ht _ ih =>
    intro r ds n out' x h
    obtain ⟨m, hm, ih⟩ := ih r ds n out' x h
    exact ⟨m + 1, by omega, fun st g => rest_plain ht g ih⟩
  | @null D p t u ts out os D' ht hu _ ih =>
    intro r ds n out' x h
    obtain ⟨m, hm, ih⟩ := ih r ds n out' x h
    refine ⟨m + 1, by omega, fun st g => ?_⟩
    obtain ⟨st1, e1, g1⟩ := next_good g
    obtain ⟨st2, e2, g2⟩ := next_good g1
    obtain ⟨st3, -, g3, e3⟩ := push_good g2 (by omega) u
    have h3 := ih st3 (g3.mono (by omega))
    unfold rest at h3 ⊢
    rw [e3] at h3
    rw [e1]
    simp only [Run.bind, stream, ne_eq, ht, not_true_eq_false, Bool.false_eq_true, or_self, if_false, e2, hu, if_true]
    exact h3
  | @file D p t d h ts name sys q c out1 os1 D1 out2 os2 D2 hs hh hn hq _ _ ih1 ih2 =>
    intro r ds n out' x hk
    obtain ⟨m2, hm2, ih2⟩ := ih2 r (ds ++ [q] ++ os1) n out' x (by simpa using hk)
    obtain ⟨m1, hm1, ih1⟩ := ih1 ((p, ts) :: r) (ds ++ [q]) m2 (out2 ++ out') x (by
      intro st' g
      obtain ⟨st1, g1, e1⟩ := next_end g
      have := ih2 st1 g1
      unfold rest at this ⊢
      rw [e1]
      exact this)
    refine ⟨m1 + 1, by omega, fun st g => ?_⟩
    refine rest_directive hs g fun st1 g1 => ?_
    obtain ⟨st2, g2, e2⟩ := include_header (e := e) (n := m1) hs hh g1
    obtain ⟨st3, e3, g3⟩ := pushInput_good (g2.mono (by omega)) hn hq
    exact ⟨st3, by rw [e2, e3]; rfl, by rw [ih1 st3 g3, List.append_assoc]⟩
  | @marked D p t d h ts name sys q c out os D' hs hh hn hq _ ih =>
    intro r ds n out' x hk
    obtain ⟨m, hm, ih⟩ := ih r ds n out' x hk
    refine ⟨m + 1, by omega, fun st g => ?_⟩
    refine rest_directive hs g fun st1 g1 => ?_
    obtain ⟨st2, g2, e2⟩ := include_header (e := e) (n := m) hs hh g1
    exact ⟨st2, by rw [e2, pushInput_marked g2 hn hq]; rfl, ih st2 (g2.mono (by omega))⟩
  | @computed D p t d m ms u ts s name q c out1 os1 D1 out2 os2 D2 hs hm1 hm2 hms hu hx hst hsn hn hq _ _ ih1 ih2 =>
    intro r ds n out' x hk
    obtain ⟨k2, hk2, ih2⟩ := ih2 r (ds ++ [q] ++ os1) n out' x (by simpa using hk)
    obtain ⟨k1, hk1, ih1⟩ := ih1 ((p, u :: ts) :: r) (ds ++ [q]) k2 (out2 ++ out') x (by
      intro st' g
      obtain ⟨st1, g1, e1⟩ := next_end g
      have := ih2 st1 g1
      unfold rest at this ⊢
      rw [e1]
      exact this)
    refine ⟨k1 + (ms.length + 2) + 1, by omega, fun st g => ?_⟩
    refine rest_directive hs g fun st1 g1 => ?_
    obtain ⟨h1, h2, h3, h4⟩ := hs
    obtain ⟨st2, e2, g2⟩ := next_good g1
    obtain ⟨st3, e3, g3⟩ := readLine_good hu ms m st2 hms g2
    obtain ⟨st4, e4, g4⟩ := pushInput_good (g3.mono (by omega)) hn hq
    refine ⟨st4, ?_, by rw [rest_mono (Nat.le_add_right _ _) (ih1 st4 g4), List.append_assoc]⟩
    have e5 := readLine_mono (Nat.le_add_left _ k1) e3
    unfold directive
    simp only [h3, ne_eq, not_true_eq_false, if_false, h4, if_true]
    unfold includeDir
    rw [clean_eq g1, e2]
    simp only [Run.bind, hm1, hm2, if_false]
    unfold includeMacro
    rw [e5]
    simp only [Run.bind, hx, stringOf, hst, if_true, hsn, inner_quote, e4, Run.mapOk_ok]
  | @once D p t d o ts out os D' hs ho _ ih =>
    intro r ds n out' x hk
    obtain ⟨m, hm, ih⟩ := ih r ds n out' x hk
    refine ⟨m + 1, by omega, fun st g => ?_⟩
    refine rest_directive hs g fun st1 g1 => ?_
    obtain ⟨st2, e2, g2⟩ := next_good g1
    obtain ⟨st3, e3, g3⟩ := once_good g2
    refine ⟨st3, ?_, ih st3 (g3.mono (by omega))⟩
    obtain ⟨h1, h2, h3, h4⟩ := hs
    have n1 : str "pragma" ≠ str "include" := by decide
    simp only [directive, h3, ne_eq, not_true_eq_false, if_false, h4, n1, if_true, pragmaDir, e2, Run.bind, ho, e3, Run.mapOk_ok]
  | @pragma D p t d o ts out os D' hs hp h5 h6 h7 _ ih =>
    intro r ds n out' x hk
    obtain ⟨m, hm, ih⟩ := ih r ds n out' x hk
    obtain ⟨h1, h2, h3, h4⟩ := hs
    refine ⟨m + 4, by omega, fun st g => ?_⟩
    obtain ⟨st1, e1, g1⟩ := next_good g
    obtain ⟨st2, e2, g2⟩ := next_good g1
    obtain ⟨st3, e3, g3⟩ := next_good g2
    obtain ⟨st4, e4, g4, -⟩ := push_good g3 (by omega) o
    obtain ⟨st5, e5, g5, -⟩ := push_good g4 (by omega) d
    obtain ⟨st6, e6, g6, e7⟩ := push_good g5 (by omega) t
    have hd : Plain d := ⟨by rw [h3]; decide, by rw [h3]; decide⟩
    have n1 : str "pragma" ≠ str "include" := by decide
    have h8 := rest_plain hd (g5.mono (by omega)) fun st1 g1 => rest_plain hp g1 ih
    have hdir : directive e (m + 3) t d st2 = .ok (true, st6) := by
      simp only [directive, h3, ne_eq, not_true_eq_false, if_false, h4, n1, if_true, pragmaDir, e3, Run.bind, h5, h6, h7, or_self, e4, e5, e6,
        Run.mapOk_ok]
    have n2 : TType.PP_DIRECTIVE ≠ .T_EOI := by decide
    have hpass : stream e (m + 3) true t st5 = .ok (t :: d :: o :: (out ++ out'), x) := by
      unfold rest at h8
      obtain ⟨q, a1, a2⟩ := bind_ok_inv h8
      rw [stream, if_pos (Or.inr rfl), if_neg (by rw [h1]; exact n2), a1]
      show (stream e (m + 2) false q.1 q.2).mapOk _ = _
      rw [a2]
      rfl
    unfold rest
    rw [e1]
    show stream e (m + 3 + 1) false t st1 = _
    rw [stream, if_neg (by simp [h1]), e2]
    show (if d.firstOfLine = true then _ else _) = _
    rw [if_neg (by simp [h2]), hdir]
    show (next st6).bind _ = _
    rw [e7]
    exact hpass

end Verif.Include
