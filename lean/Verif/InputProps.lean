import Verif.InputSpec
import Verif.StringSetProps
/-!
`#include` and `#pragma once` (C61).
-/
namespace Verif.Input
open Verif InputSpec

theorem lengthLoop_eq (s : Str) : ∀ i pos, pos ≤ i →
    (ch '/' ∉ s ∧ lengthLoop s i pos = pos) ∨
      ∃ a b, s = a ++ ch '/' :: b ∧ ch '/' ∉ b ∧ lengthLoop s i pos = i + a.length + 1 := by
  induction s with
  | nil => intro i pos _; exact .inl ⟨by simp, rfl⟩
  | cons c s ih =>
    intro i pos hp
    unfold lengthLoop
    by_cases hc : c = ch '/'
    · rw [if_pos hc]
      rcases ih (i + 1) (i + 1) (Nat.le_refl _) with ⟨h1, h2⟩ | ⟨a, b, h1, h2, h3⟩
      · exact .inr ⟨[], s, by rw [hc]; rfl, h1, by rw [h2]; rfl⟩
      · exact .inr ⟨c :: a, b, by rw [h1]; rfl, h2, by rw [h3]; simp; omega⟩
    · rw [if_neg hc]
      rcases ih (i + 1) pos (by omega) with ⟨h1, h2⟩ | ⟨a, b, h1, h2, h3⟩
      · refine .inl ⟨?_, h2⟩
        intro h
        rcases List.mem_cons.1 h with h | h
        · exact hc h.symm
        · exact h1 h
      · exact .inr ⟨c :: a, b, by rw [h1]; rfl, h2, by rw [h3]; simp; omega⟩

theorem directory_eq {path d : Str} (h : Directory path d) : path.take (lengthWithoutFilename path) = d := by
  obtain ⟨name, rfl, hn, hd⟩ := h
  unfold lengthWithoutFilename
  rcases lengthLoop_eq (d ++ name) 0 0 (Nat.le_refl _) with ⟨h1, h2⟩ | ⟨a, b, h1, h2, h3⟩
  · rw [h2]
    rcases hd with rfl | ⟨d', rfl⟩
    · rfl
    · exact absurd (by simp) h1
  · rw [h3]
    rcases hd with rfl | ⟨d', rfl⟩
    · exfalso
      rw [List.nil_append] at h1
      exact hn (by rw [h1]; simp)
    · have : d' = a ∧ name = b := by
        rw [List.append_assoc] at h1
        rcases List.append_eq_append_iff.1 h1 with ⟨x, e1, e2⟩ | ⟨x, e1, e2⟩
        · cases x with
          | nil => simpa [e1] using e2
          | cons y x =>
            simp only [List.cons_append, List.nil_append, List.cons.injEq] at e2
            exact absurd (by rw [e2.2]; simp) hn
        · cases x with
          | nil => simpa [e1, eq_comm] using e2
          | cons y x =>
            simp only [List.cons_append, List.nil_append, List.cons.injEq] at e2
            exact absurd (by rw [e2.2]; simp) h2
      rw [this.1]
      have hl : 0 + a.length + 1 = (a ++ [ch '/']).length := by simp
      rw [hl, List.take_left' rfl]

theorem contains_iff (l : List Str) (s : Str) : StringSet.contains l s = true ↔ s ∈ l := by
  induction l with
  | nil => simp [StringSet.contains]
  | cons x xs ih =>
    unfold StringSet.contains
    by_cases h : s = x
    · simp [h]
    · simp [h, ih]

theorem searchLoop_found {fs : Fs} {name : Str} : ∀ {ps : List Str} {p : Str} {c : List Byte},
    FirstOf fs (ps.map fun q => q ++ str "/" ++ name) p c → searchLoop fs name ps = .ok (some (p, c))
  | [], p, c, h => by
    obtain ⟨a, b, h, -⟩ := h
    simp at h
  | q :: ps, p, c, h => by
    obtain ⟨a, b, h1, h2, h3⟩ := h
    have hq : q ++ ch '/' :: name = q ++ str "/" ++ name := by simp [str, ch]
    unfold searchLoop tryOpen
    rw [hq]
    cases a with
    | nil =>
      simp only [List.map_cons, List.nil_append, List.cons.injEq] at h1
      rw [h1.1]
      simp [h2]
    | cons x a =>
      simp only [List.map_cons, List.cons_append, List.cons.injEq] at h1
      simp only [h1.1, h3 x List.mem_cons_self, Run.bind_ok]
      exact searchLoop_found ⟨a, b, h1.2, h2, fun y hy => h3 y (List.mem_cons_of_mem _ hy)⟩

theorem searchLoop_missing {fs : Fs} {name : Str} : ∀ {ps : List Str},
    (∀ p ∈ ps.map (fun q => q ++ str "/" ++ name), fs p = .missing) → searchLoop fs name ps = .ok none
  | [], _ => rfl
  | q :: ps, h => by
    have hq : q ++ ch '/' :: name = q ++ str "/" ++ name := by simp [str, ch]
    unfold searchLoop tryOpen
    have h0 := h (q ++ str "/" ++ name) (by simp)
    simp only [hq, h0, Run.bind_ok]
    exact searchLoop_missing fun p hp => h p (by simp at hp ⊢; exact .inr hp)

/-- C61, the search: the file that is opened is the first one at the prescribed places – beside the including file (for a name in quotes), then in
the include paths in their order. Its contents are delivered unless the path that was found has been disabled by `#pragma once`. -/
theorem include_search {fs : Fs} {st : St} {parent d name : Str} {system : Bool} {p : Str} {c : List Byte} (hd : Directory parent d)
    (h : FirstOf fs (places d st.paths name system) p c) :
    inputOpen fs st parent name system = .ok (if p ∈ st.disabled then none else some (p, c ++ [0])) := by
  have fin : deliver st (some (p, c)) = .ok (if p ∈ st.disabled then none else some (p, c ++ [0])) := by
    simp only [deliver, contains_iff]
    split <;> rfl
  unfold inputOpen openBeside
  rw [directory_eq hd]
  cases system with
  | true => simp [searchLoop_found h, fin]
  | false =>
    obtain ⟨a, b, h1, h2, h3⟩ := h
    cases a with
    | nil =>
      simp only [places, Bool.false_eq_true, if_false, List.singleton_append, List.nil_append, List.cons.injEq] at h1
      simp [tryOpen, h1.1, h2, fin]
    | cons x a =>
      simp only [places, Bool.false_eq_true, if_false, List.singleton_append, List.cons_append, List.cons.injEq] at h1
      have hx := h3 x List.mem_cons_self
      rw [← h1.1] at hx
      have := searchLoop_found (ps := st.paths) ⟨a, b, h1.2, h2, fun y hy => h3 y (List.mem_cons_of_mem _ hy)⟩
      simp [tryOpen, hx, this, fin]

/-- C61: if there is no file at any of the places, the compiler stops. -/
theorem include_missing {fs : Fs} {st : St} {parent d name : Str} {system : Bool} (hd : Directory parent d)
    (h : ∀ p ∈ places d st.paths name system, fs p = .missing) : inputOpen fs st parent name system = .fail := by
  unfold inputOpen openBeside
  rw [directory_eq hd]
  cases system with
  | true =>
    have := searchLoop_missing (ps := st.paths) fun p hp => h p (by simpa [places] using hp)
    simp [this, deliver]
  | false =>
    have h1 := h (d ++ name) (by simp [places])
    have := searchLoop_missing (ps := st.paths) fun p hp => h p (by
      simp only [places, List.mem_append]
      exact .inr hp)
    simp [tryOpen, h1, this, deliver]

theorem start_paths (includes : List Str) : (start includes).paths = includes ∧ (start includes).disabled = [] ∧ (start includes).files = [] := by
  suffices h : ∀ st : St, (includes.foldl (fun st p => addIncludePath p st) st) = { st with paths := st.paths ++ includes } by
    unfold start
    rw [h]
    simp
  induction includes with
  | nil => intro st; simp
  | cons p ps ih =>
    intro st
    rw [List.foldl_cons, ih]
    simp [addIncludePath]

theorem run_append {fs : Fs} : ∀ (a b : List Ev) (st : St), run fs (a ++ b) st = run fs a st >>= run fs b
  | [], b, st => rfl
  | e :: a, b, st => by
    show (step fs e st >>= run fs (a ++ b)) = ((step fs e st >>= run fs a) >>= run fs b)
    cases step fs e st with
    | ok s => exact run_append a b s
    | fail => rfl
    | ub => rfl
    | more => rfl

theorem run_ok_append {fs : Fs} {a b : List Ev} {st st' : St} (h : run fs (a ++ b) st = .ok st') :
    ∃ s, run fs a st = .ok s ∧ run fs b s = .ok st' := by
  rw [run_append] at h
  cases hs : run fs a st with
  | ok s => rw [hs] at h; exact ⟨s, rfl, h⟩
  | fail => rw [hs] at h; cases h
  | ub => rw [hs] at h; cases h
  | more => rw [hs] at h; cases h

theorem step_paths {fs : Fs} {e : Ev} {st st' : St} (h : step fs e st = .ok st') : st'.paths = st.paths := by
  cases e with
  | incl p s =>
    simp only [step, pushInput] at h
    cases hi : inputOpen fs st (parentPath st) p s with
    | ok r =>
      rw [hi] at h
      cases r <;> (cases h; rfl)
    | fail => rw [hi] at h; cases h
    | ub => rw [hi] at h; cases h
    | more => rw [hi] at h; cases h
  | once =>
    simp only [step, pragmaOnce] at h
    split at h <;> cases h
    rfl
  | finish =>
    simp only [step, endOfFile] at h
    split at h <;> cases h <;> rfl

/-- The event is `#pragma once`. -/
def isOnce : Ev → Bool
  | .once => true
  | _ => false

theorem step_disabled {fs : Fs} {e : Ev} {st st' : St} (h : step fs e st = .ok st') (p : Str) :
    p ∈ st'.disabled ↔ p ∈ st.disabled ∨ (isOnce e = true ∧ current st = some p) := by
  cases e with
  | incl q s =>
    simp only [step, pushInput] at h
    cases hi : inputOpen fs st (parentPath st) q s with
    | ok r =>
      rw [hi] at h
      cases r <;> (cases h; simp [isOnce])
    | fail => rw [hi] at h; cases h
    | ub => rw [hi] at h; cases h
    | more => rw [hi] at h; cases h
  | once =>
    simp only [step, pragmaOnce] at h
    split at h
    · cases h
    · next f fs hf =>
      cases h
      simp only [disablePath, StringSet.mem_insert, current, hf, List.head?_cons, Option.map_some, Option.some.injEq]
      constructor
      · rintro (rfl | h)
        · exact .inr ⟨rfl, rfl⟩
        · exact .inl h
      · rintro (h | ⟨-, rfl⟩)
        · exact .inr h
        · exact .inl rfl
  | finish =>
    simp only [step, endOfFile] at h
    split at h <;> cases h <;> simp [isOnce]

theorem run_paths {fs : Fs} : ∀ {es : List Ev} {st st' : St}, run fs es st = .ok st' → st'.paths = st.paths
  | [], st, st', h => by cases h; rfl
  | e :: es, st, st', h => by
    obtain ⟨s, h1, h2⟩ := run_ok_append (a := [e]) (b := es) h
    have h1' : step fs e st = .ok s := by
      simp only [run] at h1
      cases hs : step fs e st <;> rw [hs] at h1 <;> cases h1
      rfl
    rw [run_paths h2, step_paths h1']

theorem run_disabled {fs : Fs} (p : Str) : ∀ {es : List Ev} {st st' : St}, run fs es st = .ok st' →
    (p ∈ st'.disabled ↔ p ∈ st.disabled ∨ Marked fs st es p)
  | [], st, st', h => by
    cases h
    constructor
    · exact .inl
    · rintro (h | ⟨a, b, s, h, -⟩)
      · exact h
      · simp at h
  | e :: es, st, st', h => by
    obtain ⟨s, h1, h2⟩ := run_ok_append (a := [e]) (b := es) h
    have h1' : step fs e st = .ok s := by
      simp only [run] at h1
      cases hs : step fs e st <;> rw [hs] at h1 <;> cases h1
      rfl
    rw [run_disabled p h2, step_disabled h1']
    constructor
    · rintro ((h | ⟨he, hc⟩) | ⟨a, b, u, rfl, hu, hc⟩)
      · exact .inl h
      · cases e with
        | once => exact .inr ⟨[], es, st, rfl, rfl, hc⟩
        | incl _ _ => cases he
        | finish => cases he
      · refine .inr ⟨e :: a, b, u, rfl, ?_, hc⟩
        show (step fs e st >>= run fs a) = _
        rw [h1']
        exact hu
    · rintro (h | ⟨a, b, u, hab, hu, hc⟩)
      · exact .inl (.inl h)
      · cases a with
        | nil =>
          simp only [List.nil_append, List.cons.injEq] at hab
          obtain ⟨rfl, rfl⟩ := hab
          cases hu
          exact .inl (.inr ⟨rfl, hc⟩)
        | cons x a =>
          simp only [List.cons_append, List.cons.injEq] at hab
          obtain ⟨rfl, rfl⟩ := hab
          have hu' : (step fs e st >>= run fs a) = .ok u := hu
          rw [h1'] at hu'
          exact .inr ⟨a, b, u, rfl, hu', hc⟩

/-- C61, `#pragma once` in every history: after any sequence of includes, `#pragma once` directives and ends of files, an include that finds the file
`p` reads it again exactly if no `#pragma once` has been seen in a file with the path `p`; otherwise it does nothing. -/
theorem include_once {fs : Fs} {includes : List Str} {es : List Ev} {st : St} (h : run fs es (start includes) = .ok st) {d name : Str}
    {system : Bool} {p : Str} {c : List Byte} (hd : Directory ((current st).getD (str ".")) d)
    (hf : FirstOf fs (places d includes name system) p c) :
    (Marked fs (start includes) es p → step fs (.incl name system) st = .ok st) ∧
    (¬ Marked fs (start includes) es p →
      ∃ st', step fs (.incl name system) st = .ok st' ∧ st'.files = (p, c ++ [0]) :: st.files ∧ current st' = some p) := by
  have hp : st.paths = includes := by rw [run_paths h, (start_paths includes).1]
  have hdis := run_disabled p h
  rw [(start_paths includes).2.1] at hdis
  simp only [List.not_mem_nil, false_or] at hdis
  have hpar : parentPath st = (current st).getD (str ".") := by
    unfold current parentPath
    cases st.files <;> rfl
  have hi := include_search (st := st) hd (by rw [hp]; exact hf)
  constructor
  · intro hm
    simp only [step, pushInput]
    rw [hpar, hi, if_pos (hdis.2 hm)]
    rfl
  · intro hm
    refine ⟨{ st with files := (p, c ++ [0]) :: st.files }, ?_, rfl, rfl⟩
    simp only [step, pushInput]
    rw [hpar, hi, if_neg (fun hc => hm (hdis.1 hc))]
    rfl

/-- Files for an example: `src/a.c`, `src/x.h`, `inc/x.h`, `inc/y.h`. -/
def sampleFs : Fs := fun p =>
  if p = str "src/a.c" then .file (str "A") else if p = str "src/x.h" then .file (str "X") else
  if p = str "inc/x.h" then .file (str "Y") else if p = str "inc/y.h" then .file (str "Z") else .missing

/-- `"x.h"` in `src/a.c` is `src/x.h`, `<x.h>` is `inc/x.h`; a marked file is not read again, the other one is. -/
example : ((run sampleFs [.incl (str "src/a.c") false, .incl (str "x.h") false, .once, .finish, .incl (str "x.h") false]
    (start [str "usr", str "inc"])).mapOk fun st : St => st.files.map (·.1)) = .ok [str "src/a.c"] := by decide +kernel

example : ((run sampleFs [.incl (str "src/a.c") false, .incl (str "x.h") false, .once, .finish, .incl (str "x.h") true]
    (start [str "usr", str "inc"])).mapOk fun st : St => st.files.map (·.1)) = .ok [str "inc/x.h", str "src/a.c"] := by decide +kernel

example : Directory (str "src/a.c") (str "src/") ∧
    FirstOf sampleFs (places (str "src/") [str "usr", str "inc"] (str "y.h") false) (str "inc/y.h") (str "Z") := by
  refine ⟨⟨str "a.c", rfl, by decide, .inr ⟨str "src", rfl⟩⟩, [str "src/y.h", str "usr/y.h"], [], by decide, by decide +kernel, ?_⟩
  intro q hq
  simp at hq
  rcases hq with rfl | rfl <;> decide +kernel

end Verif.Input
