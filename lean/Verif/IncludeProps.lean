import Verif.IncludeLemmas
/-!
C114: `#include` is replaced by the tokens of the file that it names.
-/
namespace Verif.Include
open Verif Input InputSpec IncludeSpec

/-- C114. The source file `q` that the path names yields the tokens `out` by the rules of `Yields`, in which every `#include` has been replaced by what the
file yields that it names, at any depth, with `#pragma once` taken into account. Then these are the tokens that the later phases get, with their
positions unchanged, and the dependencies are the source file and the included files in the order in which they were opened.

Missing: the macro directives and the conditional directives, which are in C10 for one file and in C117 for several; and `#line`, which has to change positions (see the negations).
-/
theorem include_partial {e : Env} {includes : List Str} {path q : Str} {c : List Byte} {out : List Tok} {os D' : List Str}
    (hq : Names e.fs includes (str ".") path false q c)
    (hy : Yields e.fs e.tokenize e.expand includes [] q (e.tokenize q (c ++ [0])) out os D') :
    ∃ n, ∀ m, n ≤ m → preprocess e includes path m = .ok (out, q :: os) := by
  obtain ⟨n, -, h⟩ := rest_yields hy [] [q] 1 [] (q :: os) (by
    intro st' g
    unfold rest
    rw [next_eoi g]
    simp [Run.bind, stream, g.deps])
  obtain ⟨d, hd, hf⟩ := hq
  have hs := include_search (st := { paths := includes, disabled := [] }) (system := false) hd hf
  refine ⟨n, fun m hm => ?_⟩
  have h1 : pushInput e path false { paths := includes } =
      .ok { paths := includes, deps := [q], files := [{ path := q, toks := e.tokenize q (c ++ [0]) }] } := by
    unfold pushInput parentPath
    dsimp only
    rw [hs]
    rfl
  unfold preprocess
  rw [h1]
  refine rest_mono hm ?_
  rw [h _ ⟨rfl, ?_, ?_, rfl, rfl, rfl, fun _ => Iff.rfl, rfl⟩, List.append_nil]
  · intro f fs e
    obtain ⟨rfl, rfl⟩ := List.cons.inj e
    simp
  · intro f fs e
    obtain ⟨rfl, rfl⟩ := List.cons.inj e
    intro g hg
    cases hg

/-- C114: a file that is not found stops the compiler, wherever the directive stands. -/
theorem include_missing_stops {e : Env} {n : Nat} {t d h : Tok} {name dir path : Str} {sys : Bool} {ts : List Tok} {fs : List File} {st : St}
    (hs : Starts "include" t d) (hh : HeaderName h name sys) (hf : st.files = ⟨path, h :: ts, []⟩ :: fs)
    (hd : Directory path dir) (hm : ∀ p ∈ places dir st.paths name sys, e.fs p = .missing) : directive e n t d st = .fail := by
  obtain ⟨h1, h2, h3, h4⟩ := hs
  have key : pushInput e name sys { st with newPath := none, lineDiff := 0, files := ⟨path, ts, []⟩ :: fs } = .fail := by
    unfold pushInput parentPath
    dsimp only
    rw [include_missing (st := { paths := st.paths, disabled := st.disabled }) hd hm]
    rfl
  have hn : next { st with newPath := none, lineDiff := 0 } =
      .ok (h, { st with newPath := none, lineDiff := 0, files := ⟨path, ts, []⟩ :: fs }) := by
    simp [next, hf, nextFiles, adjust_zero]
  unfold directive
  simp only [h3, ne_eq, not_true_eq_false, if_false, h4, if_true]
  unfold includeDir
  rw [hn]
  rcases hh with ⟨a, b, rfl⟩ | ⟨a, b, rfl⟩
  · simp only [Run.bind, a, if_true, b, inner_lt, key, Run.mapOk_fail]
  · simp only [Run.bind, a, if_true, b, inner_quote, key, reduceCtorEq, if_false, Run.mapOk_fail]

/-- C114: an `#include` whose operand expands to anything but one string literal stops the compiler (for `<...>`, which should be accepted, see
`computed_header_violated`). -/
theorem computed_other_stops {e : Env} {n : Nat} {p : Str} {t d m u : Tok} {ms ts ex : List Tok} {fs : List File} {st : St}
    (hs : Starts "include" t d) (h1 : m.type ≠ .PP_HEADER_NAME_H) (h2 : m.type ≠ .PP_HEADER_NAME_Q)
    (hm : ∀ x ∈ m :: ms, x.firstOfLine = false) (hu : u.firstOfLine = true) (hx : e.expand (m :: ms) = .ok ex)
    (hno : ¬∃ s : Tok, s.type = .T_STRING ∧ ex = [s]) (hn : ms.length + 2 ≤ n)
    (hf : st.files = ⟨p, m :: ms ++ u :: ts, []⟩ :: fs) (hfs : ∀ f ∈ fs, f.pushed.length ≤ 2) : directive e n t d st = .fail := by
  obtain ⟨-, -, h3, h4⟩ := hs
  have g : Good st.paths 0 ((p, m :: ms ++ u :: ts) :: fs.map flat) st.disabled st.deps { st with newPath := none, lineDiff := 0 } :=
    ⟨by simp [hf, flat], fun f l h => by simp only [hf] at h; obtain ⟨rfl, rfl⟩ := List.cons.inj h; simp,
      fun f l h => by simp only [hf] at h; obtain ⟨rfl, rfl⟩ := List.cons.inj h; exact hfs, rfl, rfl, rfl, fun _ => Iff.rfl, rfl⟩
  obtain ⟨st1, e1, g1⟩ := next_good g
  obtain ⟨st2, e2, -⟩ := readLine_good hu ms m st1 hm g1
  have hx' : stringOf ex = .fail := by
    unfold stringOf
    split
    · rename_i s
      exact if_neg fun h => hno ⟨s, h, rfl⟩
    · rfl
  unfold directive
  simp only [h3, ne_eq, not_true_eq_false, if_false, h4, if_true]
  unfold includeDir
  rw [e1]
  simp only [Run.bind, h1, h2, if_false]
  unfold includeMacro
  rw [readLine_mono hn e2]
  simp only [Run.bind, hx, hx', Run.mapOk_fail]

/-- `#` at the beginning of a line. -/
private def hash (l : Int) (p : String) : Tok := { type := .PP_DIRECTIVE, str := str "#", firstOfLine := true, line := l, path := str p }
/-- An identifier. -/
private def ident (s : String) (l : Int) (p : String) (first : Bool := false) : Tok :=
  { type := .T_IDENT, str := str s, firstOfLine := first, line := l, path := str p }
/-- Another token. -/
private def tk (ty : TType) (s : String) (l : Int) (p : String) : Tok := { type := ty, str := str s, line := l, path := str p }

/-- The source file: `x`, twice the header, `y`. -/
private def main1 : List Tok :=
  [ident "x" 1 "m.c" true, hash 2 "m.c", ident "include" 2 "m.c", tk .PP_HEADER_NAME_Q "\"a.h\"" 2 "m.c",
   hash 3 "m.c", ident "include" 3 "m.c", tk .PP_HEADER_NAME_H "<a.h>" 3 "m.c", ident "y" 4 "m.c" true]
/-- The header: `#pragma once`, `z`, `#pragma pack`. -/
private def header1 : List Tok :=
  [hash 1 "a.h", ident "pragma" 1 "a.h", ident "once" 1 "a.h", ident "z" 2 "a.h" true, hash 3 "a.h", ident "pragma" 3 "a.h", ident "pack" 3 "a.h"]
/-- Files of the examples. -/
private def fs1 : Fs := fun p => if p = str "m.c" ∨ p = str "inc/a.h" then .file p else .missing
/-- The tokens of the files. -/
private def env1 : Env where
  fs := fs1
  tokenize p _ := if p = str "m.c" then main1 else header1
  expand ts := .ok ts

/-- The hypotheses of `include_partial` hold for a header that is included twice. -/
example : ∃ n, ∀ m, n ≤ m → preprocess env1 [str "inc"] (str "m.c") m = .ok
    ([ident "x" 1 "m.c" true, ident "z" 2 "a.h" true, hash 3 "a.h", ident "pragma" 3 "a.h", ident "pack" 3 "a.h", ident "y" 4 "m.c" true],
      [str "m.c", str "inc/a.h"]) := by
  have hd : Directory (str "m.c") [] := ⟨str "m.c", rfl, by decide, .inl rfl⟩
  have hh : ∀ sys, Names fs1 [str "inc"] (str "m.c") (str "a.h") sys (str "inc/a.h") (str "inc/a.h") := by
    intro sys
    cases sys
    · exact ⟨[], hd, [str "a.h"], [], by decide, by decide, by decide⟩
    · exact ⟨[], hd, [], [], by decide, by decide, by simp⟩
  refine include_partial (c := str "m.c") (D' := [str "inc/a.h"]) ⟨[], ⟨str ".", rfl, by decide, .inl rfl⟩, [], [str "inc/m.c"], by decide, by decide, by simp⟩ ?_
  show Yields fs1 env1.tokenize env1.expand [str "inc"] [] (str "m.c") main1 _ _ _
  refine .plain ⟨by decide, by decide⟩ ?_
  refine .file (out1 := [ident "z" 2 "a.h" true, hash 3 "a.h", ident "pragma" 3 "a.h", ident "pack" 3 "a.h"]) (out2 := [ident "y" 4 "m.c" true])
    (os1 := []) (os2 := []) (D1 := [str "inc/a.h"]) ⟨rfl, rfl, rfl, rfl⟩ (name := str "a.h") (.inr ⟨rfl, rfl, rfl⟩) (hh false) (by simp) ?_ ?_
  · show Yields fs1 env1.tokenize env1.expand [str "inc"] [] (str "inc/a.h") header1 _ _ _
    refine .once ⟨rfl, rfl, rfl, rfl⟩ rfl ?_
    refine .plain ⟨by decide, by decide⟩ ?_
    exact .pragma ⟨rfl, rfl, rfl, rfl⟩ ⟨by decide, by decide⟩ (by decide) (by decide) (by decide) .nil
  · refine .marked ⟨rfl, rfl, rfl, rfl⟩ (name := str "a.h") (.inl ⟨rfl, rfl, rfl⟩) (hh true) (by simp) ?_
    exact .plain ⟨by decide, by decide⟩ .nil

/-- The hypotheses of `include_missing_stops` can be met. -/
example : directive env1 5 (hash 2 "m.c") (ident "include" 2 "m.c") { files := [⟨str "m.c", [tk .PP_HEADER_NAME_Q "\"b.h\"" 2 "m.c"], []⟩] } = .fail :=
  include_missing_stops (name := str "b.h") (dir := []) (sys := false) ⟨rfl, rfl, rfl, rfl⟩ (.inr ⟨rfl, rfl, rfl⟩) rfl
    ⟨str "m.c", rfl, by decide, .inl rfl⟩ (by decide)

/-- The hypotheses of `computed_other_stops` can be met: `#include M N`, where the expansion is the two identifiers. -/
example : directive env1 5 (hash 2 "m.c") (ident "include" 2 "m.c")
    { files := [⟨str "m.c", [ident "M" 2 "m.c", ident "N" 2 "m.c", ident "y" 3 "m.c" true], []⟩] } = .fail :=
  computed_other_stops (m := ident "M" 2 "m.c") (ms := [ident "N" 2 "m.c"]) (u := ident "y" 3 "m.c" true) (ts := []) ⟨rfl, rfl, rfl, rfl⟩ (by decide) (by decide)
    (by decide) rfl rfl (fun ⟨_, _, h⟩ => by simp at h) (by decide) rfl (by simp)

/-- An environment with the given tokens of `m.c` and `d/a.h`. -/
private def env2 (main header : List Tok) (expansion : List Tok := []) : Env where
  fs := fun p => if p = str "m.c" ∨ p = str "d/a.h" ∨ p = str "d/b.h" then .file p else .missing
  tokenize p _ := if p = str "m.c" then main else if p = str "d/a.h" then header else [ident "b" 1 "b.h" true]
  expand _ := .ok expansion

/-- `#include "d/a.h"`. -/
private def incl (l : Int) : List Tok := [hash l "m.c", ident "include" l "m.c", tk .PP_HEADER_NAME_Q "\"d/a.h\"" l "m.c"]

/-- C114, negation for `#line` (6.10.4p3: the directive behaves as if the following lines had the given numbers): after `#line 100` and an `#include`, the
token in line 3 has the line 3 and not 101. -/
theorem line_before_include_violated :
    preprocess (env2 ([hash 1 "m.c", ident "line" 1 "m.c", tk .T_NUM "100" 1 "m.c"] ++ incl 2 ++ [ident "y" 3 "m.c" true]) [ident "z" 1 "a.h" true])
      [] (str "m.c") 20 = .ok ([ident "z" 1 "a.h" true, ident "y" 3 "m.c" true], [str "m.c", str "d/a.h"]) ∧
    (3 : Int) ≠ presumed 100 1 3 := by decide +kernel

/-- C114, negation: a `#line` in a header changes the positions of the including file, too; the first token after the directive is even adjusted twice. -/
theorem line_in_header_violated :
    preprocess (env2 (incl 1 ++ [ident "y" 2 "m.c" true, ident "w" 3 "m.c" true])
        [hash 1 "a.h", ident "line" 1 "a.h", tk .T_NUM "500" 1 "a.h", tk .T_STRING "\"g.y\"" 1 "a.h", ident "z" 2 "a.h" true])
      [] (str "m.c") 20 =
    .ok ([ident "z" 500 "g.y" true, ident "y" 998 "g.y" true, ident "w" 501 "g.y" true], [str "m.c", str "d/a.h"]) ∧
    (500 : Int) = presumed 500 1 2 := by decide +kernel

/-- C114, negation: an `#include` whose operand expands to `<d/a.h>` (6.10.2p4) is rejected. -/
theorem computed_header_violated :
    preprocess (env2 [hash 1 "m.c", ident "include" 1 "m.c", ident "H" 1 "m.c", ident "y" 2 "m.c" true] []
        [tk .T_L "<" 1 "m.c", ident "d" 1 "m.c", tk .T_DIV "/" 1 "m.c", ident "a" 1 "m.c", tk .T_DOT "." 1 "m.c", ident "h" 1 "m.c", tk .T_G ">" 1 "m.c"])
      [str "."] (str "m.c") 20 = .fail := by decide +kernel

/-- C114, negation: a token after the header name, where the syntax of 6.10.2 has the end of the line, is not diagnosed; it comes after the contents. -/
theorem extra_tokens_violated :
    preprocess (env2 (incl 1 ++ [ident "x" 1 "m.c", ident "y" 2 "m.c" true]) [ident "z" 1 "a.h" true]) [] (str "m.c") 20 =
    .ok ([ident "z" 1 "a.h" true, ident "x" 1 "m.c", ident "y" 2 "m.c" true], [str "m.c", str "d/a.h"]) := by decide +kernel

/-- C114, negation: an `#include` with a macro in the last line of a header is searched beside the wrong file, because the first token after the line is
read before. The header `d/a.h` includes `b.h`, which is `d/b.h`; with another line after the directive it is found. -/
theorem computed_last_line_violated :
    Names (env2 [] []).fs [] (str "d/a.h") (str "b.h") false (str "d/b.h") (str "d/b.h") ∧
    preprocess (env2 (incl 1 ++ [ident "y" 2 "m.c" true]) [hash 1 "a.h", ident "include" 1 "a.h", ident "H" 1 "a.h"] [tk .T_STRING "\"b.h\"" 1 "a.h"])
      [] (str "m.c") 20 = .fail ∧
    preprocess (env2 (incl 1 ++ [ident "y" 2 "m.c" true]) [hash 1 "a.h", ident "include" 1 "a.h", ident "H" 1 "a.h", ident "z" 2 "a.h" true]
      [tk .T_STRING "\"b.h\"" 1 "a.h"]) [] (str "m.c") 20 =
      .ok ([ident "b" 1 "b.h" true, ident "z" 2 "a.h" true, ident "y" 2 "m.c" true], [str "m.c", str "d/a.h", str "d/b.h"]) := by
  refine ⟨⟨str "d/", ⟨str "a.h", rfl, by decide, .inr ⟨str "d", rfl⟩⟩, [], [], by decide, by decide, by simp⟩, ?_, ?_⟩ <;> decide +kernel

/-- C114, negation: in the last line of the source file such an `#include` is never finished, as `T_EOI` does not begin a line. -/
theorem computed_at_end_violated (n : Nat) :
    preprocess (env2 [hash 1 "m.c", ident "include" 1 "m.c", ident "H" 1 "m.c"] [] [tk .T_STRING "\"d/a.h\"" 1 "m.c"]) [] (str "m.c") n = .more := by
  have loop : ∀ (n : Nat) (t : Tok) (st : St), t.firstOfLine = false → st.files = [⟨str "m.c", [], []⟩] → readLine n t st = .more := by
    intro n
    induction n with
    | zero => intros; rfl
    | succ n ih =>
      intro t st ht hf
      unfold readLine
      simp only [ht, Bool.false_eq_true, if_false]
      unfold next
      rw [hf, nextFiles]
      simp only [Run.mapOk_ok, Run.bind]
      rw [ih _ _ (by simp [adjust]) rfl]
      rfl
  cases n with
  | zero => rfl
  | succ n =>
    have h : preprocess (env2 [hash 1 "m.c", ident "include" 1 "m.c", ident "H" 1 "m.c"] [] [tk .T_STRING "\"d/a.h\"" 1 "m.c"]) [] (str "m.c") (n + 1) =
        ((((readLine n (ident "H" 1 "m.c") { files := [⟨str "m.c", [], []⟩], deps := [str "m.c"] }).bind fun r =>
          ((env2 [hash 1 "m.c", ident "include" 1 "m.c", ident "H" 1 "m.c"] [] [tk .T_STRING "\"d/a.h\"" 1 "m.c"]).expand r.1).bind fun ts =>
          (stringOf ts).bind fun path =>
          pushInput (env2 [hash 1 "m.c", ident "include" 1 "m.c", ident "H" 1 "m.c"] [] [tk .T_STRING "\"d/a.h\"" 1 "m.c"]) path false r.2).mapOk
          fun st => (false, st)).bind fun q => (next q.2).bind fun s =>
          stream (env2 [hash 1 "m.c", ident "include" 1 "m.c", ident "H" 1 "m.c"] [] [tk .T_STRING "\"d/a.h\"" 1 "m.c"]) n q.1 s.1 s.2) := by rfl
    rw [h, loop _ _ _ rfl rfl]
    rfl

end Verif.Include
