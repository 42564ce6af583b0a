import Verif.GuardLemmas
/-!
C117: conditional directives in several files, and include guards.
-/
namespace Verif.Guard
open InputSpec IncludeSpec GuardSpec
open Include (Good Env St next next_eoi)

/-- C117. When the source file yields the tokens `out` by the rules of `Yields`, in which the sections of each file are complete in the file, the groups that
are not selected are skipped with everything in them, and macros that a header defines or undefines are seen by the conditions after it, then these are the
tokens that the later phases get.

The value of an expression, after `defined` has been replaced, is that of the evaluator `v`, whose own correctness is in C08 to C12.

Missing: `#line`, `push_macro` and `pop_macro`, and a `#define` in the last line of a file other than that of
an object-like macro in a header (see also `define_last_line`). -/
theorem sections_partial {e : Env} {v : Ev} {includes : List Str} {path q : Str} {c : List Byte} {out : List Tok} {os D' : List Str} {M' : Macros}
    (hq : Names e.fs includes (str ".") path false q c)
    (hy : Yields e.fs e.tokenize v includes [] [] q false (e.tokenize q (c ++ [0])) out os D' M') :
    ∃ n, ∀ m, n ≤ m → preprocess e v includes path m = .ok (out, q :: os) := by
  obtain ⟨n, h⟩ := rest_yields hy [] [] [q] [] 1 [] (q :: os) (by
    intro m hm st' g
    obtain ⟨m, rfl⟩ : ∃ j, m = j + 1 := ⟨m - 1, by omega⟩
    unfold rest
    rw [next_eoi g]
    simp [Run.bind, stream, g.deps])
  obtain ⟨d, hd, hf⟩ := hq
  have hs := Input.include_search (st := { paths := includes, disabled := [] }) (system := false) hd hf
  refine ⟨n, fun m hm => ?_⟩
  have h1 : Include.pushInput e path false { paths := includes } =
      .ok { paths := includes, deps := [q], files := [{ path := q, toks := e.tokenize q (c ++ [0]) }] } := by
    unfold Include.pushInput Include.parentPath
    dsimp only
    rw [hs]
    rfl
  unfold preprocess
  rw [h1]
  show rest e v m ⟨[1], []⟩ _ = _
  refine (h m hm _ ⟨by simp [Include.flat], ?_, ?_, rfl, rfl, rfl, fun _ => Iff.rfl, rfl⟩).trans (by rw [List.append_nil])
  · intro f fs e
    obtain ⟨rfl, rfl⟩ := List.cons.inj e
    simp
  · intro f fs e
    obtain ⟨rfl, rfl⟩ := List.cons.inj e
    intro g hg
    cases hg

/-- C117, include guards: the source file is a part `a`, an `#include` of the file `q`, and a part `b`. The file `q` has an include guard whose macro is defined
after `a`. Then the `#include` contributes no tokens; the
file is opened unless it is marked with `#pragma once`. -/
theorem guard_partial {e : Env} {v : Ev} {includes : List Str} {path p q g name : Str} {c0 c : List Byte} {a b out1 out2 : List Tok}
    {os1 os2 D1 D2 : List Str} {M1 M2 : Macros} {t d h : Tok} {sys : Bool}
    (hp : Names e.fs includes (str ".") path false p c0) (htok : e.tokenize p (c0 ++ [0]) = a ++ t :: d :: h :: b)
    (ha : Yields e.fs e.tokenize v includes [] [] p false a out1 os1 D1 M1) (hs : Starts "include" t d) (hh : HeaderName h name sys)
    (hq : Names e.fs includes p name sys q c) (hg : Guarded g (e.tokenize q (c ++ [0]))) (hm : IsDefined M1 g)
    (hb : Yields e.fs e.tokenize v includes D1 M1 p false b out2 os2 D2 M2) :
    ∃ n, ∀ m, n ≤ m → preprocess e v includes path m = .ok (out1 ++ out2, p :: (os1 ++ if q ∈ D1 then os2 else q :: os2)) := by
  by_cases hd : q ∈ D1
  · rw [if_pos hd]
    exact sections_partial hp (by rw [htok]; exact yields_append ha (.marked hs hh hq hd hb))
  · rw [if_neg hd]
    exact sections_partial hp (by rw [htok]; exact yields_append ha (.file (out1 := []) (os1 := []) hs hh hq hd (guarded_yields hg hm) hb))

/-- C117: a header whose last line is `#define x body`, included by a file whose next line begins with `u`: the macro gets exactly this body, and the stream goes
on with `u` in the including file. (For the last line of the source file see C65.) -/
theorem define_last_line {e : Env} {v : Ev} {n : Nat} {t d x u : Tok} {body ts : List Tok} {p q : Str} {M : Macros} {cs : List Int} {fs : List Include.File}
    {st : St} (hs : Starts "define" t d) (hb : ∀ b ∈ body, b.firstOfLine = false) (hu : u.firstOfLine = true) (hw : u.whitespace = true)
    (hp : ∀ b bs, body = b :: bs → b.type = .T_LPAR → b.whitespace = true) (hn : body.length + 1 ≤ n)
    (hf : st.files = ⟨q, t :: d :: x :: body, []⟩ :: ⟨p, u :: ts, []⟩ :: fs) (hfs : ∀ f ∈ fs, f.pushed.length ≤ 2) (h1 : st.lineDiff = 0)
    (h2 : st.newPath = none) :
    ∃ st1, rest e v (n + 1) ⟨1 :: cs, M⟩ st = rest e v n ⟨1 :: cs, (x.str, ⟨none, body⟩) :: M⟩ st1 ∧
      st1.files.map Include.flat = (p, u :: ts) :: fs.map Include.flat ∧ (∀ f, f ∈ st1.disabled ↔ f ∈ st.disabled) ∧ st1.paths = st.paths ∧ st1.deps = st.deps := by
  have g : Good st.paths 2 ((q, t :: d :: x :: body) :: (p, u :: ts) :: fs.map Include.flat) st.disabled st.deps st :=
    ⟨by simp [hf, Include.flat], fun f l h => by simp only [hf] at h; obtain ⟨rfl, rfl⟩ := List.cons.inj h; simp,
      fun f l h => by
        simp only [hf] at h
        obtain ⟨rfl, rfl⟩ := List.cons.inj h
        intro g hg
        rcases List.mem_cons.1 hg with rfl | hg
        · simp
        · exact hfs g hg, h1, h2, rfl, fun _ => Iff.rfl, rfl⟩
  obtain ⟨k1, k2, k3, k4⟩ := hs
  obtain ⟨st1, e1, g1⟩ := Include.next_good g
  obtain ⟨st2, e2, g2⟩ := Include.next_good g1
  obtain ⟨st3, e3, g3⟩ := define_end (M := M) hb hu hw hp hn g2
  refine ⟨st3, ?_, g3.files, g3.dis, g3.paths, g3.deps⟩
  have hh : handle e v n t d 1 cs M st2 = .ok (false, ⟨1 :: cs, (x.str, ⟨none, body⟩) :: M⟩, st3) := by
    unfold handle
    rw [if_neg (by rw [k4]; decide), if_neg (by rw [k4]; decide), if_neg (by rw [k4]; decide), if_pos rfl, if_pos k4, e3]
    rfl
  unfold rest
  rw [e1]
  show stream e v (n + 1) false t ⟨1 :: cs, M⟩ st1 = _
  rw [stream]
  dsimp only
  rw [if_neg (by simp [k1]), if_neg (by simp [k1]), e2]
  show (if d.firstOfLine = true ∨ (d.type ≠ .T_IDENT ∧ (1 : Int) ≠ 1) then _ else _) = _
  rw [if_neg (by simp [k2]), if_neg (by simp [k3]), hh]
  rfl

/-- `#` at the beginning of a line. -/
private def hash (l : Int) (p : String) : Tok :=
  { type := .PP_DIRECTIVE, str := str "#", firstOfLine := true, whitespace := true, line := l, path := str p }
/-- An identifier. -/
private def ident (s : String) (l : Int) (p : String) (first : Bool := false) : Tok :=
  { type := .T_IDENT, str := str s, firstOfLine := first, whitespace := true, line := l, path := str p }
/-- A directive with an operand. -/
private def dir (s x : String) (l : Int) (p : String) : List Tok := [hash l p, ident s l p, ident x l p]
/-- `#include "a.h"`. -/
private def incl (l : Int) : List Tok :=
  [hash l "m.c", ident "include" l "m.c", { type := .PP_HEADER_NAME_Q, str := str "\"a.h\"", line := l, path := str "m.c" }]
/-- The environment with the given tokens of `m.c` and `a.h`. -/
private def env (main header : List Tok) : Env where
  fs := fun p => if p = str "m.c" ∨ p = str "a.h" then .file p else .missing
  tokenize p _ := if p = str "m.c" then main else header
  expand ts := .ok ts

/-- A header with a guard: `#ifndef H`, `#define H`, `z`, `#endif`. -/
private def header1 : List Tok := dir "ifndef" "H" 1 "a.h" ++ dir "define" "H" 2 "a.h" ++ [ident "z" 3 "a.h" true, hash 4 "a.h", ident "endif" 4 "a.h"]

/-- The section of the header when `H` is not defined. -/
private theorem header1_first {fs tok v includes} :
    Yields fs tok v includes [] [] (str "a.h") false header1 [ident "z" 3 "a.h" true] [] [] [(str "H", ⟨none, []⟩)] := by
  refine .yes (l := [ident "H" 1 "a.h"]) (a := dir "define" "H" 2 "a.h" ++ [ident "z" 3 "a.h" true]) (tl := [hash 4 "a.h", ident "endif" 4 "a.h"]) (ts := [])
    (out1 := [ident "z" 3 "a.h" true]) (out2 := []) (os1 := []) (os2 := []) (D1 := []) (M1 := [(str "H", ⟨none, []⟩)])
    ⟨rfl, rfl, rfl⟩ (.ifndef rfl (by simp [IsDefined])) ?_ (.close ⟨rfl, rfl, rfl, rfl⟩) .nil
  exact .define (body := []) ⟨rfl, rfl, rfl, rfl⟩ (by simp) rfl rfl (by simp) (.plain ⟨by decide, by decide⟩ .nil)

private theorem header1_guarded : Guarded (str "H") header1 :=
  ⟨_, _, _, _, _, _, [ident "z" 3 "a.h" true], _, _, ⟨rfl, rfl, rfl, rfl⟩, rfl, by decide, ⟨rfl, rfl, rfl, rfl⟩, rfl, by decide,
    .text (by decide) .nil, ⟨rfl, rfl, rfl, rfl⟩, rfl⟩

private theorem names_main {main header : List Tok} : Names (env main header).fs [] (str ".") (str "m.c") false (str "m.c") (str "m.c") :=
  ⟨[], ⟨str ".", rfl, by decide, .inl rfl⟩, [], [], by decide, by simp [env], by simp⟩

private theorem names_header {main header : List Tok} : Names (env main header).fs [] (str "m.c") (str "a.h") false (str "a.h") (str "a.h") :=
  ⟨[], ⟨str "m.c", rfl, by decide, .inl rfl⟩, [], [], by decide, by simp [env], by simp⟩

/-- `x`, the header, `y`, the header, and what follows. -/
private def main1 (b : List Tok) : List Tok := ident "x" 1 "m.c" true :: (incl 2 ++ ident "y" 3 "m.c" true :: (incl 4 ++ b))

/-- An evaluator for the examples: the constant `1` is true. -/
private def ev : Ev := fun _ ts => match ts with
  | [t] => .ok (decide (t.str = str "1"))
  | _ => .fail

/-- The part before the second `#include`. -/
private theorem main1_a {b : List Tok} : Yields (env (main1 b) header1).fs (env (main1 b) header1).tokenize ev [] [] [] (str "m.c") false
    (ident "x" 1 "m.c" true :: (incl 2 ++ [ident "y" 3 "m.c" true]))
    [ident "x" 1 "m.c" true, ident "z" 3 "a.h" true, ident "y" 3 "m.c" true] [str "a.h"] [] [(str "H", ⟨none, []⟩)] := by
  refine .plain ⟨by decide, by decide⟩ ?_
  exact .file (out1 := [ident "z" 3 "a.h" true]) (os1 := []) (os2 := []) (D1 := []) (M1 := [(str "H", ⟨none, []⟩)]) ⟨rfl, rfl, rfl, rfl⟩ (name := str "a.h")
    (.inr ⟨rfl, rfl, rfl⟩) names_header (by simp) header1_first (.plain ⟨by decide, by decide⟩ .nil)

/-- The hypotheses of `guard_partial` hold for a header that is included twice. -/
example : ∃ n, ∀ m, n ≤ m → preprocess (env (main1 [ident "w" 5 "m.c" true]) header1) ev [] (str "m.c") m =
    .ok ([ident "x" 1 "m.c" true, ident "z" 3 "a.h" true, ident "y" 3 "m.c" true, ident "w" 5 "m.c" true], [str "m.c", str "a.h", str "a.h"]) :=
  guard_partial (name := str "a.h") (sys := false) (a := ident "x" 1 "m.c" true :: (incl 2 ++ [ident "y" 3 "m.c" true])) (b := [ident "w" 5 "m.c" true])
    (out1 := [ident "x" 1 "m.c" true, ident "z" 3 "a.h" true, ident "y" 3 "m.c" true]) (out2 := [ident "w" 5 "m.c" true]) (os1 := [str "a.h"]) (os2 := [])
    (D1 := []) (M1 := [(str "H", ⟨none, []⟩)]) names_main rfl main1_a ⟨rfl, rfl, rfl, rfl⟩ (.inr ⟨rfl, rfl, rfl⟩) names_header header1_guarded ⟨⟨none, []⟩, by decide⟩
    (.plain ⟨by decide, by decide⟩ .nil)

/-- `#ifdef H`, `p`, `#else`, `q`, `#endif`, `#undef H`, `#if defined(H)`, `#if`, `r`, `#else`, `#endif`, `#elif 1`, `s`, `#endif`. -/
private def main2 : List Tok :=
  dir "ifdef" "H" 1 "m.c" ++ [ident "p" 2 "m.c" true, hash 3 "m.c", ident "else" 3 "m.c", ident "q" 4 "m.c" true, hash 5 "m.c", ident "endif" 5 "m.c"] ++
  dir "undef" "H" 6 "m.c" ++ [hash 7 "m.c", ident "if" 7 "m.c", ident "defined" 7 "m.c", { type := .T_LPAR, str := str "(" }, ident "H" 7 "m.c",
    { type := .T_RPAR, str := str ")" }] ++ [hash 8 "m.c", ident "if" 8 "m.c", ident "r" 9 "m.c" true, hash 10 "m.c", ident "else" 10 "m.c",
    hash 11 "m.c", ident "endif" 11 "m.c"] ++
  [hash 12 "m.c", ident "elif" 12 "m.c", { type := .T_NUM, str := str "1" }, ident "s" 13 "m.c" true, hash 14 "m.c", ident "endif" 14 "m.c"]

/-- The hypotheses of `sections_partial` hold for a header whose macro is tested afterwards, with `#else`, `#elif`, `#undef`, `defined` and a nested section. -/
example : ∃ n, ∀ m, n ≤ m → preprocess (env (incl 0 ++ main2) header1) ev [] (str "m.c") m =
    .ok ([ident "z" 3 "a.h" true, ident "p" 2 "m.c" true, ident "s" 13 "m.c" true], [str "m.c", str "a.h"]) := by
  refine sections_partial (D' := []) (M' := []) names_main ?_
  show Yields _ _ ev [] [] [] (str "m.c") false (incl 0 ++ main2) _ _ _ _
  refine .file (out1 := [ident "z" 3 "a.h" true]) (os1 := []) (os2 := []) (D1 := []) (M1 := [(str "H", ⟨none, []⟩)]) ⟨rfl, rfl, rfl, rfl⟩ (name := str "a.h")
    (.inr ⟨rfl, rfl, rfl⟩) names_header (by simp) header1_first ?_
  refine .yes (l := [ident "H" 1 "m.c"]) (a := [ident "p" 2 "m.c" true])
    (tl := [hash 3 "m.c", ident "else" 3 "m.c", ident "q" 4 "m.c" true, hash 5 "m.c", ident "endif" 5 "m.c"])
    (out1 := [ident "p" 2 "m.c" true]) (out2 := [ident "s" 13 "m.c" true]) (os1 := []) (os2 := []) (D1 := []) (M1 := [(str "H", ⟨none, []⟩)])
    ⟨rfl, rfl, rfl⟩ (.ifdef rfl ⟨⟨none, []⟩, by decide⟩) (.plain ⟨by decide, by decide⟩ .nil)
    (.more (b := [ident "q" 4 "m.c" true]) (tl := [hash 5 "m.c", ident "endif" 5 "m.c"]) ⟨rfl, rfl, rfl⟩ (by unfold Further; decide) (.text (by decide) .nil)
      (.close ⟨rfl, rfl, rfl, rfl⟩)) ?_
  refine .undef ⟨rfl, rfl, rfl, rfl⟩ rfl ?_
  refine .no (l := [ident "defined" 7 "m.c", { type := .T_LPAR, str := str "(" }, ident "H" 7 "m.c", { type := .T_RPAR, str := str ")" }])
    (a := [hash 8 "m.c", ident "if" 8 "m.c", ident "r" 9 "m.c" true, hash 10 "m.c", ident "else" 10 "m.c", hash 11 "m.c", ident "endif" 11 "m.c"])
    ⟨rfl, rfl, rfl⟩ (.expr (l' := [constant "0"]) rfl (by decide)
      (.no (ops := [{ type := .T_LPAR, str := str "(" }, ident "H" 7 "m.c", { type := .T_RPAR, str := str ")" }]) (x := ident "H" 7 "m.c") rfl
        (.inr ⟨_, _, rfl, rfl, rfl⟩) (by rintro ⟨b, h⟩; cases h) .nil) (by decide) rfl)
    (.opens ⟨rfl, rfl, rfl⟩ (by unfold Opens; decide) (.text (by decide) (.further ⟨rfl, rfl, rfl⟩ (by unfold Further; decide)
      (.closes ⟨rfl, rfl, rfl⟩ rfl .nil)))) ?_
  exact .elifYes (l := [{ type := .T_NUM, str := str "1" }]) (a := [ident "s" 13 "m.c" true]) (tl := [hash 14 "m.c", ident "endif" 14 "m.c"]) (ts := [])
    (out1 := [ident "s" 13 "m.c" true]) (out2 := []) (os1 := []) (os2 := []) (D1 := []) (M1 := [])
    ⟨rfl, rfl, rfl⟩ (.expr (l' := [{ type := .T_NUM, str := str "1" }]) rfl (by decide) (.other (by decide) .nil) (by decide) rfl)
    (.plain ⟨by decide, by decide⟩ .nil) (.close ⟨rfl, rfl, rfl, rfl⟩) .nil

/-- `#define F(a, ...) a`, `#ifdef F`, `s`, `#endif`. -/
private def main3 : List Tok :=
  dir "define" "F" 1 "m.c" ++ [{ type := .T_LPAR, str := str "(" }, ident "a" 1 "m.c", { type := .T_COMMA, str := str "," },
    { type := .T_ELLIPSIS, str := str "..." }, { type := .T_RPAR, str := str ")" }, ident "a" 1 "m.c"] ++
  dir "ifdef" "F" 2 "m.c" ++ [ident "s" 3 "m.c" true, hash 4 "m.c", ident "endif" 4 "m.c"]

/-- The hypotheses of `sections_partial` hold for a function-like macro. -/
example : ∃ n, ∀ m, n ≤ m → preprocess (env main3 []) ev [] (str "m.c") m = .ok ([ident "s" 3 "m.c" true], [str "m.c"]) := by
  refine sections_partial (D' := []) (M' := [(str "F", ⟨some ([ident "a" 1 "m.c"], true), [ident "a" 1 "m.c"]⟩)]) names_main ?_
  show Yields _ _ ev [] [] [] (str "m.c") false main3 _ _ _ _
  refine .defineFun (x := ident "F" 1 "m.c") (ps := [ident "a" 1 "m.c", { type := .T_COMMA, str := str "," }, { type := .T_ELLIPSIS, str := str "..." },
      { type := .T_RPAR, str := str ")" }]) (is := [ident "a" 1 "m.c"]) (va := true) (body := [ident "a" 1 "m.c"]) (u := hash 2 "m.c")
    ⟨rfl, rfl, rfl, rfl⟩ rfl rfl (.inl (.more rfl rfl (.dots rfl rfl))) (by decide) rfl ?_
  exact .yes (l := [ident "F" 2 "m.c"]) (a := [ident "s" 3 "m.c" true]) (tl := [hash 4 "m.c", ident "endif" 4 "m.c"]) (ts := [])
    (out1 := [ident "s" 3 "m.c" true]) (out2 := []) (os1 := []) (os2 := []) (D1 := [])
    ⟨rfl, rfl, rfl⟩ (.ifdef rfl ⟨_, List.mem_cons_self ..⟩) (.plain ⟨by decide, by decide⟩ .nil) (.close ⟨rfl, rfl, rfl, rfl⟩) .nil

/-- The hypotheses of `sections_partial` hold for a header whose last line is `#define X 1`: `#include "a.h"`, `#ifdef X`, `s`, `#endif`. -/
example : ∃ n, ∀ m, n ≤ m → preprocess (env (incl 1 ++ dir "ifdef" "X" 2 "m.c" ++ [ident "s" 3 "m.c" true, hash 4 "m.c", ident "endif" 4 "m.c"])
      (ident "z" 1 "a.h" true :: (dir "define" "X" 2 "a.h" ++ [{ type := .T_NUM, str := str "1" }]))) ev [] (str "m.c") m =
    .ok ([ident "z" 1 "a.h" true, ident "s" 3 "m.c" true], [str "m.c", str "a.h"]) := by
  refine sections_partial (D' := []) (M' := [(str "X", ⟨none, [{ type := .T_NUM, str := str "1" }]⟩)]) names_main ?_
  show Yields _ _ ev [] [] [] (str "m.c") false (incl 1 ++ dir "ifdef" "X" 2 "m.c" ++ [ident "s" 3 "m.c" true, hash 4 "m.c", ident "endif" 4 "m.c"]) _ _ _ _
  refine .fileDefine (name := str "a.h") (sys := false) (q := str "a.h") (a := [ident "z" 1 "a.h" true]) (t1 := hash 2 "a.h") (d1 := ident "define" 2 "a.h")
    (x := ident "X" 2 "a.h") (body := [{ type := .T_NUM, str := str "1" }]) (out1 := [ident "z" 1 "a.h" true]) (out2 := [ident "s" 3 "m.c" true]) (os1 := [])
    (os2 := []) (D1 := []) (M1 := []) ⟨rfl, rfl, rfl, rfl⟩ (.inr ⟨rfl, rfl, rfl⟩) names_header (by simp) rfl (.plain ⟨by decide, by decide⟩ .nil)
    ⟨rfl, rfl, rfl, rfl⟩ (by decide) rfl rfl (fun b bs h => by injection h with h _; subst h; intro h; cases h) ?_
  exact .yes (l := [ident "X" 2 "m.c"]) (a := [ident "s" 3 "m.c" true]) (tl := [hash 4 "m.c", ident "endif" 4 "m.c"]) (ts := [])
    (out1 := [ident "s" 3 "m.c" true]) (out2 := []) (os1 := []) (os2 := []) (D1 := [])
    ⟨rfl, rfl, rfl⟩ (.ifdef rfl ⟨_, List.mem_cons_self ..⟩) (.plain ⟨by decide, by decide⟩ .nil) (.close ⟨rfl, rfl, rfl, rfl⟩) .nil

/-- The hypotheses of `define_last_line` can be met: the header is `#define X 1`, and the including file goes on with `y`. -/
example : ∃ st1, rest (env [] []) ev 6 ⟨[1], []⟩ { files := [⟨str "a.h", dir "define" "X" 1 "a.h" ++ [{ type := .T_NUM, str := str "1" }], []⟩,
      ⟨str "m.c", [ident "y" 2 "m.c" true], []⟩] } = rest (env [] []) ev 5 ⟨[1], [(str "X", ⟨none, [{ type := .T_NUM, str := str "1" }]⟩)]⟩ st1 ∧
    st1.files.map Include.flat = [(str "m.c", [ident "y" 2 "m.c" true])] ∧ (∀ f, f ∈ st1.disabled ↔ f ∈ []) ∧ st1.paths = [] ∧ st1.deps = [] :=
  define_last_line (fs := []) (x := ident "X" 1 "a.h") ⟨rfl, rfl, rfl, rfl⟩ (by decide) rfl rfl
    (fun b bs h => by injection h with h _; subst h; intro h; cases h) (by decide) rfl (by simp) rfl rfl

/-- C117, negation (6.10p1: an if-section is complete within its file): a header that does not close its section is accepted, and the including file continues
in the skipped group up to its own `#endif`. The header is `#ifdef U`, the file is `#include "a.h"`, `y`, `#endif`, `w`. -/
theorem unclosed_header_violated :
    preprocess (env (incl 1 ++ [ident "y" 2 "m.c" true, hash 3 "m.c", ident "endif" 3 "m.c", ident "w" 4 "m.c" true]) (dir "ifdef" "U" 1 "a.h")) ev []
      (str "m.c") 30 = .ok ([ident "w" 4 "m.c" true], [str "m.c", str "a.h"]) ∧
    ¬Skipped 0 (dir "ifdef" "U" 1 "a.h") := by
  refine ⟨by decide +kernel, fun h => ?_⟩
  cases h with
  | text h => exact h rfl
  | other _ h => exact h (by unfold Opens; decide)
  | null _ h => revert h; decide
  | opens _ _ h => cases h with
    | text _ h => cases h

/-- C117, negation: an `#endif` in a header closes a section of the including file. The header is `#endif`, the file is `#ifndef U`, `#include "a.h"`, `y`. -/
theorem header_endif_violated :
    preprocess (env (dir "ifndef" "U" 1 "m.c" ++ incl 2 ++ [ident "y" 3 "m.c" true]) [hash 1 "a.h", ident "endif" 1 "a.h"]) ev [] (str "m.c") 30 =
      .ok ([ident "y" 3 "m.c" true], [str "m.c", str "a.h"]) ∧
    ¬Skipped 0 [hash 1 "a.h", ident "endif" 1 "a.h"] := by
  refine ⟨by decide +kernel, fun h => ?_⟩
  cases h with
  | text h => exact h rfl
  | other _ _ _ h => exact h rfl
  | null _ h => revert h; decide
  | opens _ h => revert h; unfold Opens; decide

end Verif.Guard
