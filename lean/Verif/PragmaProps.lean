import Verif.PragmaLemmas
import Verif.Macro
/-!
C116: pragmas that are not recognised are ignored, and `#pragma pack` applies to the declarations after it.
-/
namespace Verif.Pragma
open Verif PragmaSpec

/-- C116. For every text of declarations, semicolons and lines of pragmas: the declarations are read in order, each with the packing that the `#pragma pack`
lines before it have set, and the other pragmas change nothing.

Missing: `pop`, see `pop_violated`. The tokens are those after macro expansion, where `NewLine` says that the line after a pragma still begins with a token
that is marked as the first of its line; see `macro_violated`. -/
theorem unit_partial {σ : Type} {decl : Int → σ → List Tok → Res (Option (σ × List Tok))} {num : Str → Option Int} (hd : Declares decl) {s s' : σ}
    {ts : List Tok} (h : Means decl num false [] 0 s ts s') : ∃ n, ∀ m, n ≤ m → unit decl num m {} s ts = .ok s' :=
  unit_means hd h

/-- C116. For every statement (and every sequence of items of a compound statement) with unrecognised pragmas between the items of compound statements, of any
nesting: the code is that of the statements without the pragmas, and the packing stays.

Missing: pragmas in front of the statement of an `if`, an `else` or a loop, see `lead_violated`. -/
theorem statements_partial {α : Type} {ex : List Tok → Option (α × List Tok)} {num : Str → Option Int} (hx : Expressions ex) {b : Bool} {ts r : List Tok}
    {l : List (S α)} (h : Reads ex false b ts l r) : ∃ n, ∀ m, n ≤ m → ∀ p, stmt ex num m b p ts = .ok (some (l, p, r)) :=
  stmt_reads hx h

/-- C116: the line of an unrecognised pragma is ignored wherever it stands between declarations, whatever follows, right or wrong. -/
theorem other_ignored {σ : Type} {decl : Int → σ → List Tok → Res (Option (σ × List Tok))} {num : Str → Option Int} (hd : Declares decl) {s : σ} {p : Packs}
    {ls r : List Tok} (h : Other ls) (hr : NewLine r) (n : Nat) : unit decl num (n + 1) p s (ls ++ r) = unit decl num n p s r := by
  have ho := handle_other (num := num) (s := p) h hr
  obtain ⟨_, _, hl, _⟩ := h
  obtain ⟨t, l, rfl, ht⟩ := line_head hl
  rw [List.cons_append] at ho ⊢
  simp [unit, hd.other _ _ _ _ (.inr ht), ht, Run.bind, ho]

/-- C116: a `#pragma pack` (other than `pop`) between the items of a compound statement is no item, and the packing that it sets is in force for the items
after it, whatever follows. -/
theorem pack_in_block {α : Type} {ex : List Tok → Option (α × List Tok)} {num : Str → Option Int} (hx : Expressions ex) {st : List Int} {c : Int} {d : Dir}
    {ls r : List Tok} (h : PackLine num d ls) (hd : d ≠ .pop) (n : Nat) :
    stmt ex num (n + 2) true ⟨st, c⟩ (ls ++ r) = stmt ex num (n + 1) true ⟨(d.after st c).1, (d.after st c).2⟩ r := by
  have ho := handle_pack (st := st) (c := c) (r := r) h hd
  obtain ⟨_, _, _, _, _, _, _, _, hl⟩ := h
  obtain ⟨t, l, rfl, ht⟩ := line_head hl
  rw [List.cons_append] at ho ⊢
  have e : stmt ex num (n + 1) false ⟨st, c⟩ (t :: (l ++ r)) = .ok (some ([], ⟨(d.after st c).1, (d.after st c).2⟩, r)) := by
    simp [stmt, ht, hx.2 t _ (by simp [ht]), Run.bind, ho]
  rw [stmt, e]
  show (stmt ex num (n + 1) true ⟨(d.after st c).1, (d.after st c).2⟩ r).mapOk _ = _
  rcases stmt ex num (n + 1) true ⟨(d.after st c).1, (d.after st c).2⟩ r with (_ | z) | _ | _ | _ <;> rfl

/-- C116: `#pragma pack` without `(`, or with a name other than `push` and `pop`, stops the compiler. -/
theorem pack_malformed_stops {num : Str → Option Int} {s : Packs} {h p n : Tok} {r : List Tok} (hh : h.type = .PP_DIRECTIVE) (hp : p.str = str "pragma")
    (hn : n.type = .T_IDENT) (hs : n.str = str "pack")
    (hr : (∀ o r', r = o :: r' → o.type ≠ .T_LPAR) ∨
      ∃ o t r', r = o :: t :: r' ∧ t.type = .T_IDENT ∧ t.str ≠ str "push" ∧ t.str ≠ str "pop") :
    handle num s (h :: p :: n :: r) = .fail := by
  rcases hr with hr | ⟨o, t, r', rfl, h1, h2, h3⟩
  · cases r with
    | nil => simp [handle, hh, hp, hn, hs, expect, Res.bind]
    | cons o r' => simp [handle, hh, hp, hn, hs, expect, hr o r' rfl, Res.bind]
  · by_cases ho : o.type = .T_LPAR
    · simp [handle, hh, hp, hn, hs, expect, ho, packArgs, h1, h2, h3, Res.bind]
    · simp [handle, hh, hp, hn, hs, expect, ho, Res.bind]

/-! ### Examples -/

/-- `#` at the beginning of a line. -/
private def hash : Tok := { type := .PP_DIRECTIVE, str := str "#", firstOfLine := true }
/-- An identifier. -/
private def ident (s : String) (first : Bool := false) : Tok := { type := .T_IDENT, str := str s, firstOfLine := first }
/-- Another token. -/
private def tk (ty : TType) (s : String) (first : Bool := false) : Tok := { type := ty, str := str s, firstOfLine := first }
/-- The only numbers are 1 and 4. -/
private def num1 (s : Str) : Option Int := if s = str "1" then some 1 else if s = str "4" then some 4 else none
/-- Declarations `int x ;`. The state has the names with the packing in force. -/
private def decl1 (c : Int) (s : List (Str × Int)) : List Tok → Res (Option (List (Str × Int) × List Tok))
  | a :: x :: _ :: r => if a.type = .T_IDENT ∧ a.str = str "int" then .ok (some (s ++ [(x.str, c)], r)) else .ok none
  | _ => .ok none
/-- `int x ;` on a line. -/
private def int1 (x : String) : List Tok := [ident "int" true, ident x, tk .T_SEMI_COLON ";"]
/-- `# pragma omp for`. -/
private def omp : List Tok := [hash, ident "pragma", ident "omp", tk .T_KFOR "for"]
/-- `# pragma pack ( ts )`. -/
private def packs (ts : List Tok) : List Tok := [hash, ident "pragma", ident "pack", tk .T_LPAR "("] ++ ts ++ [tk .T_RPAR ")"]

private theorem declares1 : Declares decl1 := by
  refine ⟨fun _ _ => rfl, fun c s t ts h => ?_⟩
  unfold decl1
  split
  · rename_i h'
    injection h' with h1 h2
    subst h1
    rw [if_neg]
    intro hc
    rw [hc.1] at h
    simp at h
  · rfl

private theorem omp_other : Other omp :=
  ⟨ident "omp", [tk .T_KFOR "for"], ⟨rfl, by decide, hash, ident "pragma", rfl, rfl, rfl⟩, by decide⟩

private theorem push_line : PackLine num1 (.pushSet 1) (packs [ident "push", tk .T_COMMA ",", tk .T_NUM "1"]) :=
  ⟨ident "pack", tk .T_LPAR "(", tk .T_RPAR ")", _, rfl, rfl, rfl, ⟨_, _, _, rfl, rfl, rfl, rfl, rfl, by decide, by decide, rfl⟩,
    rfl, by decide, hash, ident "pragma", rfl, rfl, rfl⟩

private theorem pop_line : PackLine num1 .pop (packs [ident "pop"]) :=
  ⟨ident "pack", tk .T_LPAR "(", tk .T_RPAR ")", _, rfl, rfl, rfl, ⟨_, rfl, rfl, rfl⟩, rfl, by decide, hash, ident "pragma", rfl, rfl, rfl⟩

/-- The hypotheses of `unit_partial` hold for `int a;`, `#pragma omp for`, `#pragma pack(push, 1)`, `int b;`. -/
example : ∃ n, ∀ m, n ≤ m → unit decl1 num1 m {} [] (int1 "a" ++ (omp ++ (packs [ident "push", tk .T_COMMA ",", tk .T_NUM "1"] ++ int1 "b"))) =
    .ok [(str "a", 0), (str "b", 1)] :=
  unit_partial declares1 (.decl (s1 := [(str "a", 0)]) (r := omp ++ (packs [ident "push", tk .T_COMMA ",", tk .T_NUM "1"] ++ int1 "b")) rfl
    (.other (ls := omp) omp_other rfl (.pack (d := .pushSet 1) push_line (fun h => by cases h) rfl (.decl (r := []) rfl .done))))

/-- Expressions of one identifier. -/
private def ex1 : List Tok → Option (Str × List Tok)
  | t :: r => if t.type = .T_IDENT then some (t.str, r) else none
  | [] => none

private theorem expressions1 : Expressions ex1 := by
  refine ⟨rfl, fun t ts h => ?_⟩
  show (if t.type = .T_IDENT then some (t.str, ts) else none) = none
  rw [if_neg]
  intro e
  rw [e] at h
  simp at h

/-- The hypotheses of `statements_partial` hold for a block with `if (x) { #pragma omp for`, `y; } z;`. -/
example : ∃ n, ∀ m, n ≤ m → ∀ p, stmt ex1 num1 m false p ([tk .T_LBRACE "{", tk .T_KIF "if", tk .T_LPAR "(", ident "x", tk .T_RPAR ")", tk .T_LBRACE "{"] ++
      (omp ++ [ident "y" true, tk .T_SEMI_COLON ";", tk .T_RBRACE "}", ident "z", tk .T_SEMI_COLON ";", tk .T_RBRACE "}"])) =
    .ok (some ([.ite (str "x") [.expr (str "y")] [], .expr (str "z")], p, [])) :=
  statements_partial expressions1 (.block rfl (.item (l := [.ite (str "x") [.expr (str "y")] []]) (l' := [.expr (str "z")])
    (r := [ident "z", tk .T_SEMI_COLON ";", tk .T_RBRACE "}"])
    (.onlyIf (r := tk .T_LBRACE "{" :: (omp ++ [ident "y" true, tk .T_SEMI_COLON ";", tk .T_RBRACE "}", ident "z", tk .T_SEMI_COLON ";", tk .T_RBRACE "}"]))
      (p := tk .T_RPAR ")") rfl rfl rfl rfl
      (.block rfl (.line omp_other rfl (.item (l := [.expr (str "y")]) (l' := [])
        (.expr (t := tk .T_SEMI_COLON ";") (r := [tk .T_RBRACE "}", ident "z", tk .T_SEMI_COLON ";", tk .T_RBRACE "}"]) rfl rfl) (.close rfl))))
      (fun e r2 h => by injection h with h _; subst h; decide))
    (.item (l := [.expr (str "z")]) (l' := []) (.expr (t := tk .T_SEMI_COLON ";") (r := [tk .T_RBRACE "}"]) rfl rfl) (.close rfl))))

/-- The hypotheses of `pack_malformed_stops` can be met: `#pragma pack(show)`. -/
example : handle num1 {} (packs [ident "show"]) = .fail :=
  pack_malformed_stops rfl rfl rfl rfl (.inr ⟨_, _, _, rfl, rfl, by decide, by decide⟩)

/-- The hypotheses of `pack_in_block` can be met: `#pragma pack(push, 1)` in a block. -/
example (r : List Tok) : stmt ex1 num1 7 true {} (packs [ident "push", tk .T_COMMA ",", tk .T_NUM "1"] ++ r) = stmt ex1 num1 6 true ⟨[0], 1⟩ r :=
  pack_in_block expressions1 push_line (fun h => by cases h) 5

/-! ### Violations -/

/-- C116, negation: after `#pragma pack(push, 1)` and `#pragma pack(pop)` the structures are still packed. -/
theorem pop_violated : ∃ ts, Means decl1 num1 true [] 0 [] ts [(str "a", 0)] ∧ unit decl1 num1 20 {} [] ts = .ok [(str "a", 1)] :=
  ⟨packs [ident "push", tk .T_COMMA ",", tk .T_NUM "1"] ++ (packs [ident "pop"] ++ int1 "a"),
    .pack push_line (fun _ => rfl) rfl (.pack pop_line (fun _ => rfl) rfl (.decl rfl .done)), by decide +kernel⟩

/-- C116, negation: a pragma in front of the statement of an `if` (or a loop) is taken for the statement, so that the statement is always executed:
`if (x)`, `#pragma omp for`, `y;`. -/
theorem lead_violated : ∃ ts, Reads ex1 true true ts [.ite (str "x") [.expr (str "y")] []] [] ∧
    stmt ex1 num1 20 true {} ts = .ok (some ([.ite (str "x") [] [], .expr (str "y")], {}, [])) :=
  ⟨[tk .T_KIF "if", tk .T_LPAR "(", ident "x", tk .T_RPAR ")"] ++ (omp ++ [ident "y" true, tk .T_SEMI_COLON ";", tk .T_RBRACE "}"]),
    .item (l := [.ite (str "x") [.expr (str "y")] []]) (l' := []) (r := [tk .T_RBRACE "}"])
      (.onlyIf (r := omp ++ [ident "y" true, tk .T_SEMI_COLON ";", tk .T_RBRACE "}"]) (p := tk .T_RPAR ")") rfl rfl rfl rfl
        (.ahead rfl omp_other rfl (.expr (t := tk .T_SEMI_COLON ";") rfl rfl))
        (fun e r2 h => by injection h with h _; subst h; decide)) (.close rfl), by rfl⟩

/-- C116, negation: `#pragma` without tokens (6.10.6p1 allows it) is rejected, unless the next line begins with an identifier. -/
theorem empty_violated (num : Str → Option Int) (s : Packs) (h p : Tok) (r : List Tok) (hh : h.type = .PP_DIRECTIVE) (hp : p.str = str "pragma")
    (hr : ∀ t r', r = t :: r' → t.type ≠ .T_IDENT) : handle num s (h :: p :: r) = .fail := by
  cases r with
  | nil => simp [handle, hh]
  | cons t r => simp [handle, hh, hp, hr t r rfl]

/-- All tokens that the expander returns. -/
private def drain (env : Str → Option DefineMap.Define) (n : Nat) : Nat → Macro.St → Run (List Tok)
  | 0, _ => .more
  | k + 1, s => (Macro.next env n s).bind fun q => if q.1.type = .T_EOI then .ok [] else (drain env n k q.2).mapOk (q.1 :: ·)

/-- `#define T int`. -/
private def env1 (s : Str) : Option DefineMap.Define := if s = str "T" then some { name := str "T", body := [ident "int"] } else none

/-- C116, negation: a pragma swallows the next line if this begins with a macro, because the tokens of the expansion are not marked as the first of the
line. Of `#pragma omp for`, `T x;`, `int y;` with `#define T int` only `y` is declared; without the pragma, both are. -/
theorem macro_violated : ∃ ls rest out out', Other ls ∧ NewLine rest ∧ drain env1 10 20 { src := rest } = .ok out ∧
    Means decl1 num1 false [] 0 [] out [(str "x", 0), (str "y", 0)] ∧
    drain env1 10 20 { src := ls ++ rest } = .ok out' ∧ unit decl1 num1 20 {} [] out' = .ok [(str "y", 0)] :=
  ⟨omp, [ident "T" true, ident "x", tk .T_SEMI_COLON ";"] ++ int1 "y", _, _, omp_other, rfl, by rfl, .decl rfl (.decl rfl .done), by rfl, by rfl⟩

end Verif.Pragma
