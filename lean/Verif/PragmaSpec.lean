import Verif.Pragma
/-!
What pragmas mean (C17 6.10.6): a pragma that is not recognised is ignored, wherever the line stands; `#pragma pack` changes the packing of the structures
that are declared after it.
-/
namespace Verif.PragmaSpec
open Verif Verif.Pragma

/-- What follows begins a new line, or nothing follows. -/
def NewLine : List Tok → Prop
  | [] => True
  | t :: _ => t.firstOfLine = true

/-- The line of a pragma with the name `n`: `#`, `pragma`, the name, and any other tokens of the line. -/
def Line (n : Tok) (r ls : List Tok) : Prop :=
  n.type = .T_IDENT ∧ (∀ t ∈ n :: r, t.type ≠ .T_EOI ∧ t.firstOfLine = false) ∧
  ∃ h p : Tok, h.type = .PP_DIRECTIVE ∧ p.str = str "pragma" ∧ ls = h :: p :: n :: r

/-- The line of a pragma that is not recognised. -/
def Other (ls : List Tok) : Prop := ∃ n r, Line n r ls ∧ n.str ≠ str "pack"

/-- The forms of `#pragma pack`. -/
inductive Dir where
  | set (v : Int)
  | reset
  | push
  | pushSet (v : Int)
  | pop

/-- What the line says between the parentheses. -/
def Dir.Spelled (num : Str → Option Int) : Dir → List Tok → Prop
  | .set v, ts => ∃ t : Tok, t.type = .T_NUM ∧ num t.str = some v ∧ -2 ^ 31 ≤ v ∧ v < 2 ^ 31 ∧ ts = [t]
  | .reset, ts => ts = []
  | .push, ts => ∃ t : Tok, t.type = .T_IDENT ∧ t.str = str "push" ∧ ts = [t]
  | .pushSet v, ts => ∃ t c u : Tok, t.type = .T_IDENT ∧ t.str = str "push" ∧ c.type = .T_COMMA ∧ u.type = .T_NUM ∧ num u.str = some v ∧
      -2 ^ 31 ≤ v ∧ v < 2 ^ 31 ∧ ts = [t, c, u]
  | .pop, ts => ∃ t : Tok, t.type = .T_IDENT ∧ t.str = str "pop" ∧ ts = [t]

/-- The line of a `#pragma pack`. -/
def PackLine (num : Str → Option Int) (d : Dir) (ls : List Tok) : Prop :=
  ∃ n o c ts, n.str = str "pack" ∧ o.type = .T_LPAR ∧ c.type = .T_RPAR ∧ d.Spelled num ts ∧ Line n (o :: ts ++ [c]) ls

/-- The saved packings and the one in force afterwards; 0 is the packing of the ABI. -/
def Dir.after : Dir → List Int → Int → List Int × Int
  | .set v, st, _ => (st, v)
  | .reset, st, _ => (st, 0)
  | .push, st, c => (c :: st, c)
  | .pushSet v, st, c => (c :: st, v)
  | .pop, [], c => ([], c)
  | .pop, p :: st, _ => (st, p)

/-- The text of a file after phase 4, with pragmas: from the state `s` the declarations lead to the last state. Every declaration is read with the packing in
force. The flag says whether `pop` occurs. -/
inductive Means {σ : Type} (decl : Int → σ → List Tok → Res (Option (σ × List Tok))) (num : Str → Option Int) (pops : Bool) :
    List Int → Int → σ → List Tok → σ → Prop where
  | done {st c s} : Means decl num pops st c s [] s
  | decl {st c s ts s1 r s2} : decl c s ts = .ok (some (s1, r)) → Means decl num pops st c s1 r s2 → Means decl num pops st c s ts s2
  | semi {st c s s1} {t : Tok} {r} : t.type = .T_SEMI_COLON → Means decl num pops st c s r s1 → Means decl num pops st c s (t :: r) s1
  | other {st c s s1 ls r} : Other ls → NewLine r → Means decl num pops st c s r s1 → Means decl num pops st c s (ls ++ r) s1
  | pack {st c s s1 ls r d} : PackLine num d ls → (d = .pop → pops = true) → NewLine r →
      Means decl num pops (d.after st c).1 (d.after st c).2 s r s1 → Means decl num pops st c s (ls ++ r) s1

/-- Statements and (flag) the items of a compound statement up to its end, with their code. `ex` reads an expression. `lead` says whether pragmas may stand in
front of a statement that belongs to an `if` or a loop. -/
inductive Reads {α : Type} (ex : List Tok → Option (α × List Tok)) (lead : Bool) : Bool → List Tok → List (S α) → List Tok → Prop where
  | semi {t : Tok} {r} : t.type = .T_SEMI_COLON → Reads ex lead false (t :: r) [] r
  | expr {ts e} {t : Tok} {r} : ex ts = some (e, t :: r) → t.type = .T_SEMI_COLON → Reads ex lead false ts [.expr e] r
  | block {t : Tok} {r l r'} : t.type = .T_LBRACE → Reads ex lead true r l r' → Reads ex lead false (t :: r) l r'
  | ite {t o p e : Tok} {ts c r l1 r1 l2 r2} : t.type = .T_KIF → o.type = .T_LPAR → ex ts = some (c, p :: r) → p.type = .T_RPAR →
      Reads ex lead false r l1 (e :: r1) → e.type = .T_KELSE → Reads ex lead false r1 l2 r2 →
      Reads ex lead false (t :: o :: ts) [.ite c l1 l2] r2
  | onlyIf {t o p : Tok} {ts c r l1 r1} : t.type = .T_KIF → o.type = .T_LPAR → ex ts = some (c, p :: r) → p.type = .T_RPAR →
      Reads ex lead false r l1 r1 → (∀ e r2, r1 = e :: r2 → e.type ≠ .T_KELSE) → Reads ex lead false (t :: o :: ts) [.ite c l1 []] r1
  | loop {t o p : Tok} {ts c r l r1} : t.type = .T_KWHILE → o.type = .T_LPAR → ex ts = some (c, p :: r) → p.type = .T_RPAR →
      Reads ex lead false r l r1 → Reads ex lead false (t :: o :: ts) [.loop c l] r1
  | close {t : Tok} {r} : t.type = .T_RBRACE → Reads ex lead true (t :: r) [] r
  | item {ts l r l' r'} : Reads ex lead false ts l r → Reads ex lead true r l' r' → Reads ex lead true ts (l ++ l') r'
  /-- a pragma between the items is ignored -/
  | line {ls r l r'} : Other ls → NewLine r → Reads ex lead true r l r' → Reads ex lead true (ls ++ r) l r'
  /-- a pragma in front of a statement is ignored -/
  | ahead {ls r l r'} : lead = true → Other ls → NewLine r → Reads ex lead false r l r' → Reads ex lead false (ls ++ r) l r'

end Verif.PragmaSpec
