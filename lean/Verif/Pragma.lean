import Verif.PragmaPack
import Verif.Token
import Verif.Run
/-!
Model of `parse_handle_pragma` and of the places where it is called: the loop over external declarations and the statements.

The tokens are those after macro expansion; the end of the list stands for `T_EOI`. `num` gives the value of a number as `constant_from_string` does (C15),
`none` if it is no integer. Declarations are read by a parser that is a parameter and gets the packing in force (C105 has structures); so are expressions
(C29). Statements that are no different with respect to pragmas are left out: labels, `switch`, `do`, `for`, jumps, and declarations in blocks.
-/
namespace Verif.Pragma
open Verif

/-- src/parser/parser.c:13-15. -/
abbrev Packs := PragmaPack.St

/-- src/preprocessor/preprocessor.h:47 `TEXPECT`. -/
def expect (ty : TType) : List Tok → Res (List Tok)
  | t :: ts => if t.type = ty then .ok ts else .fail
  | [] => .fail

/-- src/parser/parser.c:80-83: until the first token of a line. -/
def skipLine : List Tok → List Tok
  | [] => []
  | t :: ts => if t.type = .T_EOI ∨ t.firstOfLine = true then t :: ts else skipLine ts

/-- src/parser/parser.c:65-76: an optional number and `)`. The value is converted to `int`. -/
def finish (num : Str → Option Int) (s : Packs) : List Tok → Res (Packs × List Tok)
  | [] => .fail
  | t :: ts =>
    if t.type = .T_NUM then match num t.str with
      | none => .fail
      | some v => (expect .T_RPAR ts).bind fun r => .ok ({ s with current := (BitVec.ofInt 32 v).toInt }, r)
    else (expect .T_RPAR (t :: ts)).bind fun r => .ok ({ s with current := 0 }, r)

/-- src/parser/parser.c:55-58: after `push`. -/
def afterPush (num : Str → Option Int) (s : Packs) : List Tok → Res (Packs × List Tok)
  | [] => .fail
  | t :: ts => if t.type = .T_COMMA then finish num s ts else (expect .T_RPAR (t :: ts)).bind fun r => .ok (s, r)

/-- src/parser/parser.c:45-76: after `pack(`. -/
def packArgs (num : Str → Option Int) (s : Packs) : List Tok → Res (Packs × List Tok)
  | [] => .fail
  | t :: ts =>
    if t.type = .T_IDENT then
      if t.str = str "pop" then (expect .T_RPAR ts).bind fun r => .ok ({ s with packs := s.packs.tail }, r)
      else if t.str = str "push" then afterPush num { s with packs := s.current :: s.packs } ts
      else .fail
    else finish num s (t :: ts)

/-- src/parser/parser.c:28-87 `parse_handle_pragma`; `none` if there is no pragma. -/
def handle (num : Str → Option Int) (s : Packs) : List Tok → Res (Option (Packs × List Tok))
  | [] => .ok none
  | t :: ts =>
    if t.type ≠ .PP_DIRECTIVE then .ok none
    else match ts with
      | p :: n :: r =>
        if p.str ≠ str "pragma" then .fail
        else if n.type ≠ .T_IDENT then .fail
        else if n.str = str "pack" then (expect .T_LPAR r).bind fun r => (packArgs num s r).bind fun q => .ok (some q)
        else .ok (some (s, skipLine (n :: r)))
      | _ => .fail

/-- src/parser/parser.c:89-93 `parse_into_ir`: the loop over external declarations. -/
def unit {σ : Type} (decl : Int → σ → List Tok → Res (Option (σ × List Tok))) (num : Str → Option Int) : Nat → Packs → σ → List Tok → Run σ
  | 0, _, _, _ => .more
  | n + 1, p, s, ts => (Run.ofRes (decl p.current s ts)).bind fun
    | some q => unit decl num n p q.1 q.2
    | none => match ts with
      | [] => .ok s
      | t :: r =>
        if t.type = .T_SEMI_COLON then unit decl num n p s r
        else (Run.ofRes (handle num p (t :: r))).bind fun
          | some q => unit decl num n q.1 s q.2
          | none => if t.type = .T_EOI then .ok s else .fail

/-- The code of statements, with the expressions `α`. -/
inductive S (α : Type) where
  | expr (e : α)
  | ite (c : α) (t f : List (S α))
  | loop (c : α) (b : List (S α))

/-- src/parser/function_parser.c:193-200 and 280-302: `(`, the expression, `)`. -/
def cond {α : Type} (ex : List Tok → Option (α × List Tok)) (ts : List Tok) : Res (α × List Tok) :=
  (expect .T_LPAR ts).bind fun r => match ex r with
    | none => .fail
    | some q => (expect .T_RPAR q.2).bind fun r => .ok (q.1, r)

/-- src/parser/function_parser.c:481-491 `parse_statement` with 126-146, 191-223 and 276-316, and (flag) the loop over the items of a compound statement up
to its end. The callers of `parse_statement` do not look at its result: without a statement there is no code. -/
def stmt {α : Type} (ex : List Tok → Option (α × List Tok)) (num : Str → Option Int) :
    Nat → Bool → Packs → List Tok → Run (Option (List (S α) × Packs × List Tok))
  | 0, _, _, _ => .more
  | n + 1, true, p, ts => (stmt ex num n false p ts).bind fun
    | some q => (stmt ex num n true q.2.1 q.2.2).mapOk fun
      | some z => some (q.1 ++ z.1, z.2)
      | none => none
    | none => (Run.ofRes (expect .T_RBRACE ts)).bind fun r => .ok (some ([], p, r))
  | _ + 1, false, _, [] => .ok none
  | n + 1, false, p, t :: r =>
    if t.type = .T_LBRACE then stmt ex num n true p r
    else match ex (t :: r) with
      | some q => (Run.ofRes (expect .T_SEMI_COLON q.2)).bind fun r => .ok (some ([.expr q.1], p, r))
      | none =>
        if t.type = .T_KIF then (Run.ofRes (cond ex r)).bind fun c => (stmt ex num n false p c.2).bind fun a =>
          let a := a.getD ([], p, c.2)
          match a.2.2 with
          | e :: r => if e.type = .T_KELSE then (stmt ex num n false a.2.1 r).bind fun b =>
              let b := b.getD ([], a.2.1, r)
              .ok (some ([.ite c.1 a.1 b.1], b.2))
            else .ok (some ([.ite c.1 a.1 []], a.2))
          | [] => .ok (some ([.ite c.1 a.1 []], a.2))
        else if t.type = .T_KWHILE then (Run.ofRes (cond ex r)).bind fun c => (stmt ex num n false p c.2).bind fun a =>
          let a := a.getD ([], p, c.2)
          .ok (some ([.loop c.1 a.1], a.2))
        else (Run.ofRes (handle num p (t :: r))).bind fun
          | some q => .ok (some ([], q.1, q.2))
          | none => if t.type = .T_SEMI_COLON then .ok (some ([], p, r)) else .ok none

end Verif.Pragma
