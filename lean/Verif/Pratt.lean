import Verif.Run
import Verif.Token
import Verif.Simple
import Verif.PPExpr
/-!
Model of the expression parser (src/parser/expression.c:475-893 and src/precedence.c).

* The token stream is the list of tokens not read yet; past its end `T0` is `T_EOI`.
* `parse_type_name`, `parse_initializer` and the symbol table are parameters (`Env`).
* `expr_new` is the constructor of the tree: the conversions and folding it does and the
  type errors it reports are left out, its check for NULL operands (404-408) is kept.
* `_Generic`, the `va_` builtins and `offsetof` are left out (the parser of the model
  reports an error there).
* Recursion is fuelled; see `Run`.
-/
namespace Verif.Pratt
open Verif Simple
open Verif.PPExpr (precGet precTable)

/-- The parser's expression trees (src/parser/expression.h `struct expr`). -/
inductive CE where
  | const (t : Tok)
  | ident (t : Tok)
  | int (n : Nat)
  | un (o : UOp) (e : CE)
  | addrOf (e : CE)
  | indirection (e : CE)
  | cast (ty : List Tok) (e : CE)
  | compound (ty init : List Tok)
  | sizeofT (ty : List Tok)
  | sizeofE (e : CE)
  | alignofT (ty : List Tok)
  | alignofE (e : CE)
  | bin (o : Op) (a b : CE)
  | assign (a b : CE)
  | assignOp (o : Op) (a b : CE) (post : Bool)
  | comma (a b : CE)
  | cond (c a b : CE)
  | call (f : CE) (args : List CE)
  | dot (e : CE) (name : Tok)

/-- What the expression parser asks the rest of the compiler. -/
structure Env where
  /-- `parse_type_name` (src/parser/declaration.c): the type name and the rest, or NULL -/
  typeName : List Tok → Option (List Tok × List Tok)
  /-- `parse_initializer` (src/parser/declaration.c), called at `{` -/
  initializer : List Tok → Option (List Tok × List Tok)
  /-- `symbols_get_identifier` (src/parser/symbols.c) finds the name -/
  known : Tok → Bool
  /-- the name is a register variable -/
  register : Tok → Bool

/-- src/parser/expression.c:405-408: `expr_new` stops with an ICE on a NULL operand. -/
def need : Option CE → Run CE
  | some e => .ok e
  | none => .fail

/-- `rhs->type`, `->data_type` of a NULL pointer (549, 565, 568). -/
def deref : Option CE → Run CE
  | some e => .ok e
  | none => .ub

/-- src/parser/expression.c:782-791, rows of kind 2 of `ops`. -/
def assignOps : TType → Option Op
  | .T_MULA => some .mul | .T_DIVA => some .div | .T_MODA => some .mod | .T_ADDA => some .add
  | .T_SUBA => some .sub | .T_LSHIFTA => some .lshift | .T_RSHIFTA => some .rshift
  | .T_BANDA => some .band | .T_XORA => some .bxor | .T_BORA => some .bor
  | _ => none

/-- src/parser/expression.c:793-809, rows of kind 3 of `ops`. -/
def binOps : TType → Option Op
  | .T_BOR => some .bor | .T_XOR => some .bxor | .T_AMP => some .band | .T_EQ => some .equal
  | .T_NEQ => some .notEqual | .T_LEQ => some .lessEq | .T_GEQ => some .greaterEq
  | .T_L => some .less | .T_G => some .greater | .T_LSHIFT => some .lshift
  | .T_RSHIFT => some .rshift | .T_ADD => some .add | .T_SUB => some .sub
  | .T_STAR => some .mul | .T_DIV => some .div | .T_MOD => some .mod
  | _ => none

/-- `TEXPECT(ty)`. -/
def expect (ty : TType) : List Tok → Run (List Tok)
  | t :: r => if t.type = ty then .ok r else .fail
  | [] => .fail

/-- `T0->type`. -/
def head : List Tok → TType
  | t :: _ => t.type
  | [] => .T_EOI

/-- A member name after `.` or `->`; `type_search_member` finds no other token. -/
def member (e : CE) : List Tok → Run (CE × List Tok)
  | t :: r => if t.type = .T_IDENT then .ok (.dot e t, r) else .fail
  | [] => .fail

/-- src/parser/expression.c:546-553: `&` of a register variable is an error. -/
def addressOf (env : Env) : CE → Run CE
  | .ident t => if env.register t then .fail else .ok (.addrOf (.ident t))
  | e => .ok (.addrOf e)

mutual
/-- src/parser/expression.c:511-773 `parse_prefix`. -/
def pPrefix (env : Env) : Nat → List Tok → Run (Option CE × List Tok)
  | 0, _ => .more
  | _ + 1, [] => .ok (none, [])
  | n + 1, t :: r =>
    match t.type with
    | .T_LPAR =>
      match env.typeName r with
      | some (ty, r) => do
        let r ← expect .T_RPAR r
        if head r = .T_LBRACE then
          match env.initializer r with
          | some (i, r) => .ok (some (.compound ty i), r)
          | none => .fail
        else do
          let (e, r) ← pPratt env n 13 r
          let e ← need e
          .ok (some (.cast ty e), r)
      | none => do
        let (e, r) ← pPratt env n 0 r
        let r ← expect .T_RPAR r
        .ok (e, r)
    | .T_INC => do
      let (e, r) ← pPratt env n 13 r
      let e ← need e
      .ok (some (.assignOp .add e (.int 1) false), r)
    | .T_DEC => do
      let (e, r) ← pPratt env n 13 r
      let e ← need e
      .ok (some (.assignOp .sub e (.int 1) false), r)
    | .T_STAR => do
      let (e, r) ← pPratt env n 13 r
      let e ← need e
      .ok (some (.indirection e), r)
    | .T_ADD => do
      let (e, r) ← pPratt env n 13 r
      let e ← need e
      .ok (some (.un .plus e), r)
    | .T_SUB => do
      let (e, r) ← pPratt env n 13 r
      let e ← need e
      .ok (some (.un .neg e), r)
    | .T_NOT => do
      let (e, r) ← pPratt env n 13 r
      let e ← need e
      .ok (some (.cond e (.int 0) (.int 1)), r)
    | .T_BNOT => do
      let (e, r) ← pPratt env n 13 r
      let e ← need e
      .ok (some (.un .bnot e), r)
    | .T_AMP => do
      let (e, r) ← pPratt env n 13 r
      let e ← deref e
      let e ← addressOf env e
      .ok (some e, r)
    | .T_KSIZEOF =>
      if head r = .T_LPAR then
        match env.typeName r.tail with
        | some (ty, r) => do
          let r ← expect .T_RPAR r
          .ok (some (.sizeofT ty), r)
        | none => do
          let (e, r) ← pPratt env n 13 r
          let e ← deref e
          .ok (some (.sizeofE e), r)
      else do
        let (e, r) ← pPratt env n 13 r
        let e ← deref e
        .ok (some (.sizeofE e), r)
    | .T_KALIGNOF =>
      if head r = .T_LPAR then
        match env.typeName r.tail with
        | some (ty, r) => do
          let r ← expect .T_RPAR r
          .ok (some (.alignofT ty), r)
        | none => do
          let (e, r) ← pPratt env n 13 r
          let e ← deref e
          .ok (some (.alignofE e), r)
      else do
        let (e, r) ← pPratt env n 13 r
        let e ← deref e
        .ok (some (.alignofE e), r)
    | .T_IDENT => if env.known t then .ok (some (.ident t), r) else .fail
    | .T_STRING | .T_STRING_CHAR16 | .T_STRING_CHAR32 | .T_STRING_WCHAR | .T_NUM
    | .T_CHARACTER_CONSTANT | .T_CHARACTER_CONSTANT_WCHAR | .T_CHARACTER_CONSTANT_CHAR16
    | .T_CHARACTER_CONSTANT_CHAR32 | .T_KFUNC => .ok (some (.const t), r)
    | .T_KGENERIC | .T_KVA_START | .T_KVA_COPY | .T_KVA_END | .T_KVA_ARG | .T_KOFFSETOF => .fail
    | _ => .ok (none, t :: r)

/-- src/parser/expression.c:775-875 `parse_pratt_with_lhs`, one pass of the loop and the
rest of it. -/
def pLoop (env : Env) : Nat → Nat → CE → List Tok → Run (CE × List Tok)
  | 0, _, _, _ => .more
  | _ + 1, _, lhs, [] => .ok (lhs, [])
  | n + 1, p, lhs, t :: r =>
    if p < precGet t.type true then
      match assignOps t.type, binOps t.type with
      | some o, _ => do
        let (e, r) ← pPratt env n (precGet t.type false) r
        let e ← need e
        pLoop env n p (.assignOp o lhs e false) r
      | none, some o => do
        let (e, r) ← pPratt env n (precGet t.type false) r
        let e ← need e
        pLoop env n p (.bin o lhs e) r
      | none, none =>
        match t.type with
        | .T_COMMA => do
          let (e, r) ← pPratt env n (precGet t.type false) r
          let e ← need e
          pLoop env n p (.comma lhs e) r
        | .T_A => do
          let (e, r) ← pPratt env n (precGet t.type false) r
          let e ← need e
          pLoop env n p (.assign lhs e) r
        | .T_QUEST => do
          let (m, r) ← pPratt env n 0 r
          let r ← expect .T_COLON r
          let (e, r) ← pPratt env n (precGet t.type false) r
          let m ← need m
          let e ← need e
          pLoop env n p (.cond lhs m e) r
        | .T_OR => do
          let (e, r) ← pPratt env n (precGet t.type false) r
          let e ← need e
          pLoop env n p (.cond lhs (.int 1) (.cond e (.int 1) (.int 0))) r
        | .T_AND => do
          let (e, r) ← pPratt env n (precGet t.type false) r
          let e ← need e
          pLoop env n p (.cond lhs (.cond e (.int 1) (.int 0)) (.int 0)) r
        | .T_LBRACK => do
          let (e, r) ← pPratt env n 0 r
          let r ← expect .T_RBRACK r
          let e ← need e
          pLoop env n p (.indirection (.bin .add lhs e)) r
        | .T_LPAR => do
          let (args, r) ← pArgs env n 0 r
          pLoop env n p (.call lhs args) r
        | .T_DOT => do
          let (e, r) ← member lhs r
          pLoop env n p e r
        | .T_ARROW => do
          let (e, r) ← member (.indirection lhs) r
          pLoop env n p e r
        | .T_INC => pLoop env n p (.assignOp .add lhs (.int 1) true) r
        | .T_DEC => pLoop env n p (.assignOp .sub lhs (.int 1) true) r
        | _ => .ok (lhs, t :: r)
    else .ok (lhs, t :: r)

/-- src/parser/expression.c:877-884 `parse_pratt`. -/
def pPratt (env : Env) : Nat → Nat → List Tok → Run (Option CE × List Tok)
  | 0, _, _ => .more
  | n + 1, p, ts => do
    let (e, r) ← pPrefix env n ts
    match e with
    | none => .ok (none, r)
    | some e => do
      let (e, r) ← pLoop env n p e r
      .ok (some e, r)

/-- src/parser/expression.c:475-506 `parse_call_parameters` from position `pos` on;
`MAX_ARGUMENTS` is 128. -/
def pArgs (env : Env) : Nat → Nat → List Tok → Run (List CE × List Tok)
  | 0, _, _ => .more
  | n + 1, pos, ts =>
    if pos < 128 then
      if head ts = .T_RPAR then .ok ([], ts.tail)
      else do
        let ts ← if pos ≠ 0 then expect .T_COMMA ts else .ok ts
        let (e, r) ← pPratt env n 1 ts
        let e ← need e
        let (es, r) ← pArgs env n (pos + 1) r
        .ok (e :: es, r)
    else .fail
end

/-- src/parser/expression.c:886-888 `parse_assignment_expression`. -/
def parseAssignment (env : Env) (n : Nat) (ts : List Tok) := pPratt env n 1 ts

/-- src/parser/expression.c:890-892 `parse_expression`. -/
def parseExpression (env : Env) (n : Nat) (ts : List Tok) := pPratt env n 0 ts

end Verif.Pratt
