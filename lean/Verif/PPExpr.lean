import Verif.Run
import Verif.Token
import Verif.Simple
import Verif.Escape
/-!
Model of the `#if` expression evaluator (src/preprocessor/directives.c:173-329 and
src/precedence.c).

* The buffer and `buffer_pos` are the list of tokens not read yet.  `evaluate_expression`
  pushes the token it stopped at back by `buffer.list[--buffer_pos] = t`, which is consing
  it on the list.
* `assert` is taken to be active (its failure is the outcome `fail`).
* The evaluator's recursion is fuelled; see `Run`.
-/
namespace Verif.PPExpr
open Verif Simple

/-- src/precedence.c:4-20 `precedence_table`. -/
def precTable : TType → Nat
  | .T_INC | .T_DEC | .T_LPAR | .T_LBRACK | .T_ARROW | .T_DOT => 14
  | .T_STAR | .T_DIV | .T_MOD => 12
  | .T_ADD | .T_SUB => 11
  | .T_LSHIFT | .T_RSHIFT => 10
  | .T_LEQ | .T_L | .T_G | .T_GEQ => 9
  | .T_EQ | .T_NEQ => 8
  | .T_AMP => 7
  | .T_XOR => 6
  | .T_BOR => 5
  | .T_AND => 4
  | .T_OR => 3
  | .T_A | .T_ADDA | .T_SUBA | .T_MULA | .T_DIVA | .T_MODA | .T_LSHIFTA | .T_RSHIFTA
  | .T_BORA | .T_XORA | .T_BANDA | .T_QUEST => 2
  | .T_COMMA => 1
  | _ => 0

/-- src/precedence.h:6 `PREFIX_PREC`. -/
def prefixPrec : Nat := 13

/-- src/precedence.c:22-27 `precedence_get`, `ASSIGNMENT_PREC` = 1. -/
def precGet (t : TType) (loop : Bool) : Nat :=
  let p := precTable t
  if !loop ∧ p = 1 + 1 then 1 else p

/-- src/preprocessor/directives.c:188-194 `struct result`. -/
structure V where
  sgn : Bool
  bits : BitVec 64
  deriving DecidableEq, Repr

/-- The `T_EOI` token of 178 and 361. -/
def eoi : Tok := { type := .T_EOI }

/-- src/preprocessor/directives.c:176-186 `buffer_next`. -/
def next : List Tok → Tok × List Tok
  | [] => (eoi, [])
  | t :: ts => (if t.type = .T_IDENT then { type := .T_NUM, str := str "0" } else t, ts)

/-- src/preprocessor/directives.c:204-206 `result_is_zero`. -/
def isZero (v : V) : Bool := v.bits = 0

/-- `RESULT_UNARY(-, rhs)` (216-218, 238). -/
def negV (v : V) : Res V :=
  if v.sgn then do
    let b ← int64 (-v.bits.toInt)
    pure ⟨true, b⟩
  else .ok ⟨false, -v.bits⟩

/-- `RESULT_UNARY(!, rhs)` (216-218, 241). -/
def notV (v : V) : V := ⟨v.sgn, if v.bits = 0 then 1 else 0⟩

/-- src/preprocessor/directives.c:285-289: if either operand is unsigned, both become so. -/
def unify (a b : V) : V × V :=
  if a.sgn && b.sgn then (a, b) else (⟨false, a.bits⟩, ⟨false, b.bits⟩)

/-- The binary operators of the `switch` (292-318). -/
def binOp : TType → Option Op
  | .T_BOR => some .bor
  | .T_XOR => some .bxor
  | .T_AMP => some .band
  | .T_EQ => some .equal
  | .T_NEQ => some .notEqual
  | .T_LEQ => some .lessEq
  | .T_GEQ => some .greaterEq
  | .T_L => some .less
  | .T_G => some .greater
  | .T_LSHIFT => some .lshift
  | .T_RSHIFT => some .rshift
  | .T_ADD => some .add
  | .T_SUB => some .sub
  | .T_STAR => some .mul
  | .T_DIV => some .div
  | .T_MOD => some .mod
  | _ => none

/-- `RESULT_BINARY` and `RESULT_BINARY_COND` (220-227) on unified operands. -/
def applyOp (op : Op) (a b : V) : Res V := do
  let r ← if a.sgn then foldSigned op a.bits b.bits else foldUnsigned op a.bits b.bits
  pure ⟨a.sgn || isCompare op, r⟩

/-- src/preprocessor/directives.c:208-214 `check_div_overflow`. -/
def divOverflow (a b : V) : Bool :=
  isZero b || (a.sgn && a.bits.toInt = -2 ^ 63 && b.bits.toInt = -1)

/-- src/preprocessor/directives.c:281-319: a standard binary operator, after both operands. -/
def binAct (ev : Bool) (t : TType) (a b : V) : Res V :=
  let (a, b) := unify a b
  if ev then
    match binOp t with
    | some .div => if divOverflow a b then .fail else applyOp .div a b
    | some .mod => if divOverflow a b then .fail else applyOp .mod a b
    | some op => applyOp op a b
    | none => .fail
  else .ok a

/-- src/preprocessor/string_concat.c:238-251 `escaped_character_constant_to_int`. -/
def charValue (s : Str) : Res (BitVec 64) := do
  let (ty, v) := Escape.takePrefix s
  let buf ← Escape.escapeString v v.length ty []
  Escape.charConst 0 buf

/-- src/preprocessor/directives.c:247-260: numbers and character constants.  A floating
constant is rejected whatever its value. -/
def literal (abi : Abi) (t : Tok) : Res V :=
  if t.type = .T_NUM then
    if isFloat t.str then .fail
    else do
      let c ← integerConstant abi t.str
      let s ← isSigned c.ty
      pure ⟨s, c.bits⟩
  else if t.type = .T_CHARACTER_CONSTANT then do
    let b ← charValue t.str
    pure ⟨true, b⟩
  else .fail

/-- The 0/1 result of `&&` and `||`. -/
def boolV (b : Bool) : V := ⟨true, ofBool b⟩

mutual
/-- src/preprocessor/directives.c:230-329 `evaluate_expression` up to the loop at 266. -/
def evalExpr (abi : Abi) : Nat → Nat → Bool → List Tok → Run (V × List Tok)
  | 0, _, _, _ => .more
  | n + 1, prec, ev, ts => do
    let (t, ts) := next ts
    let (e, ts) ←
      if t.type = .T_ADD then evalExpr abi n prefixPrec ev ts
      else if t.type = .T_SUB then do
        let (r, ts) ← evalExpr abi n prefixPrec ev ts
        let v ← Run.ofRes (negV r)
        pure (v, ts)
      else if t.type = .T_NOT then do
        let (r, ts) ← evalExpr abi n prefixPrec ev ts
        pure (notV r, ts)
      else if t.type = .T_LPAR then do
        let (r, ts) ← evalExpr abi n 0 ev ts
        let (rpar, ts) := next ts
        if rpar.type ≠ .T_RPAR then .fail else pure (r, ts)
      else do
        let v ← Run.ofRes (literal abi t)
        pure (v, ts)
    evalLoop abi n prec ev e ts
/-- src/preprocessor/directives.c:264-328: the loop over infix operators. -/
def evalLoop (abi : Abi) : Nat → Nat → Bool → V → List Tok → Run (V × List Tok)
  | 0, _, _, _, _ => .more
  | n + 1, prec, ev, e, ts0 =>
    let (t, ts) := next ts0
    if prec < precGet t.type true then
      let np := precGet t.type false
      if t.type = .T_QUEST then do
        let (mid, ts) ← evalExpr abi n 0 (if !isZero e then ev else false) ts
        let (colon, ts) := next ts
        if colon.type ≠ .T_COLON then .fail
        else do
          let (rhs, ts) ← evalExpr abi n np (if isZero e then ev else false) ts
          evalLoop abi n prec ev (if !isZero e then mid else rhs) ts
      else if t.type = .T_AND then do
        let (rhs, ts) ← evalExpr abi n np (if !isZero e then ev else false) ts
        evalLoop abi n prec ev (boolV (!isZero e && !isZero rhs)) ts
      else if t.type = .T_OR then do
        let (rhs, ts) ← evalExpr abi n np (if isZero e then ev else false) ts
        evalLoop abi n prec ev (boolV (!isZero e || !isZero rhs)) ts
      else do
        let (rhs, ts) ← evalExpr abi n np ev ts
        let e ← Run.ofRes (binAct ev t.type e rhs)
        evalLoop abi n prec ev e ts
    else .ok (e, t :: ts)
end

/-- src/preprocessor/directives.c:361-363: evaluation of the expanded operand list. -/
def evalBuffer (abi : Abi) (n : Nat) (buf : List Tok) : Run V := do
  let (v, _) ← evalExpr abi n 0 true (buf ++ [eoi])
  pure v

end Verif.PPExpr
