import Verif.Run
import Verif.Simple
/-!
Model of the parser of initialisers, src/parser/declaration.c:914-1187: `initializer_add_entry`,
`match_string`, `parse_brace_initializer`, `parse_initializer_recursive`, `parse_initializer`.

An assignment expression is one token; a string literal that stands alone is a token too (adjacent
literals are joined before, C62); the constant of an array designator is one token.  Qualifiers of
other types than structures and unions are left out.  A `struct type *` is a tree in which records
carry the identity of their `struct_data` and `is_const`: types are compared by address
(declaration.c:1138, 1147), which is by structure (C22), and an expression of array type does not
occur (arrays decay), so an expression needs only say of which record type it is.
-/
namespace Verif.Initial
open Verif Simple

/-- The bytes of a name. -/
abbrev Str := List Byte

/-- What two structure or union types are compared by: their `struct_data` and `is_const`,
src/types.h:63-99. -/
structure RecTy where
  data : Nat
  isConst : Bool
  deriving DecidableEq, Repr

mutual
/-- Types, src/types.h:63-99. -/
inductive T where
  /-- simple types -/
  | simple (s : ST)
  /-- pointers, to whatever type -/
  | pointer
  | array (n : Nat) (elem : T)
  /-- TY_INCOMPLETE_ARRAY -/
  | unknown (elem : T)
  /-- a structure or union with its `struct_data` -/
  | record (isUnion : Bool) (id : RecTy) (fields : Fields)
/-- The members in order, after `type_remove_unnamed` (src/types.c:336-344); an anonymous
structure or union has the empty name. -/
inductive Fields where
  | nil
  | cons (name : Str) (type : T) (rest : Fields)
end

/-- `data->fields[i].type`. -/
def Fields.get : Fields → Nat → Option T
  | .nil, _ => none
  | .cons _ t _, 0 => some t
  | .cons _ _ r, i + 1 => r.get i

/-- `data->n`. -/
def Fields.length : Fields → Nat
  | .nil => 0
  | .cons _ _ r => r.length + 1

/-- The kinds of string tokens: T_STRING, T_STRING_WCHAR, T_STRING_CHAR16, T_STRING_CHAR32. -/
inductive StrKind where
  | char | wchar | char16 | char32
  deriving DecidableEq, Repr

/-- The tokens of an initialiser. -/
inductive Tk where
  | lbrace | rbrace | comma | dot | lbrack | rbrack | assign
  | ident (name : Str)
  /-- the constant of an array designator -/
  | num (n : Nat)
  /-- an assignment expression, with the identity of its type if that is a record -/
  | expr (e : Nat) (ofRec : Option RecTy)
  /-- a string literal with its number of characters, counting the terminating zero -/
  | str (k : StrKind) (s : Nat) (len : Nat)
  /-- anything else -/
  | other
  deriving DecidableEq, Repr

/-- What an expression is: one from the program, or the address of a string literal. -/
inductive Value where
  | expr (e : Nat)
  | address (s : Nat)
  deriving DecidableEq, Repr

/-- `struct expr *` with the record type of the expression. -/
structure E where
  value : Value
  ofRec : Option RecTy

/-- src/parser/declaration.h:9-26 `struct initializer`; an expression with the type it is cast to. -/
inductive Init where
  | empty
  | expr (v : Value) (to : T)
  | str (s : Nat)
  | brace (entries : List Init)

/-- src/types.c:376-380 `type_is_aggregate`. -/
def T.isAggregate : T → Bool
  | .array .. | .unknown _ | .record .. => true
  | _ => false

/-- src/types.c:304-316 `type_select`: reading past the members of a record is undefined. -/
def select : T → Nat → Run T
  | .record _ _ fs, i =>
    match fs.get i with
    | some t => .ok t
    | none => .ub
  | .array _ t, _ => .ok t
  | .unknown t, _ => .ok t
  | _, _ => .fail

mutual
/-- src/types.c:186-213 `type_search_member`: the indices from the outermost record inwards. -/
def search (x : Str) : T → Option (List Nat)
  | .record _ _ fs => searchFields x fs 0
  | _ => none
/-- The loop 198-211 from field number `i`. -/
def searchFields (x : Str) : Fields → Nat → Option (List Nat)
  | .nil, _ => none
  | .cons name t rest, i =>
    if name = x then some [i]
    else if name = [] then
      match search x t with
      | some p => some (i :: p)
      | none => searchFields x rest (i + 1)
    else searchFields x rest (i + 1)
end

/-- Several `type_select`. -/
def selectPath : T → List Nat → Run T
  | t, [] => .ok t
  | t, i :: p => do selectPath (← select t i) p

/-- src/parser/declaration.c:1005-1042: the designators in front of an initialiser, as indices. -/
def designators : T → List Tk → Run (List Nat × List Tk)
  | t, .lbrack :: .num n :: .rbrack :: r => do
    let (ds, r) ← designators (← select t n) r
    .ok (n :: ds, r)
  | t, .dot :: .ident x :: r =>
    match search x t with
    | some p => do
      let (ds, r) ← designators (← selectPath t p) r
      .ok (p ++ ds, r)
    | none => .fail
  | _, .lbrack :: _ => .fail
  | _, .dot :: _ => .fail
  | _, toks => .ok ([], toks)

/-- src/parser/declaration.c:914-921 `initializer_add_entry`: the list made long enough. -/
def extend (l : List Init) (i : Nat) : List Init := l ++ List.replicate (i + 1 - l.length) .empty

/-- `init->brace.entries[i]` after `initializer_add_entry`. -/
def entry (l : List Init) (i : Nat) : Init := (extend l i).getD i .empty

/-- The list after entry `i` has been filled in. -/
def setEntry (l : List Init) (i : Nat) (c : Init) : List Init := (extend l i).set i c

/-- src/parser/declaration.c:971-972, 1093-1094 with the assertion of 915: the entries of an
initialiser that is empty or a list. -/
def entries : Init → Run (List Init)
  | .empty => .ok []
  | .brace l => .ok l
  | _ => .fail

/-- src/parser/declaration.c:926-966: the element types that take a string literal
(`abi_info.wchar_type` is int for System V; src/arch/x64.h:43-44). -/
def takesString : StrKind → ST → Bool
  | .char, s => s == .char || s == .uchar || s == .schar
  | .wchar, s => s == .int
  | .char16, s => s == .ushort
  | .char32, s => s == .uint

/-- src/parser/declaration.c:926-966 `match_string`: is the type an array for this string? -/
def matchString (k : StrKind) : T → Bool
  | .array _ (.simple s) => takesString k s
  | .unknown (.simple s) => takesString k s
  | _ => false

/-- src/parser/declaration.c:940-949: the string gives the size. -/
def sizeByString (len : Nat) : T → T
  | .unknown t => .array len t
  | t => t

/-- `TEXPECT`. -/
def expect (t : Tk) : List Tk → Run (List Tk)
  | u :: r => if u = t then .ok r else .fail
  | [] => .fail

/-- `parse_assignment_expression`: `none` is NULL. -/
def assignmentExpression : List Tk → Option E × List Tk
  | .expr e ofRec :: r => (some ⟨.expr e, ofRec⟩, r)
  | .str _ s _ :: r => (some ⟨.address s, none⟩, r)
  | toks => (none, toks)

/-- src/parser/declaration.c:1110-1120: a scalar takes one expression, perhaps in braces. -/
def scalarExpression (toks : List Tk) : Run (E × List Tk) :=
  match toks with
  | .lbrace :: r =>
    match assignmentExpression r with
    | (some e, r) => do
      let r ← expect .rbrace r
      .ok (e, r)
    | (none, _) => .fail
  | _ =>
    match assignmentExpression toks with
    | (some e, r) => .ok (e, r)
    | (none, _) => .fail

/-- src/parser/declaration.c:1122-1130: a string literal is next, perhaps in braces. -/
def stringNext : List Tk → Option (StrKind × Nat × Nat)
  | .lbrace :: .str k s n :: .rbrace :: _ => some (k, s, n)
  | .str k s n :: _ => some (k, s, n)
  | _ => none

/-- src/parser/declaration.c:935-938: skip the string literal. -/
def skipString : List Tk → List Tk
  | .lbrace :: .str .. :: .rbrace :: r => r
  | .str .. :: r => r
  | toks => toks

/-- src/parser/declaration.c:1138, 1147 `expr->data_type != *type` for an aggregate type. -/
def sameType (e : E) : T → Bool
  | .record _ id _ => decide (e.ofRec = some id)
  | _ => false

/-- src/parser/declaration.c:979-996 `max_members`; -1 is `none`. -/
def maxMembers : T → Run (Option Nat)
  | .array n _ => .ok (some n)
  | .unknown _ => .ok none
  | .record isUnion _ fs => .ok (some (if isUnion then 1 else fs.length))
  | _ => .fail

/-- `init->type == INIT_EMPTY` is replaced by an empty list (971-972, 1093-1094). -/
def opened : Init → Init
  | .empty => .brace []
  | i => i

/-- src/parser/declaration.c:1161-1180: the size of the top-level list completes the type. -/
def completed (t : T) (init : Init) : Run T :=
  match t with
  | .unknown e =>
    match init with
    | .brace l => .ok (.array l.length e)
    | _ => .fail
  | t => .ok t

/-- The head of the tokens is a designator. -/
def atDesignator : List Tk → Bool
  | .lbrack :: _ => true
  | .dot :: _ => true
  | _ => false

mutual
/-- src/parser/declaration.c:1086-1181 `parse_initializer_recursive`.  The fuel bounds the depth
of the calls and the number of rounds of the loops. -/
def parseRec : Nat → T → Init → Option E → Bool → List Nat → List Tk → Run (T × Init × List Tk)
  | 0, _, _, _, _, _, _ => .more
  -- 1089-1106
  | f + 1, ty, init, expr, inside, i :: ds, toks => do
    let sel ← select ty i
    let l ← entries init
    let (_, c, toks) ← parseRec f sel (entry l i) expr inside ds toks
    let init := Init.brace (setEntry l i c)
    match toks with
    | .comma :: .rbrace :: r => .ok (ty, init, .rbrace :: r)
    | .comma :: r => do
      let (init, toks) ← parseBrace f ty init (i + 1) true expr r
      .ok (ty, init, toks)
    | toks => .ok (ty, init, toks)
  | f + 1, ty, init, expr, inside, [], toks => do
    -- 1110-1120
    let (expr, toks) ← (if expr.isNone && !ty.isAggregate then do
        let (e, toks) ← scalarExpression toks
        .ok (some e, toks)
      else Run.ok (expr, toks))
    -- 1122-1130
    let isStr := if expr.isNone then stringNext toks else none
    -- 1132-1133
    let isBrace := expr.isNone && isStr.isNone && decide (toks.head? = some .lbrace)
    -- 1135-1137
    let (expr, toks) := if isStr.isNone && !isBrace && expr.isNone then assignmentExpression toks else (expr, toks)
    -- 1139-1144
    if ty.isAggregate && inside && decide (toks.head? ≠ some .lbrace) && isStr.isNone && expr.isNone then .ub
    else if ty.isAggregate && inside && decide (toks.head? ≠ some .lbrace) && isStr.isNone &&
        !(expr.any (sameType · ty)) then do
      let (init, toks) ← parseBrace f ty init 0 true expr toks
      .ok (ty, init, toks)
    else do
      -- 1146-1159
      let (ty, init, toks) ← (
        match isStr, expr with
        | some (k, s, n), _ =>
          if matchString k ty then Run.ok (sizeByString n ty, .str s, skipString toks)
          else if decide (toks.head? = some .lbrace) && ty.isAggregate then do
            let (init, toks) ← parseBrace f ty init 0 false none toks
            .ok (ty, init, toks)
          else if ty.isAggregate then do
            let (init, toks) ← parseBrace f ty init 0 true none toks
            .ok (ty, init, toks)
          else .fail
        | none, some e =>
          if ty.isAggregate && !(sameType e ty) then parseRec f ty init (some e) true [] toks
          else .ok (ty, .expr e.value ty, toks)
        | none, none =>
          if decide (toks.head? = some .lbrace) && ty.isAggregate then do
            let (init, toks) ← parseBrace f ty init 0 false none toks
            .ok (ty, init, toks)
          else .fail)
      -- 1161-1180
      let ty ← completed ty init
      .ok (ty, init, toks)

/-- src/parser/declaration.c:968-1080 `parse_brace_initializer`. -/
def parseBrace : Nat → T → Init → Nat → Bool → Option E → List Tk → Run (Init × List Tk)
  | 0, _, _, _, _, _, _ => .more
  | f + 1, ty, init, idx, inside, expr, toks => do
    let init := opened init
    let toks ← (if inside then Run.ok toks else expect .lbrace toks)
    let max ← maxMembers ty
    if inside && max.any (· ≤ idx) then .ok (init, toks)
    else do
      let (init, toks) ← parseLoop f ty max init idx inside expr toks
      let toks ← (if inside then Run.ok toks else expect .rbrace toks)
      .ok (init, toks)

/-- The loop 1001-1076. -/
def parseLoop : Nat → T → Option Nat → Init → Nat → Bool → Option E → List Tk → Run (Init × List Tk)
  | 0, _, _, _, _, _, _, _ => .more
  | f + 1, ty, max, init, idx, inside, expr, toks =>
    -- 1009-1010, 1027-1028
    if inside && atDesignator toks then .ok (init, toks)
    else do
      let (ds, toks) ← designators ty toks
      -- 1047-1057
      let toks ← (if ds = [] then Run.ok toks else expect .assign toks)
      let idx := ds.headD idx
      -- 1059-1061
      let child ← select ty idx
      let l ← entries init
      let (_, c, toks) ← parseRec f child (entry l idx) expr ds.isEmpty ds.tail toks
      let init := Init.brace (setEntry l idx c)
      -- 1064-1076
      if atDesignator toks then parseLoop f ty max init idx inside none toks
      else if inside && decide (max = some (idx + 1)) then .ok (init, toks)
      else
        match toks with
        | .comma :: .rbrace :: r => .ok (init, .rbrace :: r)
        | .comma :: r => parseLoop f ty max init (idx + 1) inside none r
        | toks => .ok (init, toks)
end

/-- src/parser/declaration.c:1183-1187 `parse_initializer`: the type, perhaps completed, the
initialiser and the tokens that follow. -/
def parseInitializer (f : Nat) (ty : T) (toks : List Tk) : Run (T × Init × List Tk) :=
  parseRec f ty .empty none false [] toks

end Verif.Initial
