import Verif.Types
import Verif.Run
/-!
Model of declarators: src/parser/declaration.c 514-541, 601-910 and 1186-1242 (`ast_to_type`,
`parse_parameter_list`, `parse_function_parameters`, `parse_declarator`), with
src/types.c 165-169 and 216-229.

Simplifications:

* the specifiers of a parameter are qualifiers and one token for the type (C27 is about its
  keywords), `void` or a typedef name; two such tokens are an error here, although the code
  accepts some of them; storage classes are left out;
* an expression between brackets is one token, with a value if it is constant, or `*` and one
  token;
* names are numbers.  Typedef names and other identifiers do not hide each other in this compiler
  (C71), so the typedef names are a fixed table.
-/
namespace Verif.Declarator
open Verif Simple
open Verif.Types (Ty Kind)

/-- Qualifiers. -/
inductive Qual where
  | const | volatile | restrict
  deriving DecidableEq, Repr

/-- Tokens. -/
inductive DTok where
  | ident (n : Nat)
  | lpar | rpar | lbrack | rbrack | star | comma | ellipsis
  /-- T_KVOID -/
  | kvoid
  /-- the other type specifiers of a type -/
  | spec (t : Ty)
  | qual (q : Qual)
  | kstatic
  /-- a constant expression: whether its type is signed, and its value -/
  | num (sgn : Bool) (v : Int)
  /-- an expression that is not constant -/
  | expr (i : Nat)
  | lbrace | rbrace | colon | semi
  /-- `_Alignas(n)` -/
  | alignas (n : Nat)
  /-- any other token -/
  | other

/-- declaration.h `struct type_qualifiers`: `const_n`, and the sum of the others. -/
structure Quals where
  const : Nat
  rest : Nat
  deriving DecidableEq, Repr

/-- The number of an expression in the type of a variable-length array; 0 is no expression. -/
def exprNo (deref : Bool) (i : Nat) : Nat := 2 * i + (if deref then 2 else 1)

/-- What is between the brackets. -/
inductive Size where
  | empty
  | star
  | num (sgn : Bool) (v : Int)
  | expr (deref : Bool) (i : Nat)
  deriving DecidableEq, Repr

/-- declaration.c 48-90 `struct type_ast`.  `names` are the names of the parameters. -/
inductive Ast where
  | terminal (name : Option Nat)
  | pointer (tq : Quals) (parent : Ast)
  | array (s : Size) (tq : Quals) (parent : Ast)
  | function (types : List Ty) (names : List (Option Nat)) (vararg : Bool) (parent : Ast)

/-- types.c 165-169 `type_make_const`. -/
def makeConst : Ty → Ty
  | .node k _ l => .node k true l

/-- types.c 216-229 `type_adjust_parameter`. -/
def adjust : Ty → Ty
  | .node k c l =>
    match k, l with
    | .array _, t :: _ => pointer c t
    | .incompleteArray, t :: _ => pointer c t
    | .vla _, t :: _ => pointer c t
    | .function v, l => .node .pointer false [.node (.function v) c l]
    | k, l => .node k c l
where
  /-- 220-222 -/
  pointer (c : Bool) (t : Ty) : Ty := .node .pointer c [t]

/-- declaration.c 608-612 `apply_tq`. -/
def applyTq (t : Ty) (q : Quals) : Ty := if q.const = 1 then makeConst t else t

/-- declaration.c 647-696: the array type. -/
def arrayType (t : Ty) : Size → Res Ty
  | .empty => .ok (.node .incompleteArray false [t])
  | .star => .ok (.node (.vla 0) false [t])
  | .num sgn v => if sgn ∧ v ≤ 0 then .fail else .ok (.node (.array (v % 2 ^ 64).toNat) false [t])
  | .expr d i => .ok (.node (.vla (exprNo d i)) false [t])

/-- declaration.c 614-712 `ast_to_type`, from the type of the specifiers on: the type and the
name.  `allow` is `allow_tq_in_array`. -/
def astToType (allow : Bool) : Ty → Ast → Res (Ty × Option Nat)
  | t, .terminal n => .ok (t, n)
  | t, .pointer q p => astToType allow (applyTq (.node .pointer false [t]) q) p
  | t, .function ts _ v p => astToType allow (.node (.function v) false (t :: ts)) p
  | t, .array s q p => do
    let a ← arrayType t s
    if !allow then
      if q.const ≠ 0 ∨ q.rest ≠ 0 then .fail else astToType allow a p
    else astToType allow (applyTq a q) p

/-- `ast_to_type` with its test for NULL. -/
def astToType? (allow : Bool) (t : Ty) : Option Ast → Res (Ty × Option Nat)
  | none => .ok (t, none)
  | some a => astToType allow t a

/-- declaration.c 514-541 `ast_get_parameters`: the names of the parameters of the function that
is defined. -/
def getParameters : Ast → Res (List (Option Nat))
  | .terminal _ => .fail
  | .pointer _ p => getParameters p
  | .array _ _ p => getParameters p
  | .function _ names _ p =>
    match p with
    | .terminal _ => .ok names
    | p => getParameters p

/-- `parse_specifiers(NULL, NULL, &tq, NULL, NULL)`. -/
def quals (q : Quals) : List DTok → Quals × List DTok
  | .qual .const :: r => quals { q with const := q.const + 1 } r
  | .qual _ :: r => quals { q with rest := q.rest + 1 } r
  | r => (q, r)

/-- `parse_specifiers` for a parameter, declaration.c 98-235; `ty` is the type if one was found.
`none`: nothing matched. -/
def specifiers (env : Nat → Option Ty) (q : Quals) (ty : Option Ty) (matched : Bool) : List DTok → Res (Option (Quals × Option Ty) × List DTok)
  | .qual .const :: r => specifiers env { q with const := q.const + 1 } ty true r
  | .qual _ :: r => specifiers env { q with rest := q.rest + 1 } ty true r
  | .kvoid :: r =>
    match ty with
    | none => specifiers env q (some (.node (.simple .void) false [])) true r
    | some _ => .fail
  | .spec t :: r =>
    match ty with
    | none => specifiers env q (some t) true r
    | some _ => .fail
  | .ident n :: r =>
    match ty, env n with
    | none, some t => specifiers env q (some t) true r
    | _, _ => .ok (if matched then some (q, ty) else none, .ident n :: r)
  | r => .ok (if matched then some (q, ty) else none, r)

/-- `*has_symbols` with the names in the scope that stays open; `none` if the pointer is NULL. -/
abbrev Kept := Option (Option (List (Option Nat)))

/-- `parse_expression` between the brackets. -/
def expression : List DTok → Res (Size × List DTok)
  | .num s v :: r => .ok (.num s v, r)
  | .expr i :: r => .ok (.expr false i, r)
  | .star :: .expr i :: r => .ok (.expr true i, r)
  | _ => .fail

/-- `TACCEPT(T_KSTATIC)` -/
def acceptStatic : List DTok → Bool × List DTok
  | .kstatic :: r => (true, r)
  | r => (false, r)

/-- `TEXPECT(T_RBRACK)` -/
def expectRbrack : List DTok → Res (List DTok)
  | .rbrack :: r => .ok r
  | _ => .fail

/-- declaration.c 870-900: the brackets after the first. -/
def brackets (toks : List DTok) : Res (Size × Quals × List DTok) :=
  let (s1, toks) := acceptStatic toks
  let (q, toks) := quals ⟨0, 0⟩ toks
  let (s2, toks) := acceptStatic toks
  match toks with
  | .rbrack :: r => if s1 || s2 then .fail else .ok (.empty, q, r)
  | .star :: r => do
    let r ← expectRbrack r
    .ok (.star, q, r)
  | r => do
    let (s, r) ← expression r
    let r ← expectRbrack r
    .ok (s, q, r)

/-- `symbols_add_identifier` in the scope of the parameters. -/
def addName (names : List (Option Nat)) : Option Nat → Res (List (Option Nat))
  | none => .ok (names ++ [none])
  | some n => if some n ∈ names then .fail else .ok (names ++ [some n])

/-- An identifier that is a typedef name. -/
def atTypedef (env : Nat → Option Ty) : List DTok → Bool
  | .ident n :: _ => (env n).isSome
  | _ => false

mutual
/-- declaration.c 809-910 `parse_declarator`: NULL or the declarator, whether it was abstract. -/
def declarator (env : Nat → Option Ty) : Nat → Kept → List DTok → Run (Option Ast × Bool × Kept × List DTok)
  | 0, _, _ => .more
  | f + 1, k, toks =>
    match toks with
    | .ident n :: r => do
      let (a, k, r) ← suffixes env f k (.terminal (some n)) r
      .ok (some a, false, k, r)
    | .lpar :: r => do
      let (a, abs, k, r) ← (if atTypedef env r then Run.ok (none, true, k, r) else declarator env f k r)
      match a with
      | none => do
        let (a, k, r) ← functionParameters env f k (.terminal none) r
        let (a, k, r) ← suffixes env f k a r
        .ok (some a, true, k, r)
      | some a =>
        match r with
        | .rpar :: r => do
          let (a, k, r) ← suffixes env f k a r
          .ok (some a, abs, k, r)
        | _ => .fail
    | .star :: r => do
      let (q, r) := quals ⟨0, 0⟩ r
      let (p, abs, k, r) ← declarator env f k r
      match p with
      | none => do
        let (a, k, r) ← suffixes env f k (.pointer q (.terminal none)) r
        .ok (some a, true, k, r)
      | some p => do
        let (a, k, r) ← suffixes env f k (.pointer q p) r
        .ok (some a, abs, k, r)
    | .lbrack :: r => do
      let (a, k, r) ← suffixes env f k (.terminal none) (.lbrack :: r)
      .ok (some a, true, k, r)
    | r => .ok (none, true, k, r)

/-- The loop 864-907. -/
def suffixes (env : Nat → Option Ty) : Nat → Kept → Ast → List DTok → Run (Ast × Kept × List DTok)
  | 0, _, _, _ => .more
  | f + 1, k, a, toks =>
    match toks with
    | .lbrack :: r => do
      let (s, q, r) ← Run.ofRes (brackets r)
      suffixes env f k (.array s q a) r
    | .lpar :: r => do
      let (a, k, r) ← functionParameters env f k a r
      suffixes env f k a r
    | r => .ok (a, k, r)

/-- declaration.c 773-807 `parse_function_parameters`. -/
def functionParameters (env : Nat → Option Ty) : Nat → Kept → Ast → List DTok → Run (Ast × Kept × List DTok)
  | 0, _, _, _ => .more
  | f + 1, k, a, toks =>
    match toks with
    | .rpar :: r => .ok (.function [] [] true a, k, r)
    | .kvoid :: .rpar :: r => .ok (.function [] [] false a, k, r)
    | r => do
      let (ts, ns, v, r) ← parameterList env f [] [] r
      let k := match k with
        | some none => some (some ns)
        | k => k
      .ok (.function ts ns v a, k, r)

/-- declaration.c 724-771 `parse_parameter_list`, its loop. -/
def parameterList (env : Nat → Option Ty) : Nat → List Ty → List (Option Nat) → List DTok → Run (List Ty × List (Option Nat) × Bool × List DTok)
  | 0, _, _, _ => .more
  | f + 1, ts, ns, toks => do
    let (s, r) ← Run.ofRes (specifiers env ⟨0, 0⟩ none false toks)
    match s with
    | none => finish ts ns r
    | some (q, ty) => do
      let (a, abs, _, r) ← declarator env f none r
      -- `specifiers_to_type` without a type: an error
      let t ← (match ty with | some t => Run.ok t | none => .fail)
      let (t, name) ← Run.ofRes (astToType? true (applyTq t q) a)
      let ns ← Run.ofRes (addName ns (if abs then none else name))
      let ts := ts ++ [adjust t]
      match r with
      | .rpar :: _ => finish ts ns r
      | .comma :: r => parameterList env f ts ns r
      | _ => .fail
where
  /-- 762-770 -/
  finish (ts : List Ty) (ns : List (Option Nat)) (r : List DTok) : Run (List Ty × List (Option Nat) × Bool × List DTok) :=
    match r with
    | .ellipsis :: .rpar :: r => .ok (ts, ns, true, r)
    | .rpar :: r => .ok (ts, ns, false, r)
    | _ => .fail
end

/-- What is known of a declared identifier. -/
structure Declared where
  type : Ty
  name : Option Nat
  /-- before the body of a function: `args`, and the names in the scope that stays open -/
  body : Option (List (Option Nat) × List (Option Nat))

/-- declaration.c 1209-1242 `parse_init_declarator`: the declarator and its type.  `t` and `q` are
the specifiers and qualifiers. -/
def initDeclarator (env : Nat → Option Ty) (f : Nat) (t : Ty) (q : Quals) (toks : List DTok) : Run (Option Declared × List DTok) := do
  let (a, abs, k, r) ← declarator env f (some none) toks
  match a with
  | none => .ok (none, r)
  | some a =>
    if abs then .fail
    else do
      let (ty, name) ← Run.ofRes (astToType false (applyTq t q) a)
      match r with
      | .lbrace :: _ => do
        let args ← Run.ofRes (getParameters a)
        let scope := match k with
          | some (some ns) => ns
          | _ => []
        .ok (some ⟨ty, name, some (args, scope)⟩, r)
      | r => .ok (some ⟨ty, name, none⟩, r)

/-- declaration.c 1186-1202 `parse_type_name`. -/
def typeName (env : Nat → Option Ty) (f : Nat) (toks : List DTok) : Run (Option Ty × List DTok) := do
  let (s, r) ← Run.ofRes (specifiers env ⟨0, 0⟩ none false toks)
  match s with
  | none => .ok (none, r)
  | some (q, ty) => do
    let (a, abs, _, r) ← declarator env f none r
    if !abs then .fail
    else do
      let t ← (match ty with | some t => Run.ok t | none => .fail)
      let (t, _) ← Run.ofRes (astToType? false (applyTq t q) a)
      .ok (some t, r)

end Verif.Declarator
