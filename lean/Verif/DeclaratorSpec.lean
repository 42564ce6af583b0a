import Verif.Declarator
/-!
What a declarator denotes: ISO C17 6.7.6, independent of the model.

A type is the compiler's description of it (`Types.Ty`): its kind, whether it is const, and the
types it is derived from.  An unprototyped function is variadic and has no parameters.  Of the
qualifiers only `const` is kept.
-/
namespace Verif.DeclaratorSpec
open Verif Simple
open Verif.Types (Ty Kind)
open Verif.Declarator (Qual DTok Size)

/-- The type specifiers of a parameter. -/
inductive TySpec where
  | void
  | type (t : Ty)
  /-- a typedef name, and its type -/
  | tdef (n : Nat) (t : Ty)

/-- The declaration specifiers of a parameter. -/
structure Spec where
  pre : List Qual := []
  ty : TySpec
  post : List Qual := []

mutual
/-- 6.7.6 and 6.7.7: declarators, abstract or not. -/
inductive D where
  | name (n : Nat)
  /-- no declarator, or the missing identifier of an abstract one -/
  | empty
  /-- `* qualifiers D` -/
  | ptr (qs : List Qual) (d : D)
  /-- `( D )` -/
  | paren (d : D)
  /-- `D [ static? qualifiers static? size ]` -/
  | arr (d : D) (st1 : Bool) (qs : List Qual) (st2 : Bool) (size : Size)
  /-- `D ( parameters )` -/
  | fn (d : D) (ps : Ps)

/-- Parameters of a function. -/
inductive Ps where
  /-- `()` -/
  | unspec
  /-- the last parameter, and whether `, ...` follows -/
  | last (s : Spec) (d : D) (variadic : Bool)
  | more (s : Spec) (d : D) (rest : Ps)
end

/-! ### Tokens -/

/-- The tokens of qualifiers. -/
def qualToks (qs : List Qual) : List DTok := qs.map .qual

/-- The token of a type specifier. -/
def TySpec.tok : TySpec → DTok
  | .void => .kvoid
  | .type t => .spec t
  | .tdef n _ => .ident n

/-- The tokens of specifiers. -/
def Spec.toks (s : Spec) : List DTok := qualToks s.pre ++ s.ty.tok :: qualToks s.post

/-- The tokens of the size of an array. -/
def sizeToks : Size → List DTok
  | .empty => []
  | .star => [.star]
  | .num s v => [.num s v]
  | .expr false i => [.expr i]
  | .expr true i => [.star, .expr i]

/-- The tokens of `static`. -/
def staticToks (b : Bool) : List DTok := if b then [.kstatic] else []

mutual
/-- The tokens of a declarator. -/
def D.toks : D → List DTok
  | .name n => [.ident n]
  | .empty => []
  | .ptr qs d => .star :: (qualToks qs ++ d.toks)
  | .paren d => .lpar :: (d.toks ++ [.rpar])
  | .arr d s1 qs s2 size => d.toks ++ .lbrack :: (staticToks s1 ++ qualToks qs ++ staticToks s2 ++ sizeToks size ++ [.rbrack])
  | .fn d ps => d.toks ++ .lpar :: (ps.toks ++ [.rpar])

/-- The tokens of parameters. -/
def Ps.toks : Ps → List DTok
  | .unspec => []
  | .last s d v => s.toks ++ d.toks ++ (if v then [.comma, .ellipsis] else [])
  | .more s d r => s.toks ++ d.toks ++ .comma :: r.toks
end

/-! ### Meaning -/

/-- Whether a type is an array type. -/
def IsArray : Ty → Bool
  | .node (.array _) _ _ => true
  | .node .incompleteArray _ _ => true
  | .node (.vla _) _ _ => true
  | _ => false

/-- Whether a type is `void`, unqualified. -/
def isVoid : Ty → Bool
  | .node (.simple .void) false _ => true
  | _ => false

/-- 6.7.3p9: the const version of a type; for an array it is the element type that is const. -/
def constOf : Ty → Ty
  | .node k c l =>
    match k, l with
    | .array n, [t] => .node (.array n) c [constOf t]
    | .incompleteArray, [t] => .node .incompleteArray c [constOf t]
    | .vla e, [t] => .node (.vla e) c [constOf t]
    | k, l => .node k true l

/-- A type with qualifiers; 6.7.3p5: a qualifier may be repeated. -/
def qualified (qs : List Qual) (t : Ty) : Ty := if Qual.const ∈ qs then constOf t else t

/-- The type that specifiers name. -/
def Spec.base (s : Spec) : Ty :=
  match s.ty with
  | .void => .node (.simple .void) false []
  | .type t => t
  | .tdef _ t => t

/-- The type that specifiers and qualifiers name. -/
def Spec.type (s : Spec) : Ty := qualified (s.pre ++ s.post) s.base

/-- 6.7.6.2: the array type with elements `t`. -/
def arrayOf (t : Ty) : Size → Ty
  | .empty => .node .incompleteArray false [t]
  | .star => .node (.vla 0) false [t]
  | .num _ v => .node (.array v.toNat) false [t]
  | .expr d i => .node (.vla (Declarator.exprNo d i)) false [t]

/-- There is nothing but the identifier. -/
def D.bare : D → Bool
  | .name _ => true
  | .empty => true
  | .paren d => d.bare
  | _ => false

/-- The qualifiers in the brackets next to the identifier. -/
def D.bracketQuals : D → List Qual
  | .name _ => []
  | .empty => []
  | .ptr _ d => d.bracketQuals
  | .paren d => d.bracketQuals
  | .arr d _ qs _ _ => if d.bare then qs else d.bracketQuals
  | .fn d _ => d.bracketQuals

/-- 6.7.6.3p7-8: the type of a parameter declared with type `t`; `qs` are the qualifiers in the
brackets. -/
def adjusted (qs : List Qual) : Ty → Ty
  | .node k c l =>
    match k, l with
    | .array _, [t] => qualified qs (.node .pointer false [t])
    | .incompleteArray, [t] => qualified qs (.node .pointer false [t])
    | .vla _, [t] => qualified qs (.node .pointer false [t])
    | .function v, l => .node .pointer false [.node (.function v) c l]
    | k, l => .node k c l

/-- 6.7.6.3p10: an unnamed parameter of type void is the only one. -/
def Ps.soleVoid : Ps → Bool
  | .last s .empty false => isVoid s.type
  | _ => false

/-- Whether more arguments may follow. -/
def Ps.variadic : Ps → Bool
  | .unspec => true
  | .last _ _ v => v
  | .more _ _ r => r.variadic

mutual
/-- 6.7.6.1-3: the type of the identifier declared by the declarator with specifiers of type `t`. -/
def D.denote : D → Ty → Ty
  | .name _, t => t
  | .empty, t => t
  | .ptr qs d, t => d.denote (qualified qs (.node .pointer false [t]))
  | .paren d, t => d.denote t
  | .arr d _ _ _ size, t => d.denote (arrayOf t size)
  | .fn d ps, t => d.denote (.node (.function ps.variadic) false (t :: (if ps.soleVoid then [] else ps.types)))

/-- The types of the parameters. -/
def Ps.types : Ps → List Ty
  | .unspec => []
  | .last s d _ => [adjusted d.bracketQuals (d.denote s.type)]
  | .more s d r => adjusted d.bracketQuals (d.denote s.type) :: r.types
end

/-- The identifier. -/
def D.name? : D → Option Nat
  | .name n => some n
  | .empty => none
  | .ptr _ d => d.name?
  | .paren d => d.name?
  | .arr d _ _ _ _ => d.name?
  | .fn d _ => d.name?

/-- The names of the parameters as written. -/
def Ps.listed : Ps → List (Option Nat)
  | .unspec => []
  | .last _ d _ => [d.name?]
  | .more _ d r => d.name? :: r.listed

/-- The names of the parameters. -/
def Ps.names (ps : Ps) : List (Option Nat) := if ps.soleVoid then [] else ps.listed

/-- The parameters of the functions in a declarator, from the identifier outwards. -/
def D.functions : D → List Ps
  | .name _ => []
  | .empty => []
  | .ptr _ d => d.functions
  | .paren d => d.functions
  | .arr d _ _ _ _ => d.functions
  | .fn d ps => d.functions ++ [ps]

/-- The parameters of the function that the identifier is. -/
def D.function? : D → Option Ps
  | .name _ => none
  | .empty => none
  | .ptr _ d => d.function?
  | .paren d => d.function?
  | .arr d _ _ _ _ => d.function?
  | .fn d ps => if d.bare then some ps else d.function?

/-! ### Valid declarators -/

/-- The declarator has no `*` outside parentheses. -/
def D.direct : D → Bool
  | .ptr _ _ => false
  | _ => true

/-- There is no declarator. -/
def D.isEmpty : D → Bool
  | .empty => true
  | _ => false

/-- 6.7.6.3p11: the declarator begins with a typedef name. -/
def D.startsTypedef (env : Nat → Option Ty) : D → Bool
  | .name n => (env n).isSome
  | .arr d _ _ _ _ => d.startsTypedef env
  | .fn d _ => d.startsTypedef env
  | _ => false

/-- `const` is not repeated.  (C allows it; C72.) -/
def Once (qs : List Qual) : Prop := qs.count .const ≤ 1

/-- 6.7.6.2p1: the size of an array is positive (and fits).  (C also has `[*p]`.) -/
def ValidSize : Size → Prop
  | .num _ v => 0 < v ∧ v < 2 ^ 64
  | .expr d _ => d = false
  | _ => True

/-- A size is given. -/
def hasSize : Size → Bool
  | .num _ _ => true
  | .expr _ _ => true
  | _ => false

/-- No array type is itself const. -/
def NoConstArray : Ty → Prop
  | .node k c l => IsArray (.node k c l) = true → c = false ∧ ∃ t, l = [t]

/-- Valid specifiers of a parameter.  (C also has const with the name of an array type.) -/
def Spec.Valid (env : Nat → Option Ty) (s : Spec) : Prop :=
  Once (s.pre ++ s.post) ∧ NoConstArray s.base ∧ (Qual.const ∈ s.pre ++ s.post → IsArray s.base = false) ∧
  ∀ n t, s.ty = .tdef n t → env n = some t

/-- No name occurs twice. -/
def Distinct (ns : List (Option Nat)) : Prop := (ns.filterMap id).Nodup

/-- 6.7.6.3p10, only for the keyword.  (C also has typedef names of void.) -/
def Ps.VoidKeyword : Ps → Prop
  | .last s .empty false => isVoid s.type = true → s.pre = [] ∧ s.post = [] ∧ s.ty = .void
  | _ => True

/-- There are parameters. -/
def Ps.isList : Ps → Bool
  | .unspec => false
  | _ => true

mutual
/-- Valid declarators, those of parameters or others. -/
def D.Valid (env : Nat → Option Ty) (param : Bool) : D → Prop
  | .name _ => True
  | .empty => True
  | .ptr qs d => Once qs ∧ d.Valid env param
  | .paren d => d.isEmpty = false ∧ d.startsTypedef env = false ∧ d.Valid env param
  | .arr d s1 qs s2 size =>
    d.direct = true ∧ d.Valid env param ∧ ValidSize size ∧ Once qs ∧
    -- 6.7.6.2p1
    ((param = true ∧ d.bare = true) ∨ (s1 = false ∧ s2 = false ∧ qs = [])) ∧
    (s1 = true → s2 = false) ∧ (s1 = true ∨ s2 = true → hasSize size = true)
  | .fn d ps => d.direct = true ∧ d.Valid env param ∧ ps.Valid env ∧ ps.VoidKeyword ∧ Distinct ps.listed

/-- Valid parameters. -/
def Ps.Valid (env : Nat → Option Ty) : Ps → Prop
  | .unspec => True
  | .last s d _ => s.Valid env ∧ d.Valid env true
  | .more s d r => s.Valid env ∧ d.Valid env true ∧ r.Valid env ∧ r.isList = true
end

/-! ### What may follow -/

/-- The first token is not part of specifiers that have a type. -/
def NotSpec : List DTok → Prop
  | .qual _ :: _ => False
  | .kvoid :: _ => False
  | .spec _ :: _ => False
  | _ => True

/-- No declarator begins or continues with the first token. -/
def Stop : List DTok → Prop
  | .ident _ :: _ => False
  | .lpar :: _ => False
  | .lbrack :: _ => False
  | .star :: _ => False
  | .qual _ :: _ => False
  | _ => True

end Verif.DeclaratorSpec
