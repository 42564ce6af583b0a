import Verif.Token
import Verif.Simple
/-!
Specification: the expression grammar of C17 6.5, with `_Generic` left out.  What a type
name, a braced initializer list and an ordinary identifier are is a parameter.
-/
namespace Verif.PrattSpec
open Verif Simple

/-- Unary operators (6.5.3). -/
inductive Un where
  | preInc | preDec | addr | deref | plus | neg | compl | not | sizeof
  deriving DecidableEq, Repr

/-- Binary operators: those of 6.5.5 to 6.5.14. -/
inductive Bin where
  | arith (o : Op)
  | land
  | lor
  deriving DecidableEq, Repr

/-- Syntax trees.  `noArgs` and `arg` build argument lists. -/
inductive E where
  | const (t : Tok)
  | ident (t : Tok)
  | par (a : E)
  | index (a i : E)
  | call (f args : E)
  | noArgs
  | arg (a rest : E)
  | dot (a : E) (t : Tok)
  | arrow (a : E) (t : Tok)
  | postInc (a : E)
  | postDec (a : E)
  | compound (ty init : List Tok)
  | un (o : Un) (a : E)
  | sizeofT (ty : List Tok)
  | alignofT (ty : List Tok)
  | cast (ty : List Tok) (a : E)
  | bin (o : Bin) (a b : E)
  | cond (c a b : E)
  | assign (a b : E)
  | assignOp (o : Op) (a b : E)
  | comma (a b : E)
  deriving DecidableEq

/-- The parts of the language the expression grammar refers to. -/
structure Lang where
  /-- 6.7.7 -/
  TypeName : List Tok → Prop
  /-- 6.5.2: `{ initializer-list }` or `{ initializer-list , }` -/
  Braced : List Tok → Prop
  /-- the identifier is declared as an object, function or enumeration constant -/
  Ordinary : Tok → Prop

/-- Nonterminals; `arguments` is the argument-expression-list. -/
inductive NT where
  | primary | postfix | unary | cast | multiplicative | additive | shift | relational | equality
  | and | exclusiveOr | inclusiveOr | logicalAnd | logicalOr | conditional | assignment | expression
  | arguments
  deriving DecidableEq, Repr

/-- `N` may consist of just a ... -/
def tighter : NT → Option NT
  | .primary => none
  | .postfix => some .primary
  | .unary => some .postfix
  | .cast => some .unary
  | .multiplicative => some .cast
  | .additive => some .multiplicative
  | .shift => some .additive
  | .relational => some .shift
  | .equality => some .relational
  | .and => some .equality
  | .exclusiveOr => some .and
  | .inclusiveOr => some .exclusiveOr
  | .logicalAnd => some .inclusiveOr
  | .logicalOr => some .logicalAnd
  | .conditional => some .logicalOr
  | .assignment => some .conditional
  | .expression => some .assignment
  | .arguments => none

/-- The left-associative binary operators: `N: M | N op M`. -/
def ops : NT → List (TType × Bin)
  | .multiplicative => [(.T_STAR, .arith .mul), (.T_DIV, .arith .div), (.T_MOD, .arith .mod)]
  | .additive => [(.T_ADD, .arith .add), (.T_SUB, .arith .sub)]
  | .shift => [(.T_LSHIFT, .arith .lshift), (.T_RSHIFT, .arith .rshift)]
  | .relational => [(.T_L, .arith .less), (.T_G, .arith .greater), (.T_LEQ, .arith .lessEq),
                    (.T_GEQ, .arith .greaterEq)]
  | .equality => [(.T_EQ, .arith .equal), (.T_NEQ, .arith .notEqual)]
  | .and => [(.T_AMP, .arith .band)]
  | .exclusiveOr => [(.T_XOR, .arith .bxor)]
  | .inclusiveOr => [(.T_BOR, .arith .bor)]
  | .logicalAnd => [(.T_AND, .land)]
  | .logicalOr => [(.T_OR, .lor)]
  | _ => []

/-- 6.5.3: operators whose operand is a cast-expression. -/
def castOps : List (TType × Un) :=
  [(.T_AMP, .addr), (.T_STAR, .deref), (.T_ADD, .plus), (.T_SUB, .neg), (.T_BNOT, .compl), (.T_NOT, .not)]

/-- 6.5.3: operators whose operand is a unary-expression. -/
def unaryOps : List (TType × Un) :=
  [(.T_INC, .preInc), (.T_DEC, .preDec), (.T_KSIZEOF, .sizeof)]

/-- 6.5.16: compound assignment operators. -/
def assignOps : List (TType × Op) :=
  [(.T_MULA, .mul), (.T_DIVA, .div), (.T_MODA, .mod), (.T_ADDA, .add), (.T_SUBA, .sub),
   (.T_LSHIFTA, .lshift), (.T_RSHIFTA, .rshift), (.T_BANDA, .band), (.T_XORA, .bxor), (.T_BORA, .bor)]

/-- Tokens that are constants, string literals or `__func__`. -/
def constants : List TType :=
  [.T_NUM, .T_CHARACTER_CONSTANT, .T_CHARACTER_CONSTANT_CHAR16, .T_CHARACTER_CONSTANT_CHAR32,
   .T_CHARACTER_CONSTANT_WCHAR, .T_STRING, .T_STRING_CHAR16, .T_STRING_CHAR32, .T_STRING_WCHAR, .T_KFUNC]

/-- Tokens derivable from a nonterminal, with the tree. -/
inductive Derives (L : Lang) : NT → List Tok → E → Prop
  | const (t : Tok) : t.type ∈ constants → Derives L .primary [t] (.const t)
  | ident (t : Tok) : t.type = .T_IDENT → L.Ordinary t → Derives L .primary [t] (.ident t)
  | par (l r : Tok) (ts e) : l.type = .T_LPAR → r.type = .T_RPAR → Derives L .expression ts e →
      Derives L .primary (l :: ts ++ [r]) (.par e)
  | up (n m ts e) : tighter n = some m → Derives L m ts e → Derives L n ts e
  | index (l r : Tok) (ts₁ ts₂ a i) : l.type = .T_LBRACK → r.type = .T_RBRACK →
      Derives L .postfix ts₁ a → Derives L .expression ts₂ i →
      Derives L .postfix (ts₁ ++ l :: ts₂ ++ [r]) (.index a i)
  | call0 (l r : Tok) (ts₁ f) : l.type = .T_LPAR → r.type = .T_RPAR →
      Derives L .postfix ts₁ f → Derives L .postfix (ts₁ ++ [l, r]) (.call f .noArgs)
  | call (l r : Tok) (ts₁ ts₂ f as) : l.type = .T_LPAR → r.type = .T_RPAR →
      Derives L .postfix ts₁ f → Derives L .arguments ts₂ as →
      Derives L .postfix (ts₁ ++ l :: ts₂ ++ [r]) (.call f as)
  | arg (ts a) : Derives L .assignment ts a → Derives L .arguments ts (.arg a .noArgs)
  | args (c : Tok) (ts₁ ts₂ a as) : c.type = .T_COMMA → Derives L .assignment ts₁ a →
      Derives L .arguments ts₂ as → Derives L .arguments (ts₁ ++ c :: ts₂) (.arg a as)
  | dot (d m : Tok) (ts a) : d.type = .T_DOT → m.type = .T_IDENT → Derives L .postfix ts a →
      Derives L .postfix (ts ++ [d, m]) (.dot a m)
  | arrow (d m : Tok) (ts a) : d.type = .T_ARROW → m.type = .T_IDENT → Derives L .postfix ts a →
      Derives L .postfix (ts ++ [d, m]) (.arrow a m)
  | postInc (t : Tok) (ts a) : t.type = .T_INC → Derives L .postfix ts a →
      Derives L .postfix (ts ++ [t]) (.postInc a)
  | postDec (t : Tok) (ts a) : t.type = .T_DEC → Derives L .postfix ts a →
      Derives L .postfix (ts ++ [t]) (.postDec a)
  | compound (l r : Tok) (ty b) : l.type = .T_LPAR → r.type = .T_RPAR → L.TypeName ty → L.Braced b →
      Derives L .postfix (l :: ty ++ r :: b) (.compound ty b)
  | unU (t : Tok) (o ts a) : (t.type, o) ∈ unaryOps → Derives L .unary ts a →
      Derives L .unary (t :: ts) (.un o a)
  | unC (t : Tok) (o ts a) : (t.type, o) ∈ castOps → Derives L .cast ts a →
      Derives L .unary (t :: ts) (.un o a)
  | sizeofT (k l r : Tok) (ty) : k.type = .T_KSIZEOF → l.type = .T_LPAR → r.type = .T_RPAR →
      L.TypeName ty → Derives L .unary (k :: l :: ty ++ [r]) (.sizeofT ty)
  | alignofT (k l r : Tok) (ty) : k.type = .T_KALIGNOF → l.type = .T_LPAR → r.type = .T_RPAR →
      L.TypeName ty → Derives L .unary (k :: l :: ty ++ [r]) (.alignofT ty)
  | cast (l r : Tok) (ty ts a) : l.type = .T_LPAR → r.type = .T_RPAR → L.TypeName ty →
      Derives L .cast ts a → Derives L .cast (l :: ty ++ r :: ts) (.cast ty a)
  | bin (n m : NT) (t : Tok) (o ts₁ ts₂ a b) : (t.type, o) ∈ ops n → tighter n = some m →
      Derives L n ts₁ a → Derives L m ts₂ b → Derives L n (ts₁ ++ t :: ts₂) (.bin o a b)
  | cond (q k : Tok) (ts₁ ts₂ ts₃ c a b) : q.type = .T_QUEST → k.type = .T_COLON →
      Derives L .logicalOr ts₁ c → Derives L .expression ts₂ a → Derives L .conditional ts₃ b →
      Derives L .conditional (ts₁ ++ q :: ts₂ ++ k :: ts₃) (.cond c a b)
  | assign (t : Tok) (ts₁ ts₂ a b) : t.type = .T_A → Derives L .unary ts₁ a →
      Derives L .assignment ts₂ b → Derives L .assignment (ts₁ ++ t :: ts₂) (.assign a b)
  | assignOp (t : Tok) (o ts₁ ts₂ a b) : (t.type, o) ∈ assignOps → Derives L .unary ts₁ a →
      Derives L .assignment ts₂ b → Derives L .assignment (ts₁ ++ t :: ts₂) (.assignOp o a b)
  | comma (t : Tok) (ts₁ ts₂ a b) : t.type = .T_COMMA → Derives L .expression ts₁ a →
      Derives L .assignment ts₂ b → Derives L .expression (ts₁ ++ t :: ts₂) (.comma a b)

end Verif.PrattSpec
