import Verif.Token
import Verif.SimpleSpec
/-!
Specification of `#if` expressions: the grammar of C17 6.5 and 6.6 restricted to what
6.10.1 allows, and the semantics of 6.10.1p4 (all signed types are `intmax_t`, all
unsigned types `uintmax_t`).  The comma operator, which 6.6p3 only allows in operands that
are not evaluated, is left out.
-/
namespace Verif.PPExprSpec
open Verif Simple SimpleSpec

/-- Binary operators. -/
inductive Bin where
  | arith (o : Op)
  | land
  | lor
  deriving DecidableEq, Repr

/-- Unary operators. -/
inductive Un where
  | plus | neg | not | compl
  deriving DecidableEq, Repr

/-- Syntax trees. -/
inductive E where
  | lit (t : Tok)
  | un (o : Un) (e : E)
  | bin (o : Bin) (a b : E)
  | cond (c a b : E)
  deriving DecidableEq, Repr

/-- Nonterminals of 6.5.1 to 6.5.15. -/
inductive NT where
  | primary | unary | multiplicative | additive | shift | relational | equality
  | and | exclusiveOr | inclusiveOr | logicalAnd | logicalOr | conditional
  deriving DecidableEq, Repr

/-- The operand nonterminal: each rule reads `N: tighter | N op tighter`. -/
def tighter : NT → NT
  | .primary => .primary
  | .unary => .primary
  | .multiplicative => .unary
  | .additive => .multiplicative
  | .shift => .additive
  | .relational => .shift
  | .equality => .relational
  | .and => .equality
  | .exclusiveOr => .and
  | .inclusiveOr => .exclusiveOr
  | .logicalAnd => .inclusiveOr
  | .logicalOr => .logicalAnd
  | .conditional => .logicalOr

/-- The operators of each rule. -/
def ops : NT → List (TType × Bin)
  | .multiplicative => [(.T_STAR, .arith .mul), (.T_DIV, .arith .div), (.T_MOD, .arith .mod)]
  | .additive => [(.T_ADD, .arith .add), (.T_SUB, .arith .sub)]
  | .shift => [(.T_LSHIFT, .arith .lshift), (.T_RSHIFT, .arith .rshift)]
  | .relational => [(.T_L, .arith .less), (.T_G, .arith .greater), (.T_LEQ, .arith .lessEq),
                    (.T_GEQ, .arith .greaterEq)]
  | .equality => [(.T_EQ, .arith .equal), (.T_NEQ, .arith .notEqual)]
  | .and => [(.T_AMP, .arith .band)]
  | .exclusiveOr => [(.T_XOR, .arith .bxor)]
  | .inclusiveOr => [(.T_BOR, .arith .bor)]
  | .logicalAnd => [(.T_AND, .land)]
  | .logicalOr => [(.T_OR, .lor)]
  | _ => []

/-- The unary operators (6.5.3.3). -/
def unOps : List (TType × Un) :=
  [(.T_ADD, .plus), (.T_SUB, .neg), (.T_NOT, .not), (.T_BNOT, .compl)]

/-- Tokens derivable from a nonterminal, with the tree. -/
inductive Derives : NT → List Tok → E → Prop
  | lit (t : Tok) : t.type = .T_NUM ∨ t.type = .T_CHARACTER_CONSTANT ∨ t.type = .T_IDENT →
      Derives .primary [t] (.lit t)
  | par (l r : Tok) (ts e) : l.type = .T_LPAR → r.type = .T_RPAR → Derives .conditional ts e →
      Derives .primary (l :: ts ++ [r]) e
  | un (t : Tok) (o ts e) : (t.type, o) ∈ unOps → Derives .unary ts e →
      Derives .unary (t :: ts) (.un o e)
  | up (n ts e) : Derives (tighter n) ts e → Derives n ts e
  | bin (n : NT) (t : Tok) (o ts₁ ts₂ a b) : (t.type, o) ∈ ops n → Derives n ts₁ a →
      Derives (tighter n) ts₂ b → Derives n (ts₁ ++ t :: ts₂) (.bin o a b)
  | cond (q k : Tok) (ts₁ ts₂ ts₃ c a b) : q.type = .T_QUEST → k.type = .T_COLON →
      Derives .logicalOr ts₁ c → Derives .conditional ts₂ a → Derives .conditional ts₃ b →
      Derives .conditional (ts₁ ++ q :: ts₂ ++ k :: ts₃) (.cond c a b)

/-! ### Values -/

/-- The type that stands for all signed, all unsigned types. -/
def ity (s : Bool) : ST := if s then .llong else .ullong

/-- Value of an integer literal, identifier or simple character constant. -/
inductive Literal : Tok → Bool → Int → Prop
  | ident (t : Tok) : t.type = .T_IDENT → Literal t true 0
  | uns (t : Tok) (b pre ds sp s) : t.type = .T_NUM → IsConstant b pre ds → sp ∈ spellings s →
      s = .u ∨ s = .ul ∨ s = .ull → t.str = pre ++ ds ++ sp → number b ds < 2 ^ 64 →
      Literal t false (number b ds)
  | sgn (t : Tok) (b pre ds sp s) : t.type = .T_NUM → IsConstant b pre ds → sp ∈ spellings s →
      s = .none ∨ s = .l ∨ s = .ll → t.str = pre ++ ds ++ sp → number b ds < 2 ^ 63 →
      Literal t true (number b ds)
  | big (t : Tok) (b pre ds sp s) : t.type = .T_NUM → IsConstant b pre ds → sp ∈ spellings s →
      s = .none ∨ s = .l ∨ s = .ll → b ≠ .dec → t.str = pre ++ ds ++ sp →
      2 ^ 63 ≤ number b ds → number b ds < 2 ^ 64 → Literal t false (number b ds)
  | char (t : Tok) (c : Byte) : t.type = .T_CHARACTER_CONSTANT → t.str = [ch '\'', c, ch '\''] →
      32 ≤ c.toNat → c.toNat < 127 → c ≠ ch '\'' → c ≠ ch '\\' → Literal t true c.toNat

/-- Is the result of the operator always `int`? -/
def yieldsInt (o : Op) : Bool :=
  o ∈ [Op.less, .greater, .lessEq, .greaterEq, .equal, .notEqual]

/-- Shifts take the type of the left operand. -/
def isShift (o : Op) : Bool := o ∈ [Op.lshift, .rshift]

/-- The type in which an arithmetic operator is computed. -/
def computed (o : Op) (s₁ s₂ : Bool) : Bool := if isShift o then s₁ else s₁ && s₂

/-- Static types: `true` is `intmax_t`. -/
inductive Ty : E → Bool → Prop
  | lit (t s v) : Literal t s v → Ty (.lit t) s
  | plus (e s) : Ty e s → Ty (.un .plus e) s
  | neg (e s) : Ty e s → Ty (.un .neg e) s
  | compl (e s) : Ty e s → Ty (.un .compl e) s
  | not (e s) : Ty e s → Ty (.un .not e) true
  | arith (o a b s₁ s₂) : Ty a s₁ → Ty b s₂ →
      Ty (.bin (.arith o) a b) (yieldsInt o || computed o s₁ s₂)
  | land (a b s₁ s₂) : Ty a s₁ → Ty b s₂ → Ty (.bin .land a b) true
  | lor (a b s₁ s₂) : Ty a s₁ → Ty b s₂ → Ty (.bin .lor a b) true
  | cond (c a b s s₁ s₂) : Ty c s → Ty a s₁ → Ty b s₂ → Ty (.cond c a b) (s₁ && s₂)

/-- Conversion to `intmax_t` (never out of range here) or `uintmax_t`. -/
def convert (s : Bool) (v : Int) : Int := if s then v else v % 2 ^ 64

/-- Truth value as an `int`. -/
def truth (p : Prop) [Decidable p] : Int := if p then 1 else 0

/-- `e` has type `s` and value `v`; no rule applies where 6.10.1 or 6.6 give no value. -/
inductive Value : E → Bool → Int → Prop
  | lit (t s v) : Literal t s v → Value (.lit t) s v
  | plus (e s v) : Value e s v → Value (.un .plus e) s v
  | neg (e s v w) : Value e s v → uopVal .sysv (ity s) .neg v = some w → Value (.un .neg e) s w
  | compl (e s v w) : Value e s v → uopVal .sysv (ity s) .bnot v = some w → Value (.un .compl e) s w
  | not (e s v) : Value e s v → Value (.un .not e) true (truth (v = 0))
  | arith (o a b s₁ s₂ v₁ v₂ w) : Value a s₁ v₁ → Value b s₂ v₂ →
      opVal .sysv (ity (computed o s₁ s₂)) o (convert (computed o s₁ s₂) v₁)
        (if isShift o then v₂ else convert (computed o s₁ s₂) v₂) = some w →
      Value (.bin (.arith o) a b) (yieldsInt o || computed o s₁ s₂) w
  | landF (a b s₁ s₂) : Value a s₁ 0 → Ty b s₂ → Value (.bin .land a b) true 0
  | landT (a b s₁ s₂ v₁ v₂) : Value a s₁ v₁ → v₁ ≠ 0 → Value b s₂ v₂ →
      Value (.bin .land a b) true (truth (v₂ ≠ 0))
  | lorT (a b s₁ s₂ v₁) : Value a s₁ v₁ → v₁ ≠ 0 → Ty b s₂ → Value (.bin .lor a b) true 1
  | lorF (a b s₁ s₂ v₂) : Value a s₁ 0 → Value b s₂ v₂ → Value (.bin .lor a b) true (truth (v₂ ≠ 0))
  | condT (c a b s s₁ s₂ v v₁) : Value c s v → v ≠ 0 → Value a s₁ v₁ → Ty b s₂ →
      Value (.cond c a b) (s₁ && s₂) (convert (s₁ && s₂) v₁)
  | condF (c a b s s₁ s₂ v₂) : Value c s 0 → Ty a s₁ → Value b s₂ v₂ →
      Value (.cond c a b) (s₁ && s₂) (convert (s₁ && s₂) v₂)

end Verif.PPExprSpec
