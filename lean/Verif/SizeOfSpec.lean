import Verif.SizeOf
/-!
Specification of sizes and of the evaluation of lengths (C17 6.5.3.4, 6.5.6p8, 6.7.6.2).  The size of an array is
the number of its elements times the size of an element.  A length is evaluated where it stands: in a type name
when the expression that contains it is evaluated, in a declaration when the declaration is reached; the array
keeps it.  `sizeof` is for complete object types; if the type is a variable length array the operand is evaluated.

Where C leaves the order of evaluation open the left operand is taken first, and the length of the elements before
the length of the array.
-/
namespace Verif.SizeOfSpec
open Verif
open Verif.SizeOf (E T S M Vars Out)

/-- Types; an array has its length and whether that came from an expression that is not constant. -/
inductive CT where
  | ulong
  | base (size : Nat)
  | void
  | func
  | pointer (t : CT)
  | unknown (t : CT)
  | array (n : Nat) (computed : Bool) (t : CT)
  deriving DecidableEq

/-- 6.5.3.4p2: the size of a complete object type. -/
def CT.size : CT → Option Nat
  | .ulong => some 8
  | .base n => some n
  | .pointer _ => some 8
  | .array n _ t => t.size.map (n * ·)
  | .void | .func | .unknown _ => none

/-- 6.7.6.2p4: variable length array types. -/
def CT.variable : CT → Bool
  | .array _ b t => b || t.variable
  | _ => false

/-- 6.3.2.1p3: an array becomes a pointer to its first element. -/
def CT.decay : CT → CT
  | .array _ _ t => .pointer t
  | .unknown t => .pointer t
  | t => t

/-- Whether it is an array. -/
def CT.isArray : CT → Bool
  | .array _ _ _ => true
  | .unknown _ => true
  | _ => false

/-- Whether it is a pointer. -/
def CT.isPointer : CT → Bool
  | .pointer _ => true
  | _ => false

/-- What a name stands for. -/
inductive Name where
  | tdef (t : CT)
  | obj (t : CT)

/-- The names in scope. -/
abbrev Env := Nat → Option Name

/-- Another name. -/
def Env.add (Γ : Env) (x : Nat) (n : Name) : Env := fun y => if y = x then some n else Γ y

mutual
/-- The type of an expression. -/
def typeE (Γ : Env) : E → Option CT
  | .lit _ => some .ulong
  | .var x =>
    match Γ x with
    | some (.obj t) => if t = .ulong ∨ t.isArray ∨ t.isPointer then some t else none
    | _ => none
  | .assign x e =>
    match Γ x, typeE Γ e with
    | some (.obj .ulong), some .ulong => some .ulong
    | some (.obj (.pointer t)), some c => if c.decay.isPointer then some (.pointer t) else none
    | _, _ => none
  | .add a b => if typeE Γ a = some .ulong ∧ typeE Γ b = some .ulong then some .ulong else none
  | .mul a b => if typeE Γ a = some .ulong ∧ typeE Γ b = some .ulong then some .ulong else none
  | .plus p i =>
    match typeE Γ p, typeE Γ i with
    | some c, some .ulong =>
      match c.decay with
      | .pointer t => if t.size.isSome then some (.pointer t) else none
      | _ => none
    | _, _ => none
  | .deref p =>
    match typeE Γ p with
    | some c =>
      match c.decay with
      | .pointer t => some t
      | _ => none
    | none => none
  | .comma a b => if (typeE Γ a).isSome ∧ typeE Γ b = some .ulong then some .ulong else none
  | .cond c a b =>
    if typeE Γ c = some .ulong ∧ typeE Γ a = some .ulong ∧ typeE Γ b = some .ulong then some .ulong else none
  | .sizeofType t => if okT Γ t then some .ulong else none
  | .sizeofExpr e => if (typeE Γ e).isSome then some .ulong else none

/-- The names in a type name are those of types, and lengths are integers. -/
def okT (Γ : Env) : T → Bool
  | .ulong | .base _ | .void | .func => true
  | .pointer t => okT Γ t
  | .unknown t => okT Γ t
  | .array e t => typeE Γ e = some .ulong && okT Γ t
  | .name x =>
    match Γ x with
    | some (.tdef _) => true
    | _ => false
end

mutual
/-- 6.6: integer constant expressions. -/
def constE (Γ : Env) : E → Bool
  | .lit _ => true
  | .add a b => constE Γ a && constE Γ b
  | .mul a b => constE Γ a && constE Γ b
  | .cond c a b => constE Γ c && constE Γ a && constE Γ b
  | .sizeofType t => constT Γ t
  | .sizeofExpr e =>
    match typeE Γ e with
    | some c => !c.variable
    | none => false
  | _ => false

/-- Types that are no variable length arrays. -/
def constT (Γ : Env) : T → Bool
  | .array e t => constE Γ e && constT Γ t
  | .name x =>
    match Γ x with
    | some (.tdef c) => !c.variable
    | _ => false
  | _ => true
end

mutual
/-- The value of an expression and the variables after it; `none`: invalid or undefined.  The value of an
array is its address. -/
def evalE (m : M) (Γ : Env) : E → Vars → Option (BitVec 64 × Vars)
  | .lit v, s => some (v, s)
  | .var x, s =>
    match Γ x with
    | some (.obj t) => if t.isArray then some (m.addr x, s) else some (s x, s)
    | _ => none
  | .assign x e, s =>
    match evalE m Γ e s with
    | some (v, s) => some (v, s.set x v)
    | none => none
  | .add a b, s =>
    match evalE m Γ a s with
    | some (v, s) =>
      match evalE m Γ b s with
      | some (w, s) => some (v + w, s)
      | none => none
    | none => none
  | .mul a b, s =>
    match evalE m Γ a s with
    | some (v, s) =>
      match evalE m Γ b s with
      | some (w, s) => some (v * w, s)
      | none => none
    | none => none
  -- 6.5.6p8
  | .plus p i, s =>
    match evalE m Γ p s with
    | some (v, s) =>
      match evalE m Γ i s with
      | some (w, s) =>
        match (typeE Γ p).map CT.decay with
        | some (.pointer t) =>
          match t.size with
          | some n => some (v + w * BitVec.ofNat 64 n, s)
          | none => none
        | _ => none
      | none => none
    | none => none
  | .deref p, s =>
    match evalE m Γ p s with
    | some (v, s) =>
      match (typeE Γ p).map CT.decay with
      | some (.pointer t) => if t.isArray then some (v, s) else some (m.mem v, s)
      | _ => none
    | none => none
  | .comma a b, s =>
    match evalE m Γ a s with
    | some (_, s) => evalE m Γ b s
    | none => none
  | .cond c a b, s =>
    match evalE m Γ c s with
    | some (v, s) => if v = 0 then evalE m Γ b s else evalE m Γ a s
    | none => none
  -- 6.5.3.4p2
  | .sizeofType t, s =>
    match evalT m Γ t s with
    | some (c, s) =>
      match c.size with
      | some n => some (BitVec.ofNat 64 n, s)
      | none => none
    | none => none
  | .sizeofExpr e, s =>
    match typeE Γ e with
    | some c =>
      match c.size with
      | some n =>
        if c.variable then
          match evalE m Γ e s with
          | some (_, s) => some (BitVec.ofNat 64 n, s)
          | none => none
        else some (BitVec.ofNat 64 n, s)
      | none => none
    | none => none

/-- The type that a type name denotes when it is reached; 6.7.6.2p1, p5: elements have a complete object type,
lengths are greater than zero. -/
def evalT (m : M) (Γ : Env) : T → Vars → Option (CT × Vars)
  | .ulong, s => some (.ulong, s)
  | .base n, s => some (.base n, s)
  | .void, s => some (.void, s)
  | .func, s => some (.func, s)
  | .pointer t, s =>
    match evalT m Γ t s with
    | some (c, s) => some (.pointer c, s)
    | none => none
  | .unknown t, s =>
    match evalT m Γ t s with
    | some (c, s) => if c.size.isSome then some (.unknown c, s) else none
    | none => none
  | .array e t, s =>
    match evalT m Γ t s with
    | some (c, s) =>
      match evalE m Γ e s with
      | some (v, s) => if v ≠ 0 ∧ c.size.isSome then some (.array v.toNat (!constE Γ e) c, s) else none
      | none => none
    | none => none
  | .name x, s =>
    match Γ x with
    | some (.tdef c) => some (c, s)
    | _ => none
end

/-- A block: what can be seen, and the variables after it. -/
def evalBlock (m : M) : List S → Env → Vars → Option (List Out × Vars)
  | [], _, s => some ([], s)
  | .typedef x t :: ss, Γ, s =>
    if okT Γ t then
      match evalT m Γ t s with
      | some (c, s) => evalBlock m ss (Γ.add x (.tdef c)) s
      | none => none
    else none
  | .decl x t :: ss, Γ, s =>
    if okT Γ t then
      match evalT m Γ t s with
      | some (c, s) =>
        match c.size, evalBlock m ss (Γ.add x (.obj c)) s with
        | some n, some (os, s) => some (.storage x (BitVec.ofNat 64 n) :: os, s)
        | _, _ => none
      | none => none
    else none
  | .expr e :: ss, Γ, s =>
    if (typeE Γ e).isSome then
      match evalE m Γ e s with
      | some (v, s) =>
        match evalBlock m ss Γ s with
        | some (os, s) => some (.value v :: os, s)
        | none => none
      | none => none
    else none

/-! ### The programs of the theorem -/

mutual
/-- The variables that an expression assigns. -/
def writesE : E → List Nat
  | .assign x e => x :: writesE e
  | .lit _ | .var _ => []
  | .deref e => writesE e
  | .sizeofExpr e => writesE e
  | .sizeofType t => writesT t
  | .add a b => writesE a ++ writesE b
  | .mul a b => writesE a ++ writesE b
  | .plus a b => writesE a ++ writesE b
  | .comma a b => writesE a ++ writesE b
  | .cond c a b => writesE c ++ (writesE a ++ writesE b)

/-- The variables that the lengths of a type assign. -/
def writesT : T → List Nat
  | .array e t => writesE e ++ writesT t
  | .pointer t => writesT t
  | .unknown t => writesT t
  | _ => []
end

mutual
/-- The variables that an expression reads. -/
def readsE : E → List Nat
  | .var x => [x]
  | .lit _ => []
  | .assign _ e => readsE e
  | .deref e => readsE e
  | .sizeofExpr e => readsE e
  | .sizeofType t => readsT t
  | .add a b => readsE a ++ readsE b
  | .mul a b => readsE a ++ readsE b
  | .plus a b => readsE a ++ readsE b
  | .comma a b => readsE a ++ readsE b
  | .cond c a b => readsE c ++ (readsE a ++ readsE b)

/-- The variables that the lengths of a type read. -/
def readsT : T → List Nat
  | .array e t => readsE e ++ readsT t
  | .pointer t => readsT t
  | .unknown t => readsT t
  | _ => []
end

mutual
/-- The variables that the lengths in the type names of an expression read. -/
def lengthsE : E → List Nat
  | .sizeofType t => readsT t
  | .lit _ | .var _ => []
  | .assign _ e => lengthsE e
  | .deref e => lengthsE e
  | .sizeofExpr e => lengthsE e
  | .add a b => lengthsE a ++ lengthsE b
  | .mul a b => lengthsE a ++ lengthsE b
  | .plus a b => lengthsE a ++ lengthsE b
  | .comma a b => lengthsE a ++ lengthsE b
  | .cond c a b => lengthsE c ++ (lengthsE a ++ lengthsE b)

/-- The variables that the lengths in the type names within the lengths of a type read. -/
def lengthsT : T → List Nat
  | .array e t => lengthsE e ++ lengthsT t
  | .pointer t => lengthsT t
  | .unknown t => lengthsT t
  | _ => []
end

/-- Every array within a type whose size is constant has less than 2^31 bytes. -/
def CT.Modest : CT → Prop
  | .base n => n < 2 ^ 31
  | .pointer t => t.Modest
  | .unknown t => t.Modest
  | .array n b t => ((CT.array n b t).variable = false → ∀ k, (CT.array n b t).size = some k → k < 2 ^ 31) ∧ t.Modest
  | _ => True

mutual
/-- In an expression: lengths in type names assign nothing, nor do operands of `sizeof` that have a variable length
array type; constant sizes are modest. -/
def TameE (m : M) (Γ : Env) : E → Prop
  | .lit _ | .var _ => True
  | .assign _ e => TameE m Γ e
  | .deref e => TameE m Γ e
  | .add a b => TameE m Γ a ∧ TameE m Γ b
  | .mul a b => TameE m Γ a ∧ TameE m Γ b
  | .plus a b => TameE m Γ a ∧ TameE m Γ b
  | .comma a b => TameE m Γ a ∧ TameE m Γ b
  | .cond c a b => TameE m Γ c ∧ TameE m Γ a ∧ TameE m Γ b
  | .sizeofExpr e => TameE m Γ e ∧ (writesE e = [] ∨ ∀ c, typeE Γ e = some c → c.variable = false)
  | .sizeofType t => TameT m Γ t ∧ writesT t = []

/-- The same for the lengths of a type. -/
def TameT (m : M) (Γ : Env) : T → Prop
  | .array e t => TameE m Γ e ∧ TameT m Γ t ∧
      (∀ s c s', evalT m Γ (.array e t) s = some (c, s') → c.Modest)
  | .pointer t => TameT m Γ t
  | .unknown t => TameT m Γ t
  | .base n => n < 2 ^ 31
  | _ => True
end

/-- In every statement of a block, type names are tame, and their lengths do not depend on what the statement assigns. -/
def SteadyBlock (m : M) : List S → Env → Vars → Prop
  | [], _, _ => True
  | .typedef x t :: ss, Γ, s =>
    TameT m Γ t ∧ (∀ y ∈ lengthsT t, y ∉ writesT t) ∧
      ∀ c s', evalT m Γ t s = some (c, s') → SteadyBlock m ss (Γ.add x (.tdef c)) s'
  | .decl x t :: ss, Γ, s =>
    TameT m Γ t ∧ (∀ y ∈ lengthsT t, y ∉ writesT t) ∧
      ∀ c s', evalT m Γ t s = some (c, s') → SteadyBlock m ss (Γ.add x (.obj c)) s'
  | .expr e :: ss, Γ, s =>
    TameE m Γ e ∧ (∀ y ∈ lengthsE e, y ∉ writesE e) ∧
      ∀ v s', evalE m Γ e s = some (v, s') → SteadyBlock m ss Γ s'

end Verif.SizeOfSpec
