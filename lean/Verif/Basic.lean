/-!
Shared vocabulary of all models.

`Res` is the outcome of a modelled C function: it returns a value, it stops the
compiler with a diagnostic (`ICE`, `ERROR`, `NOTIMP`, failed `assert`; see
src/common.h:17-25 and src/common.c:196-234, all of which print and
`exit(EXIT_FAILURE)`), or the compiler itself executes undefined behaviour
(out-of-bounds access, division by zero, over-wide shift, ...).
-/
namespace Verif

/-- Outcome of a modelled C function. -/
inductive Res (α : Type) where
  /-- normal return -/
  | ok (a : α)
  /-- the compiler stops with a diagnostic (ICE/ERROR/NOTIMP/assert) -/
  | fail
  /-- the compiler itself executes undefined behaviour -/
  | ub
  deriving DecidableEq, Repr, Inhabited

namespace Res
variable {α β : Type}

/-- Sequencing: `fail` and `ub` end the run. -/
def bind (x : Res α) (f : α → Res β) : Res β :=
  match x with
  | ok a => f a
  | fail => fail
  | ub => ub

instance : Monad Res where
  pure := ok
  bind := bind

@[simp] theorem pure_eq (a : α) : (pure a : Res α) = ok a := rfl
@[simp] theorem bind_ok (a : α) (f : α → Res β) : (ok a >>= f) = f a := rfl
@[simp] theorem bind_fail (f : α → Res β) : (fail >>= f) = fail := rfl
@[simp] theorem bind_ub (f : α → Res β) : (ub >>= f) = ub := rfl

theorem bind_eq_ok {x : Res α} {f : α → Res β} {b : β} :
    (x >>= f) = ok b ↔ ∃ a, x = ok a ∧ f a = ok b := by
  cases x <;> simp

end Res

/-- A C `unsigned char` / byte of output. -/
abbrev Byte := BitVec 8

/-- The byte of an ASCII character, for readable statements. -/
def ch (c : Char) : Byte := BitVec.ofNat 8 c.toNat

end Verif
