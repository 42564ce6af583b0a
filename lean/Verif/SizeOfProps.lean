import Verif.SizeOfSim
/-!
C109: sizes and lengths are evaluated as C says.
-/
namespace Verif.SizeOf
open Verif SizeOfSpec

/-- No names. -/
def noNames : Env := fun _ => none

/-- **C109 (partial).**  A block of declarations, type definitions and expression statements in which the lengths in
type names (not those in declarations) assign nothing and do not depend on what the same statement assigns, in which
the operand of `sizeof` assigns nothing if it is a variable length array, and in which constant sizes are less than 2^31:
the block is accepted, every object gets storage of its size, every expression has its value (the sizes of types, of
objects and of what pointers to arrays of any number of dimensions point to; addresses computed with them), and the
variables have their values at the end.  `regs`: whatever earlier executions of the block, as in a loop, have left.
Missing: what `SteadyBlock` excludes, see the theorems below. -/
theorem sizes_partial (m : M) (ss : List S) (s s' : Vars) (os : List Out) (regs : Nat → V)
    (h : evalBlock m ss noNames s = some (os, s')) (hs : SteadyBlock m ss noNames s) :
    ∃ p, parseBlock ss {} = .ok p ∧ ∃ r', runAll m p.code ⟨s, regs⟩ = (os, r') ∧ r'.vars = s' := by
  obtain ⟨q, code, r', h1, h2, h3, h4⟩ := block_sound m ss noNames s s' os {} ⟨s, regs⟩
    (fun x => ⟨fun c hc => (nomatch hc), fun c hc => by cases hc⟩)
    (fun x => ⟨fun c hc => (nomatch hc), fun c hc => by cases hc⟩) rfl h hs
  refine ⟨q, h1, r', ?_, h4⟩
  rw [h2]
  exact h3

/-- Memory of the examples. -/
def m0 : M := ⟨fun _ => 4096, fun _ => 0⟩

/-- `unsigned long n, k; n = 5; typedef int R[n]; n = 3; R a[n][2]; n = 7; sizeof a; sizeof(R); a[2][1] + 4;
k = sizeof(char[n][n]);` -/
def block0 : List S :=
  [.decl 0 .ulong, .decl 1 .ulong, .expr (.assign 0 (.lit 5)), .typedef 2 (.array (.var 0) (.base 4)), .expr (.assign 0 (.lit 3)),
   .decl 3 (.array (.var 0) (.array (.lit 2) (.name 2))), .expr (.assign 0 (.lit 7)), .expr (.sizeofExpr (.var 3)),
   .expr (.sizeofType (.name 2)),
   .expr (.plus (.deref (.plus (.deref (.plus (.var 3) (.lit 2))) (.lit 1))) (.lit 4)),
   .expr (.assign 1 (.sizeofType (.array (.var 0) (.array (.var 0) (.base 1)))))]

/-- The hypotheses hold for it: sizes 3·2·5·4 and 5·4, an address, and the size 49. -/
example : (evalBlock m0 block0 noNames (fun _ => 0)).map (·.1) =
    some [.storage 0 8, .storage 1 8, .value 5, .value 3, .storage 3 120, .value 7, .value 120, .value 20,
      .value (4096 + (2 * 2 * 5 + 1 * 5 + 4) * 4), .value 49] := by
  rfl

example : SteadyBlock m0 block0 noNames (fun _ => 0) := by
  simp [block0, SteadyBlock, TameT, TameE, lengthsT, lengthsE, writesT, writesE, evalT, evalE, Env.add, CT.Modest,
    CT.variable, constE, CT.size, CT.isArray, readsT, readsE, Vars.set, typeE, CT.decay, m0, CT.isPointer]
  intro s c s' h
  by_cases hz : s 0 = 0
  · simp [hz] at h
  · simp only [show ¬ s 0 = 0#64 from hz, if_false, not_false_eq_true, true_and] at h
    split at h
    · simp only [Option.some.injEq, Prod.mk.injEq] at h
      rw [← h.1]
      simp [CT.Modest, CT.variable]
    · cases h

/-- The lengths in a type name are evaluated before the rest of the expression: in
`n = 5; (n = 10, sizeof(int[n]))` the size is 20, not 40. -/
theorem order_violated :
    let ss : List S := [.decl 0 .ulong, .expr (.assign 0 (.lit 5)),
      .expr (.comma (.assign 0 (.lit 10)) (.sizeofType (.array (.var 0) (.base 4))))]
    (evalBlock m0 ss noNames (fun _ => 0)).map (·.1) = some [.storage 0 8, .value 5, .value 40] ∧
    ∃ p, parseBlock ss {} = .ok p ∧ ∀ regs, (runAll m0 p.code ⟨fun _ => 0, regs⟩).1 = [.storage 0 8, .value 5, .value 20] := by
  exact ⟨by rfl, _, rfl, fun _ => rfl⟩

/-- They are evaluated in branches that are not taken: after `n = 5; 0 ? sizeof(char[n = 7]) : 1;` the variable is 7, not 5. -/
theorem branch_violated :
    let ss : List S := [.decl 0 .ulong, .expr (.assign 0 (.lit 5)),
      .expr (.cond (.lit 0) (.sizeofType (.array (.assign 0 (.lit 7)) (.base 1))) (.lit 1)), .expr (.var 0)]
    (evalBlock m0 ss noNames (fun _ => 0)).map (·.1) = some [.storage 0 8, .value 5, .value 1, .value 5] ∧
    ∃ p, parseBlock ss {} = .ok p ∧
      ∀ regs, (runAll m0 p.code ⟨fun _ => 0, regs⟩).1 = [.storage 0 8, .value 5, .value 1, .value 7] := by
  exact ⟨by rfl, _, rfl, fun _ => rfl⟩

/-- An operand of `sizeof` that is a variable length array is not evaluated: with `char (*p)[n]` the pointer is not moved by
`sizeof(*(p = p + 1))`. -/
theorem operand_violated :
    let ss : List S := [.decl 0 .ulong, .expr (.assign 0 (.lit 5)), .decl 1 (.pointer (.array (.var 0) (.base 1))),
      .expr (.sizeofExpr (.deref (.assign 1 (.plus (.var 1) (.lit 1))))), .expr (.var 1)]
    (evalBlock m0 ss noNames (fun _ => 0)).map (·.1) = some [.storage 0 8, .value 5, .storage 1 8, .value 5, .value 5] ∧
    ∃ p, parseBlock ss {} = .ok p ∧
      ∀ regs, (runAll m0 p.code ⟨fun _ => 0, regs⟩).1 = [.storage 0 8, .value 5, .storage 1 8, .value 5, .value 0] := by
  exact ⟨by rfl, _, rfl, fun _ => rfl⟩

/-- Constant sizes are computed with the type `int`: `sizeof(char[2147483648])` is 2^64 - 2^31. -/
theorem large_violated :
    let ss : List S := [.expr (.sizeofType (.array (.lit 2147483648) (.base 1)))]
    (evalBlock m0 ss noNames (fun _ => 0)).map (·.1) = some [.value 2147483648] ∧
    ∃ p, parseBlock ss {} = .ok p ∧
      ∀ regs, (runAll m0 p.code ⟨fun _ => 0, regs⟩).1 = [.value 18446744071562067968] := by
  exact ⟨by rfl, _, rfl, fun _ => rfl⟩

/-- Types that have no size (6.5.3.4p1) are accepted: `sizeof(void)` is 0, the size of a function type and of `int[]` is 2^64 - 1. -/
theorem incomplete_violated (t : T) (ht : t = .void ∨ t = .func ∨ t = .unknown (.base 4)) (s : Vars) :
    evalBlock m0 [.expr (.sizeofType t)] noNames s = none ∧
    ∃ p, parseBlock [.expr (.sizeofType t)] {} = .ok p ∧
      ∀ regs, (runAll m0 p.code ⟨s, regs⟩).1 = [.value (if t matches .void then 0 else 18446744073709551615)] := by
  rcases ht with rfl | rfl | rfl <;> exact ⟨rfl, _, rfl, fun _ => rfl⟩

/-- 6.7.6.2p2: outside of functions a type must not depend on a length that is not constant. -/
def Variably : T → Prop
  | .array (.lit _) t => Variably t
  | .array _ _ => True
  | .pointer t => Variably t
  | .unknown t => Variably t
  | _ => False

/-- The test for it is the wrong way round (src/types.c:430): with a global `n`, a global `char (*p)[n]` is accepted,
and the assertion in `type_sizeof` (src/types.c:385) ends the compiler at `sizeof(*p)`; so is a global `char a[n]`. -/
theorem file_scope_violated (t : T) (ht : t = .pointer (.array (.var 0) (.base 1)) ∨ t = .array (.var 0) (.base 1)) :
    Variably t ∧ ∃ p1 p2, parseExternal 0 .ulong {} = .ok p1 ∧ parseExternal 1 t p1 = .ok p2 ∧
      parseE (.sizeofExpr (if t matches .pointer _ then .deref (.var 1) else .var 1)) p2 = .fail := by
  rcases ht with rfl | rfl <;> exact ⟨trivial, _, _, rfl, rfl, rfl⟩

end Verif.SizeOf
