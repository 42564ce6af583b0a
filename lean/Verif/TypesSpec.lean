import Verif.Types
/-!
What types are, independently of the hash table: trees; compatibility of C17 6.2.7; members
of a record.
-/
namespace Verif.Types
open Verif Simple

/-- The type expressions written by a sequence of constructor calls. -/
def trees : List Req → List Ty → List Ty
  | [], ts => ts
  | q :: qs, ts => trees qs (ts ++ [.node q.kind q.isConst (q.children.map (fun i => ts.getD i (.node .pointer false [])))])

/-- Components refer to earlier calls (`n` calls were made before). -/
def WellFormed : List Req → Nat → Prop
  | [], _ => True
  | q :: qs, n => (∀ c ∈ q.children, c < n) ∧ WellFormed qs (n + 1)

/-- Derived types, for readability. -/
abbrev Ty.simple (s : ST) : Ty := .node (.simple s) false []
/-- Pointer to. -/
abbrev Ty.ptr (t : Ty) : Ty := .node .pointer false [t]
/-- Array of known length. -/
abbrev Ty.arr (n : Nat) (t : Ty) : Ty := .node (.array n) false [t]
/-- Array of unknown length. -/
abbrev Ty.inc (t : Ty) : Ty := .node .incompleteArray false [t]
/-- Function with a prototype. -/
abbrev Ty.fn (variadic : Bool) (ret : Ty) (params : List Ty) : Ty := .node (.function variadic) false (ret :: params)
/-- `ret f()`: no prototype; the compiler's representation (src/parser/declaration.c). -/
abbrev Ty.oldFn (ret : Ty) : Ty := .node (.function true) false [ret]

/-- Compatible types, C17 6.2.7, 6.7.3p10, 6.7.6.1p2, 6.7.6.2p6, 6.7.6.3p15 (declarations
without prototype only need compatible return types here: the condition on default argument
promotions is left out, so this accepts more than the standard). -/
inductive Compat : Ty → Ty → Prop
  | same (t : Ty) : Compat t t
  | ptr {c : Bool} {a b : Ty} : Compat a b → Compat (.node .pointer c [a]) (.node .pointer c [b])
  | arr {c : Bool} {n : Nat} {a b : Ty} : Compat a b → Compat (.node (.array n) c [a]) (.node (.array n) c [b])
  | arrInc {c : Bool} {n : Nat} {a b : Ty} : Compat a b → Compat (.node (.array n) c [a]) (.node .incompleteArray c [b])
  | incArr {c : Bool} {n : Nat} {a b : Ty} : Compat a b → Compat (.node .incompleteArray c [a]) (.node (.array n) c [b])
  | inc {c : Bool} {a b : Ty} : Compat a b → Compat (.node .incompleteArray c [a]) (.node .incompleteArray c [b])
  | oldL {v c : Bool} {r r' : Ty} {ps : List Ty} : Compat r r' → Compat (.node (.function true) c [r]) (.node (.function v) c (r' :: ps))
  | oldR {v c : Bool} {r r' : Ty} {ps : List Ty} : Compat r r' → Compat (.node (.function v) c (r :: ps)) (.node (.function true) c [r'])

/-- `Leads r path name`: following `path` from the record `r`, through unnamed members of
record type, ends at a member called `name` (C17 6.7.2.1p13). -/
inductive Leads : Rec → List Nat → Str → Prop
  | here {r : Rec} {i : Nat} {name : Str} {t : Option Rec} : r.fields[i]? = some (name, t) → Leads r [i] name
  | through {r r' : Rec} {i : Nat} {path : List Nat} {name : Str} :
      r.fields[i]? = some ([], some r') → Leads r' path name → Leads r (i :: path) name

/-- The path of an access expression, outermost first. -/
def Access.path : Access → List Nat
  | .operand => []
  | .member e i => e.path ++ [i]

end Verif.Types
