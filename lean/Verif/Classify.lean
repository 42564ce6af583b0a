import Verif.Basic
/-!
Model of src/arch/calling.c: classification of argument types.

A type is reduced to what the code looks at: a scalar has a class and a size, a structure a
list of fields with offsets and a size (unions are structures whose fields have offset 0,
src/arch/x64.c:218), an array an element type and a length.  Lengths and sizes are natural
numbers; `lower` and `upper` are integers.
-/
namespace Verif.Classify
open Verif

/-- src/arch/calling.h:6-15. -/
inductive Class where
  | integer | sse | sseup | x87 | x87up | complexX87 | noClass | memory
  deriving DecidableEq, Repr, Inhabited

mutual
/-- A type. -/
inductive Ty where
  | scalar (c : Class) (size : Nat)
  | struct (size : Nat) (fs : Fields)
  | array (e : Ty) (n : Nat)
  | flex
  | other
/-- Fields with their offsets. -/
inductive Fields where
  | nil
  | cons (off : Nat) (t : Ty) (rest : Fields)
end

/-- src/arch/x64.c:166-193 `calculate_size`; `other` stands for types for which it or the
classification ends in `NOTIMP`. -/
def size : Ty → Int
  | .scalar _ n => n
  | .struct n _ => n
  | .array e n => n * size e
  | .flex => -1
  | .other => 0

/-- src/arch/calling.c:31-47 `combine_class`. -/
def combine (a b : Class) : Class :=
  if a = b then a
  else if a = .noClass then b
  else if b = .noClass then a
  else if a = .memory ∨ b = .memory then .memory
  else if a = .integer ∨ b = .integer then .integer
  else if a = .x87 ∨ a = .x87up ∨ a = .complexX87 then .memory
  else if b = .x87 ∨ b = .x87up ∨ b = .complexX87 then .memory
  else .sse

/-- src/arch/calling.c:57, 77: members outside of the eightbyte are skipped. -/
def skip (off size lower upper : Int) : Bool := decide (off + size < lower ∨ off ≥ upper)

mutual
/-- src/arch/calling.c:49-96 `classify_recursively`.  The scalars at the top level end in
`NOTIMP` (:94). -/
def rec (cur : Class) (t : Ty) (lower upper : Int) : Res Class :=
  match t with
  | .struct _ fs => recFields cur fs lower upper
  | .array e n =>
    (List.range n).foldlM (fun cur (i : Nat) =>
      let off : Int := size e * i
      if skip off (size e) lower upper then .ok cur
      else
        match e with
        | .scalar c _ => .ok (combine cur c)
        | _ => rec cur e (lower - off) (upper - off)) cur
  | .flex => .ok cur
  | _ => .fail
/-- src/arch/calling.c:53-67: the loop over the fields. -/
def recFields (cur : Class) (fs : Fields) (lower upper : Int) : Res Class :=
  match fs with
  | .nil => .ok cur
  | .cons off t rest =>
    if skip off (size t) lower upper then recFields cur rest lower upper
    else
      match t with
      | .scalar c _ => recFields (combine cur c) rest lower upper
      | _ => do
        let c ← rec cur t (lower - off) (upper - off)
        recFields c rest lower upper
end

/-- src/arch/calling.c:109-112: the classes of the eightbytes. -/
def parts (t : Ty) (n : Nat) : Res (List Class) :=
  (List.range n).mapM fun i => rec .noClass t (i * 8 : Nat) ((i + 1) * 8 : Nat)

/-- src/arch/calling.c:114-120: an eightbyte that sends everything to memory. -/
def bad (cs : List Class) : Bool :=
  (List.range cs.length).any fun i =>
    cs[i]? = some .memory || (cs[i]? = some .x87up && !(decide (i > 0) && decide (cs[i - 1]? = some .x87)))

/-- src/arch/calling.c:98-139 `classify`.  For other types it prints a message and leaves the
result unset. -/
def classify (t : Ty) : Res (List Class) :=
  match t with
  | .scalar c _ => .ok [c]
  | .struct n fs =>
    if n > 32 then .ok [.memory]
    else do
      let k := (n + 7) / 8
      let cs ← parts (.struct n fs) k
      if bad cs ∨ (k > 2 ∧ cs[0]? ≠ some .sse) then pure [.memory] else pure cs
  | _ => .ub

end Verif.Classify
