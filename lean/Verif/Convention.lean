import Verif.Classify
import Verif.Call
/-!
Model of src/abi/sysv.c: which registers and stack bytes carry the arguments and the result of
a call, and what the caller (`sysv_expr_call`), the callee (`sysv_expr_function`) and `return`
(`sysv_expr_return`) put there and take from there.

A type is reduced to its size, alignment and classes (`classify`, Verif.Classify).  Objects
are sequences of bytes; the code that moves them is the subject of Verif.Call and
Verif.Memory.  Integers are natural numbers.
-/
namespace Verif.Convention
open Verif Asm
open Verif.Classify (Class)
open Verif.Call (Dest)

/-- A type: `calculate_size`, `calculate_alignment` and `classify`. -/
structure Ty where
  size : Nat
  align : Nat
  classes : List Class
  deriving DecidableEq, Repr

/-- src/abi/sysv.c:30-35 `struct reg_info`; `part` is `none` for the hidden pointer
(`is_merged = 0`), otherwise argument (`merge_into`) and offset (`merge_pos`). -/
structure RegInfo where
  reg : Dest
  part : Option (Nat × Nat)
  size : Nat
  deriving DecidableEq, Repr

/-- src/abi/sysv.c:37-56 `struct call_info` (`ret_address_index` and `shadow_space` are 0). -/
structure CallInfo where
  regs : List RegInfo
  retRegs : List RegInfo
  stack : List Nat
  returnsAddress : Bool
  gpOffset : Nat
  rax : Nat
  deriving DecidableEq, Repr

/-- src/abi/sysv.c:13 `calling_convention`; reading past its end is undefined. -/
def gpReg : Nat → Res Reg
  | 0 => .ok .rdi
  | 1 => .ok .rsi
  | 2 => .ok .rdx
  | 3 => .ok .rcx
  | 4 => .ok .r8
  | 5 => .ok .r9
  | _ => .ub

/-- src/abi/sysv.c:14 `return_convention`. -/
def retReg : Nat → Res Reg
  | 0 => .ok .rax
  | 1 => .ok .rdx
  | _ => .ub

/-- `CLASS_SSE` or `CLASS_SSEUP`. -/
def isSse (c : Class) : Bool := c == .sse || c == .sseup

/-- src/abi/sysv.c:94-108: registers for the parts of the result. -/
def retParts (gp sse : Nat) : List Class → Res (List RegInfo)
  | [] => .ok []
  | c :: cs =>
    if isSse c then do
      let r ← retParts gp (sse + 1) cs
      pure (⟨.sse sse, none, 8⟩ :: r)
    else do
      let g ← retReg gp
      let r ← retParts (gp + 1) sse cs
      pure (⟨.gpr g, none, 8⟩ :: r)

/-- src/abi/sysv.c:120-130: number of registers of each kind. -/
def count : List Class → Res (Nat × Nat)
  | [] => .ok (0, 0)
  | c :: cs =>
    if c = .memory then .ok (0, 0)
    else if isSse c then do
      let r ← count cs
      pure (r.1, r.2 + 1)
    else if c = .integer then do
      let r ← count cs
      pure (r.1 + 1, r.2)
    else .fail

/-- src/abi/sysv.c:138-160: registers for the parts `j`, `j + 1`, … of argument `i`. -/
def argParts (i size : Nat) (gp sse j : Nat) : List Class → Res (List RegInfo)
  | [] => .ok []
  | c :: cs =>
    if isSse c then do
      let r ← argParts i size gp (sse + 1) (j + 1) cs
      pure (⟨.sse sse, some (i, j * 8), min (size - j * 8) 8⟩ :: r)
    else do
      let g ← gpReg gp
      let r ← argParts i size (gp + 1) sse (j + 1) cs
      pure (⟨.gpr g, some (i, j * 8), min (size - j * 8) 8⟩ :: r)

/-- src/abi/sysv.c:111-163: the loop over the arguments from `i` on.  The result has the
registers, the arguments in memory and the final register counts.  An argument without parts
reads `classes[0]` before it is set. -/
def argLoop (gp sse i : Nat) : List Ty → Res (List RegInfo × List Nat × Nat × Nat)
  | [] => .ok ([], [], gp, sse)
  | t :: ts => do
    let n ← count t.classes
    match t.classes with
    | [] => .ub
    | c :: _ =>
      if c = .memory ∨ gp + n.1 > 6 ∨ sse + n.2 > 8 then do
        let r ← argLoop gp sse (i + 1) ts
        pure (r.1, i :: r.2.1, r.2.2)
      else do
        let p ← argParts i t.size gp sse 0 t.classes
        let r ← argLoop (gp + n.1) (sse + n.2) (i + 1) ts
        pure (p ++ r.1, r.2)

/-- src/abi/sysv.c:58-188 `get_calling_convention`; `ret` is `none` for `void`. -/
def getConvention (ret : Option Ty) (args : List Ty) : Res CallInfo := do
  let r : List RegInfo × List RegInfo × Bool ←
    match ret with
    | none => .ok ([], [], false)
    | some t =>
      match t.classes with
      | [] => .ub
      | c :: _ =>
        if c = .memory then .ok ([⟨.gpr .rdi, none, 8⟩], [], true)
        else do
          let rr ← retParts 0 0 t.classes
          pure ([], rr, false)
  let a ← argLoop (if r.2.2 then 1 else 0) 0 0 args
  pure { regs := r.1 ++ a.1, retRegs := r.2.1, stack := a.2.1, returnsAddress := r.2.2,
         gpOffset := a.2.2.1 * 8, rax := a.2.2.2 }

/-- src/common.c:44-49 `round_up_to_nearest`. -/
def round (n k : Nat) : Nat := if n % k = 0 then n else n + (k - n % k)

/-- src/abi/sysv.c:240-244, 333-344: offset of each argument in memory, in the caller from
`%rsp` and in the callee from `%rbp + 16`. -/
def stackOffsets (args : List Ty) (cur : Nat) : List Nat → List (Nat × Nat)
  | [] => []
  | i :: is => (i, cur) :: stackOffsets args (cur + round ((args[i]?.map (·.size)).getD 0) 8) is

/-- src/abi/sysv.c:231-237: bytes of the area for arguments in memory. -/
def stackArea (args : List Ty) (is : List Nat) : Nat :=
  round ((is.map fun i => round ((args[i]?.map (·.size)).getD 0) 8).sum) 16

/-- Registers (low 8 bytes) and stack bytes above `%rsp` at the call. -/
structure Place where
  reg : Dest → Nat → Byte
  stack : Nat → Byte

/-- src/abi/sysv.c:224-229, 246-248: set one register, to (part of) an argument or to the
hidden pointer. -/
def setReg (vals : Nat → Nat → Byte) (hidden : Nat → Byte) (p : Place) (r : RegInfo) : Place :=
  { p with reg := fun d k =>
      if d = r.reg ∧ k < r.size then
        match r.part with
        | some (i, pos) => vals i (pos + k)
        | none => hidden k
      else p.reg d k }

/-- src/abi/sysv.c:240-244: copy an argument to the stack. -/
def putStack (args : List Ty) (vals : Nat → Nat → Byte) (p : Place) (x : Nat × Nat) : Place :=
  { p with stack := fun o =>
      if x.2 ≤ o ∧ o < x.2 + (args[x.1]?.map (·.size)).getD 0 then vals x.1 (o - x.2) else p.stack o }

/-- src/abi/sysv.c:195-254: the caller's side.  `vals i k` is byte `k` of argument `i`; `p` is
what registers and memory have before.  The chains of stores are walked from the last to the
first (src/codegen/codegen.c:137-178).  `reg_variables` has six elements (:199), so more
registers overflow it. -/
def send (ret : Option Ty) (args : List Ty) (vals : Nat → Nat → Byte) (hidden : Nat → Byte) (p : Place) : Res Place := do
  let c ← getConvention ret args
  if c.regs.length > 6 then .ub
  else
    let p1 := (stackOffsets args 0 c.stack).foldr (fun x p => putStack args vals p x) p
    .ok (c.regs.foldr (fun r p => setReg vals hidden p r) p1)

/-- src/abi/sysv.c:333-344: a parameter object is filled from the stack. -/
def takeStack (args : List Ty) (p : Place) (o : Nat → Nat → Option Byte) (x : Nat × Nat) : Nat → Nat → Option Byte :=
  fun i k => if i = x.1 ∧ k < (args[x.1]?.map (·.size)).getD 0 then some (p.stack (x.2 + k)) else o i k

/-- src/abi/sysv.c:346-353: a part of a parameter object is filled from a register. -/
def takeReg (p : Place) (o : Nat → Nat → Option Byte) (r : RegInfo) : Nat → Nat → Option Byte :=
  match r.part with
  | none => o
  | some (i, pos) => fun i' k => if i' = i ∧ pos ≤ k ∧ k < pos + r.size then some (p.reg r.reg (k - pos)) else o i' k

/-- src/abi/sysv.c:293-353: the callee's side: the bytes of the parameter objects (`none` if
never written).  `reg_variables` overflows as in the caller (:295). -/
def receive (ret : Option Ty) (args : List Ty) (p : Place) : Res (Nat → Nat → Option Byte) := do
  let c ← getConvention ret args
  if c.regs.length > 6 then .ub
  else
    .ok (c.regs.foldl (takeReg p) ((stackOffsets args 0 c.stack).foldl (takeStack args p) fun _ _ => none))

/-- src/abi/sysv.c:311-314: the hidden pointer the callee keeps. -/
def receiveHidden (ret : Option Ty) (args : List Ty) (p : Place) : Res (Option (Nat → Byte)) := do
  let c ← getConvention ret args
  if c.regs.length > 6 then .ub
  else if c.returnsAddress then
    match c.regs[0]? with
    | some r => .ok (some (p.reg r.reg))
    | none => .ub
  else .ok none

/-! Results. -/

/-- Registers (low bytes) and the memory from the hidden pointer on. -/
structure Result where
  reg : Dest → Nat → Byte
  obj : Nat → Byte

/-- src/abi/sysv.c:369-399 `sysv_expr_return` of a value with the bytes `v`; `p` is what
registers and memory have before.  A value of two parts is read as two times 8 bytes (:191-192,
388), so `v` extends past a smaller object.  `classes` is read before it is set for a type
without parts, which ends in `NOTIMP` whatever it has. -/
def giveResult (t : Ty) (v : Nat → Byte) (p : Result) : Res Result :=
  match t.classes with
  | [.memory] => .ok { p with obj := fun k => if k < t.size then v k else p.obj k }
  | [.integer] => .ok { p with reg := fun d k => if d = .gpr .rax ∧ k < t.size then v k else p.reg d k }
  | [.integer, _] =>
    let reg := fun (d : Dest) k =>
      if d = .gpr .rax ∧ k < 8 then v k else if d = .gpr .rdx ∧ k < 8 then v (8 + k) else p.reg d k
    .ok { p with reg := reg }
  | [.sse] => .ok { p with reg := fun d k => if d = .sse 0 ∧ k < t.size then v k else p.reg d k }
  | _ => .fail

/-- src/abi/sysv.c:256-287: the memory from the start of the caller's result object on, which
before is `m`.  `ret_reg_variables` has two elements (:200).  A result of one part becomes a
value of the size of the type (:270). -/
def takeResult (c : CallInfo) (t : Ty) (r : Result) (m : Nat → Byte) : Res (Nat → Byte) :=
  if c.retRegs.length > 2 then .ub
  else if c.returnsAddress then .ok r.obj
  else
    match c.retRegs with
    | [a] => .ok fun k => if k < t.size then r.reg a.reg k else m k
    | [a, b] => .ok fun k =>
        if 8 ≤ k ∧ k < 8 + b.size then r.reg b.reg (k - 8) else if k < a.size then r.reg a.reg k else m k
    | _ => .fail

end Verif.Convention
