import Verif.X86
/-!
Control transfer of the target machine (trusted base, with `Verif.X86`): a block of code runs
until it jumps, returns or ends.
-/
namespace Verif.X86
open Verif Asm

/-- How a block of code is left. -/
inductive Exit where
  | fall
  | jump (label : Nat)
  | ret (addr : BitVec 64)
  deriving DecidableEq, Repr

/-- A conditional jump. -/
def jcc (c : Flags → Bool) (label : Nat) (s : State) (rest : State → Out (State × Exit)) :
    Out (State × Exit) :=
  match s.fl with
  | none => .bad
  | some f => if c f then .ok (s, .jump label) else rest s

/-- Run a block.  `ret` pops the return address. -/
def runC (F : FP) : List Ins → State → Out (State × Exit)
  | [], s => .ok (s, .fall)
  | ⟨.jmp, [.abs (some l) 0]⟩ :: _, s => .ok (s, .jump l)
  | ⟨.je, [.abs (some l) 0]⟩ :: is, s => jcc (·.zf) l s (runC F is)
  | ⟨.jne, [.abs (some l) 0]⟩ :: is, s => jcc (!·.zf) l s (runC F is)
  | ⟨.ja, [.abs (some l) 0]⟩ :: is, s => jcc (fun f => !f.cf && !f.zf) l s (runC F is)
  | ⟨.ret, []⟩ :: _, s =>
    .ok (s.set .rsp (s.reg .rsp + 8), .ret (BitVec.ofNat 64 (rd s.mem (s.reg .rsp) 8)))
  | i :: is, s => (exec F i s).bind (runC F is)

/-- Blocks of code, by label, run until one is left by `ret`, to a label outside or
falling off; the fuel bounds the number of blocks run. -/
def runBlocks (F : FP) (code : Nat → Option (List Ins)) : Nat → Nat → State → Option (Out (State × Exit))
  | 0, _, _ => none
  | n + 1, l, s =>
    match code l with
    | none => some (.ok (s, .jump l))
    | some c =>
      match runC F c s with
      | .ok (s', .jump l') => runBlocks F code n l' s'
      | o => some o

end Verif.X86
