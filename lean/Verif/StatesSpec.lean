import Verif.ScheduleOrderSpec
/-!
Which state of memory an instruction meets when the lists of instructions of the blocks are executed.
-/
namespace Verif.IrSpec
open Verif Verif.Ir

/-- The instruction `u` is meant for the state `s`: it replaces it, loads from it, or returns in it. -/
def Takes (g : Graph) (u s : Nat) : Prop :=
  Replaces g u s ∨ ((g.node u).kind = .load ∧ (g.node u).args 1 = some s) ∨ ((g.node u).kind = .ret ∧ (g.node u).args 2 = some s)

/-- `t` stands for the state after `n`. -/
def After (g : Graph) (n t : Nat) : Prop := t = n ∨ IsProjection g t n

open Classical in
/-- Memory is in a state that is known under the names `w`. An instruction that replaces the state gives it new names. -/
noncomputable def execute (g : Graph) (w : Nat → Prop) (n : Nat) : Nat → Prop := if ∃ s, Replaces g n s then After g n else w

/-- Control goes from `b` to `b'`: a phi there is a name of the state if its value on this way is one. -/
def enter (g : Graph) (b b' : Nat) (w : Nat → Prop) (s : Nat) : Prop :=
  ((g.node s).kind = .phi ∧ (g.node s).args 0 = some b' ∧ ∃ k v, (g.node b').args k = some b ∧ (g.node s).args (k + 1) = some v ∧ w v) ∨
  (¬((g.node s).kind = .phi ∧ (g.node s).args 0 = some b') ∧ w s)

/-- Control can be at the start of the block `b` of the function `f`, with memory in a state known as `w`, when the blocks have the instructions `prog`. -/
inductive Runs (g : Graph) (prog : List (Nat × List Nat)) (f e : Nat) : Nat → (Nat → Prop) → Prop
  | start : Runs g prog f e e (fun s => IsProjection g s f ∧ (g.node s).projIdx = 3)
  | step {b l b' w} : Runs g prog f e b w → (b, l) ∈ prog → Edge g b b' → Runs g prog f e b' (enter g b b' (l.foldl (execute g) w))

/-- Whenever an instruction is executed, memory is in the state that it is meant for. -/
def Faithful (g : Graph) (prog : List (Nat × List Nat)) (f e : Nat) : Prop :=
  ∀ b w x u y s, Runs g prog f e b w → (b, x ++ u :: y) ∈ prog → Takes g u s → x.foldl (execute g) w s

/-- Instructions that replace one state after another, each with the name of the state after it. -/
def IsChain (g : Graph) : Nat → List (Nat × Nat) → Prop
  | _, [] => True
  | s, (n, t) :: r => Replaces g n s ∧ After g n t ∧ IsChain g t r

/-- The last state. -/
def lastState : Nat → List (Nat × Nat) → Nat
  | s, [] => s
  | _, (_, t) :: r => lastState t r

/-- Every instruction is in a block through which the state goes that it is meant for: a block starts with the state `first b` and replaces it as in `chain b`. -/
structure Threads (g : Graph) (block : Nat → Option Nat) (f e : Nat) (first : Nat → Nat) (chain : Nat → List (Nat × Nat)) : Prop where
  start : IsProjection g (first e) f ∧ (g.node (first e)).projIdx = 3
  linked : ∀ b, Walk g e b → IsChain g (first b) (chain b)
  here : ∀ b n t, Walk g e b → (n, t) ∈ chain b → block n = some b ∧ block t = some b
  all : ∀ b n s, Walk g e b → block n = some b → Replaces g n s → ∃ t, (n, t) ∈ chain b
  uses : ∀ b u s, Walk g e b → block u = some b → Takes g u s → s = first b ∨ ∃ n, (n, s) ∈ chain b
  edge : ∀ b b', Walk g e b → Edge g b b' →
    (first b' = lastState (first b) (chain b) ∧ ¬((g.node (first b')).kind = .phi ∧ (g.node (first b')).args 0 = some b')) ∨
    ((g.node (first b')).kind = .phi ∧ (g.node (first b')).args 0 = some b' ∧ ∃ k, (g.node b').args k = some b ∧
      (g.node (first b')).args (k + 1) = some (lastState (first b) (chain b)))

end Verif.IrSpec
