import Verif.FuncEnd
/-!
Lemmas about the machine of `FuncSpec`: it is deterministic.
-/
namespace Verif.FuncCode
open Verif Asm X86 FuncSpec

theorem alu_symbol (w : Nat) (f : BitVec w → BitVec w → BitVec w) (l : Nat) (off : Int) (d : Opd) (s : State) :
    alu w f (.imm (some l) off) d s = none := by
  have hg : getOp s w (.imm (some l) off) = none := rfl
  simp only [alu, hg]
  cases getOp s w d <;> simp

theorem cmp_symbol (w : Nat) (f : BitVec w → BitVec w → Flags) (l : Nat) (off : Int) (d : Opd) (s : State) :
    cmpIns w f (.imm (some l) off) d s = none := by
  have hg : getOp s w (.imm (some l) off) = none := rfl
  simp only [cmpIns, hg]
  cases getOp s w d <;> simp

theorem exec_symbol (F : FP) (m : Mn) (l : Nat) (off : Int) (d : Opd) (s s' : State) :
    exec F ⟨m, [.imm (some l) off, d]⟩ s ≠ .ok s' := by
  intro e
  have hg : ∀ w, getOp s w (.imm (some l) off) = none := fun _ => rfl
  cases m <;> first
    | (change Out.bad = _ at e; cases e; done)
    | (change Out.of (alu _ _ _ _ _) = _ at e; rw [alu_symbol] at e; cases e; done)
    | (change Out.of (cmpIns _ _ _ _ _) = _ at e; rw [cmp_symbol] at e; cases e; done)
    | (change Out.of (shift _ _ _ _ _) = _ at e; simp [shift, Out.of] at e; done)
    | (change Out.of (mov _ _ _ _) = _ at e; simp [mov, hg, Out.of] at e; done)
    | (change Out.of (movx _ _ _ _ _ _) = _ at e; simp only [movx, hg] at e; cases d <;> simp [Out.of] at e; done)

theorem exec_branch {F : FP} {m : Mn} {ops : List Opd} {s s' : State} (h : exec F ⟨m, ops⟩ s = .ok s') :
    m ≠ .jmp ∧ m ≠ .je ∧ m ≠ .callq ∧ m ≠ .ret := by
  refine ⟨?_, ?_, ?_, ?_⟩ <;> (rintro rfl; exact absurd h (by simp [exec]))

theorem step_unique {M : Machine} {k k1 k2 : Nat} {s s1 s2 : State} (h1 : M.Step k s k1 s1) (h2 : M.Step k s k2 s2) :
    k1 = k2 ∧ s1 = s2 := by
  cases h1 with
  | label a1 =>
    cases h2 with
    | label => exact ⟨rfl, rfl⟩
    | exec a2 | symbol a2 | jmp a2 | je a2 | call a2 => rw [a1] at a2; cases a2
  | exec a1 b1 =>
    cases h2 with
    | label a2 => rw [a1] at a2; cases a2
    | exec a2 b2 => rw [a1] at a2; cases a2; rw [b1] at b2; cases b2; exact ⟨rfl, rfl⟩
    | symbol a2 b2 => rw [a1] at a2; cases a2; exact absurd b1 (exec_symbol _ _ _ _ _ _ _)
    | jmp a2 b2 => rw [a1] at a2; cases a2; exact absurd rfl (exec_branch b1).1
    | je a2 b2 => rw [a1] at a2; cases a2; exact absurd rfl (exec_branch b1).2.1
    | call a2 b2 => rw [a1] at a2; cases a2; exact absurd rfl (exec_branch b1).2.2.1
  | symbol a1 b1 =>
    cases h2 with
    | label a2 => rw [a1] at a2; cases a2
    | exec a2 b2 => rw [a1] at a2; cases a2; exact absurd b2 (exec_symbol _ _ _ _ _ _ _)
    | symbol a2 b2 => rw [a1] at a2; cases a2; rw [b1] at b2; cases b2; exact ⟨rfl, rfl⟩
    | jmp a2 b2 => rw [a1] at a2; cases a2
    | je a2 b2 => rw [a1] at a2; cases a2
    | call a2 b2 => rw [a1] at a2; cases a2
  | jmp a1 b1 =>
    cases h2 with
    | label a2 => rw [a1] at a2; cases a2
    | exec a2 b2 => rw [a1] at a2; cases a2; exact absurd rfl (exec_branch b2).1
    | symbol a2 b2 => rw [a1] at a2; cases a2
    | jmp a2 b2 => rw [a1] at a2; cases a2; rw [b1] at b2; cases b2; exact ⟨rfl, rfl⟩
    | je a2 b2 => rw [a1] at a2; cases a2
    | call a2 b2 => rw [a1] at a2; cases a2
  | je a1 b1 c1 =>
    cases h2 with
    | label a2 => rw [a1] at a2; cases a2
    | exec a2 b2 => rw [a1] at a2; cases a2; exact absurd rfl (exec_branch b2).2.1
    | symbol a2 b2 => rw [a1] at a2; cases a2
    | jmp a2 b2 => rw [a1] at a2; cases a2
    | je a2 b2 c2 =>
      rw [a1] at a2; cases a2; rw [b1] at b2; cases b2; rw [c1] at c2; cases c2; exact ⟨rfl, rfl⟩
    | call a2 b2 => rw [a1] at a2; cases a2
  | call a1 b1 =>
    cases h2 with
    | label a2 => rw [a1] at a2; cases a2
    | exec a2 b2 => rw [a1] at a2; cases a2; exact absurd rfl (exec_branch b2).2.2.1
    | symbol a2 b2 => rw [a1] at a2; cases a2
    | jmp a2 b2 => rw [a1] at a2; cases a2
    | je a2 b2 c2 => rw [a1] at a2; cases a2
    | call a2 b2 => rw [a1] at a2; cases a2; rw [b1] at b2; cases b2; exact ⟨rfl, rfl⟩

/-- A `ret` has no next line. -/
theorem ret_stuck {M : Machine} {k k1 : Nat} {s s1 : State} (h : M.code[k]? = some (.ins ⟨.ret, []⟩)) (hs : M.Step k s k1 s1) :
    False := by
  cases hs with
  | label a => rw [h] at a; cases a
  | exec a b => rw [h] at a; cases a; exact absurd rfl (exec_branch b).2.2.2
  | symbol a | jmp a | je a | call a => rw [h] at a; cases a

theorem steps_head {M : Machine} {k k2 : Nat} {s s2 : State} (h : M.Steps k s k2 s2) :
    (k = k2 ∧ s = s2) ∨ ∃ k1 s1, M.Step k s k1 s1 ∧ M.Steps k1 s1 k2 s2 := by
  induction h with
  | refl => exact .inl ⟨rfl, rfl⟩
  | tail h1 h2 ih =>
    rcases ih with ⟨rfl, rfl⟩ | ⟨k1, s1, a, b⟩
    · exact .inr ⟨_, _, h2, .refl⟩
    · exact .inr ⟨k1, s1, a, .tail b h2⟩

/-- Of two runs that begin in the same state one is the beginning of the other. -/
theorem steps_linear {M : Machine} {k k1 k2 : Nat} {s s1 s2 : State} (h1 : M.Steps k s k1 s1) (h2 : M.Steps k s k2 s2) :
    M.Steps k1 s1 k2 s2 ∨ M.Steps k2 s2 k1 s1 := by
  induction h1 with
  | refl => exact .inl h2
  | tail _ hs ih =>
    rcases ih with ih | ih
    · rcases steps_head ih with ⟨rfl, rfl⟩ | ⟨k', s', a, b⟩
      · exact .inr (steps_one hs)
      · obtain ⟨rfl, rfl⟩ := step_unique hs a
        exact .inl b
    · exact .inr (.tail ih hs)

theorem finishes_unique {M : Machine} {k : Nat} {s s1 s2 : State} {a1 a2 : BitVec 64} (h1 : M.Finishes k s a1 s1)
    (h2 : M.Finishes k s a2 s2) : a1 = a2 ∧ s1 = s2 := by
  obtain ⟨k1, t1, st1, c1, e1, r1⟩ := h1
  obtain ⟨k2, t2, st2, c2, e2, r2⟩ := h2
  have : t1 = t2 := by
    rcases steps_linear st1 st2 with h | h <;> rcases steps_head h with ⟨-, e⟩ | ⟨_, _, hs, -⟩
    · exact e
    · exact (ret_stuck c1 hs).elim
    · exact e.symm
    · exact (ret_stuck c2 hs).elim
  subst this
  exact ⟨r1.trans r2.symm, e1.trans e2.symm⟩

end Verif.FuncCode
