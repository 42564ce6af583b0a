import Verif.PhiSpec
import Verif.MemoryProps
/-!
Properties of the copies at a join (C38).
-/
namespace Verif.Phi
open Verif Asm X86 Codegen CodegenSpec PhiSpec

theorem wr_rd_eq (m : BitVec 64 → BitVec 8) (a d : BitVec 64) (n : Nat) (hn : n = 1 ∨ n = 2 ∨ n = 4 ∨ n = 8) :
    rd (wr m d n (BitVec.ofNat 64 (rd m a n)).toNat) d n = rd m a n := by
  have h := rd_lt m a n
  have h64 : rd m a n < 2 ^ 64 := Nat.lt_of_lt_of_le h (by rcases hn with h | h | h | h <;> subst h <;> decide)
  rw [rd_wr_same _ _ _ _ (by rcases hn with h | h | h | h <;> subst h <;> decide), BitVec.toNat_ofNat,
    Nat.mod_eq_of_lt h64, Nat.mod_eq_of_lt h]

/-- C38, when no source is written by a copy emitted before it (in particular when no source
is a phi node of the same join). -/
theorem join_partial (F : FP) (a b : Nat) (second : Bool) (ps : List Phi) (s : State) (hab : a ≠ b)
    (h0 : ∀ p ∈ ps, p.out.size ≠ 0) (hn : Nodes s (moves second ps))
    (hs : (moves second ps).Pairwise fun m n => Apart s n.2 m.1) :
    ∃ c s', copies (if second then b else a) a b ps = .ok c ∧ run F c s = .ok s' ∧
      Parallel (moves second ps) s s' := by
  induction ps generalizing s with
  | nil => exact ⟨[], s, rfl, rfl, rfl, rfl, by simp [moves], fun x _ => rfl⟩
  | cons p ps ih =>
    have hsrc : source (if second then b else a) a b p = .ok (chosen second p) := by
      unfold source chosen
      cases second
      · simp
      · simp [hab.symm]
    have hp0 := h0 p (by simp)
    have h0' : ∀ p ∈ ps, p.out.size ≠ 0 := fun q hq => h0 q (by simp [hq])
    cases hc : chosen second p with
    | none =>
      have hm : moves second (p :: ps) = moves second ps := by simp [moves, hc]
      rw [hm] at hn hs ⊢
      obtain ⟨c, s', e, r⟩ := ih s h0' hn hs
      refine ⟨c, s', ?_, r⟩
      rw [copies, if_neg hp0, hsrc, hc]
      exact e
    | some v =>
      have hm : moves second (p :: ps) = (p.out, v) :: moves second ps := by simp [moves, hc]
      rw [hm] at hn hs ⊢
      have hsz := hn.scalar _ (List.mem_cons_self ..)
      have hsame := hn.same _ (List.mem_cons_self ..)
      simp only at hsz hsame
      obtain ⟨l, el, rl⟩ := run_load F v .rax (by rw [hsame]; exact hsz)
      generalize hx : BitVec.ofNat 64 (rd s.mem (slotAddr s v) v.size) = x at rl
      let s1 := (s.set .rax x).store (slotAddr s p.out) p.out.size x.toNat
      have hrl : run F l s = .ok (s.set .rax x) := by rw [rl s]; rw [hx]
      have hst : run F (regToScalar .rax p.out) (s.set .rax x) = .ok s1 := by
        rw [run_store F p.out .rax hsz]; simp [s1]
      have hsl : ∀ o : Slot, slotAddr s1 o = slotAddr s o := by intro o; simp [s1, slotAddr]
      have hap := List.pairwise_cons.1 hn.apart
      have hsp := List.pairwise_cons.1 hs
      have hn' : Nodes s1 (moves second ps) :=
        ⟨fun m hm => hn.scalar m (by simp [hm]), fun m hm => hn.same m (by simp [hm]), by
          simp only [Apart, hsl]; exact hap.2⟩
      obtain ⟨c, s', e, r, p1, p2, p3, p4⟩ := ih s1 h0' hn' (by simp only [Apart, hsl]; exact hsp.2)
      refine ⟨l ++ regToScalar .rax p.out ++ c, s', ?_, ?_, ?_, ?_, ?_, ?_⟩
      · rw [copies, if_neg hp0, hsrc, hc]
        simp only [Res.bind_ok]
        rw [el, e]
        rfl
      · rw [List.append_assoc, run_append_ok hrl, run_append_ok hst, r]
      · rw [p1]; simp [s1]
      · rw [p2]; simp [s1]
      · intro m hm
        rcases List.mem_cons.1 hm with rfl | hm
        · simp only
          have : rd s'.mem (slotAddr s p.out) p.out.size = rd s1.mem (slotAddr s p.out) p.out.size := by
            refine rd_congr fun i hi => p4 _ fun m hm j hj => ?_
            rw [hsl]
            exact hap.1 m hm i hi j hj
          rw [this]
          simp only [s1, store_mem, set_mem, ← hx, hsame]
          exact wr_rd_eq _ _ _ _ hsz
        · have h3 := p3 m hm
          rw [hsl, hsl] at h3
          rw [h3]
          have := hsp.1 m hm
          unfold Apart at this
          rw [hn.same m (by simp [hm])] at this
          simp only [s1, store_mem, set_mem]
          exact rd_wr_disj this
      · intro x hx
        rw [p4 x (fun m hm i hi => by rw [hsl]; exact hx m (by simp [hm]) i hi)]
        simp only [s1, store_mem, set_mem]
        exact wr_out _ _ _ _ _ fun i hi => hx (p.out, v) (List.mem_cons_self ..) i hi

/-- Three joined values of different sizes, one of them undefined on the first path. -/
def somePhis : List Phi := [⟨⟨4, 4⟩, some ⟨4, 32⟩, some ⟨4, 36⟩⟩, ⟨⟨8, 16⟩, none, some ⟨8, 48⟩⟩, ⟨⟨1, 17⟩, some ⟨1, 33⟩, some ⟨1, 4⟩⟩]

example : (match copies 7 7 9 somePhis with | .ok c => c.length | _ => 0) = 4 := by decide +kernel
example : (moves true somePhis).Pairwise fun m n => Disj (0x1000 - BitVec.ofNat 64 n.1.loc) n.1.size (0x1000 - BitVec.ofNat 64 m.1.loc) m.1.size := by
  unfold Disj; decide +kernel

/-- A loop that exchanges two variables: each phi node is the other one's source. -/
def swap : List Phi := [⟨⟨4, 4⟩, none, some ⟨4, 8⟩⟩, ⟨⟨4, 8⟩, none, some ⟨4, 4⟩⟩]

/-- A state with 1 and 2 in the two slots. -/
def swapState : State :=
  { reg := fun _ => 0x1000, xmm := fun _ => 0, fl := none,
    mem := wr (wr (fun _ => 0) 0xffc 4 1) 0xff8 4 2 }

/-- Some floating point unit. -/
def anyFP : FP := ⟨fun a _ => a, fun a _ => a, fun a _ => a, fun a _ => a, fun a _ => a, fun a _ => a,
  fun a _ => a, fun a _ => a, fun _ => 0, fun _ => 0⟩

/-- The second variable after the jump. -/
def swapped (c : Res (List Ins)) : Option Nat :=
  match c with
  | .ok c =>
    match run anyFP c swapState with
    | .ok s' => some (rd s'.mem (slotAddr swapState ⟨4, 8⟩) 4)
    | _ => none
  | _ => none

/-- C38 fails for `while (c) { t = a; a = b; b = t; }`: the second copy reads what the first
one wrote and `b` keeps its value. -/
theorem join_violated : ¬ JoinCorrect copies := by
  intro h
  obtain ⟨c, s', e, r, _, _, p, _⟩ := h anyFP 0 1 true swap swapState (by decide) (by decide)
    ⟨by decide, by decide, by unfold Apart Disj; decide +kernel⟩
  have h1 : swapped (copies 1 0 1 swap) = some 2 := by decide +kernel
  have h2 := p (⟨4, 8⟩, ⟨4, 4⟩) (by decide)
  have h3 : rd swapState.mem (slotAddr swapState ⟨4, 4⟩) 4 = 1 := by decide +kernel
  have e' : copies 1 0 1 swap = .ok c := e
  rw [e', swapped, r] at h1
  simp only at h1 h2
  rw [h2, h3] at h1
  exact absurd h1 (by decide)

end Verif.Phi
