import Verif.EntryLemmas
/-!
Properties of stack frames (C37) and of function entry and exit (C76).
-/
namespace Verif.Frame
open Verif Asm X86 Codegen FrameSpec

/-- C37: for every list of instructions and every save area, the frame is good: every value,
VLA slot, local, the save area and the saved stack pointer have their own bytes inside the
frame, every local is aligned as requested (relative to `%rbp`) and the frame is a multiple
of 16. -/
theorem frame_good (ns : List Node) (pre : Nat) : Good ns pre (layout ns pre) := by
  have h1 := values_stacked 0 ns
  have h2 := vla_stacked (values 0 ns).1 (vlas ns)
  have h3 := allocs_stacked ((values 0 ns).1 + vlas ns * 8) 0 ns
  have ha := allocs_align ((values 0 ns).1 + vlas ns * 8) 0 ns
  have h4 : Stacked (allocs ((values 0 ns).1 + vlas ns * 8) 0 ns).1
      (if (layout ns pre).align > 16 then (layout ns pre).preamble + 8 else (layout ns pre).preamble)
      (otherRanges pre (layout ns pre)) := by
    unfold otherRanges
    by_cases hal : (layout ns pre).align > 16
    · have hs : (layout ns pre).saved = some ((layout ns pre).preamble + 8) := by
        simp only [layout] at hal ⊢
        simp [hal]
      rw [if_pos hal, hs]
      refine Stacked.cons ?_ (Nat.le_refl _) (Stacked.single ?_ ?_) <;> simp [layout]
    · have hs : (layout ns pre).saved = none := by
        simp only [layout] at hal ⊢
        simp [hal]
      rw [if_neg hal, hs]
      refine Stacked.single ?_ ?_ <;> simp [layout]
  have hall := ((h1.append h2).append h3).append h4
  have hfr : (if (layout ns pre).align > 16 then (layout ns pre).preamble + 8 else (layout ns pre).preamble) ≤
      (layout ns pre).frame := by
    simp only [layout]
    exact roundUp_ge _ _
  refine ⟨values_length 0 ns, rfl, allocs_length _ _ ns, hall.disjoint, ?_, allocs_aligned _ _ ns,
    roundUp_dvd _ 16 (by decide), ha.2.1, ?_⟩
  · intro r hr
    have := (hall.mono hfr).within r hr
    exact ⟨by omega, this.2⟩
  · simp only [layout]
    split <;> simp <;> omega

/-- A function with an over-aligned local, a VLA and values of several sizes. -/
def someNodes : List Node := [⟨8, .alloc 3 1⟩, ⟨4, .plain⟩, ⟨0, .plain⟩, ⟨8, .vla⟩, ⟨8, .alloc 40 32⟩, ⟨1, .plain⟩, ⟨8, .vla⟩]

example : (layout someNodes 304).frame = 416 ∧ (layout someNodes 304).saved = some 408 ∧
    (ranges someNodes 304 (layout someNodes 304)).length = 12 := by decide

/-- C76: a function whose locals have the default alignment or one that is a power of two
gets an aligned frame, leaves everything above its own frame alone and gives the caller its
`%rsp` and `%rbp` back. -/
theorem entry_exit (ns : List Node) (pre : Nat)
    (h : ∀ n ∈ ns, ∀ size a, n.kind = .alloc size a → a = 0 ∨ ∃ k, k ≤ 30 ∧ a = 2 ^ k) :
    EntryExit (layout ns pre) (prologue (layout ns pre)) (epilogue (layout ns pre)) := by
  refine entry_exit_of ⟨(frame_good ns pre).round, fun o ho => ?_⟩
  have hsv : o ≤ (layout ns pre).frame ∧ 8 ≤ o := by
    have : (⟨o, 8⟩ : Range) ∈ ranges ns pre (layout ns pre) := by
      simp [ranges, otherRanges, ho]
    have := (frame_good ns pre).inside _ this
    exact ⟨this.2, this.1⟩
  refine ⟨hsv.2, hsv.1, ?_⟩
  have hal : 16 < (layout ns pre).align := by
    have h1 := (frame_good ns pre).saved
    rw [ho] at h1
    simpa using h1
  have ha := (allocs_align ((values 0 ns).1 + vlas ns * 8) 0 ns).2.2
  have e : (allocs ((values 0 ns).1 + vlas ns * 8) 0 ns).2.1 = (layout ns pre).align := rfl
  rw [e] at ha
  rcases ha with ha | ⟨n, hn, size, hk⟩
  · omega
  · rcases h n hn size _ hk with h0 | ⟨k, hk1, hk2⟩
    · omega
    · refine ⟨k, hk1, ?_, hk2⟩
      rcases Nat.lt_or_ge 4 k with h4 | h4
      · exact h4
      · have := Nat.pow_le_pow_right (n := 2) (by decide) h4
        rw [hk2] at hal
        omega

/-- The function above is covered, and its entry code is the long one. -/
example : (∀ n ∈ someNodes, ∀ size a, n.kind = .alloc size a → a = 0 ∨ ∃ k, k ≤ 30 ∧ a = 2 ^ k) ∧
    (prologue (layout someNodes 304)).length = 6 := by
  refine ⟨?_, by decide⟩
  intro n hn size a hk
  simp only [someNodes, List.mem_cons, List.not_mem_nil, or_false] at hn
  rcases hn with rfl | rfl | rfl | rfl | rfl | rfl | rfl <;> simp at hk
  · exact .inr ⟨0, by decide, by omega⟩
  · exact .inr ⟨5, by decide, by omega⟩

end Verif.Frame
