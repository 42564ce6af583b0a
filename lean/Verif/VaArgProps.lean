import Verif.VaArgLemmas
import Verif.ConventionProps
/-!
Properties of variadic functions (C42).
-/
namespace Verif.VaArg
open Verif Asm X86 Codegen CodegenSpec Memory MemorySpec VaArgSpec ConventionSpec
open Verif.Convention (Ty used RegInfo Place getConvention send registers flat)
open Verif.Classify (Class)
open Verif.Call (Dest)
open Verif.Cond (runC_exec runC_append)

/-! The order of the arguments. -/

/-- Fields set by `va_start`, as `vaStart` is called (src/abi/sysv.c:360-361). -/
def start (ret : Option Ty) (named : List Ty) : Res Va := do
  let c ← getConvention ret named
  pure ⟨c.gpOffset, overflowPos named c.stack - 16⟩

theorem supported_valid (t : Ty) (h : Supported t) : ConventionSpec.Valid t := by
  rcases h with h | ⟨h1, h2, h3, h4⟩
  · exact .inl h
  · exact .inr ⟨h1, fun c hc => .inl (h2 c hc), h3, h4⟩

theorem walks_flat (ret : Option Ty) (N V : List Ty) (hr : ∀ t, ret = some t → ConventionSpec.Valid t)
    (hN : ∀ t ∈ N, ConventionSpec.Valid t) (hV : ∀ t ∈ V, Supported t)
    (ha : ∀ t ∈ N ++ V, t.align ≤ 8) (hn : registers ret (N ++ V) ≤ 6) :
    WalksArguments send start ret N V := by
  intro vals ptr p
  have hv : ∀ t ∈ N ++ V, ConventionSpec.Valid t := by
    intro t ht
    rcases List.mem_append.1 ht with h | h
    · exact hN t h
    · exact supported_valid t (hV t h)
  have haN : ∀ t ∈ N, t.align ≤ 8 := fun t ht => ha t (List.mem_append.2 (.inl ht))
  have haV : ∀ t ∈ V, t.align ≤ 8 := fun t ht => ha t (List.mem_append.2 (.inr ht))
  obtain ⟨c, h1, h2, h3, h4⟩ := Convention.convention ret (N ++ V) hr hv
  obtain ⟨c', h1', h5⟩ := Convention.registers_once ret (N ++ V) hr hv
  rw [h1] at h1'; cases h1'
  obtain ⟨d, e1, _, e3, _, e5, _⟩ := Convention.getConvention_eq ret N hr (by
    intro t ht hm
    rcases hr t ht with h | ⟨_, hc, hl, hs⟩
    · exact absurd h hm
    · exact Convention.retParts_ok t.classes hc (by omega)) hN
  have h6 : Convention.stackOffsets (N ++ V) 0 c.stack = memOf 0 (locations ret (N ++ V)) := by
    rw [h3]
    exact Convention.stackOffsets_eq (N ++ V) (N ++ V) ha 0 _ _ 0 (by simp) rfl
  have hlen : ¬ c.regs.length > 6 := by
    rw [h2]
    unfold Convention.registers at hn
    by_cases hh : hidden ret = true
    · simp only [hh, if_true, List.length_append, List.length_singleton] at hn ⊢; omega
    · simp only [hh, Bool.false_eq_true, if_false, List.nil_append] at hn ⊢; omega
  have hd := (Convention.memOf_disjoint (N ++ V) (N ++ V) 0 (if hidden ret then intRegs.drop 1 else intRegs) sseRegs 0 (by simp)).1
  generalize hp' : c.regs.foldr (fun r p => Convention.setReg vals ptr p r)
    ((Convention.stackOffsets (N ++ V) 0 c.stack).foldr (fun x p => Convention.putStack (N ++ V) vals p x) p) = p'
  have hstack : ∀ x ∈ memOf 0 (locations ret (N ++ V)), ∀ k, k < ConventionSpec.sizeOf (N ++ V) x.1 → p'.stack (x.2 + k) = vals x.1 k := by
    intro x hx k hk
    rw [← hp', Convention.setReg_stack, h6]
    exact Convention.putStack_val (N ++ V) vals _ p hd x hx k hk
  have hregs : ∀ r ∈ c.regs, ∀ k, k < r.size → p'.reg r.reg k = Convention.partVal vals ptr r k := by
    intro r hr k hk
    rw [← hp']
    exact Convention.setReg_val vals ptr c.regs _ h5 r hr k hk
  generalize hg0 : (if hidden ret then 1 else 0) = g0 at e5
  have hg0' : g0 ≤ 6 := by rw [← hg0]; split <;> omega
  have hl0 : (if hidden ret then intRegs.drop 1 else intRegs) = intRegs.drop g0 := by
    rw [← hg0]; split <;> rfl
  have hpl := place_append N V haN g0 0 0 rfl hg0' (by omega)
  have hloc : locations ret (N ++ V) = place (intRegs.drop g0) (sseRegs.drop 0) 0 N ++
      place (intRegs.drop (used g0 0 N).1) (sseRegs.drop (used g0 0 N).2) (bytesUsed g0 0 0 N) V := by
    rw [← hpl, locations, hl0]; rfl
  have hbu : overflowPos N d.stack - 16 = bytesUsed g0 0 0 N := by
    rw [bytesUsed_sum N N haN 0 g0 0 0 hg0' (by omega) rfl (by simp), overflowPos, e3, locations, hl0, Nat.add_sub_cancel,
      Nat.zero_add]
    rfl
  refine ⟨p', ⟨8 * (used g0 0 N).1, bytesUsed g0 0 0 N⟩, ?_, ?_, ?_⟩
  · unfold Convention.send
    rw [h1, Res.bind_ok, if_neg hlen]
    exact congrArg Res.ok hp'
  · unfold start
    rw [e1, Res.bind_ok, hbu]
    have : d.gpOffset = 8 * (used g0 0 N).1 := by
      have := congrArg Prod.fst e5
      simp only at this
      omega
    rw [this]
    rfl
  · intro j t hj
    obtain ⟨src, w1, w2⟩ := walk_finds V hV haV N.length (used g0 0 N).1 (sseRegs.drop (used g0 0 N).2) (bytesUsed g0 0 0 N)
      (used_le N g0 0 hg0' (by omega)).1 (bytesUsed_mod N g0 0 0 rfl) j t hj
    refine ⟨src, w1, fun k hk => ?_⟩
    have hsz : ConventionSpec.sizeOf (N ++ V) (N.length + j) = t.size := by
      rw [ConventionSpec.sizeOf, List.getElem?_append_right (by omega), Nat.add_sub_cancel_left, hj]; rfl
    rcases w2 with ⟨o, rfl, hm⟩ | ⟨g, rfl, hm⟩
    · refine hstack (N.length + j, o) ?_ k (by rw [hsz]; exact hk)
      rw [hloc, memOf_append, place_length, Nat.zero_add]
      exact List.mem_append.2 (.inr hm)
    · obtain ⟨r, hr1, hr2, hr3, hr4⟩ := hm k hk
      have hmem : r ∈ c.regs := by
        rw [h2, hloc, regsOf_append _ _ _ _ _ (place_length ..), Nat.zero_add]
        exact List.mem_append.2 (.inr (List.mem_append.2 (.inr hr1)))
      have := hregs r hmem (k % 8) hr4
      simp only [Convention.partVal, hr3] at this
      simp only [byteAt]
      rw [show (8 * g + k) / 8 = g + k / 8 by omega, show (8 * g + k) % 8 = k % 8 by omega, hr2]
      simp only [Option.getD_some]
      rw [this, Nat.div_add_mod]

theorem walk_flat (V : List Ty) : ∀ v, walk v (V.map flat) = walk v V := by
  induction V with
  | nil => intro v; rfl
  | cons t V ih =>
    intro v
    rw [List.map_cons, walk, walk, ih]
    rfl

/-- C42: for every named part and every variadic part of supported (integer or memory) types,
`va_start` and the sequence of `va_arg`s find the variadic arguments in order, first in the
register save area and then on the stack. -/
theorem walks_arguments (ret : Option Ty) (N V : List Ty) (hr : ∀ t, ret = some t → ConventionSpec.Valid t)
    (hN : ∀ t ∈ N, ConventionSpec.Valid t) (hV : ∀ t ∈ V, Supported t) (hn : registers ret (N ++ V) ≤ 6) :
    WalksArguments send start ret N V := by
  have hsend : send ret ((N ++ V).map flat) = send ret (N ++ V) := by
    funext vals ptr p
    simp only [send, Convention.getConvention_flat, Convention.stackOffsets_flat, Convention.putStack_flat]
  have hst : start ret (N.map flat) = start ret N := by
    simp only [start, Convention.getConvention_flat, overflowPos, Convention.size_flat]
  have hv : ∀ t ∈ N ++ V, ConventionSpec.Valid t := by
    intro t ht
    rcases List.mem_append.1 ht with h | h
    · exact hN t h
    · exact supported_valid t (hV t h)
  have hn' : registers ret ((N ++ V).map flat) ≤ 6 := by
    obtain ⟨c, e1, e2, _⟩ := Convention.convention ret (N ++ V) hr hv
    obtain ⟨c', e1', e2', _⟩ := Convention.convention ret ((N ++ V).map flat) hr (Convention.valid_flat (N ++ V) hv)
    rw [Convention.getConvention_flat, e1] at e1'
    cases e1'
    rw [e2] at e2'
    have := congrArg List.length (List.append_cancel_left e2')
    unfold registers at hn ⊢
    omega
  rw [List.map_append] at hn' hsend
  have := walks_flat ret (N.map flat) (V.map flat) hr (Convention.valid_flat N hN) (by
    intro t ht
    obtain ⟨u, hu, rfl⟩ := List.mem_map.1 ht
    exact hV u hu) (by
    intro t ht
    rw [← List.map_append] at ht
    obtain ⟨u, _, rfl⟩ := List.mem_map.1 ht
    exact Nat.le_refl 8) hn'
  intro vals ptr p
  obtain ⟨p', v, x1, x2, x3⟩ := this vals ptr p
  rw [hsend] at x1
  rw [hst] at x2
  refine ⟨p', v, x1, x2, fun j t hj => ?_⟩
  obtain ⟨src, y1, y2⟩ := x3 j (flat t) (by simp [hj])
  rw [walk_flat] at y1
  rw [List.length_map] at y2
  exact ⟨src, y1, y2⟩

theorem int_registers (ts : List Ty) (hv : ∀ t ∈ ts, Supported t) : ∀ i gp ss off, gp ≤ 6 →
    gp + (regsOf i ts (place (intRegs.drop gp) ss off ts)).length ≤ 6 := by
  induction ts with
  | nil => intro i gp ss off h; simpa [regsOf, place] using h
  | cons t ts ih =>
    intro i gp ss off hg
    have ih := ih fun d hd => hv d (by simp [hd])
    rw [place]
    split
    · next hfit =>
      rcases hv t (by simp) with h | ⟨_, hc, _, _⟩
      · exact absurd h hfit.1
      have h1 := Convention.assign_length t.classes (fun c hx => .inl (hc c hx)) (intRegs.drop gp) ss hfit.2.1 hfit.2.2
      have h2 : need .integer t = t.classes.length := by
        simp only [need]
        rw [List.filter_eq_self.2]
        intro c hx
        simp [hc c hx]
      have h3 : (eightbytes i t.size (assign t.classes (intRegs.drop gp) ss)).length = t.classes.length := by
        simp [eightbytes, h1]
      have hf := hfit.2.1
      rw [Convention.int_left, h2] at hf
      rw [regsOf, List.length_append, h3, h2, List.drop_drop]
      have := ih (i + 1) (gp + t.classes.length) (ss.drop (need .sse t)) off (by omega)
      omega
    · rw [regsOf]
      · exact ih (i + 1) gp ss _ hg
      · intro rs e; cases e

/-- C42 for functions whose named parameters are integers or structures of integers, or in
memory, as well: any number of each. -/
theorem walks_integer_arguments (ret : Option Ty) (N V : List Ty) (hr : ∀ t, ret = some t → ConventionSpec.Valid t)
    (hN : ∀ t ∈ N, Supported t) (hV : ∀ t ∈ V, Supported t) : WalksArguments send start ret N V := by
  refine walks_arguments ret N V hr (fun t ht => supported_valid t (hN t ht)) hV ?_
  have hs : ∀ t ∈ N ++ V, Supported t := by
    intro t ht
    rcases List.mem_append.1 ht with h | h
    · exact hN t h
    · exact hV t h
  unfold registers locations
  by_cases hh : hidden ret = true
  · simp only [hh, if_true]
    exact int_registers (N ++ V) hs 0 1 sseRegs 0 (by omega)
  · simp only [hh, Bool.false_eq_true, if_false]
    exact int_registers (N ++ V) hs 0 0 sseRegs 0 (by omega)

/-- `int f(struct big, char *fmt, …)` called with an `int`, a 16-byte structure, a `long` that
is the last in a register, a 24-byte structure and another `int`. -/
example : (∀ t ∈ [(⟨4, 4, [.integer]⟩ : Ty), ⟨16, 8, [.integer, .integer]⟩, ⟨16, 8, [.integer, .integer]⟩, ⟨8, 8, [.integer]⟩,
      ⟨24, 8, [.memory]⟩, ⟨4, 4, [.integer]⟩], Supported t) ∧
    start none [⟨20, 4, [.memory]⟩, ⟨8, 8, [.integer]⟩, ⟨8, 8, [.sse]⟩] = .ok ⟨8, 24⟩ ∧
    registers none ([⟨20, 4, [.memory]⟩, ⟨8, 8, [.integer]⟩] ++ [⟨4, 4, [.integer]⟩, ⟨16, 8, [.integer, .integer]⟩,
      ⟨16, 8, [.integer, .integer]⟩, ⟨8, 8, [.integer]⟩, ⟨24, 8, [.memory]⟩, ⟨4, 4, [.integer]⟩]) = 6 ∧
    walk ⟨8, 24⟩ [⟨4, 4, [.integer]⟩, ⟨16, 8, [.integer, .integer]⟩, ⟨16, 8, [.integer, .integer]⟩, ⟨8, 8, [.integer]⟩,
      ⟨24, 8, [.memory]⟩, ⟨4, 4, [.integer]⟩] = [.save 8, .save 16, .save 32, .over 24, .over 32, .over 56] := by
  refine ⟨?_, by decide, by decide, by decide⟩
  intro t ht
  simp only [List.mem_cons, List.not_mem_nil, or_false] at ht
  rcases ht with rfl | rfl | rfl | rfl | rfl | rfl <;> simp [Supported]

/-! The code. -/

theorem add_off (a : BitVec 64) (i j : Nat) : a + BitVec.ofNat 64 i + BitVec.ofNat 64 j = a + BitVec.ofNat 64 (i + j) := by
  apply BitVec.eq_of_toNat_eq
  simp [BitVec.toNat_add]
  omega

theorem copied_out (m : BitVec 64 → BitVec 8) (a d x : BitVec 64) (n : Nat)
    (h : ∀ i, i < n → x ≠ d + BitVec.ofNat 64 i) : copied m a d n x = m x := by
  unfold copied
  rw [if_neg]
  intro hlt
  refine h _ hlt ?_
  rw [BitVec.ofNat_toNat, BitVec.setWidth_eq, BitVec.add_comm, BitVec.sub_add_cancel]

theorem copied_in (m : BitVec 64 → BitVec 8) (a d : BitVec 64) (n i : Nat) (hi : i < n) (hn : n ≤ 2 ^ 63) :
    copied m a d n (d + BitVec.ofNat 64 i) = m (a + BitVec.ofNat 64 i) := by
  unfold copied
  have e : d + BitVec.ofNat 64 i - d = BitVec.ofNat 64 i := by
    rw [BitVec.add_comm, BitVec.add_sub_cancel]
  rw [e, if_pos]
  simp only [BitVec.toNat_ofNat]
  omega

/-- What the two writes, one to the `va_list` and the copy, amount to. -/
theorem finish (m : BitVec 64 → BitVec 8) (L D src : BitVec 64) (fo w val n : Nat) (hf : fo + w ≤ 24) (hn : n ≤ 2 ^ 30)
    (h1 : Disj L 24 src n) (h2 : Disj L 24 D n) :
    (∀ i, i < n → copied (wr m (L + BitVec.ofNat 64 fo) w val) src D n (D + BitVec.ofNat 64 i) = m (src + BitVec.ofNat 64 i)) ∧
    (∀ x, (∀ i, i < 24 → x ≠ L + BitVec.ofNat 64 i) → (∀ i, i < n → x ≠ D + BitVec.ofNat 64 i) →
      copied (wr m (L + BitVec.ofNat 64 fo) w val) src D n x = m x) ∧
    (∀ o k, o + k ≤ 24 → rd (copied (wr m (L + BitVec.ofNat 64 fo) w val) src D n) (L + BitVec.ofNat 64 o) k =
      rd (wr m (L + BitVec.ofNat 64 fo) w val) (L + BitVec.ofNat 64 o) k) := by
  refine ⟨fun i hi => ?_, fun x hx hx' => ?_, fun o k hk => ?_⟩
  · rw [copied_in _ _ _ _ _ hi (by omega), wr_out]
    intro j hj
    rw [add_off]
    exact fun e => h1 (fo + j) (by omega) i hi e.symm
  · rw [copied_out _ _ _ _ _ hx', wr_out]
    intro j hj
    rw [add_off]
    exact hx _ (by omega)
  · refine rd_congr fun i hi => ?_
    rw [add_off, copied_out]
    intro j hj
    exact h2 (o + i) (by omega) j hj

/-- Fields of a structure do not overlap. -/
theorem field_disj (L : BitVec 64) (a n b k : Nat) (h : a + n ≤ b ∨ b + k ≤ a) (ha : a + n ≤ 24) (hb : b + k ≤ 24) :
    Disj (L + BitVec.ofNat 64 a) n (L + BitVec.ofNat 64 b) k := by
  intro i hi j hj e
  rw [add_off, add_off] at e
  have e' := congrArg (· - L) e
  simp only [BitVec.add_comm L, BitVec.add_sub_cancel] at e'
  have := congrArg BitVec.toNat e'
  simp only [BitVec.toNat_ofNat] at this
  omega

theorem addr_save (sv ov : BitVec 64) (g : Nat) : addr sv ov (.save g) = sv + BitVec.ofNat 64 g := rfl
theorem addr_over (sv ov : BitVec 64) (g : Nat) : addr sv ov (.over g) = ov + BitVec.ofNat 64 g := rfl

/-- C42: the code of one `va_arg` copies the argument into the result object, moves the
`va_list` on and changes nothing else. -/
theorem va_arg_code (F : FP) (t : Ty) (ht : Supported t) (dst va : Slot) (stack fetch : Nat) (hl : stack ≠ fetch)
    (s : State) (sv ov : BitVec 64) (v : Va) (h : Ready s dst va sv ov v t) :
    ∃ entry code s', vaArg t dst va stack fetch = .ok (entry, code) ∧ Reaches F entry code s s' ∧
      Done s s' dst va sv ov v t := by
  obtain ⟨c1, e1, l1⟩ := run_load F va .rdi (by rw [h.vaSize]; simp [ScalarSize])
  obtain ⟨c2, e2, f2⟩ := run_fetch F dst h.dstSize t.size h.size
  generalize hL : target s va = L at *
  have hL' : BitVec.ofNat 64 (rd s.mem (slotAddr s va) va.size) = L := by rw [← hL, h.vaSize]; rfl
  have hf := h.fields
  have hslot := h.slot
  have hsrc := h.src
  have hobj := h.obj
  have hcopy := h.copy
  rw [hL] at hf hslot hsrc hobj
  have hsz := h.size
  have r1 : run F c1 s = .ok (s.set .rdi L) := by rw [l1, hL']
  -- the copy, after a write to the `va_list`
  have hend : ∀ (s1 : State) (fo w val : Nat), fo + w ≤ 24 → s1.mem = wr s.mem (L + BitVec.ofNat 64 fo) w val →
      s1.reg .rbp = s.reg .rbp → s1.reg .rsp = s.reg .rsp → s1.reg .rax = addr sv ov (next v t).1 →
      (∀ m' : BitVec 64 → BitVec 8, (∀ o k, o + k ≤ 24 → rd m' (L + BitVec.ofNat 64 o) k =
        rd (wr s.mem (L + BitVec.ofNat 64 fo) w val) (L + BitVec.ofNat 64 o) k) → At m' L sv ov (next v t).2) →
      ∃ s', runC F ([⟨.movq, [R8 .rax, R8 .rdi]⟩] ++ c2 ++ memcpy t.size) s1 = .ok (s', .fall) ∧
        Done s s' dst va sv ov v t := by
    intro s1 fo w val hfo hm hbp hsp hax hat
    have htd : target s1 dst = target s dst := by
      have hsa : slotAddr s1 dst = slotAddr s dst := by unfold slotAddr; rw [hbp]
      have : rd s1.mem (slotAddr s1 dst) 8 = rd s.mem (slotAddr s dst) 8 := by
        rw [hm, hsa]
        refine rd_congr fun i hi => wr_out _ _ _ _ _ fun j hj => ?_
        rw [add_off]
        exact fun e => hslot (fo + j) (by omega) i hi e.symm
      exact congrArg (BitVec.ofNat 64) this
    obtain ⟨s', hr, hm', hregs⟩ := f2 s1 (by rw [htd, hax]; exact hcopy)
    obtain ⟨g1, g2, g3⟩ := finish s.mem L (target s dst) (addr sv ov (next v t).1) fo w val t.size hfo hsz hsrc hobj
    rw [hm, htd, hax] at hm'
    refine ⟨s', hr, ⟨?_, ?_, ?_, ?_, ?_⟩⟩
    · rw [hm']; exact g1
    · rw [hL]
      exact hat _ (by rw [hm']; exact g3)
    · rw [hm', hL]; exact g2
    · rw [hregs _ (by decide) (by decide) (by decide), hbp]
    · rw [hregs _ (by decide) (by decide) (by decide), hsp]
  -- the overflow area
  have hover : ∀ s0 : State, s0.reg .rdi = L → s0.mem = s.mem → s0.reg .rbp = s.reg .rbp → s0.reg .rsp = s.reg .rsp →
      next v t = (.over v.over, { v with over := v.over + up t.size 8 }) →
      ∃ s', runC F (fromStack t.size ++ ([⟨.movq, [R8 .rax, R8 .rdi]⟩] ++ c2 ++ memcpy t.size)) s0 = .ok (s', .fall) ∧
        Done s s' dst va sv ov v t := by
    intro s0 h0 hm hbp hsp hnx
    obtain ⟨s1, k1, k2, k3, k4⟩ := run_fromStack F t.size s0
    have hov : BitVec.ofNat 64 (rd s0.mem (s0.reg .rdi + 8) 8) = ov + BitVec.ofNat 64 v.over := by
      rw [hm, h0, hf.over, BitVec.ofNat_toNat, BitVec.setWidth_eq]
    rw [hov] at k2 k3
    rw [hm, h0] at k3
    obtain ⟨s', hs', hd'⟩ := hend s1 8 8 _ (by omega) k3 (by rw [k4 _ (by decide) (by decide), hbp])
      (by rw [k4 _ (by decide) (by decide), hsp]) (by rw [k2, hnx]; rfl) (by
        intro m' hm'
        rw [hnx]
        refine ⟨?_, ?_, ?_⟩
        · have := hm' 0 4 (by omega)
          rw [rd_wr_disj (field_disj L 0 4 8 8 (by omega) (by omega) (by omega))] at this
          simp only [BitVec.ofNat_eq_ofNat, BitVec.add_zero] at this
          rw [this, hf.gp]
        · have := hm' 8 8 (by omega)
          rw [rd_wr_same _ _ _ _ (by omega)] at this
          show rd m' (L + BitVec.ofNat 64 8) 8 = _
          rw [this, add_off, Convention.round_eq _ _ (by omega : 0 < 8)]
          exact Nat.mod_eq_of_lt (BitVec.isLt _)
        · have := hm' 16 8 (by omega)
          rw [rd_wr_disj (field_disj L 16 8 8 8 (by omega) (by omega) (by omega))] at this
          show rd m' (L + BitVec.ofNat 64 16) 8 = _
          rw [this]
          exact hf.save)
    exact ⟨s', by rw [runC_append k1, hs'], hd'⟩
  rcases ht with hm | ⟨hne, hc, hlen, hs16⟩
  · have hnx : next v t = (.over v.over, { v with over := v.over + up t.size 8 }) := by
      rw [next, if_neg (fun x => x.1 hm)]
    obtain ⟨s', hs', hd'⟩ := hover (s.set .rdi L) (by simp) (by simp) (by simp) (by simp) hnx
    refine ⟨_, _, s', by rw [vaArg, e1, Res.bind_ok, hm, numGp, Res.bind_ok, e2, Res.bind_ok]; rfl, .inl ?_, hd'⟩
    rw [List.append_nil, runC_append r1, hs']
  · have hnm : t.classes ≠ [.memory] := by
      intro e
      have := hc .memory (by rw [e]; simp)
      cases this
    have hng : numGp t.classes = .ok (some t.classes.length) := by
      cases hcs : t.classes with
      | nil => exact absurd hcs hne
      | cons a as =>
        have ha : a = .integer := hc a (by rw [hcs]; simp)
        subst ha
        have hall : (Class.integer :: as).all (· = .integer) = true := by
          rw [List.all_eq_true]
          intro x hx
          simp [hc x (by rw [hcs]; exact hx)]
        show (if (Class.integer :: as).all (· = .integer) = true then _ else _) = _
        rw [if_pos hall]
    have hl6 : t.classes.length ≤ 6 := by omega
    have hgp : rd (s.set .rdi L).mem ((s.set .rdi L).reg .rdi) 4 = v.gp := by simpa using hf.gp
    have hva : vaArg t dst va stack fetch = .ok (c1 ++ fromRegs t.classes.length stack fetch ++
        (fromStack t.size ++ ([⟨.movq, [R8 .rax, R8 .rdi]⟩] ++ c2 ++ memcpy t.size)),
        fun l => if l = stack then some (fromStack t.size ++ ([⟨.movq, [R8 .rax, R8 .rdi]⟩] ++ c2 ++ memcpy t.size)) else
          if l = fetch then some ([⟨.movq, [R8 .rax, R8 .rdi]⟩] ++ c2 ++ memcpy t.size) else none) := by
      rw [vaArg, e1, Res.bind_ok, hng, Res.bind_ok, e2, Res.bind_ok]; rfl
    by_cases hfit : v.gp + 8 * t.classes.length ≤ 48
    · have hnx : next v t = (.save v.gp, { v with gp := v.gp + 8 * t.classes.length }) := by
        rw [next, if_pos ⟨hnm, hfit⟩]
      obtain ⟨s1, k1, k2, k3, k4⟩ := run_fromRegs_in F t.classes.length stack fetch hl6
        (fromStack t.size ++ ([⟨.movq, [R8 .rax, R8 .rdi]⟩] ++ c2 ++ memcpy t.size)) (s.set .rdi L) v.gp hgp hfit
      have hsv : BitVec.ofNat 64 (rd (s.set .rdi L).mem ((s.set .rdi L).reg .rdi + 16) 8) = sv := by
        simp only [set_mem, set_reg, if_true]
        rw [hf.save, BitVec.ofNat_toNat, BitVec.setWidth_eq]
      rw [hsv] at k2
      obtain ⟨s', hs', hd'⟩ := hend s1 0 4 (v.gp + 8 * t.classes.length) (by omega) (by rw [k3]; simp)
        (by rw [k4 _ (by decide) (by decide)]; simp) (by rw [k4 _ (by decide) (by decide)]; simp) (by rw [k2, hnx]; rfl) (by
          intro m' hm'
          rw [hnx]
          refine ⟨?_, ?_, ?_⟩
          · have := hm' 0 4 (by omega)
            rw [rd_wr_same _ _ _ _ (by omega)] at this
            simp only [BitVec.ofNat_eq_ofNat, BitVec.add_zero] at this
            rw [this]
            exact Nat.mod_eq_of_lt (by omega)
          · have := hm' 8 8 (by omega)
            rw [rd_wr_disj (field_disj L 8 8 0 4 (by omega) (by omega) (by omega))] at this
            show rd m' (L + BitVec.ofNat 64 8) 8 = _
            rw [this]
            exact hf.over
          · have := hm' 16 8 (by omega)
            rw [rd_wr_disj (field_disj L 16 8 0 4 (by omega) (by omega) (by omega))] at this
            show rd m' (L + BitVec.ofNat 64 16) 8 = _
            rw [this]
            exact hf.save)
      refine ⟨_, _, s', hva, .inr ⟨s1, fetch, 1, by rw [List.append_assoc, runC_append r1, k1], ?_⟩, hd'⟩
      rw [runBlocks, if_neg (Ne.symm hl), if_pos rfl]
      simp only [hs']
    · have hnx : next v t = (.over v.over, { v with over := v.over + up t.size 8 }) := by
        rw [next, if_neg (fun x => hfit x.2)]
      obtain ⟨s1, k1, k2, k3⟩ := run_fromRegs_out F t.classes.length stack fetch hl6
        (fromStack t.size ++ ([⟨.movq, [R8 .rax, R8 .rdi]⟩] ++ c2 ++ memcpy t.size)) (s.set .rdi L) v.gp hgp (by omega)
      obtain ⟨s', hs', hd'⟩ := hover s1 (by rw [k3 _ (by decide)]; simp) (by rw [k2]; simp)
        (by rw [k3 _ (by decide)]; simp) (by rw [k3 _ (by decide)]; simp) hnx
      refine ⟨_, _, s', hva, .inr ⟨s1, stack, 1, by rw [List.append_assoc, runC_append r1, k1], ?_⟩, hd'⟩
      rw [runBlocks, if_pos rfl]
      simp only [hs']

/-- A state in which the second `va_arg`, of a 16-byte structure, is about to be run. -/
def someState : State :=
  { reg := fun r => if r = .rbp then 0x1000 else 0, xmm := fun _ => 0, fl := none,
    mem := wr (wr (wr (wr (wr (fun _ => 7) 0xff8 8 0x3000) 0xff0 8 0x2000) 0x2000 4 8) 0x2008 8 0x5010) 0x2010 8 0x6000 }

example : Ready someState ⟨8, 8⟩ ⟨8, 16⟩ 0x6000 0x5000 ⟨8, 16⟩ ⟨16, 8, [.integer, .integer]⟩ := by
  refine ⟨rfl, rfl, ⟨by decide +kernel, by decide +kernel, by decide +kernel⟩, by decide, by decide, ?_, ?_, ?_, .inr ?_⟩ <;>
    unfold Disj <;> decide +kernel

/-- C42, with the contents of the areas: the object gets the bytes that the argument has in
the registers and on the stack at the call. -/
theorem va_arg_value (F : FP) (t : Ty) (ht : Supported t) (dst va : Slot) (stack fetch : Nat) (hl : stack ≠ fetch)
    (s : State) (sv ov : BitVec 64) (v : Va) (h : Ready s dst va sv ov v t) (p : Place) (hp : InMemory s.mem sv ov p)
    (hov : v.over + t.size ≤ 2 ^ 31) :
    ∃ entry code s', vaArg t dst va stack fetch = .ok (entry, code) ∧ Reaches F entry code s s' ∧
      Done s s' dst va sv ov v t ∧ ∀ k, k < t.size → s'.mem (target s dst + BitVec.ofNat 64 k) = byteAt p (next v t).1 k := by
  obtain ⟨e, c, s', h1, h2, h3⟩ := va_arg_code F t ht dst va stack fetch hl s sv ov v h
  refine ⟨e, c, s', h1, h2, h3, fun k hk => ?_⟩
  rw [h3.bytes k hk]
  by_cases hf : t.classes ≠ [.memory] ∧ v.gp + 8 * t.classes.length ≤ 48
  · have hsz : t.size ≤ 8 * t.classes.length := by
      rcases ht with h | ⟨_, _, h, _⟩
      · exact absurd h hf.1
      · omega
    rw [next, if_pos hf]
    simp only [addr, add_off]
    rw [hp.save _ (by omega)]
    simp only [byteAt, Nat.zero_add]
  · rw [next, if_neg hf]
    simp only [addr, add_off]
    rw [hp.over _ (by omega)]
    simp only [byteAt, Nat.zero_add]

/-- One store of the entry code. -/
theorem run_saves (F : FP) (rs : List Reg) (a : BitVec 64) : ∀ (j : Nat) (is : List Ins) (s : State), j + rs.length ≤ 6 →
    is.length = rs.length → (∀ n i, is[n]? = some i → ∃ r, rs[n]? = some r ∧ ∃ o : Int, i = ⟨.movq, [R8 r, MEM o .rbp]⟩ ∧
      s.reg .rbp + BitVec.ofInt 64 o = a + BitVec.ofNat 64 (8 * (j + n))) →
    ∃ s', run F is s = .ok s' ∧ s'.reg = s.reg ∧ s'.xmm = s.xmm ∧
      (∀ k, k < 8 * rs.length → s'.mem (a + BitVec.ofNat 64 (8 * j + k)) =
        BitVec.ofNat 8 ((s.reg ((rs[k / 8]?).getD .rdi)).toNat / 256 ^ (k % 8))) ∧
      ∀ x, (∀ k, k < 8 * rs.length → x ≠ a + BitVec.ofNat 64 (8 * j + k)) → s'.mem x = s.mem x := by
  induction rs with
  | nil =>
    intro j is s _ h _
    have : is = [] := List.length_eq_zero_iff.1 (by simpa using h)
    subst this
    exact ⟨s, rfl, rfl, rfl, by simp, by simp⟩
  | cons r rs ih =>
    intro j is s hj h hi
    cases is with
    | nil => simp at h
    | cons i is =>
      obtain ⟨r', hr', o, rfl, ho⟩ := hi 0 i rfl
      simp only [List.getElem?_cons_zero, Option.some.injEq] at hr'
      subst hr'
      simp only [Nat.add_zero] at ho
      rw [List.length_cons] at hj
      have h1 := exec_st64 F s o .rbp r
      rw [ho] at h1
      obtain ⟨s', k1, k2, k3, k4, k5⟩ := ih (j + 1) is (s.store (a + BitVec.ofNat 64 (8 * j)) 8 (s.reg r).toNat) (by omega)
        (by simpa using h) (by
          intro n i hn
          obtain ⟨r', e1, o', e2, e3⟩ := hi (n + 1) i (by simpa using hn)
          refine ⟨r', by simpa using e1, o', e2, ?_⟩
          rw [show j + 1 + n = j + (n + 1) by omega]
          exact e3)
      refine ⟨s', by rw [run_cons, h1, Out.bind_ok, k1], by rw [k2]; rfl, by rw [k3]; rfl, ?_, ?_⟩
      · intro k hk
        rw [List.length_cons] at hk
        by_cases hk8 : k < 8
        · rw [k5, store_mem, ← add_off, wr_at _ _ _ _ k (by omega), if_pos hk8]
          · rw [show k / 8 = 0 by omega, show k % 8 = k by omega]
            rfl
          · intro l hl e
            have e' := congrArg (· - a) e
            simp only [BitVec.add_comm a, BitVec.add_sub_cancel] at e'
            have := congrArg BitVec.toNat e'
            simp only [BitVec.toNat_ofNat] at this
            omega
        · obtain ⟨l, rfl⟩ : ∃ l, k = l + 8 := ⟨k - 8, by omega⟩
          have := k4 l (by omega)
          rw [show 8 * (j + 1) + l = 8 * j + (l + 8) by omega] at this
          rw [this, show (l + 8) / 8 = l / 8 + 1 by omega, show (l + 8) % 8 = l % 8 by omega]
          rfl
      · intro x hx
        rw [k5 x, store_mem, wr_out]
        · intro i hi
          rw [add_off]
          exact hx i (by rw [List.length_cons]; omega)
        · intro k hk
          rw [show 8 * (j + 1) + k = 8 * j + (k + 8) by omega]
          exact hx _ (by rw [List.length_cons]; omega)

/-- C42: the entry code of a variadic function stores the six registers in the save area. -/
theorem preamble_code (F : FP) (pos : Nat) (s : State) (ov : BitVec 64)
    (hd : Disj (s.reg .rbp - BitVec.ofNat 64 pos) 48 ov (2 ^ 31)) :
    ∃ s', run F (preamble pos) s = .ok s' ∧ s'.reg = s.reg ∧ s'.xmm = s.xmm ∧
      InMemory s'.mem (s.reg .rbp - BitVec.ofNat 64 pos) ov (placeOf s ov) ∧
      ∀ x, (∀ k, k < 48 → x ≠ s.reg .rbp - BitVec.ofNat 64 pos + BitVec.ofNat 64 k) → s'.mem x = s.mem x := by
  generalize ha : s.reg .rbp - BitVec.ofNat 64 pos = a at *
  have hoff : ∀ n : Nat, s.reg .rbp + BitVec.ofInt 64 ((n : Int) - (pos : Int)) = a + BitVec.ofNat 64 n := by
    intro n
    rw [← ha, Int.sub_eq_add_neg, BitVec.ofInt_add, BitVec.ofInt_neg, BitVec.ofInt_natCast, BitVec.ofInt_natCast,
      BitVec.sub_eq_add_neg]
    ac_rfl
  obtain ⟨s', h1, h2, h3, h4, h5⟩ := run_saves F [.rdi, .rsi, .rdx, .rcx, .r8, .r9] a 0 (preamble pos) s (by decide) rfl (by
    intro n i hi
    match n, hi with
    | 0, hi => exact ⟨_, rfl, _, (Option.some.inj hi).symm, hoff 0⟩
    | 1, hi => exact ⟨_, rfl, _, (Option.some.inj hi).symm, hoff 8⟩
    | 2, hi => exact ⟨_, rfl, _, (Option.some.inj hi).symm, hoff 16⟩
    | 3, hi => exact ⟨_, rfl, _, (Option.some.inj hi).symm, hoff 24⟩
    | 4, hi => exact ⟨_, rfl, _, (Option.some.inj hi).symm, hoff 32⟩
    | 5, hi => exact ⟨_, rfl, _, (Option.some.inj hi).symm, hoff 40⟩
    | n + 6, hi => simp [preamble] at hi)
  simp only [List.length_cons, List.length_nil, Nat.mul_zero, Nat.zero_add] at h4 h5
  refine ⟨s', h1, h2, h3, ⟨fun k hk => ?_, fun k hk => ?_⟩, h5⟩
  · rw [h4 k hk]
    simp only [byteAt, Nat.zero_add, placeOf]
    have : k / 8 < 6 := by omega
    generalize k / 8 = q at this
    match q, this with
    | 0, _ => rfl
    | 1, _ => rfl
    | 2, _ => rfl
    | 3, _ => rfl
    | 4, _ => rfl
    | 5, _ => rfl
  · rw [h5 _ (fun i hi e => hd i hi k hk e.symm)]
    simp [byteAt, placeOf]

/-- C42, C81: `va_start` points the `va_list` at the first variadic argument; `fp_offset` is
set to 0. -/
theorem va_start_code (F : FP) (va : Slot) (hva : va.size = 8) (gp over pos : Nat) (hg : gp ≤ 48) (s : State) :
    ∃ c s', vaStart va gp (over + 16) pos = .ok c ∧ run F c s = .ok s' ∧
      At s'.mem (target s va) (s.reg .rbp - BitVec.ofNat 64 pos) (s.reg .rbp + 16) ⟨gp, over⟩ ∧
      rd s'.mem (target s va + 4) 4 = 0 ∧ s'.reg .rbp = s.reg .rbp ∧ s'.reg .rsp = s.reg .rsp ∧
      ∀ x, (∀ i, i < 24 → x ≠ target s va + BitVec.ofNat 64 i) → s'.mem x = s.mem x := by
  obtain ⟨c1, e1, l1⟩ := run_load F va .rax (by rw [hva]; simp [ScalarSize])
  generalize hL : target s va = L
  have r1 : run F c1 s = .ok (s.set .rax L) := by rw [l1, ← hL, hva]; rfl
  have i1 : ∀ t : State, exec F ⟨.movl, [IMM gp, MEM 0 .rax]⟩ t = .ok (t.store (t.reg .rax) 4 gp) := by
    intro t
    have := exec_im32 F t 0 .rax gp (by omega)
    simp only [BitVec.ofNat_eq_ofNat, BitVec.add_zero] at this
    exact this
  have i2 : ∀ t : State, exec F ⟨.movl, [IMM 0, MEM 4 .rax]⟩ t = .ok (t.store (t.reg .rax + BitVec.ofNat 64 4) 4 0) :=
    fun t => exec_im32 F t 4 .rax 0 (by omega)
  have i3 : ∀ (t : State) (o : Int), exec F ⟨.leaq, [MEM o .rbp, R8 .rdi]⟩ t = .ok (t.set .rdi (t.reg .rbp + BitVec.ofInt 64 o)) := by
    intro t o
    rw [MEM, R8, exec_leaq]; rfl
  have i4 : ∀ t : State, exec F ⟨.movq, [R8 .rdi, MEM 8 .rax]⟩ t = .ok (t.store (t.reg .rax + BitVec.ofNat 64 8) 8 (t.reg .rdi).toNat) :=
    fun t => exec_st64 F t 8 .rax .rdi
  have i5 : ∀ t : State, exec F ⟨.movq, [R8 .rdi, MEM 16 .rax]⟩ t = .ok (t.store (t.reg .rax + BitVec.ofNat 64 16) 8 (t.reg .rdi).toNat) :=
    fun t => exec_st64 F t 16 .rax .rdi
  have hov : s.reg .rbp + BitVec.ofInt 64 ((over + 16 : Nat) : Int) = s.reg .rbp + 16 + BitVec.ofNat 64 over := by
    rw [BitVec.ofInt_natCast, Nat.add_comm, ← add_off]
    rfl
  have hsv : s.reg .rbp + BitVec.ofInt 64 (-(pos : Int)) = s.reg .rbp - BitVec.ofNat 64 pos := by
    rw [BitVec.ofInt_neg, BitVec.ofInt_natCast, BitVec.sub_eq_add_neg]
  refine ⟨_, _, by rw [vaStart, e1]; rfl, by
    rw [run_append_ok r1, run_cons, i1, Out.bind_ok, run_cons, i2, Out.bind_ok, run_cons, i3, Out.bind_ok, run_cons, i4,
      Out.bind_ok, run_cons, i3, Out.bind_ok, run_cons, i5, Out.bind_ok, run_nil], ?_⟩
  simp only [store_mem, store_reg, set_mem, set_reg, if_true, reduceCtorEq, if_false, hov, hsv]
  have g0 : L = L + BitVec.ofNat 64 0 := by simp
  refine ⟨⟨?_, ?_, ?_⟩, ?_, trivial, trivial, ?_⟩
  · rw [g0, rd_wr_disj, rd_wr_disj, rd_wr_disj, rd_wr_same _ _ _ _ (by omega), Nat.mod_eq_of_lt (by omega)]
    all_goals rw [← g0]; first
      | exact (by have := field_disj L 0 4 4 4 (by omega) (by omega) (by omega); rwa [← g0] at this)
      | exact (by have := field_disj L 0 4 8 8 (by omega) (by omega) (by omega); rwa [← g0] at this)
      | exact (by have := field_disj L 0 4 16 8 (by omega) (by omega) (by omega); rwa [← g0] at this)
  · show rd _ (L + BitVec.ofNat 64 8) 8 = _
    rw [rd_wr_disj (field_disj L 8 8 16 8 (by omega) (by omega) (by omega)), rd_wr_same _ _ _ _ (by omega)]
    exact Nat.mod_eq_of_lt (BitVec.isLt _)
  · show rd _ (L + BitVec.ofNat 64 16) 8 = _
    rw [rd_wr_same _ _ _ _ (by omega)]
    exact Nat.mod_eq_of_lt (BitVec.isLt _)
  · show rd _ (L + BitVec.ofNat 64 4) 4 = _
    rw [rd_wr_disj (field_disj L 4 4 16 8 (by omega) (by omega) (by omega)),
      rd_wr_disj (field_disj L 4 4 8 8 (by omega) (by omega) (by omega)), rd_wr_same _ _ _ _ (by omega)]
  · intro x hx
    have key : ∀ (m : BitVec 64 → BitVec 8) (o n v : Nat), o + n ≤ 24 → wr m (L + BitVec.ofNat 64 o) n v x = m x := by
      intro m o n v h
      refine wr_out _ _ _ _ _ fun i hi => ?_
      rw [add_off]
      exact hx _ (by omega)
    rw [key _ 16 8 _ (by omega), key _ 8 8 _ (by omega), key _ 4 4 _ (by omega)]
    have := key s.mem 0 4 gp (by omega)
    rw [← g0] at this
    exact this

example : At (fun _ => 0) 0x2000 0 0 ⟨0, 0⟩ := ⟨by decide, by decide, by decide⟩

/-- C81 without `fp_offset`. -/
theorem va_list_partial (F : FP) (va : Slot) (gp over pos : Nat) (s : State) (hva : va.size = 8) (hg : gp ≤ 6) :
    ∃ c s', vaStart va (8 * gp) (over + 16) pos = .ok c ∧ run F c s = .ok s' ∧
      At s'.mem (target s va) (s.reg .rbp - BitVec.ofNat 64 pos) (s.reg .rbp + 16) ⟨8 * gp, over⟩ := by
  obtain ⟨c, s', h1, h2, h3, _⟩ := va_start_code F va hva (8 * gp) over pos (by omega) s
  exact ⟨c, s', h1, h2, h3⟩

example : (⟨8, 16⟩ : Slot).size = 8 ∧ (2 : Nat) ≤ 6 := by decide

/-- C81 is wrong for `fp_offset`, which is 0 in every `va_list` (and the vector registers are
never saved): a `va_list` handed to `vprintf` makes it read doubles from the saved integer
registers. -/
theorem va_list_violated : ¬ AbiVaList vaStart := by
  intro h
  let F : FP := ⟨fun a _ => a, fun a _ => a, fun a _ => a, fun a _ => a, fun a _ => a, fun a _ => a,
    fun a _ => a, fun a _ => a, fun a => a.setWidth 64, fun a => a.setWidth 32⟩
  obtain ⟨c, s', h1, h2, _, h3⟩ := h F ⟨8, 16⟩ 1 0 0 400 someState rfl (by decide) (by decide)
  obtain ⟨c', s'', k1, k2, _, k3, _⟩ := va_start_code F ⟨8, 16⟩ rfl 8 0 400 (by decide) someState
  have h1' : vaStart ⟨8, 16⟩ 8 (0 + 16) 400 = .ok c := h1
  rw [h1'] at k1
  cases k1
  rw [h2] at k2
  cases k2
  rw [h3] at k3
  cases k3

/-- `va_arg` of a floating type is not implemented: the compiler stops. -/
theorem va_arg_double_violated (dst va : Slot) (hd : va.size = 8) (stack fetch : Nat) :
    vaArg ⟨8, 8, [.sse]⟩ dst va stack fetch = .fail := by
  obtain ⟨c, e, _⟩ := run_load ⟨fun a _ => a, fun a _ => a, fun a _ => a, fun a _ => a, fun a _ => a, fun a _ => a,
    fun a _ => a, fun a _ => a, fun a => a.setWidth 64, fun a => a.setWidth 32⟩ va .rdi (by rw [hd]; simp [ScalarSize])
  rw [vaArg, e]
  rfl

end Verif.VaArg
