import Verif.ConventionLemmas
/-!
Properties of parameter passing (C41, C79).
-/
namespace Verif.Convention
open Verif Asm ConventionSpec
open Verif.Classify (Class)
open Verif.Call (Dest)

theorem retParts_ok (cs : List Class) (h : ∀ c ∈ cs, c = .integer ∨ c = .sse) (hl : cs.length ≤ 2) :
    ∃ rr, retParts 0 0 cs = .ok rr := by
  match cs, h, hl with
  | [], _, _ => exact ⟨_, rfl⟩
  | [a], h, _ =>
    rcases h a (by simp) with rfl | rfl <;> exact ⟨_, rfl⟩
  | [a, b], h, _ =>
    rcases h a (by simp) with rfl | rfl <;> rcases h b (by simp) with rfl | rfl <;> exact ⟨_, rfl⟩
  | _ :: _ :: _ :: _, _, hl => simp at hl

/-- The convention for valid types. -/
theorem convention (ret : Option Ty) (args : List Ty) (hr : ∀ t, ret = some t → ConventionSpec.Valid t)
    (hv : ∀ t ∈ args, ConventionSpec.Valid t) :
    ∃ c, getConvention ret args = .ok c ∧
      c.regs = (if hidden ret then [⟨.gpr .rdi, none, 8⟩] else []) ++ regsOf 0 args (locations ret args) ∧
      c.stack = stackIdx 0 (locations ret args) ∧ c.returnsAddress = hidden ret := by
  obtain ⟨c, h1, h2, h3, h4, _⟩ := getConvention_eq ret args hr (by
    intro t ht hm
    rcases hr t ht with h | ⟨_, hc, hl, hs⟩
    · exact absurd h hm
    · exact retParts_ok t.classes hc (by omega)) hv
  exact ⟨c, h1, h2, h3, h4⟩

/-- C41, the convention, when no argument needs more than 8-byte alignment. -/
theorem follows_abi_partial (ret : Option Ty) (args : List Ty) (hr : ∀ t, ret = some t → ConventionSpec.Valid t)
    (hv : ∀ t ∈ args, ConventionSpec.Valid t) (ha : ∀ t ∈ args, t.align ≤ 8) :
    ∃ c, getConvention ret args = .ok c ∧
      c.regs = (if hidden ret then [⟨.gpr .rdi, none, 8⟩] else []) ++ regsOf 0 args (locations ret args) ∧
      stackOffsets args 0 c.stack = memOf 0 (locations ret args) := by
  obtain ⟨c, h1, h2, h3, _⟩ := convention ret args hr hv
  refine ⟨c, h1, h2, ?_⟩
  rw [h3]
  exact stackOffsets_eq args args ha 0 _ _ 0 (by simp) rfl

/-- C41: a register is used for at most one eightbyte. -/
theorem registers_once (ret : Option Ty) (args : List Ty) (hr : ∀ t, ret = some t → ConventionSpec.Valid t)
    (hv : ∀ t ∈ args, ConventionSpec.Valid t) :
    ∃ c, getConvention ret args = .ok c ∧ (c.regs.map (·.reg)).Nodup := by
  obtain ⟨c, h1, h2, _⟩ := convention ret args hr hv
  refine ⟨c, h1, ?_⟩
  rw [h2]
  by_cases hh : hidden ret = true
  · have := regsOf_nodup args 0 (intRegs.drop 1) sseRegs 0 (by decide)
    simp only [hh, if_true, List.map_append, List.map_cons, List.map_nil, List.singleton_append, List.nodup_cons, locations]
    refine ⟨fun hm => ?_, this.1⟩
    exact absurd (this.2 _ hm) (by decide)
  · have := regsOf_nodup args 0 intRegs sseRegs 0 (by decide)
    simpa [hh, locations] using this.1

/-! Alignment has no influence on the code. -/

/-- Alignment forgotten. -/
def flat (t : Ty) : Ty := { t with align := 8 }

theorem argLoop_flat (ts : List Ty) : ∀ gp sse i, argLoop gp sse i (ts.map flat) = argLoop gp sse i ts := by
  induction ts with
  | nil => intros; rfl
  | cons t ts ih => intro gp sse i; simp only [List.map_cons, argLoop, ih, flat]

theorem getConvention_flat (ret : Option Ty) (ts : List Ty) : getConvention ret (ts.map flat) = getConvention ret ts := by
  simp only [getConvention, argLoop_flat]

theorem size_flat (ts : List Ty) (i : Nat) : ((ts.map flat)[i]?.map (·.size)).getD 0 = (ts[i]?.map (·.size)).getD 0 := by
  rw [List.getElem?_map]
  cases ts[i]? <;> rfl

theorem stackOffsets_flat (ts : List Ty) (l : List Nat) : ∀ off,
    stackOffsets (ts.map flat) off l = stackOffsets ts off l := by
  induction l with
  | nil => intros; rfl
  | cons a l ih => intro off; simp only [stackOffsets, size_flat, ih]

theorem putStack_flat (ts : List Ty) : putStack (ts.map flat) = putStack ts := by
  funext vals p x
  simp only [putStack, size_flat]

theorem takeStack_flat (ts : List Ty) : takeStack (ts.map flat) = takeStack ts := by
  funext p o x i k
  simp only [takeStack, size_flat]

theorem valid_flat (ts : List Ty) (hv : ∀ t ∈ ts, ConventionSpec.Valid t) : ∀ t ∈ ts.map flat, ConventionSpec.Valid t := by
  intro t ht
  obtain ⟨u, hu, rfl⟩ := List.mem_map.1 ht
  exact hv u hu

/-- C41: arguments on the stack have disjoint bytes, all inside the area the caller reserves. -/
theorem stack_disjoint (ret : Option Ty) (args : List Ty) (hr : ∀ t, ret = some t → ConventionSpec.Valid t)
    (hv : ∀ t ∈ args, ConventionSpec.Valid t) :
    ∃ c, getConvention ret args = .ok c ∧
      (stackOffsets args 0 c.stack).Pairwise (fun a b => a.1 < b.1 ∧ a.2 + ConventionSpec.sizeOf args a.1 ≤ b.2) ∧
      (∀ x ∈ stackOffsets args 0 c.stack, x.2 % 8 = 0 ∧ x.2 + ConventionSpec.sizeOf args x.1 ≤ stackArea args c.stack) ∧
      stackArea args c.stack % 16 = 0 := by
  obtain ⟨c, h1, _, h3⟩ := follows_abi_partial ret (args.map flat) hr (valid_flat args hv) (by
    intro t ht
    obtain ⟨u, _, rfl⟩ := List.mem_map.1 ht
    exact Nat.le_refl 8)
  rw [stackOffsets_flat] at h3
  rw [getConvention_flat] at h1
  refine ⟨c, h1, ?_, ?_, ?_⟩
  · rw [h3]
    have := (memOf_disjoint (args.map flat) (args.map flat) 0 (if hidden ret then intRegs.drop 1 else intRegs) sseRegs 0 (by simp)).1
    simpa only [ConventionSpec.sizeOf, size_flat, locations] using this
  · have key : ∀ (l : List Nat) off, off % 8 = 0 → ∀ x ∈ stackOffsets args off l, x.2 % 8 = 0 ∧
        x.2 + ConventionSpec.sizeOf args x.1 ≤ off + (l.map fun i => round ((args[i]?.map (·.size)).getD 0) 8).sum := by
      intro l
      induction l with
      | nil => intro off _ x hx; cases hx
      | cons a l ih =>
        intro off ho x hx
        have hle := up_le ((args[a]?.map (·.size)).getD 0) 8 (by omega)
        have hmod := up_mod ((args[a]?.map (·.size)).getD 0) 8
        simp only [stackOffsets, List.mem_cons] at hx
        rw [List.map_cons, List.sum_cons]
        rw [round_eq _ 8 (by omega)] at hx ⊢
        rcases hx with rfl | hx
        · refine ⟨ho, ?_⟩
          simp only [ConventionSpec.sizeOf]
          omega
        · have := ih _ (by omega) x hx
          omega
    intro x hx
    have h := key c.stack 0 rfl x hx
    refine ⟨h.1, ?_⟩
    have := up_le ((c.stack.map fun i => round ((args[i]?.map (·.size)).getD 0) 8).sum) 16 (by omega)
    rw [stackArea, round_eq _ 16 (by omega)]
    omega
  · rw [stackArea, round_eq _ 16 (by omega)]
    exact up_mod _ 16

/-- Number of registers a call needs. -/
def registers (ret : Option Ty) (args : List Ty) : Nat :=
  (if hidden ret then 1 else 0) + (regsOf 0 args (locations ret args)).length

/-- The transfer for arguments that need at most 8-byte alignment. -/
theorem transfer_flat (ret : Option Ty) (args : List Ty) (hr : ∀ t, ret = some t → ConventionSpec.Valid t)
    (hv : ∀ t ∈ args, ConventionSpec.Valid t) (ha : ∀ t ∈ args, t.align ≤ 8) (hn : registers ret args ≤ 6) :
    Transfers send receive receiveHidden ret args := by
  intro vals ptr p
  obtain ⟨c, h1, h2, h3, h4⟩ := convention ret args hr hv
  obtain ⟨c', h1', h5⟩ := registers_once ret args hr hv
  rw [h1] at h1'; cases h1'
  have h6 : stackOffsets args 0 c.stack = memOf 0 (locations ret args) := by
    rw [h3]
    exact stackOffsets_eq args args ha 0 _ _ 0 (by simp) rfl
  have hlen : ¬ c.regs.length > 6 := by
    rw [h2]
    unfold registers at hn
    by_cases hh : hidden ret = true
    · simp only [hh, if_true, List.length_append, List.length_singleton] at hn ⊢; omega
    · simp only [hh, Bool.false_eq_true, if_false, List.nil_append] at hn ⊢; omega
  have hd := (memOf_disjoint args args 0 (if hidden ret then intRegs.drop 1 else intRegs) sseRegs 0 (by simp)).1
  generalize hp' : c.regs.foldr (fun r p => setReg vals ptr p r)
    ((stackOffsets args 0 c.stack).foldr (fun x p => putStack args vals p x) p) = p'
  have hstack : ∀ x ∈ memOf 0 (locations ret args), ∀ k, k < ConventionSpec.sizeOf args x.1 → p'.stack (x.2 + k) = vals x.1 k := by
    intro x hx k hk
    rw [← hp', setReg_stack, h6]
    exact putStack_val args vals _ p hd x hx k hk
  have hregs : ∀ r ∈ c.regs, ∀ k, k < r.size → p'.reg r.reg k = partVal vals ptr r k := by
    intro r hr k hk
    rw [← hp']
    exact setReg_val vals ptr c.regs _ h5 r hr k hk
  refine ⟨p', c.regs.foldl (takeReg p') ((stackOffsets args 0 c.stack).foldl (takeStack args p') fun _ _ => none),
    if hidden ret then some (p'.reg (.gpr .rdi)) else none, ?_, ?_, ?_, ?_, ?_⟩
  · unfold send
    rw [h1, Res.bind_ok, if_neg hlen]
    exact congrArg Res.ok hp'
  · unfold receive
    rw [h1, Res.bind_ok, if_neg hlen]
  · unfold receiveHidden
    rw [h1, Res.bind_ok, if_neg hlen, h4]
    by_cases hh : hidden ret = true
    · simp [hh, h2]
    · simp [hh]
  · intro i k hk
    have hi : i < args.length := by
      refine Decidable.byContradiction fun h => ?_
      rw [ConventionSpec.sizeOf, List.getElem?_eq_none (by omega)] at hk
      simp at hk
    refine takeReg_val vals ptr p' c.regs hregs i k _ ?_
    rcases cover args args hv 0 (if hidden ret then intRegs.drop 1 else intRegs) sseRegs 0 (by simp) i k (by omega) (by omega) hk with h | ⟨r, hr, x⟩
    · left
      refine takeStack_val args vals p' _ ?_ i k _ (.inr ⟨?_, hk⟩)
      · rw [h6]; exact hstack
      · rw [h6]; exact h
    · right
      exact ⟨r, by rw [h2]; exact List.mem_append.2 (.inr hr), x⟩
  · by_cases hh : hidden ret = true
    · rw [if_pos hh, if_pos hh]
      refine ⟨_, rfl, fun k hk => ?_⟩
      have hm : (⟨.gpr .rdi, none, 8⟩ : RegInfo) ∈ c.regs := by rw [h2, hh]; simp
      exact hregs _ hm k hk
    · rw [if_neg hh, if_neg hh]

/-- C41, the transfer, for calls with at most six registers of both kinds together. -/
theorem transfer_partial (ret : Option Ty) (args : List Ty) (hr : ∀ t, ret = some t → ConventionSpec.Valid t)
    (hv : ∀ t ∈ args, ConventionSpec.Valid t) (hn : registers ret args ≤ 6) :
    Transfers send receive receiveHidden ret args := by
  have hsend : send ret (args.map flat) = send ret args := by
    funext vals ptr p
    simp only [send, getConvention_flat, stackOffsets_flat, putStack_flat]
  have hrec : receive ret (args.map flat) = receive ret args := by
    funext p
    simp only [receive, getConvention_flat, stackOffsets_flat, takeStack_flat]
  have hhid : receiveHidden ret (args.map flat) = receiveHidden ret args := by
    funext p
    simp only [receiveHidden, getConvention_flat]
  have hn' : registers ret (args.map flat) ≤ 6 := by
    obtain ⟨c, e1, e2, _⟩ := convention ret args hr hv
    obtain ⟨c', e1', e2', _⟩ := convention ret (args.map flat) hr (valid_flat args hv)
    rw [getConvention_flat, e1] at e1'
    cases e1'
    rw [e2] at e2'
    have := congrArg List.length (List.append_cancel_left e2')
    unfold registers at hn ⊢
    omega
  have := transfer_flat ret (args.map flat) hr (valid_flat args hv) (by
    intro t ht
    obtain ⟨u, _, rfl⟩ := List.mem_map.1 ht
    exact Nat.le_refl 8) hn'
  intro vals ptr p
  obtain ⟨p', o, h, x1, x2, x3, x4, x5⟩ := this vals ptr p
  rw [hsend] at x1
  rw [hrec] at x2
  rw [hhid] at x3
  refine ⟨p', o, h, x1, x2, x3, fun i k hk => x4 i k ?_, x5⟩
  simpa only [ConventionSpec.sizeOf, size_flat] using hk

/-- A call with a hidden pointer, `struct { long a; double b; }` (as INTEGER, SSE), a 24-byte
structure on the stack, a 12-byte structure, an `int` that does not find a register any more. -/
example : (∀ t ∈ [(⟨16, 8, [.integer, .sse]⟩ : Ty), ⟨24, 8, [.memory]⟩, ⟨12, 4, [.integer, .integer]⟩,
      ⟨8, 8, [.integer]⟩, ⟨16, 8, [.integer, .integer]⟩], ConventionSpec.Valid t) ∧
    registers (some ⟨40, 8, [.memory]⟩) [⟨16, 8, [.integer, .sse]⟩, ⟨24, 8, [.memory]⟩, ⟨12, 4, [.integer, .integer]⟩,
      ⟨8, 8, [.integer]⟩, ⟨16, 8, [.integer, .integer]⟩] = 6 ∧
    locations (some ⟨40, 8, [.memory]⟩) [⟨16, 8, [.integer, .sse]⟩, ⟨24, 8, [.memory]⟩, ⟨12, 4, [.integer, .integer]⟩,
      ⟨8, 8, [.integer]⟩, ⟨16, 8, [.integer, .integer]⟩] =
      [.regs [.gpr .rsi, .sse 0], .mem 0, .regs [.gpr .rdx, .gpr .rcx], .regs [.gpr .r8], .mem 24] := by
  refine ⟨?_, by decide, by decide⟩
  intro t ht
  simp only [List.mem_cons, List.not_mem_nil, or_false] at ht
  rcases ht with rfl | rfl | rfl | rfl | rfl <;> simp [ConventionSpec.Valid]

theorem double_valid : ConventionSpec.Valid ⟨8, 8, [.sse]⟩ := by simp [ConventionSpec.Valid]

/-- C41 fails for a call with seven `double` arguments: both caller and callee write the
seventh register past the end of an array of six. -/
theorem transfer_violated : ¬ ∀ ret args, (∀ t, ret = some t → ConventionSpec.Valid t) →
    (∀ t ∈ args, ConventionSpec.Valid t) → Transfers send receive receiveHidden ret args := by
  intro h
  obtain ⟨p', o, x, h1, _⟩ := h none (List.replicate 7 ⟨8, 8, [.sse]⟩) (by simp)
    (by intro t ht; rw [List.eq_of_mem_replicate ht]; exact double_valid)
    (fun _ _ => 0) (fun _ => 0) ⟨fun _ _ => 0, fun _ => 0⟩
  have : send none (List.replicate 7 ⟨8, 8, [.sse]⟩) (fun _ _ => 0) (fun _ => 0) ⟨fun _ _ => 0, fun _ => 0⟩ = .ub := by rfl
  rw [this] at h1
  cases h1

/-- C41 fails for over-aligned arguments: a 32-byte structure with 16-byte alignment after a
24-byte one is passed at offset 24 instead of 32. -/
theorem follows_abi_violated : ¬ FollowsAbi getConvention stackOffsets := by
  intro h
  obtain ⟨c, h1, _, h3⟩ := h none [⟨24, 8, [.memory]⟩, ⟨32, 16, [.memory]⟩] (by simp)
    (by intro t ht; simp at ht; rcases ht with rfl | rfl <;> exact .inl rfl)
  have : getConvention none [⟨24, 8, [.memory]⟩, ⟨32, 16, [.memory]⟩] = .ok ⟨[], [], [0, 1], false, 0, 0⟩ := by rfl
  rw [this] at h1
  cases h1
  exact absurd h3 (by decide)

/-- Registers of the result are those of its classes. -/
theorem conv_ret (t : Ty) (args : List Ty) (c : CallInfo) (h : getConvention (some t) args = .ok c) :
    (∃ cs, t.classes = .memory :: cs ∧ c.returnsAddress = true ∧ c.retRegs = []) ∨
    (c.returnsAddress = false ∧ retParts 0 0 t.classes = .ok c.retRegs ∧ t.classes ≠ [.memory]) := by
  unfold getConvention at h
  cases hc : t.classes with
  | nil => simp [hc, Res.bind_ub] at h
  | cons a cs =>
    simp only [hc] at h
    by_cases ha : a = .memory
    · subst ha
      simp only [if_true, Res.bind_ok] at h
      cases hl : argLoop 1 0 0 args with
      | ok x => rw [hl] at h; cases h; exact .inl ⟨cs, rfl, rfl, rfl⟩
      | fail => rw [hl] at h; cases h
      | ub => rw [hl] at h; cases h
    · simp only [ha, if_false] at h
      cases hr : retParts 0 0 (a :: cs) with
      | ok x =>
        rw [hr] at h
        simp only [Res.bind_ok, Res.pure_eq, Bool.false_eq_true, if_false] at h
        cases hl : argLoop 0 0 0 args with
        | ok y => rw [hl] at h; cases h; exact .inr ⟨rfl, rfl, fun he => ha (by cases he; rfl)⟩
        | fail => rw [hl] at h; cases h
        | ub => rw [hl] at h; cases h
      | fail => rw [hr] at h; cases h
      | ub => rw [hr] at h; cases h

/-- C79 for results in memory, in one register, or of exactly 16 bytes in two integer
registers. -/
theorem returns_partial (t : Ty) (h : t.classes = [.memory] ∨ (t.size ≤ 8 ∧ (t.classes = [.integer] ∨ t.classes = [.sse])) ∨
    (t.size = 16 ∧ t.classes = [.integer, .integer])) : Returns getConvention giveResult takeResult t := by
  intro args c v p hc
  rcases h with hm | ⟨hs, hi | hi⟩ | ⟨hs, hi⟩
  · rcases conv_ret t args c hc with ⟨cs, _, h2, h3⟩ | ⟨_, h2⟩
    · refine ⟨_, _, by unfold giveResult; rw [hm], by unfold takeResult; rw [h3, h2]; rfl, ?_, ?_⟩
      · intro k hk; simp [hk]
      · intro k hk; simp [Nat.not_lt.2 hk]
    · exact absurd hm h2.2
  · rcases conv_ret t args c hc with ⟨cs, h1, _⟩ | ⟨h1, h2, _⟩
    · rw [hi] at h1; cases h1
    · rw [hi] at h2
      injection h2 with h2
      refine ⟨_, _, by unfold giveResult; rw [hi], by unfold takeResult; rw [h1, ← h2]; rfl, ?_, ?_⟩
      · intro k hk; simp [hk]
      · intro k hk; simp [Nat.not_lt.2 hk]
  · rcases conv_ret t args c hc with ⟨cs, h1, _⟩ | ⟨h1, h2, _⟩
    · rw [hi] at h1; cases h1
    · rw [hi] at h2
      injection h2 with h2
      refine ⟨_, _, by unfold giveResult; rw [hi], by unfold takeResult; rw [h1, ← h2]; rfl, ?_, ?_⟩
      · intro k hk; simp [hk]
      · intro k hk; simp [Nat.not_lt.2 hk]
  · rcases conv_ret t args c hc with ⟨cs, h1, _⟩ | ⟨h1, h2, _⟩
    · rw [hi] at h1; cases h1
    · rw [hi] at h2
      injection h2 with h2
      refine ⟨_, _, by unfold giveResult; rw [hi], by unfold takeResult; rw [h1, ← h2]; rfl, ?_, ?_⟩
      · intro k hk
        by_cases h8 : 8 ≤ k
        · have : k - 8 < 8 := by omega
          simp [h8, show k < 16 by omega, this, show 8 + (k - 8) = k by omega]
        · simp [h8, show k < 8 by omega]
      · intro k hk
        simp [show ¬ k < 16 by omega, show ¬ k < 8 by omega]

example : ∃ t : Ty, t.size = 16 ∧ t.classes = [.integer, .integer] ∧
    ∃ c, getConvention (some t) [⟨24, 8, [.memory]⟩, ⟨8, 8, [.sse]⟩] = .ok c := ⟨⟨16, 8, [.integer, .integer]⟩, rfl, rfl, _, rfl⟩

/-- C79 fails for `struct { int a; double b; }`: the callee leaves `b` in `%rdx`, the caller
takes it from `%xmm0`. -/
theorem returns_violated : ¬ ∀ t, ConventionSpec.Valid t → Returns getConvention giveResult takeResult t := by
  intro h
  obtain ⟨r, o, h1, h2, h3, _⟩ := h ⟨16, 8, [.integer, .sse]⟩ (by simp [ConventionSpec.Valid]) [] _ (fun _ => 1) ⟨fun _ _ => 0, fun _ => 0⟩ rfl
  cases h1
  cases h2
  have := h3 8 (by decide)
  exact absurd this (by decide)

/-- C79 fails for `struct { int a, b, c; }`: the caller writes 16 bytes into its 12-byte
object. -/
theorem returns_overrun_violated : ∃ t, ConventionSpec.Valid t ∧ ∃ c v p r o, getConvention (some t) [] = .ok c ∧
    giveResult t v p = .ok r ∧ takeResult c t r p.obj = .ok o ∧ o t.size ≠ p.obj t.size :=
  ⟨⟨12, 4, [.integer, .integer]⟩, by simp [ConventionSpec.Valid], _, (fun _ => 1), ⟨fun _ _ => 0, fun _ => 0⟩, _, _, rfl, rfl, rfl, by decide⟩

/-- C79 fails for `struct { double a, b; }`: returning it is not implemented. -/
theorem returns_sse_violated : ∃ t, ConventionSpec.Valid t ∧ ∀ v p, giveResult t v p = .fail :=
  ⟨⟨16, 8, [.sse, .sse]⟩, by simp [ConventionSpec.Valid], fun _ _ => rfl⟩

/-- The hidden pointer is not handed back in `%rax`. -/
theorem returns_pointer_violated : ¬ ReturnsPointer giveResult := by
  intro h
  obtain ⟨r, h1, h2⟩ := h ⟨24, 8, [.memory]⟩ (fun _ => 0) (fun _ => 1) ⟨fun d _ => if d = .gpr .rdi then 1 else 0, fun _ => 0⟩ rfl
    (by intro k _; simp)
  cases h1
  exact absurd (h2 0 (by decide)) (by decide)

end Verif.Convention
