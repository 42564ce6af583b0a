import Verif.FuncFrame
/-!
Lemmas about the code of functions: the return, and that there is code for every function.
-/
namespace Verif.FuncCode
open Verif Asm X86 Codegen CodegenSpec Memory MemorySpec FuncSpec
open Verif.Call (Dest)
open Verif.CallSpec (regVal)
open Verif.Frame (prologue epilogue)

/-! ### Code for every function -/

theorem scalar_ok (v : Slot) (r : Reg) (h : Scalar v.size) : ∃ c, scalarToReg v r = .ok c := by
  rcases h with h | h | h | h <;> simp [scalarToReg, h]

theorem setRegs_ok (l : List (Dest × Slot)) (h : ∀ a ∈ l, match a.1 with | .gpr _ => Scalar a.2.size | .sse _ => True) :
    ∃ c, Call.setRegs l = .ok c := by
  induction l with
  | nil => exact ⟨[], rfl⟩
  | cons a l ih =>
    obtain ⟨c, e⟩ := ih fun b hb => h b (List.mem_cons_of_mem _ hb)
    obtain ⟨d, v⟩ := a
    have hv := h (d, v) (by simp)
    cases d with
    | sse i => exact ⟨_, by rw [Call.setRegs, e]; rfl⟩
    | gpr r =>
      obtain ⟨c', e'⟩ := scalar_ok v r hv
      exact ⟨_, by rw [Call.setRegs, e', Res.bind_ok, e]; rfl⟩

theorem regs_ok {f : Func} {used : List Reg} {l : List (Dest × Nat)} (h : RegsOk (size f) used l) :
    ∃ c, Call.setRegs (regArgs f.slot l) = .ok c := by
  refine setRegs_ok _ fun a ha => ?_
  obtain ⟨r, hr, rfl⟩ := List.mem_map.1 ha
  have := h.2 r hr
  obtain ⟨d, v⟩ := r
  cases d with
  | gpr g => simp only [slot_size]; exact this.2
  | sse i => trivial

theorem instruction_ok {f : Func} {n : Node} (hn : Here f n) : ∃ c, instruction f.slot f.object n = .ok c := by
  obtain ⟨hm, hsz, hok⟩ := hn
  have hss := slot_size f
  have s8 : ∀ {p}, size f p = 8 → ∀ r, ∃ c, scalarToReg (f.slot p) r = .ok c := fun h r =>
    scalar_ok _ _ (by rw [hss, h]; exact .inr (.inr (.inr rfl)))
  have sc : ∀ {p}, Scalar (size f p) → ∀ r, ∃ c, scalarToReg (f.slot p) r = .ok c := fun h r =>
    scalar_ok _ _ (by rw [hss]; exact h)
  have fl : ∀ {k}, Flt k → Scalar k := fun h => .inr (.inr h)
  unfold NodeOk at hok
  unfold instruction
  cases hk : n.kind with
  | bin op a b out =>
    rw [hk] at hok
    obtain ⟨h1, h2, h3⟩ := hok
    obtain ⟨c1, e1⟩ := sc (show Scalar (size f a) from .inr (.inr h1)) .rax
    obtain ⟨c2, e2⟩ := sc h2 .rcx
    simp only [codegenBinary, e1, e2, Res.bind_ok, hss]
    rw [if_pos h1]
    exact ⟨_, rfl⟩
  | const v =>
    rw [hk] at hok
    have : (f.slot n.num).size = n.size := by rw [hss, hsz]
    simp only [constantCode, this]
    rcases hok with h | h | h | h <;> rw [h] <;> exact ⟨_, rfl⟩
  | label l o => exact ⟨_, rfl⟩
  | bnot a =>
    rw [hk] at hok
    obtain ⟨c, e⟩ := sc (p := a) (by rw [hok.2]; exact hok.1) .rax
    simp only [codegenUnaryInt, e]; exact ⟨_, rfl⟩
  | neg a =>
    rw [hk] at hok
    obtain ⟨c, e⟩ := sc (p := a) (by rw [hok.2]; exact hok.1) .rax
    simp only [codegenUnaryInt, e]; exact ⟨_, rfl⟩
  | negFloat a =>
    rw [hk] at hok
    obtain ⟨c, e⟩ := sc (p := a) (by rw [hok.2]; exact fl hok.1) .rax
    have h2 : (f.slot n.num).size = n.size := by rw [hss, hsz]
    simp only [codegenNegFloat, e, h2]
    rcases hok.1 with h | h <;> rw [h] <;> exact ⟨_, rfl⟩
  | castFloat a =>
    rw [hk] at hok
    obtain ⟨c, e⟩ := sc (p := a) (fl hok.2) .rax
    have h2 : (f.slot n.num).size = n.size := by rw [hss, hsz]
    simp only [Cast.floatCast, e, h2, hss]
    rcases hok.1 with h | h <;> rcases hok.2 with h' | h' <;> rw [h, h'] <;> exact ⟨_, rfl⟩
  | intFloat a =>
    rw [hk] at hok
    obtain ⟨c, e⟩ := sc (p := a) hok.2 .rax
    have h2 : (f.slot n.num).size = n.size := by rw [hss, hsz]
    simp only [Cast.intFloatCast, e, h2]
    rcases hok.1 with h | h <;> rw [h] <;> exact ⟨_, rfl⟩
  | uintFloat a =>
    rw [hk] at hok
    obtain ⟨c, e⟩ := sc (p := a) hok.2 .rax
    have h2 : (f.slot n.num).size = n.size := by rw [hss, hsz]
    simp only [Cast.uintFloatCast, e, h2]
    rcases hok.1 with h | h <;> rw [h] <;> exact ⟨_, rfl⟩
  | floatInt a =>
    rw [hk] at hok
    obtain ⟨c, e⟩ := sc (p := a) (fl hok.2) .rax
    simp only [Cast.floatIntCast, e]
    exact ⟨_, rfl⟩
  | call cf ch st rg ou =>
    rw [hk] at hok
    obtain ⟨rfl, rfl, h8, hr, -⟩ := hok
    obtain ⟨c1, e1⟩ := regs_ok hr
    obtain ⟨c2, e2⟩ := s8 h8 Call.calleeReg
    simp only [Call.call, Call.before, Call.stackStores, List.map_nil, Res.bind_ok, e1, e2]
    exact ⟨_, rfl⟩
  | load p =>
    rw [hk] at hok
    obtain ⟨c, e⟩ := s8 hok .rdi
    simp only [load, e]; exact ⟨_, rfl⟩
  | loadVolatile p out =>
    rw [hk] at hok
    obtain ⟨c, e⟩ := s8 hok .rdi
    simp only [load, e]; exact ⟨_, rfl⟩
  | loadPart p off out =>
    rw [hk] at hok
    obtain ⟨c, e⟩ := s8 hok.1 .rdi
    simp only [loadPart, e]; exact ⟨_, rfl⟩
  | store p v =>
    rw [hk] at hok
    obtain ⟨c, e⟩ := s8 hok .rsi
    simp only [store, e]; exact ⟨_, rfl⟩
  | storePart p v off =>
    rw [hk] at hok
    obtain ⟨c, e⟩ := s8 hok.1 .rsi
    simp only [storePart, e]; exact ⟨_, rfl⟩
  | castZero a =>
    rw [hk] at hok
    obtain ⟨c, e⟩ := sc hok.2 .rax
    simp only [Cast.zeroCast, e]; exact ⟨_, rfl⟩
  | castSign a =>
    rw [hk] at hok
    obtain ⟨c, e⟩ := sc hok.2 .rax
    simp only [Cast.signCast, e]; exact ⟨_, rfl⟩
  | castBool a =>
    rw [hk] at hok
    obtain ⟨c, e⟩ := sc hok.2 .rax
    simp only [Cast.boolCast, e]; exact ⟨_, rfl⟩
  | setZero p k =>
    rw [hk] at hok
    obtain ⟨c, e⟩ := s8 hok.1 .rdi
    simp only [setZeroPtr, e]; exact ⟨_, rfl⟩
  | undef => exact ⟨_, rfl⟩
  | alloc k al => exact ⟨_, rfl⟩
  | copy d p k =>
    rw [hk] at hok
    obtain ⟨c1, e1⟩ := s8 hok.1 .rsi
    obtain ⟨c2, e2⟩ := s8 hok.2.1 .rdi
    simp only [copyMemory, e1, e2, Res.bind_ok]; exact ⟨_, rfl⟩
  | loadBase off => exact ⟨_, rfl⟩
  | loadBaseAddress p off k =>
    rw [hk] at hok
    obtain ⟨c, e⟩ := s8 hok.1 .rsi
    simp only [loadBaseAddressCode, e]; exact ⟨_, rfl⟩
  | nothing => exact ⟨_, rfl⟩

theorem instructions_ok {f : Func} {ns : List Node} (h : ∀ n ∈ ns, Here f n) :
    ∃ c, instructions f.slot f.object ns = .ok c := by
  induction ns with
  | nil => exact ⟨[], rfl⟩
  | cons n ns ih =>
    obtain ⟨c1, e1⟩ := instruction_ok (h n (by simp))
    obtain ⟨c2, e2⟩ := ih fun m hm => h m (List.mem_cons_of_mem _ hm)
    exact ⟨_, by rw [instructions, e1, Res.bind_ok, e2]; rfl⟩

theorem copies_ok (f : Func) (cur a b : Nat) (l : List PhiNode) (hab : a ≠ b) (hc : cur = a ∨ cur = b)
    (hs : ∀ p ∈ l, ∀ v, (if cur = a then p.src.1 else if cur = b then p.src.2 else none) = some v →
      size f p.out = 0 ∨ Scalar (size f v)) :
    ∃ c, Phi.copies cur a b (l.map (toPhi f.slot)) = .ok c := by
  induction l with
  | nil => exact ⟨[], rfl⟩
  | cons p l ih =>
    obtain ⟨c, e⟩ := ih fun q hq => hs q (List.mem_cons_of_mem _ hq)
    have hp := hs p (by simp)
    rw [List.map_cons, Phi.copies]
    by_cases h0 : (f.slot p.out).size = 0
    · rw [if_pos (by simpa [toPhi] using h0)]; exact ⟨c, e⟩
    · rw [if_neg (by simpa [toPhi] using h0), e]
      rw [slot_size] at h0
      have hv : ∀ v, (if cur = a then p.src.1 else if cur = b then p.src.2 else none) = some v → ∃ c,
          scalarToReg (f.slot v) .rax = .ok c := by
        intro v hv
        exact scalar_ok _ _ (by rw [slot_size]; exact (hp v hv).resolve_left h0)
      rcases hc with rfl | rfl
      · simp only [if_true] at hv
        cases hq : p.src.1 with
        | none => exact ⟨c, by simp [toPhi, hq, Phi.source]⟩
        | some v =>
          obtain ⟨c', e'⟩ := hv v hq
          exact ⟨c' ++ regToScalar .rax (f.slot p.out) ++ c, by simp [toPhi, hq, Phi.source, e', pure]⟩
      · rw [if_neg hab.symm] at hv
        simp only [if_true] at hv
        cases hq : p.src.2 with
        | none => exact ⟨c, by simp [toPhi, hq, Phi.source, hab.symm]⟩
        | some v =>
          obtain ⟨c', e'⟩ := hv v hq
          exact ⟨c' ++ regToScalar .rax (f.slot p.out) ++ c, by simp [toPhi, hq, Phi.source, e', hab.symm, pure]⟩

theorem phi_ok {f : Func} {cur : Nat} {t : Block} (hj : JoinOk (size f) cur t) : ∃ c, phiCode f.slot cur t = .ok c := by
  rw [phiCode]
  cases hp : t.preds with
  | none => exact ⟨[], rfl⟩
  | some ab =>
    obtain ⟨a, b⟩ := ab
    obtain ⟨hab, hcur⟩ := hj.preds a b hp
    refine copies_ok f cur a b t.phis hab hcur fun p hpm v hv => ?_
    have := hj.same p hpm v (by rw [source, hp]; exact hv)
    rw [this]
    exact hj.scalar p hpm

theorem end_ok {f : Func} (h : FuncOk f) {b : Block} (hb : b ∈ f.blocks) (next : Option Nat) : ∃ c, endCode f b next = .ok c := by
  rw [endCode]
  cases hl : b.last with
  | dead => exact ⟨_, rfl⟩
  | ret regs =>
    obtain ⟨c, e⟩ := regs_ok (h.ret b hb regs hl)
    simp only [e]; exact ⟨_, rfl⟩
  | jump l =>
    obtain ⟨t, ht, hj⟩ := h.jump b hb l hl
    obtain ⟨c, e⟩ := phi_ok hj
    simp only [find_block h ht, e]; exact ⟨_, rfl⟩
  | branch c lt lf =>
    obtain ⟨hs, -⟩ := h.branch b hb c lt lf hl
    obtain ⟨c', e⟩ := scalar_ok (f.slot c) .rdi (by rw [slot_size]; exact hs)
    simp only [e]; exact ⟨_, rfl⟩

theorem blocks_ok {f : Func} (h : FuncOk f) {bs : List Block} (hb : ∀ b ∈ bs, b ∈ f.blocks) : ∃ c, blocks f bs = .ok c := by
  induction bs with
  | nil => exact ⟨[], rfl⟩
  | cons b bs ih =>
    obtain ⟨c1, e1⟩ := instructions_ok (here_of h (hb b (by simp)))
    obtain ⟨c2, e2⟩ := end_ok h (hb b (by simp)) (bs.head?.map (·.label))
    obtain ⟨c3, e3⟩ := ih fun b' h' => hb b' (List.mem_cons_of_mem _ h')
    exact ⟨_, by rw [blocks, block, e1, Res.bind_ok, e2, Res.bind_ok]; simp only [pure, Res.bind_ok, e3]; rfl⟩

theorem function_ok {f : Func} (h : FuncOk f) : ∃ c, blocks f f.blocks = .ok c ∧ function f =
    .ok (.label f.label :: (prologue f.layout ++ Call.getRegs (regArgs f.slot f.gets)).map .ins ++ c) := by
  obtain ⟨c, e⟩ := blocks_ok h (bs := f.blocks) fun _ h => h
  exact ⟨c, e, by rw [function, e]; rfl⟩

/-! ### The stack -/

theorem values_le (ns : List Node) (c : Nat) :
    (Verif.Frame.values c (ns.map (·.frame))).1 = c + (ns.map (·.size)).sum := by
  induction ns generalizing c with
  | nil => rfl
  | cons n ns ih =>
    rw [List.map_cons, Verif.Frame.values]
    have e : n.frame.size = n.size := rfl
    split
    · rename_i h
      simp only [ih, List.map_cons, List.sum_cons]
      omega
    · simp only [ih, List.map_cons, List.sum_cons]
      omega

theorem roundUp_le (c a : Nat) : Verif.Frame.roundUp c a ≤ c + a := by
  unfold Verif.Frame.roundUp
  split
  · omega
  · split <;> omega

/-- What an object takes. -/
def objects (g : Nat → Nat → Nat) (ns : List Node) : Nat :=
  (ns.map fun n => match n.kind with | .alloc k al => g k al | _ => 0).sum

theorem allocs_le (ns : List Node) (c al : Nat) :
    (Verif.Frame.allocs c al (ns.map (·.frame))).1 ≤ c + objects (· + ·) ns ∧
    (Verif.Frame.allocs c al (ns.map (·.frame))).2.1 ≤ max al (objects (fun _ a => a) ns) := by
  induction ns generalizing c al with
  | nil => exact ⟨Nat.le_refl _, Nat.le_max_left _ _⟩
  | cons n ns ih =>
    rw [List.map_cons, Verif.Frame.allocs]
    have e1 : objects (· + ·) (n :: ns) = (match n.kind with | .alloc k al => k + al | _ => 0) + objects (· + ·) ns := rfl
    have e2 : objects (fun _ a => a) (n :: ns) = (match n.kind with | .alloc _ al => al | _ => 0) + objects (fun _ a => a) ns := rfl
    rw [e1, e2]
    cases hk : n.kind with
    | alloc k a =>
      have : n.frame.kind = .alloc k a := by rw [Node.frame, hk]
      rw [this]
      have h := ih (Verif.Frame.roundUp (c + k) a) (max al a)
      have hr := roundUp_le (c + k) a
      dsimp only
      omega
    | _ =>
      have : n.frame.kind = .plain := by rw [Node.frame, hk]
      rw [this]
      have h := ih c al
      dsimp only
      omega

theorem vlas_zero (ns : List Node) : Verif.Frame.vlas (ns.map (·.frame)) = 0 := by
  rw [Verif.Frame.vlas, List.length_eq_zero_iff, List.filter_eq_nil_iff]
  intro a ha
  obtain ⟨n, -, rfl⟩ := List.mem_map.1 ha
  rw [Node.frame]
  cases n.kind <;> simp

theorem stack_enough (f : Func) : f.layout.frame + f.layout.align + 8 ≤ stack f := by
  have h1 := values_le f.nodes 0
  have h2 := allocs_le f.nodes ((Verif.Frame.values 0 (f.nodes.map (·.frame))).1 + Verif.Frame.vlas (f.nodes.map (·.frame)) * 8) 0
  have hal : f.layout.align = (Verif.Frame.allocs ((Verif.Frame.values 0 (f.nodes.map (·.frame))).1 +
    Verif.Frame.vlas (f.nodes.map (·.frame)) * 8) 0 (f.nodes.map (·.frame))).2.1 := rfl
  have hfr : f.layout.frame ≤ (Verif.Frame.allocs ((Verif.Frame.values 0 (f.nodes.map (·.frame))).1 +
    Verif.Frame.vlas (f.nodes.map (·.frame)) * 8) 0 (f.nodes.map (·.frame))).1 + 8 + 16 := by
    have : f.layout.frame = Verif.Frame.roundUp (if (Verif.Frame.allocs ((Verif.Frame.values 0 (f.nodes.map (·.frame))).1 +
      Verif.Frame.vlas (f.nodes.map (·.frame)) * 8) 0 (f.nodes.map (·.frame))).2.1 > 16 then
        (Verif.Frame.allocs ((Verif.Frame.values 0 (f.nodes.map (·.frame))).1 +
          Verif.Frame.vlas (f.nodes.map (·.frame)) * 8) 0 (f.nodes.map (·.frame))).1 + 0 + 8 else
        (Verif.Frame.allocs ((Verif.Frame.values 0 (f.nodes.map (·.frame))).1 +
          Verif.Frame.vlas (f.nodes.map (·.frame)) * 8) 0 (f.nodes.map (·.frame))).1 + 0) 16 := rfl
    rw [this]
    refine Nat.le_trans (roundUp_le _ _) ?_
    split <;> omega
  rw [h1, vlas_zero] at h2 hal hfr
  have hs : ∀ ns : List Node, (ns.map fun n => n.size + match n.kind with | .alloc k al => k + 2 * al | _ => 0).sum =
      (ns.map (·.size)).sum + objects (· + ·) ns + objects (fun _ a => a) ns := by
    intro ns
    induction ns with
    | nil => rfl
    | cons n ns ih =>
      simp only [List.map_cons, List.sum_cons, objects] at ih ⊢
      rw [ih]
      cases n.kind <;> simp only <;> omega
  have hst : stack f = (f.nodes.map (·.size)).sum + objects (· + ·) f.nodes + objects (fun _ a => a) f.nodes + 64 := by
    rw [← hs f.nodes]; rfl
  rw [hst]
  omega

/-! ### The return -/

section
variable {M : Machine} {f : Func} {W : World} {B : BitVec 64} {keep : BitVec 64 → Prop} {m0 : Mem} {i : IS} {s : State}

theorem passed_congr {s s' : State} {l : List (Dest × Nat × Nat)} (h : Passed s l) (hr : SameRegs s s')
    (hl : ∀ a ∈ l, a.1 ≠ .gpr .rsp ∧ a.1 ≠ .gpr .rbp) : Passed s' l := by
  intro a ha
  have h1 := h a ha
  have h2 := hl a ha
  obtain ⟨d, v⟩ := a
  cases d with
  | gpr r => simp only at h1 ⊢; rw [hr.1 r (fun e => h2.1 (by rw [e])) (fun e => h2.2 (by rw [e]))]; exact h1
  | sse j => simp only at h1 ⊢; rw [hr.2]; exact h1

/-- A block that returns: the state before the `ret`. -/
theorem return_sim (S : Setting M f W) (g : Geo f W B keep) {l k : Nat} (hk : M.line l = some k) {rs : List (Dest × Nat × Nat)}
    {m : Mem} (h : Returns W f l i rs m) (hs : Sim f W B keep m0 i s) :
    ∃ s2, s2.reg .rbp = B ∧ (∀ x, keep x → s2.mem x = m0 x) ∧ (∀ x, W.acc x → s2.mem x = m x) ∧ Passed s2 rs ∧
      (∀ a ∈ rs, a.1 ≠ .gpr .rsp ∧ a.1 ≠ .gpr .rbp) ∧
      ∃ k2, M.Steps k s k2 s2 ∧ CodeAt M k2 ((epilogue f.layout).map .ins) := by
  cases h with
  | @ret b _ i1 regs _ hb hd hl ha =>
    obtain ⟨k', ci, e, next, hc⟩ := S.blocks b hb.1
    have hk' := line_of S.labels (codeAt_head hc.code)
    rw [hb.2, hk] at hk'
    cases hk'
    obtain ⟨s1, st1, hs1, hae⟩ := body_sim S g hb.1 hc hd hs
    have he := hc.last
    rw [endCode, hl] at he
    have hr := S.ok.ret b hb.1 regs hl
    have hne : ∀ r ∈ regs, r.1 ≠ .gpr .rsp ∧ r.1 ≠ .gpr .rbp := by
      intro r hrm
      have := hr.2 r hrm
      obtain ⟨d, v⟩ := r
      cases d with
      | gpr q =>
        simp only [List.mem_cons, List.not_mem_nil, or_false, not_or] at this
        exact ⟨fun e => this.1.1 (by injection e), fun e => this.1.2 (by injection e)⟩
      | sse j => exact ⟨by simp, by simp⟩
    have hnm : ∀ r, (r = Reg.rsp ∨ r = .rbp) → Dest.gpr r ∉ (regArgs f.slot regs).map (·.1) := by
      intro r hr' hm
      obtain ⟨a, ha', e⟩ := List.mem_map.1 hm
      obtain ⟨q, hq, rfl⟩ := List.mem_map.1 ha'
      have := hne q hq
      simp only at e
      rcases hr' with rfl | rfl
      · exact this.1 e
      · exact this.2 e
    obtain ⟨c, s2, e2, r2, m2, g2, -, hh⟩ := Call.run_setRegs M.fp (regArgs f.slot regs) s1 (by
      intro r v hm
      obtain ⟨⟨d, w⟩, hq, e⟩ := List.mem_map.1 hm
      simp only [Prod.mk.injEq] at e
      obtain ⟨rfl, rfl⟩ := e
      have := hr.2 _ hq
      simp only at this
      refine ⟨by rw [slot_size]; exact this.2, fun e => this.1 (by rw [e]; simp)⟩) (by
      rw [regArgs, List.map_map]; exact hr.1)
    simp only [e2, Res.bind_ok] at he
    cases he
    obtain ⟨a1, a2⟩ := codeAt_map hae
    refine ⟨s2, ?_, ?_, ?_, ?_, ?_, _, steps_trans st1 (steps_run r2 a1), a2⟩
    · rw [g2 _ (hnm _ (.inr rfl))]; exact hs1.rbp
    · intro x hx; rw [m2]; exact hs1.keep x hx
    · intro x hx; rw [m2]; exact hs1.mem x hx
    · refine passed_of hs1 ha ?_ hh
      intro r hrm
      have := hr.2 r hrm
      obtain ⟨d, v⟩ := r
      cases d with
      | gpr q => trivial
      | sse j => exact this
    · intro a ham
      obtain ⟨r, hrm, e, -⟩ := args_mem ha a ham
      rw [e]
      exact hne r hrm

end

end Verif.FuncCode
