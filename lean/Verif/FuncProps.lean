import Verif.FuncDet
/-!
Properties of the code of functions (C94).
-/
namespace Verif.FuncCode
open Verif Asm X86 Codegen CodegenSpec Memory MemorySpec FuncSpec
open Verif.Call (Dest)
open Verif.CallSpec (regVal)
open Verif.Frame (prologue epilogue sub_toNat add_toNat)

/-- C94, for functions within `Limits`: there is code for the function, and the code does what the
blocks of the function say.  See `FuncSpec.Correct` for the full property: it is the same without
`Limits`. -/
theorem function_partial (f : Func) (h : FuncOk f) (hl : Limits f) : ∃ P, function f = .ok P ∧ Implements f P := by
  obtain ⟨cb, eb, ef⟩ := function_ok h
  refine ⟨_, ef, ?_⟩
  intro M A C hcode hlab s lo h16 hlow h63
  have hsh := shape_of h
  have hst := stack_enough f
  obtain ⟨s1, r1, hba, hsp1, hb8, hfr, hab, hexit⟩ := Verif.Frame.entry_exit_of hsh M.fp s h16 (by omega)
  obtain ⟨s1', r1', hregs, hge, hnone, hmem⟩ := prologue_regs hsh M.fp s (by omega)
  rw [r1] at r1'
  cases r1'
  generalize hB : s1.reg .rbp = B at *
  refine ⟨locOf f B, objects_of h (by omega) hb8 hba, ?_⟩
  intro call
  simp only
  intro hcalls b hbh l i hsteps
  have hargs : ∀ n ∈ f.nodes, readsStack n → s.reg .rsp + 8 = B + 16 := by
    intro n hn hr
    have hal : f.layout.align ≤ 16 := by
      have hx := (Verif.Frame.allocs_align ((Verif.Frame.values 0 (f.nodes.map (·.frame))).1 +
        Verif.Frame.vlas (f.nodes.map (·.frame)) * 8) 0 (f.nodes.map (·.frame))).2.2
      have e : (Verif.Frame.allocs ((Verif.Frame.values 0 (f.nodes.map (·.frame))).1 +
        Verif.Frame.vlas (f.nodes.map (·.frame)) * 8) 0 (f.nodes.map (·.frame))).2.1 = f.layout.align := rfl
      rw [e] at hx
      rcases hx with hx | ⟨q, hq, sz, hk⟩
      · omega
      · obtain ⟨m, hm, rfl⟩ := List.mem_map.1 hq
        cases hkm : m.kind <;> rw [Node.frame, hkm] at hk <;> simp at hk
        obtain ⟨rfl, e⟩ := hk
        have := hl.base n hn hr m hm _ _ hkm
        omega
    have := hnone ((layout_good f).saved.2 hal)
    rw [this]; bv_omega
  have g := geo_of (call := call) (fp := M.fp) (sym := M.sym) (args := s.reg .rsp + 8) (lo := lo) h (by omega) hb8 h63 hba.1 hargs
  generalize hW : (⟨M.fp, M.sym, locOf f B, Accessible f (locOf f B) lo (s.reg .rsp).toNat, s.reg .rsp + 8, call⟩ : World) = W at *
  have hat : CodeAt M A.length (.label f.label :: (prologue f.layout ++ Call.getRegs (regArgs f.slot f.gets)).map .ins ++ cb) :=
    ⟨A, C, hcode, rfl⟩
  rw [List.cons_append] at hat
  obtain ⟨hat1, hat2⟩ := codeAt_append (codeAt_tail hat)
  obtain ⟨hap, hag⟩ := codeAt_map hat1
  have S : Setting M f W := ⟨h, hl, hlab, by rw [← hW], by rw [← hW], hcalls, blocks_at eb hat2⟩
  -- the entry
  have hs1 : Sim f W B (Keep f.layout B (s.reg .rsp).toNat) s1.mem ⟨fun _ => none, s.mem⟩ s1 := by
    refine ⟨hB, hsp1, fun n v hv => by simp at hv, ?_, fun _ _ => rfl⟩
    intro x hx
    refine hmem x ?_ ?_
    · intro j hj e
      refine g.kept x (.inl ?_) hx
      have hp : (s.reg .rsp - 8).toNat = (s.reg .rsp).toNat - 8 := sub_toNat _ 8 (by omega)
      rw [e, add_toNat _ _ (by omega), hp]
      omega
    · intro o ho j hj e
      exact g.kept x (.inr ⟨o, ho, j, hj, e⟩) hx
  obtain ⟨s2, r2, hs2⟩ := run_received M.fp g hs1 (rs := regVal s) h.gets (by
    intro o ho
    have := h.gets.2 o ho
    obtain ⟨d, v⟩ := o
    cases d with
    | gpr q =>
      simp only [List.mem_cons, List.not_mem_nil, or_false, not_or] at this
      simp only [regVal]
      rw [hregs.1 q this.1.1 this.1.2]
    | sse j => simp only [regVal]; rw [hregs.2])
  have st0 : M.Steps A.length s (A.length + 1 + (prologue f.layout ++ Call.getRegs (regArgs f.slot f.gets)).length) s2 := by
    have st := steps_trans (steps_trans (steps_one (M := M) (.label (codeAt_head hat))) (steps_run r1 hap)) (steps_run r2 hag)
    simpa [Nat.add_assoc] using st
  have hline : M.line b.label = some (A.length + 1 + (prologue f.layout ++ Call.getRegs (regArgs f.slot f.gets)).length) := by
    cases hbs : f.blocks with
    | nil => exact absurd hbs h.entry
    | cons b' bs =>
      rw [hbs] at hbh eb
      cases hbh
      obtain ⟨r, rfl⟩ := blocks_head eb
      have := line_of hlab (codeAt_head hat2)
      simpa using this
  -- the blocks
  obtain ⟨k3, s3, e3, st3, hs3⟩ := steps_sim S g hline hsteps hs2
  have hacc : ∀ x, Accessible f (locOf f B) lo (s.reg .rsp).toNat x → W.acc x := by
    intro x hx; rw [← hW]; exact hx
  refine ⟨⟨k3, s3, e3, steps_trans st0 st3, fun x hx => hs3.mem x (hacc x hx)⟩, ?_⟩
  -- the return
  intro rs m hret
  obtain ⟨s4, hb4, hk4, hm4, hp4, hne4, k4, st4, ha4⟩ := return_sim S g e3 hret hs3
  obtain ⟨s5, e5, hsp5, hbp5⟩ := hexit s4 hb4 (fun x h1 h2 => hk4 x (.inl ⟨h1, h2⟩))
    (fun o ho j hj => hk4 _ (.inr ⟨o, ho, j, hj, rfl⟩))
  obtain ⟨c, s6, ec, rc, hr6, hm6⟩ := epilogue_regs f.layout M.fp s4
  rw [ec, Cond.runC_append rc, runC] at e5
  simp only [Out.ok.injEq, Prod.mk.injEq, Exit.ret.injEq] at e5
  obtain ⟨e51, e52⟩ := e5
  rw [ec] at ha4
  obtain ⟨a1, a2⟩ := codeAt_map ha4
  have hs5 : SameRegs s4 s5 := by
    rw [← e51]
    refine ⟨fun r h1 h2 => ?_, by simp [hr6.2]⟩
    rw [← hr6.1 r h1 h2]; simp [h1]
  refine ⟨s5, ⟨_, s6, steps_trans (steps_trans st0 st3) (steps_trans st4 (steps_run rc a1)), codeAt_head a2, e51.symm, e52.symm⟩,
    hsp5, hbp5, passed_congr hp4 hs5 hne4, ?_⟩
  intro x hx
  rw [← e51]
  show s6.mem x = _
  rw [hm6]
  exact hm4 x (hacc x hx)

/-- The machine of the specification is deterministic: a call of the function returns in one way
only, so the return of `function_partial` is the one that happens. -/
theorem returns_once (M : Machine) (k : Nat) (s s1 s2 : State) (a1 a2 : BitVec 64) (h1 : M.Finishes k s a1 s1)
    (h2 : M.Finishes k s a2 s2) : a1 = a2 ∧ s1 = s2 := finishes_unique h1 h2

/-- `int f(int n) { int x = n, s = 0; while (n) { s += n; n -= 1; } return s + x; }` with `x` in
memory. -/
def someFunc : Func :=
  ⟨0, [(.gpr .rdi, 1)],
    [⟨1, [⟨1, 4, .nothing⟩, ⟨2, 4, .const 0⟩, ⟨3, 8, .alloc 4 4⟩, ⟨4, 0, .store 3 1⟩], .jump 2, none, []⟩,
     ⟨2, [⟨5, 4, .nothing⟩, ⟨6, 4, .nothing⟩], .branch 6 3 4, some (1, 3), [⟨5, (some 2, some 7)⟩, ⟨6, (some 1, some 8)⟩]⟩,
     ⟨3, [⟨7, 4, .bin .add 5 6 7⟩, ⟨9, 4, .const 1⟩, ⟨8, 4, .bin .sub 6 9 8⟩], .jump 2, none, []⟩,
     ⟨4, [⟨10, 4, .load 3⟩, ⟨11, 4, .bin .add 5 10 11⟩], .ret [(.gpr .rax, 11)], none, []⟩]⟩

theorem someFunc_ok : FuncOk someFunc := by
  refine ⟨by simp [someFunc], by decide, by decide, ?_, ?_, ?_, ?_, ?_⟩
  · intro n hn
    simp only [Func.nodes, someFunc, List.flatMap_cons, List.flatMap_nil, List.cons_append, List.nil_append, List.append_nil,
      List.mem_cons, List.not_mem_nil, or_false] at hn
    rcases hn with rfl | rfl | rfl | rfl | rfl | rfl | rfl | rfl | rfl | rfl | rfl <;> simp only [NodeOk] <;> try decide
  · exact ⟨by decide, by simp only [someFunc, List.mem_singleton]; rintro r rfl; exact ⟨by decide, by decide⟩⟩
  · intro b hb regs hl
    simp only [someFunc, List.mem_cons, List.not_mem_nil, or_false] at hb
    rcases hb with rfl | rfl | rfl | rfl <;> simp at hl
    subst hl
    exact ⟨by decide, by simp only [List.mem_singleton]; rintro r rfl; exact ⟨by decide, by decide⟩⟩
  · intro b hb l hl
    simp only [someFunc, List.mem_cons, List.not_mem_nil, or_false] at hb
    rcases hb with rfl | rfl | rfl | rfl <;> simp at hl
    all_goals
      subst hl
      refine ⟨_, ⟨List.mem_cons_of_mem _ (List.mem_cons_self), rfl⟩, by decide, ?_, ?_, ?_, ?_⟩
      · simp
      · simp
      · simp only [List.mem_cons, List.not_mem_nil, or_false]
        rintro p (rfl | rfl) <;> decide
      · simp only [List.mem_cons, List.not_mem_nil, or_false]
        rintro p (rfl | rfl) v hv <;> simp [source] at hv <;> subst hv <;> decide
  · intro b hb c lt lf hl
    simp only [someFunc, List.mem_cons, List.not_mem_nil, or_false] at hb
    rcases hb with rfl | rfl | rfl | rfl <;> simp at hl
    obtain ⟨rfl, rfl, rfl⟩ := hl
    exact ⟨by decide, ⟨_, ⟨List.mem_cons_of_mem _ (List.mem_cons_of_mem _ List.mem_cons_self), rfl⟩, rfl⟩,
      ⟨_, ⟨List.mem_cons_of_mem _ (List.mem_cons_of_mem _ (List.mem_cons_of_mem _ List.mem_cons_self)), rfl⟩, rfl⟩⟩

theorem someFunc_limits : Limits someFunc := by
  refine ⟨?_, ?_⟩
  · intro b hb l t hl ht
    have e : t = ⟨2, [⟨5, 4, .nothing⟩, ⟨6, 4, .nothing⟩], .branch 6 3 4, some (1, 3), [⟨5, (some 2, some 7)⟩, ⟨6, (some 1, some 8)⟩]⟩ := by
      obtain ⟨h1, h2⟩ := ht
      simp only [someFunc, List.mem_cons, List.not_mem_nil, or_false] at hb h1
      rcases hb with rfl | rfl | rfl | rfl <;> simp at hl <;> subst hl <;>
        rcases h1 with rfl | rfl | rfl | rfl <;> first | rfl | (simp at h2)
    subst e
    simp only [someFunc, List.mem_cons, List.not_mem_nil, or_false] at hb
    rcases hb with rfl | rfl | rfl | rfl <;> simp at hl <;> simp [NoSwap, source]
  · intro n hn hr
    simp only [Func.nodes, someFunc, List.flatMap_cons, List.flatMap_nil, List.cons_append, List.nil_append, List.append_nil,
      List.mem_cons, List.not_mem_nil, or_false] at hn
    rcases hn with rfl | rfl | rfl | rfl | rfl | rfl | rfl | rfl | rfl | rfl | rfl <;> simp [readsStack] at hr

/-- The function is covered; its code has 51 lines. -/
example : FuncOk someFunc ∧ Limits someFunc ∧ ∃ P, function someFunc = .ok P ∧ P.length = 51 :=
  ⟨someFunc_ok, someFunc_limits, _, rfl, by decide +kernel⟩

/-- Called with 1 it goes once through the loop and returns 2. -/
theorem someFunc_runs (W : World) (hacc : W.Acc (W.loc 3) 4) (s : State) (h : s.reg .rdi = 1) :
    ∃ i m, Steps W someFunc 1 (start someFunc s) 4 i ∧ Returns W someFunc 4 i [(.gpr .rax, 4, 2)] m := by
  have h1 : (start someFunc s).vals 1 = some 1 := by
    show some ((s.reg .rdi).toNat % 256 ^ 4) = some 1
    rw [h]; rfl
  have hacc' : W.Acc (BitVec.ofNat 64 (W.loc 3).toNat) 4 := by simpa using hacc
  have hb1 : blockAt someFunc 1 _ := ⟨List.mem_cons_self, rfl⟩
  have hb2 : blockAt someFunc 2 _ := ⟨List.mem_cons_of_mem _ List.mem_cons_self, rfl⟩
  have hb3 : blockAt someFunc 3 _ := ⟨List.mem_cons_of_mem _ (List.mem_cons_of_mem _ List.mem_cons_self), rfl⟩
  have hb4 : blockAt someFunc 4 _ :=
    ⟨List.mem_cons_of_mem _ (List.mem_cons_of_mem _ (List.mem_cons_of_mem _ List.mem_cons_self)), rfl⟩
  obtain ⟨i1, st1, a5, a6, a3, am⟩ : ∃ i1, Step W someFunc 1 (start someFunc s) 2 i1 ∧ i1.vals 5 = some 0 ∧
      i1.vals 6 = some 1 ∧ i1.vals 3 = some (W.loc 3).toNat ∧ i1.mem = wr s.mem (BitVec.ofNat 64 (W.loc 3).toNat) 4 1 :=
    ⟨_, .jump hb1 (.cons .nothing (.cons .const (.cons .alloc (.cons (.store (a := (W.loc 3).toNat) (x := 1) rfl h1 hacc') .nil))))
      rfl hb2, rfl, h1, rfl, rfl⟩
  obtain ⟨i2, st2, b5, b6, b3, bm⟩ : ∃ i2, Step W someFunc 2 i1 3 i2 ∧ i2.vals 5 = some 0 ∧
      i2.vals 6 = some 1 ∧ i2.vals 3 = some (W.loc 3).toNat ∧ i2.mem = i1.mem :=
    ⟨_, .branch hb2 (.cons .nothing (.cons .nothing .nil)) rfl a6 rfl hb3, a5, a6, a3, rfl⟩
  obtain ⟨i3, st3, c5, c6, c3, cm⟩ : ∃ i3, Step W someFunc 3 i2 2 i3 ∧ i3.vals 5 = some 1 ∧
      i3.vals 6 = some 0 ∧ i3.vals 3 = some (W.loc 3).toNat ∧ i3.mem = i2.mem :=
    ⟨_, .jump hb3 (.cons (.bin (x := 0) (y := 1) b5 b6 rfl) (.cons .const (.cons (.bin (x := 1) (y := 1) b6 rfl rfl) .nil))) rfl hb2,
      rfl, rfl, b3, rfl⟩
  obtain ⟨i4, st4, d5, d3, dm⟩ : ∃ i4, Step W someFunc 2 i3 4 i4 ∧ i4.vals 5 = some 1 ∧
      i4.vals 3 = some (W.loc 3).toNat ∧ i4.mem = i3.mem :=
    ⟨_, .branch hb2 (.cons .nothing (.cons .nothing .nil)) rfl c6 rfl hb4, c5, c3, rfl⟩
  refine ⟨i4, _, .tail (.tail (.tail (.tail .refl st1) st2) st3) st4, .ret hb4 (.cons (.load (a := (W.loc 3).toNat) d3 hacc')
    (.cons (.bin (x := 1) (y := 1) (z := 2#32) d5 ?_ rfl) .nil)) rfl ⟨2, [], rfl, rfl, rfl⟩⟩
  show some (rd i4.mem _ 4) = some 1
  rw [dm, cm, bm, am, rd_wr_same _ _ _ _ (by decide)]

/-- `double g(float x, long n) { return -((double)x * n); }` -/
def floatFunc : Func :=
  ⟨0, [(.sse 0, 1), (.gpr .rdi, 2)],
    [⟨1, [⟨1, 4, .nothing⟩, ⟨2, 8, .nothing⟩, ⟨3, 8, .castFloat 1⟩, ⟨4, 8, .intFloat 2⟩, ⟨5, 8, .bin .fltMul 3 4 5⟩,
      ⟨6, 8, .negFloat 5⟩], .ret [(.sse 0, 6)], none, []⟩]⟩

theorem floatFunc_ok : FuncOk floatFunc := by
  refine ⟨by simp [floatFunc], by decide, by decide, ?_, ?_, ?_, ?_, ?_⟩
  · intro n hn
    simp only [Func.nodes, floatFunc, List.flatMap_cons, List.flatMap_nil, List.append_nil,
      List.mem_cons, List.not_mem_nil, or_false] at hn
    rcases hn with rfl | rfl | rfl | rfl | rfl | rfl <;> simp only [NodeOk] <;> try decide
  · exact ⟨by decide, by simp only [floatFunc, List.mem_cons, List.not_mem_nil, or_false]; rintro r (rfl | rfl) <;> decide⟩
  · intro b hb regs hl
    simp only [floatFunc, List.mem_cons, List.not_mem_nil, or_false] at hb
    subst hb
    cases hl
    exact ⟨by decide, by simp only [List.mem_singleton]; rintro r rfl; decide⟩
  · intro b hb l hl
    simp only [floatFunc, List.mem_cons, List.not_mem_nil, or_false] at hb
    subst hb
    cases hl
  · intro b hb c lt lf hl
    simp only [floatFunc, List.mem_cons, List.not_mem_nil, or_false] at hb
    subst hb
    cases hl

theorem floatFunc_limits : Limits floatFunc := by
  refine ⟨?_, ?_⟩
  · intro b hb l t hl ht
    simp only [floatFunc, List.mem_cons, List.not_mem_nil, or_false] at hb
    subst hb
    cases hl
  · intro n hn hr
    simp only [Func.nodes, floatFunc, List.flatMap_cons, List.flatMap_nil, List.append_nil,
      List.mem_cons, List.not_mem_nil, or_false] at hn
    rcases hn with rfl | rfl | rfl | rfl | rfl | rfl <;> simp [readsStack] at hr

/-- It is covered, and with -2 for `n` it returns the product of `x` and -2.0 with the other sign. -/
theorem floatFunc_runs (W : World) (s : State) (h : s.reg .rdi = -2) :
    FuncOk floatFunc ∧ Limits floatFunc ∧ ∃ i m, Steps W floatFunc 1 (start floatFunc s) 1 i ∧ Returns W floatFunc 1 i
      [(.sse 0, 8, (W.fp.mul64 (W.fp.widen ((s.xmm 0).setWidth 32)) 0xC000000000000000 ^^^ 0x8000000000000000).toNat)] m := by
  have h2 : (start floatFunc s).vals 2 = some 0xFFFFFFFFFFFFFFFE := by
    show some ((s.reg .rdi).toNat % 256 ^ 8) = _
    rw [h]; rfl
  have h1 : (start floatFunc s).vals 1 = some ((s.xmm 0).setWidth 32).toNat := by
    show some ((s.xmm 0).toNat % 256 ^ 4) = _
    rw [BitVec.toNat_setWidth]
  have hb1 : blockAt floatFunc 1 _ := ⟨List.mem_cons_self, rfl⟩
  have hv : Float.ofInt (fmt 8) (BitVec.ofNat (8 * size floatFunc 2) 0xFFFFFFFFFFFFFFFE).toInt = 0xC000000000000000 := by
    decide +kernel
  refine ⟨floatFunc_ok, floatFunc_limits, _, _, .refl, .ret hb1 (.cons .nothing (.cons .nothing (.cons (.castFloat h1)
    (.cons (.intFloat h2 (.inl (by decide))) (.cons (.flt rfl rfl rfl rfl) (.cons (.negFloat rfl) .nil)))))) rfl ?_⟩
  rw [hv]
  refine ⟨_, [], rfl, rfl, ?_⟩
  simp [refloat, show size floatFunc 3 = 8 by rfl, show size floatFunc 1 = 4 by rfl, show size floatFunc 6 = 8 by rfl]
  congr 5
  exact BitVec.eq_of_toNat_eq (by simp)

/-! ### Over-aligned objects -/

/-- `int g(…, int x) { _Alignas(32) char c; return x; }` where `x` is on the stack. -/
def overAligned : Func :=
  ⟨0, [], [⟨1, [⟨1, 8, .alloc 1 32⟩, ⟨2, 4, .loadBase 16⟩], .ret [(.gpr .rax, 2)], none, []⟩]⟩

theorem overAligned_ok : FuncOk overAligned := by
  refine ⟨by simp [overAligned], by decide, by decide, ?_, ⟨by decide, by simp [overAligned]⟩, ?_, ?_, ?_⟩
  · intro n hn
    simp only [Func.nodes, overAligned, List.flatMap_cons, List.flatMap_nil, List.append_nil,
      List.mem_cons, List.not_mem_nil, or_false] at hn
    rcases hn with rfl | rfl
    · exact ⟨rfl, .inr ⟨5, by decide, rfl⟩⟩
    · trivial
  · intro b hb regs hl
    simp only [overAligned, List.mem_cons, List.not_mem_nil, or_false] at hb
    subst hb
    cases hl
    exact ⟨by decide, by simp only [List.mem_singleton]; rintro r rfl; exact ⟨by decide, by decide⟩⟩
  · intro b hb l hl
    simp only [overAligned, List.mem_cons, List.not_mem_nil, or_false] at hb
    subst hb
    cases hl
  · intro b hb c lt lf hl
    simp only [overAligned, List.mem_cons, List.not_mem_nil, or_false] at hb
    subst hb
    cases hl

/-- A call: all memory is 0, `%rbp` is 1. -/
def someState : State :=
  { reg := fun r => if r = .rsp then 1048600 else if r = .rbp then 1 else 0, xmm := fun _ => 0, fl := none, mem := fun _ => 0 }

/-- Some floating point unit. -/
def someFP : FP :=
  ⟨fun _ _ => 0, fun _ _ => 0, fun _ _ => 0, fun _ _ => 0, fun _ _ => 0, fun _ _ => 0, fun _ _ => 0, fun _ _ => 0, fun _ => 0, fun _ => 0⟩

/-- Its code, and the two parts of it without labels and the `ret`. -/
def overCode : List Item := match function overAligned with | .ok P => P | _ => []

def overPart (a n : Nat) : List Ins := ((overCode.drop a).take n).filterMap fun | .ins i => some i | .label _ => none

/-- The full property does not hold: with an object that needs an alignment of more than 16, the
argument on the stack is read from the wrong place.  Here the function returns the caller's `%rbp`
(1) instead of the argument (0). -/
theorem function_violated : ¬ Correct function := by
  intro hc
  obtain ⟨P, hP, himp⟩ := hc overAligned overAligned_ok
  have hcode : function overAligned = .ok overCode := by rfl
  rw [hcode] at hP
  cases hP
  let M : Machine := ⟨someFP, fun _ => 0, fun _ _ => none, overCode⟩
  have hparts : M.code = [.label 0] ++ (overPart 1 6).map .ins ++ [.label 1] ++ (overPart 8 9).map .ins ++ [.ins ⟨.ret, []⟩] := by
    decide +kernel
  -- what the machine does
  have hrun : ∃ s1, run someFP (overPart 1 6) someState = .ok s1 ∧ ∃ s2, run someFP (overPart 8 9) s1 = .ok s2 ∧
      s2.reg .rax = 1 := by
    have : (match run someFP (overPart 1 6) someState with
      | .ok s1 => match run someFP (overPart 8 9) s1 with
        | .ok s2 => s2.reg .rax == 1
        | _ => false
      | _ => false) = true := by decide +kernel
    revert this
    cases run someFP (overPart 1 6) someState with
    | ok s1 =>
      simp only
      cases h2 : run someFP (overPart 8 9) s1 with
      | ok s2 => intro h; exact ⟨s1, rfl, s2, h2, by simpa using h⟩
      | _ => simp
    | _ => simp
  obtain ⟨s1, r1, s2, r2, hrax⟩ := hrun
  have hl1 : (overPart 1 6).length = 6 := by decide +kernel
  have hl2 : (overPart 8 9).length = 9 := by decide +kernel
  have st1 : M.Steps 0 someState 1 someState := steps_one (M := M) (.label (l := 0) (by rw [hparts]; rfl))
  have st2 : M.Steps 1 someState (1 + (overPart 1 6).length) s1 :=
    steps_run r1 ⟨[.label 0], [.label 1] ++ (overPart 8 9).map .ins ++ [.ins ⟨.ret, []⟩], by rw [hparts]; simp, rfl⟩
  rw [hl1] at st2
  have st3 : M.Steps 7 s1 8 s1 := steps_one (M := M) (.label (l := 1) (by rw [hparts]; rfl))
  have st4 : M.Steps 8 s1 (8 + (overPart 8 9).length) s2 :=
    steps_run r2 ⟨[.label 0] ++ (overPart 1 6).map .ins ++ [.label 1], [.ins ⟨.ret, []⟩], by rw [hparts], by simp [hl1]⟩
  rw [hl2] at st4
  have hf1 : M.Finishes 0 someState (BitVec.ofNat 64 (rd s2.mem (s2.reg .rsp) 8)) (s2.set .rsp (s2.reg .rsp + 8)) :=
    ⟨17, s2, steps_trans (steps_trans st1 st2) (steps_trans st3 st4), by decide +kernel, rfl, rfl⟩
  -- what it should do
  obtain ⟨loc, -, h⟩ := himp M [] [] (by simp [M]) (by decide +kernel) someState 0 (by decide +kernel) (by decide +kernel) (by decide +kernel)
  obtain ⟨-, h⟩ := h (fun _ _ _ => none) (fun _ _ _ _ _ _ h => by cases h) _ rfl 1 _ .refl
  obtain ⟨s3, hf2, -, -, hp, -⟩ := h [(.gpr .rax, 4, 0)] _ (.ret ⟨List.mem_cons_self, rfl⟩
    (.cons .alloc (.cons (.loadBase (by
      intro k hk
      have hk : k < 4 := hk
      refine .inr (.inl ?_)
      show 1048600 + 8 ≤ ((1048600 : BitVec 64) + 8 + BitVec.ofInt 64 (16 - 16) + BitVec.ofNat 64 k).toNat
      have : k = 0 ∨ k = 1 ∨ k = 2 ∨ k = 3 := by omega
      rcases this with rfl | rfl | rfl | rfl <;> decide)) .nil)) rfl ⟨0, [], by
        show some (rd (fun _ => 0) ((1048600 : BitVec 64) + 8 + BitVec.ofInt 64 (16 - 16)) 4) = some 0
        decide +kernel, rfl, rfl⟩)
  obtain ⟨-, e⟩ := finishes_unique hf1 hf2
  have h0 := hp _ (List.mem_singleton.2 rfl)
  simp only at h0
  rw [← e] at h0
  have : (s2.set .rsp (s2.reg .rsp + 8)).reg .rax = s2.reg .rax := by simp
  rw [this, hrax] at h0
  exact absurd h0 (by decide)

end Verif.FuncCode
