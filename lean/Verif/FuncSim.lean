import Verif.FuncLemmas
import Verif.FuncFloat
import Verif.PhiProps
/-!
Lemmas about the code of functions: instructions, joins, blocks.
-/
namespace Verif.FuncCode
open Verif Asm X86 Codegen CodegenSpec Memory MemorySpec FuncSpec
open Verif.Call (Dest)
open Verif.CallSpec (regVal)

theorem scratch_frame {s s' : State} (h : Scratch s s') : s'.reg .rbp = s.reg .rbp ∧ s'.reg .rsp = s.reg .rsp :=
  ⟨h.1 _ (by decide) (by decide) (by decide), h.1 _ (by decide) (by decide) (by decide)⟩

section
variable {f : Func} {W : World} {B : BitVec 64} {keep : BitVec 64 → Prop} {m0 : Mem} {i i' : IS} {s : State}

/-- A node and the size of its value. -/
structure Here (f : Func) (n : Node) : Prop where
  mem : n ∈ f.nodes
  width : size f n.num = n.size
  ok : NodeOk (size f) n

/-- The instructions that neither call nor name a symbol. -/
theorem straight (F : FP) (hF : F = W.fp) (g : Geo f W B keep) {n : Node} (hn : Here f n) (hd : Does W (size f) n i i')
    (hs : Sim f W B keep m0 i s) (hc : ∀ c ch st r o, n.kind ≠ .call c ch st r o) (hl : ∀ l o, n.kind ≠ .label l o) :
    ∃ c s', instruction f.slot f.object n = .ok c ∧ run F c s = .ok s' ∧ Sim f W B keep m0 i' s' := by
  obtain ⟨hmem, hsz, hok⟩ := hn
  have hss := slot_size f
  have had := hs.addr
  cases hd with
  | @bin num sz op a b out _ x y z hx hy hz =>
    obtain ⟨h1, h2, h3⟩ := hok
    have ea := hs.vals a x hx
    have eb := hs.vals b y hy
    have hz' : bvOp op (BitVec.ofNat (8 * (f.slot a).size) (rd s.mem (slotAddr s (f.slot a)) (f.slot a).size))
        (BitVec.ofNat (8 * (f.slot a).size) (rd s.mem (slotAddr s (f.slot b)) (f.slot b).size)) =
        some (z.cast (by rw [hss])) := by
      have := bvOp_cast (w' := 8 * (f.slot a).size) (by rw [hss]) op x y z hz
      rw [had, had, hss b, eb]
      rw [show rd s.mem (place f B a) (f.slot a).size = x by rw [hss, ea]]
      exact this
    obtain ⟨c, e, s', r, hf, hv⟩ := run_binary F op (f.slot a) (f.slot b) (f.slot out) s (by rw [hss]; exact h1)
      (by rw [hss]; exact h2) (by rw [hss, hss]; exact h3) _ hz'
    refine ⟨c, s', e, r, sim_put g hs hf ?_⟩
    rintro w ⟨⟩
    have : slotAddr s' (f.slot out) = place f B out := by rw [slotAddr, hf.1, hs.rbp, place]
    rw [this, hss] at hv
    rw [hv]; simp
  | @flt num sz op a b out _ x y z hx hy hbs hz =>
    obtain ⟨h1, h2, h3⟩ := hok
    have ea := hs.vals a x hx
    have eb := hs.vals b y hy
    rw [← hF] at hz
    obtain ⟨c, e, s', r, hf, hv⟩ := flt_code F op (f.slot a) (f.slot b) (f.slot out) s (size f a) h1 (hss _)
      (by rw [hss, hbs]) (by rw [hss, h3]) (z := z) (by rw [had, had, ea, ← hbs, eb, hbs]; exact hz)
    refine ⟨c, s', e, r, sim_put g hs hf ?_⟩
    rintro w ⟨⟩
    have : slotAddr s' (f.slot out) = place f B out := by rw [slotAddr, hf.1, hs.rbp, place]
    rw [this, ← h3] at hv
    exact hv
  | @negFloat num sz a _ x hx =>
    simp only at hsz
    obtain ⟨c, e, s', r, hf, hv⟩ := neg_float_code F (f.slot a) (f.slot num) s sz hok.1 (by rw [hss]; exact hok.2) (by rw [hss]; exact hsz)
    refine ⟨c, s', e, r, sim_put g hs hf ?_⟩
    rintro w ⟨⟩
    have : slotAddr s' (f.slot num) = place f B num := by rw [slotAddr, hf.1, hs.rbp, place]
    rw [this, had] at hv
    rw [hsz, hv]
    have h2 : size f a = sz := hok.2
    rw [← h2, hs.vals a x hx]
  | @castFloat num sz a _ x hx =>
    simp only at hsz
    obtain ⟨c, e, s', r, hf, hv⟩ := cast_float_code F (f.slot a) (f.slot num) s (size f a) sz hok.2 hok.1 (hss _) (by rw [hss]; exact hsz)
    refine ⟨c, s', e, r, sim_put g hs hf ?_⟩
    rintro w ⟨⟩
    have : slotAddr s' (f.slot num) = place f B num := by rw [slotAddr, hf.1, hs.rbp, place]
    rw [this, had, hs.vals a x hx] at hv
    rw [hsz, hv, hF]
  | @intFloat num sz a _ x hx hv0 =>
    simp only at hsz
    obtain ⟨c, e, s', r, hf, hv⟩ := int_float_code F (f.slot a) (f.slot num) s sz hok.1 (by rw [hss]; exact hok.2) (by rw [hss]; exact hsz)
      (by rw [had, hss, hs.vals a x hx]; exact hv0)
    refine ⟨c, s', e, r, sim_put g hs hf ?_⟩
    rintro w ⟨⟩
    have : slotAddr s' (f.slot num) = place f B num := by rw [slotAddr, hf.1, hs.rbp, place]
    rw [this, had, hss, hs.vals a x hx] at hv
    rw [hsz, hv]
  | @uintFloat num sz a _ x hx hv0 =>
    simp only at hsz
    obtain ⟨c, e, s', r, hf, hv⟩ := uint_float_code F (f.slot a) (f.slot num) s sz hok.1 (by rw [hss]; exact hok.2) (by rw [hss]; exact hsz)
      (by rw [had, hss, hs.vals a x hx]; exact hv0)
    refine ⟨c, s', e, r, sim_put g hs hf ?_⟩
    rintro w ⟨⟩
    have : slotAddr s' (f.slot num) = place f B num := by rw [slotAddr, hf.1, hs.rbp, place]
    rw [this, had, hss, hs.vals a x hx] at hv
    rw [hsz, hv]
  | @floatInt num sz a _ x v hx hv0 hv1 hv2 =>
    simp only at hsz
    obtain ⟨c, e, s', r, hf, hv⟩ := float_int_code F (f.slot a) (f.slot num) s (size f a) hok.2 (hss _) (by rw [hss, hsz]; exact hok.1)
      (v := v) (by rw [had, hs.vals a x hx]; exact hv0) hv1 hv2
    refine ⟨c, s', e, r, sim_put g hs hf ?_⟩
    rintro w ⟨⟩
    have : slotAddr s' (f.slot num) = place f B num := by rw [slotAddr, hf.1, hs.rbp, place]
    rw [this, hss, hsz] at hv
    rw [hsz, hv]
  | @const num sz v _ =>
    obtain ⟨c, s', e, r, hv, hf, -⟩ := constant_code F v (f.slot num) (by rw [hss, hsz]; exact hok) s
    refine ⟨c, s', e, r, sim_put g hs hf ?_⟩
    rintro w ⟨⟩
    rw [had, hss, hsz] at hv
    simp only at hv hsz
    rw [hsz, hv]
  | label => exact absurd rfl (hl _ _)
  | call => exact absurd rfl (hc _ _ _ _ _)
  | @bnot num sz a _ x hx =>
    obtain ⟨h1, h2⟩ := hok
    simp only at h1 h2 hsz
    obtain ⟨c, e, s', r, hf, hv⟩ := unary_int_code F .notq (~~~ ·) (f.slot a) (f.slot num) s (by rw [hss, h2]; exact h1)
      (by rw [hss, hss, hsz, h2]) (by intro s; simp [unary, getOp, putOp, merge64])
    refine ⟨c, s', e, r, sim_put g hs hf ?_⟩
    rintro w ⟨⟩
    have : slotAddr s' (f.slot num) = place f B num := by rw [slotAddr, hf.1, hs.rbp, place]
    rw [this, had, hss, hss, hs.vals a x hx, not_low (by rw [hsz]; exact h1)] at hv
    rw [hv, hsz]
  | @neg num sz a _ x hx =>
    obtain ⟨h1, h2⟩ := hok
    simp only at h1 h2 hsz
    obtain ⟨c, e, s', r, hf, hv⟩ := unary_int_code F .negq (- ·) (f.slot a) (f.slot num) s (by rw [hss, h2]; exact h1)
      (by rw [hss, hss, hsz, h2]) (by intro s; simp [unary, getOp, putOp, merge64])
    refine ⟨c, s', e, r, sim_put g hs hf ?_⟩
    rintro w ⟨⟩
    have : slotAddr s' (f.slot num) = place f B num := by rw [slotAddr, hf.1, hs.rbp, place]
    rw [this, had, hss, hss, hs.vals a x hx, neg_low (by rw [hsz]; exact h1)] at hv
    rw [hv, hsz]
  | @load num sz p _ a hp ha =>
    simp only at hsz
    have ht := target_eq hs hok hp
    obtain ⟨c, s', e, r, hm, hk⟩ := load_code F (f.slot p) (f.slot num) (by rw [hss]; exact hok) (by rw [hss]; exact g.small _) s
      (by rw [ht, had]; exact .inr (acc_apart g (by rw [hss, hsz]; exact ha) (hss _)))
    rw [ht] at hm
    exact ⟨c, s', e, r, sim_load g hs hsz ha (scratch_frame hk).1 (scratch_frame hk).2 hm⟩
  | @loadVolatile num sz p out _ a hp ha =>
    have ht := target_eq hs hok hp
    obtain ⟨c, s', e, r, hm, hk⟩ := load_code F (f.slot p) (f.slot out) (by rw [hss]; exact hok) (by rw [hss]; exact g.small _) s
      (by rw [ht, had]; exact .inr (acc_apart g (by rw [hss]; exact ha) (hss _)))
    rw [ht] at hm
    exact ⟨c, s', e, r, sim_load g hs rfl ha (scratch_frame hk).1 (scratch_frame hk).2 hm⟩
  | @loadPart num sz p off out _ a hp ha =>
    have ht := target_eq hs hok.1 hp
    have ht' : target s (f.slot p) + BitVec.ofNat 64 off = BitVec.ofNat 64 (a + off) := by rw [ht, BitVec.ofNat_add]
    obtain ⟨c, s', e, r, hm, hk⟩ := load_part_code F (f.slot p) (f.slot out) off (by rw [hss]; exact hok.1)
      (by rw [hss]; exact g.small _) s
      (by rw [ht', had]; exact .inr (acc_apart g (by rw [hss]; exact ha) (hss _)))
    rw [ht'] at hm
    exact ⟨c, s', e, r, sim_load g hs rfl ha (scratch_frame hk).1 (scratch_frame hk).2 hm⟩
  | @store num sz p v _ a x hp hv ha =>
    have ht := target_eq hs hok hp
    obtain ⟨c, s', e, r, hm, hk⟩ := store_code F (f.slot p) (f.slot v) (by rw [hss]; exact hok) (by rw [hss]; exact g.small _) s
      (by rw [ht, had]; exact .inr (acc_apart g (by rw [hss]; exact ha) (hss _)).symm)
    rw [ht, ← wr_rd, had, hss, hs.vals v x hv] at hm
    exact ⟨c, s', e, r, sim_wr g hs ha (scratch_frame hk).1 (scratch_frame hk).2 hm⟩
  | @storePart num sz p v off _ a x hp hv ha =>
    have ht := target_eq hs hok.1 hp
    have ht' : target s (f.slot p) + BitVec.ofNat 64 off = BitVec.ofNat 64 (a + off) := by rw [ht, BitVec.ofNat_add]
    obtain ⟨c, s', e, r, hm, hk⟩ := store_part_code F (f.slot p) (f.slot v) off (by rw [hss]; exact hok.1)
      (by rw [hss]; exact g.small _) s
      (by rw [ht', had]; exact .inr (acc_apart g (by rw [hss]; exact ha) (hss _)).symm)
    rw [ht', ← wr_rd, had, hss, hs.vals v x hv] at hm
    exact ⟨c, s', e, r, sim_wr g hs ha (scratch_frame hk).1 (scratch_frame hk).2 hm⟩
  | @castZero num sz a _ x hx =>
    simp only at hsz
    obtain ⟨c, e, s', r, hf, hv⟩ := Cast.zero_cast F (f.slot a) (f.slot num) s (by rw [hss]; exact hok.2)
      (by rw [hss, hsz]; exact hok.1)
    refine ⟨c, s', e, r, sim_put g hs hf ?_⟩
    rintro w ⟨⟩
    have : slotAddr s' (f.slot num) = place f B num := by rw [slotAddr, hf.1, hs.rbp, place]
    rw [this, had, hss, hss, hs.vals a x hx] at hv
    rw [hv, hsz]
  | @castSign num sz a _ x hx =>
    simp only at hsz
    obtain ⟨c, e, s', r, hf, hv⟩ := sign_cast_code F (f.slot a) (f.slot num) s (by rw [hss]; exact hok.2)
      (by rw [hss, hsz]; exact hok.1)
    refine ⟨c, s', e, r, sim_put g hs hf ?_⟩
    rintro w ⟨⟩
    have : slotAddr s' (f.slot num) = place f B num := by rw [slotAddr, hf.1, hs.rbp, place]
    rw [this, had, hss, hss, hs.vals a x hx] at hv
    rw [hv, hsz]
  | @castBool num sz a _ x hx =>
    simp only at hsz
    have h1 : sz = 1 := hok.1
    obtain ⟨c, e, s', r, hf, hv⟩ := Cast.bool_cast F (f.slot a) (f.slot num) s (by rw [hss]; exact hok.2)
      (by rw [hss, hsz]; exact hok.1)
    refine ⟨c, s', e, r, sim_put g hs hf ?_⟩
    rintro w ⟨⟩
    have : slotAddr s' (f.slot num) = place f B num := by rw [slotAddr, hf.1, hs.rbp, place]
    rw [this, had, hss, hs.vals a x hx] at hv
    rw [hsz, h1, hv]
  | @setZero num sz p k _ a hp ha =>
    have ht := target_eq hs hok.1 hp
    have hk63 : k < 2 ^ 31 := hok.2
    obtain ⟨c, s', e, r, hm, hk⟩ := set_zero_code F (f.slot p) k (by rw [hss]; exact hok.1) (by omega) s
    rw [ht, ← wr_zero] at hm
    exact ⟨c, s', e, r, sim_wr g hs ha (scratch_frame hk).1 (scratch_frame hk).2 hm⟩
  | @undef num sz _ =>
    simp only at hsz
    have hx : exec F ⟨.xorl, [R4 .rax, R4 .rax]⟩ s = .ok { s.set .rax 0 with fl := none } := by
      simp [alu, legal, getOp, putOp, merge32, R4]
    refine ⟨_, _, rfl, by rw [undefCode, run_cons, hx, Out.bind_ok, run_store F _ .rax (by rw [hss, hsz]; exact hok)],
      sim_put g hs (kept_store (s := s) (by simp [Kept]) _ _ _ rfl) (by intro x h; cases h)⟩
  | @alloc num sz k al _ =>
    simp only at hsz
    have h8 : sz = 8 := hok.1
    have hx : exec F ⟨.leaq, [MEM (-(f.object num : Int)) .rbp, R8 .rsi]⟩ s = .ok (s.set .rsi (s.reg .rbp - BitVec.ofNat 64 (f.object num))) := by
      rw [MEM, R8, exec_leaq, Verif.Frame.addr_neg]
    refine ⟨_, _, rfl, by rw [allocCode, run_cons, hx, Out.bind_ok, run_store F _ .rsi (by rw [hss, hsz, h8]; simp [ScalarSize])],
      sim_put g hs (kept_store (s := s) (by simp [Kept]) _ _ _ rfl) ?_⟩
    rintro x ⟨⟩
    have e : slotAddr (s.set .rsi (s.reg .rbp - BitVec.ofNat 64 (f.object num))) (f.slot num) = place f B num := by
      rw [← had]; simp [slotAddr]
    rw [store_mem, e, hss, hsz, h8, rd_wr_same _ _ _ _ (by decide), g.loc _ hmem k al rfl]
    simp only [set_reg, if_true, hs.rbp]
    exact Nat.mod_eq_of_lt (BitVec.isLt _)
  | @copy num sz d p k _ a b hd hp ha hb ho =>
    have ht := target_eq hs hok.1 hd
    have ht2 := target_eq hs hok.2.1 hp
    have hk63 : k < 2 ^ 31 := hok.2.2
    obtain ⟨c, s', e, r, hm, hk⟩ := copy_memory_code F (f.slot d) (f.slot p) k (by rw [hss]; exact hok.1)
      (by rw [hss]; exact hok.2.1) (by omega) s (by rw [ht, ht2]; exact ho)
    rw [ht, ht2] at hm
    exact ⟨c, s', e, r, sim_copied g hs hb ha (scratch_frame hk).1 (scratch_frame hk).2 hm⟩
  | @loadBase num sz off _ ha =>
    simp only at hsz
    have hb : s.reg .rbp + 16 = W.args := by rw [hs.rbp, g.args _ hmem trivial]
    obtain ⟨s', r, hm, hk⟩ := load_base_code F (f.slot num) off (by rw [hss]; exact g.small _) s
      (by rw [hb, had]; exact .inr (acc_apart g (by rw [hss, hsz]; exact ha) (hss _)))
    rw [hb] at hm
    exact ⟨_, s', rfl, r, sim_load g hs hsz ha (scratch_frame hk).1 (scratch_frame hk).2 hm⟩
  | @loadBaseAddress num sz p off k _ a hp ha hb' ho =>
    have hb : s.reg .rbp + 16 = W.args := by rw [hs.rbp, g.args _ hmem trivial]
    have ht := target_eq hs hok.1 hp
    have hk63 : k < 2 ^ 31 := hok.2
    obtain ⟨c, s', e, r, hm, hk⟩ := load_base_address_code F (f.slot p) off k (by rw [hss]; exact hok.1) (by omega) s
      (by rw [hb, ht]; exact ho)
    rw [hb, ht] at hm
    exact ⟨c, s', e, r, sim_copied g hs hb' ha (scratch_frame hk).1 (scratch_frame hk).2 hm⟩
  | nothing => exact ⟨[], s, rfl, rfl, hs⟩

/-- The registers that `Args` lists, once they hold the values. -/
theorem args_mem {sz : Nat → Nat} {i : IS} {regs : List (Dest × Nat)} {l : List (Dest × Nat × Nat)} (h : Args sz i regs l) :
    ∀ a ∈ l, ∃ r ∈ regs, a.1 = r.1 ∧ a.2.1 = sz r.2 ∧ i.vals r.2 = some a.2.2 := by
  induction regs generalizing l with
  | nil => simp only [Args] at h; subst h; intro a ha; cases ha
  | cons r regs ih =>
    obtain ⟨v, l', hv, hl, rfl⟩ := h
    intro a ha
    rcases List.mem_cons.1 ha with rfl | ha
    · exact ⟨r, by simp, rfl, rfl, hv⟩
    · obtain ⟨q, hq, h⟩ := ih hl a ha
      exact ⟨q, by simp [hq], h⟩

theorem passed_of {s1 : State} {regs : List (Dest × Nat)} {l : List (Dest × Nat × Nat)} (hs : Sim f W B keep m0 i s)
    (ha : Args (size f) i regs l) (hr : ∀ r ∈ regs, match r.1 with | .gpr _ => True | .sse _ => size f r.2 = 4 ∨ size f r.2 = 8)
    (hh : ∀ a ∈ regArgs f.slot regs, CallSpec.Holds s s1 a) : Passed s1 l := by
  intro a hal
  obtain ⟨⟨d, v⟩, hq, e1, e2, e3⟩ := args_mem ha a hal
  have := hh (d, f.slot v) (List.mem_map.2 ⟨_, hq, rfl⟩)
  have hsz := hr _ hq
  have hval := hs.vals v _ e3
  simp only at e1 e2 hval
  obtain ⟨d', z, w⟩ := a
  simp only at e1 e2 hval
  subst e1 e2
  cases d' with
  | gpr g =>
    simp only [CallSpec.Holds] at this
    simp only
    rw [this, hs.addr, slot_size, hval]
  | sse j =>
    simp only [CallSpec.Holds] at this
    simp only at hsz ⊢
    have h8 : size f v ≤ 8 := by omega
    rw [this, BitVec.toNat_ofNat, Nat.mod_eq_of_lt (Nat.lt_of_lt_of_le (rd_lt _ _ _) (by decide)), hs.addr,
      ← rd_low _ _ 8 _ h8, hval]

/-- Nodes take their values from registers. -/
theorem sim_received (g : Geo f W B keep) (hs : Sim f W B keep m0 i s) {s' : State} {outs : List (Dest × Nat)} {rs : Dest → Nat}
    (h1 : s'.reg .rbp = s.reg .rbp) (h2 : s'.reg .rsp = s.reg .rsp)
    (h3 : ∀ x, (∀ r ∈ outs, ∀ k, k < size f r.2 → x ≠ place f B r.2 + BitVec.ofNat 64 k) → s'.mem x = s.mem x)
    (h4 : ∀ r ∈ outs, rd s'.mem (place f B r.2) (size f r.2) = rs r.1 % 256 ^ size f r.2) :
    Sim f W B keep m0 ⟨received (size f) rs outs i.vals, i.mem⟩ s' := by
  refine ⟨h1.trans hs.rbp, h2.trans hs.rsp, ?_, ?_, ?_⟩
  · intro n v hv
    simp only [received] at hv
    cases hf : outs.find? (·.2 == n) with
    | none =>
      rw [hf] at hv
      simp only at hv
      rw [← hs.vals n v hv]
      refine rd_congr fun k hk => h3 _ fun r hr j hj => ?_
      have : r.2 ≠ n := by
        have := List.find?_eq_none.1 hf r hr
        simpa using this
      exact g.apart n r.2 this.symm k hk j hj
    | some o =>
      rw [hf] at hv
      have ho := List.mem_of_find?_eq_some hf
      have he : o.2 = n := by simpa using List.find?_some hf
      subst he
      simp only [Option.some.injEq] at hv
      rw [h4 o ho, hv]
  · intro x hx
    rw [h3 x fun r _ k hk e => g.own r.2 k hk (e ▸ hx)]
    exact hs.mem x hx
  · intro x hx
    rw [h3 x fun r _ k hk e => g.other r.2 k hk (e ▸ hx)]
    exact hs.keep x hx

theorem run_received (F : FP) (g : Geo f W B keep) (hs : Sim f W B keep m0 i s) {outs : List (Dest × Nat)} {rs : Dest → Nat}
    (ho : OutsOk (size f) outs) (hr : ∀ o ∈ outs, regVal s o.1 = rs o.1) :
    ∃ s', run F (Call.getRegs (regArgs f.slot outs)) s = .ok s' ∧
      Sim f W B keep m0 ⟨received (size f) rs outs i.vals, i.mem⟩ s' := by
  obtain ⟨s', r, hreg, hout, hv⟩ := Call.run_getRegs F (regArgs f.slot outs) s (by
    intro r hr
    obtain ⟨o, hm, rfl⟩ := List.mem_map.1 hr
    have := ho.2 o hm
    obtain ⟨d, v⟩ := o
    cases d with
    | gpr q =>
      simp only [List.mem_cons, List.not_mem_nil, or_false, not_or] at this
      exact ⟨this.1.1, by rw [slot_size]; exact this.2⟩
    | sse j => simp only [CallSpec.ResultOk, slot_size]; exact this)
  have hpw : (regArgs f.slot outs).Pairwise fun a b => Disj (slotAddr s a.2) a.2.size (slotAddr s b.2) b.2.size := by
    unfold regArgs
    rw [List.pairwise_map]
    have := ho.1
    rw [List.Nodup, List.pairwise_map] at this
    refine this.imp fun {a b} hab => ?_
    simp only [hs.addr, slot_size]
    exact g.apart a.2 b.2 hab
  refine ⟨s', r, sim_received g hs (by rw [hreg]) (by rw [hreg]) ?_ ?_⟩
  · intro x hx
    refine hout x fun a ha k hk => ?_
    obtain ⟨o, hm, rfl⟩ := List.mem_map.1 ha
    simp only [hs.addr, slot_size] at hk ⊢
    exact hx o hm k hk
  · intro o hm
    have := hv hpw (o.1, f.slot o.2) (List.mem_map.2 ⟨o, hm, rfl⟩)
    simp only [hs.addr, slot_size] at this
    rw [this, hr o hm]

/-- `IR_CALL` -/
theorem call_sim {M : Machine} (g : Geo f W B keep) (hC : Calls M W) {n : Node} (hn : Here f n)
    (hd : Does W (size f) n i i') (hs : Sim f W B keep m0 i s) {cf ch st rg ou} (hk : n.kind = .call cf ch st rg ou)
    {c : List Ins} (hc : instruction f.slot f.object n = .ok c) {k : Nat} (hat : CodeAt M k (c.map .ins)) :
    ∃ s', M.Steps k s (k + c.length) s' ∧ Sim f W B keep m0 i' s' := by
  obtain ⟨hmem, hsz, hok⟩ := hn
  cases hd <;> try (cases hk; done)
  rename_i num sz a l rs m hx ha hw
  cases hk
  obtain ⟨-, -, hf8, hregs, houts, hres⟩ := hok
  simp only [instruction, List.map_nil] at hc
  generalize hcc : (⟨0, [], regArgs f.slot rg, f.slot cf, Call.calleeReg, regArgs f.slot ou⟩ : Call.Call) = cc at hc
  have hout0 : ∀ (b a : BitVec 64) (n : Nat), CallSpec.Outside b 0 a n := fun _ _ _ _ _ => Nat.zero_le _
  have hOk : CallSpec.Ok s 0 cc := by
    subst hcc
    refine ⟨rfl, by decide, ⟨by simp, .nil⟩, by simp, ?_, ?_, ⟨by rw [slot_size]; exact hf8, hout0 _ _ _⟩,
      by simp [Call.calleeReg], by simp [Call.calleeReg], ?_⟩
    · intro r hr
      obtain ⟨o, hm, rfl⟩ := List.mem_map.1 hr
      have := hregs.2 o hm
      obtain ⟨d, v⟩ := o
      cases d with
      | gpr q =>
        simp only [List.mem_cons, List.not_mem_nil, or_false, not_or] at this
        exact ⟨by rw [slot_size]; exact this.2, this.1.1, this.1.2.1, hout0 _ _ _⟩
      | sse j => exact hout0 _ _ _
    · simpa [regArgs, List.map_map, Function.comp_def] using hregs.1
    · intro hm
      simp only [regArgs, List.map_map, List.mem_map, Function.comp_def] at hm
      obtain ⟨o, hm, e⟩ := hm
      have := hregs.2 o hm
      rw [e] at this
      simp [Call.calleeReg] at this
  obtain ⟨b, s1, e1, r1, hset⟩ := Call.call_set_up M.fp cc s 0 hOk
  rw [Call.call, e1, Res.bind_ok] at hc
  cases hc
  have hm1 : ∀ x, s1.mem x = s.mem x := fun x => hset.rest x (Nat.zero_le _)
  have hsp1 : s1.reg .rsp = s.reg .rsp := by rw [hset.rsp]; simp
  have hcal : s1.reg cc.reg = BitVec.ofNat 64 a := by
    rw [hset.callee]
    subst hcc
    simp only
    rw [hs.addr, ← hf8, hs.vals cf a hx]
  have hpass : Passed s1 l := by
    refine passed_of hs ha ?_ ?_
    · intro r hr
      have := hregs.2 r hr
      split <;> simp_all
    · intro a ha'
      exact hset.regs a (by subst hcc; exact ha')
  obtain ⟨s2, c1, c2, c3, c4, c5, c6⟩ := hC (BitVec.ofNat 64 a) l i.mem rs m s1 hw
    (fun x hx => by rw [hm1]; exact hs.mem x hx) hpass (by rw [hsp1, hs.rsp]; exact g.round)
  have hlow : (s1.reg .rsp).toNat = (B - BitVec.ofNat 64 f.layout.frame).toNat := by rw [hsp1, hs.rsp]
  rw [hlow] at c6
  have hs2 : Sim f W B keep m0 ⟨i.vals, m⟩ s2 := by
    refine ⟨by rw [c3, hset.rbp, hs.rbp], by rw [c2, hsp1, hs.rsp], ?_, c5, ?_⟩
    · intro n v hv
      rw [← hs.vals n v hv]
      exact rd_congr fun k hk => by rw [c6 _ (g.above n k hk) (g.own n k hk), hm1]
    · intro x hx
      rw [c6 x (g.high x hx) (g.kept x hx), hm1]
      exact hs.keep x hx
  generalize h3 : ({ s2.set .rsp (s2.reg .rsp + BitVec.ofInt 64 cc.change) with fl := none } : State) = s3
  have hch : cc.change = 0 := by subst hcc; rfl
  have hs3 : Sim f W B keep m0 ⟨i.vals, m⟩ s3 := by
    subst h3
    refine ⟨by simpa using hs2.rbp, by simpa [hch] using hs2.rsp, hs2.vals, hs2.mem, hs2.keep⟩
  obtain ⟨s4, r4, hs4⟩ := run_received M.fp g hs3 (rs := rs) houts (by
    intro o ho
    have h1 := c4 o.1 (hres o ho)
    have h2 := houts.2 o ho
    rw [← h1]
    subst h3
    obtain ⟨d, v⟩ := o
    cases d with
    | gpr q =>
      simp only [List.mem_cons, List.not_mem_nil, or_false, not_or] at h2
      simp [regVal, h2.1.1]
    | sse j => rfl)
  refine ⟨s4, ?_, hs4⟩
  rw [List.map_append] at hat
  obtain ⟨hatb, hata⟩ := codeAt_append hat
  rw [List.length_map, List.map_cons] at hata
  have st1 := steps_run r1 hatb
  have st2 : M.Step (k + b.length) s1 (k + b.length + 1) s2 := .call (codeAt_head hata) (by rw [hcal]; exact c1)
  have r5 : run M.fp (Call.after cc) s2 = .ok s4 := by
    rw [Call.after, run_cons, Call.run_addq, Out.bind_ok, h3, ← r4]
    subst hcc; rfl
  have st3 := steps_run r5 (codeAt_tail hata)
  have := steps_trans (steps_trans st1 (steps_one st2)) st3
  simpa [Nat.add_assoc, Nat.add_comm, Nat.add_left_comm] using this

theorem label_sim {M : Machine} (g : Geo f W B keep) (hM : M.sym = W.sym) {n : Node} (hn : Here f n)
    (hd : Does W (size f) n i i') (hs : Sim f W B keep m0 i s) {l o} (hk : n.kind = .label l o)
    {c : List Ins} (hc : instruction f.slot f.object n = .ok c) {k : Nat} (hat : CodeAt M k (c.map .ins)) :
    ∃ s', M.Steps k s (k + c.length) s' ∧ Sim f W B keep m0 i' s' := by
  obtain ⟨hmem, hsz, hok⟩ := hn
  cases hd <;> try (cases hk; done)
  rename_i num sz l' o'
  cases hk
  simp only at hsz
  have h8 : sz = 8 := hok
  simp only [instruction, Res.ok.injEq] at hc
  subst hc
  simp only [labelCode, List.map_cons, List.map_nil] at hat
  let s1 := s.set .rdi (slotAddr s (f.slot num))
  have st1 : M.Step k s (k + 1) s1 := .exec (codeAt_head hat) (exec_leaq_slot _ _ _ _)
  let v := BitVec.ofInt 64 ((M.sym l).toInt + o)
  let s2 := s1.store (slotAddr s (f.slot num)) 8 v.toNat
  have st2 : M.Step (k + 1) s1 (k + 1 + 1) s2 := by
    refine .symbol (codeAt_head (codeAt_tail hat)) ?_
    rw [MEM, exec_movq_im]
    simp [mov, legal, getOp, putOp, s1, s2, v, State.addr]
  refine ⟨s2, .tail (steps_one st1) st2, sim_put g hs ⟨?_, ?_, ?_⟩ ?_⟩
  · simp [s2, s1]
  · simp [s2, s1]
  · intro x hx
    simp only [s2, store_mem]
    rw [slot_size, hsz, h8] at hx
    rw [wr_out _ _ _ _ _ hx]
    rfl
  · rintro x ⟨⟩
    simp only [s2, store_mem]
    rw [hsz, h8, hs.addr, rd_wr_same _ _ _ _ (by decide), Nat.mod_eq_of_lt v.isLt, ← hM]
    congr 1
    simp only [v, BitVec.ofInt_add, BitVec.ofInt_toInt]

/-- Any instruction. -/
theorem instruction_sim {M : Machine} (g : Geo f W B keep) (hM : M.sym = W.sym) (hF : M.fp = W.fp) (hC : Calls M W) {n : Node} (hn : Here f n)
    (hd : Does W (size f) n i i') (hs : Sim f W B keep m0 i s)
    {c : List Ins} (hc : instruction f.slot f.object n = .ok c) {k : Nat} (hat : CodeAt M k (c.map .ins)) :
    ∃ s', M.Steps k s (k + c.length) s' ∧ Sim f W B keep m0 i' s' := by
  by_cases h1 : ∃ cf ch st r o, n.kind = .call cf ch st r o
  · obtain ⟨_, _, _, _, _, h⟩ := h1
    exact call_sim g hC hn hd hs h hc hat
  · by_cases h2 : ∃ l o, n.kind = .label l o
    · obtain ⟨_, _, h⟩ := h2
      exact label_sim g hM hn hd hs h hc hat
    · obtain ⟨c', s', e, r, h⟩ := straight M.fp hF g hn hd hs (fun a b c d e he => h1 ⟨a, b, c, d, e, he⟩)
        (fun a b he => h2 ⟨a, b, he⟩)
      rw [hc] at e
      cases e
      exact ⟨s', steps_run r hat, h⟩

theorem instructions_sim {M : Machine} (g : Geo f W B keep) (hM : M.sym = W.sym) (hF : M.fp = W.fp) (hC : Calls M W) {ns : List Node}
    (hn : ∀ n ∈ ns, Here f n) (hd : DoesAll W (size f) ns i i') (hs : Sim f W B keep m0 i s)
    {c : List Ins} (hc : instructions f.slot f.object ns = .ok c) {k : Nat} (hat : CodeAt M k (c.map .ins)) :
    ∃ s', M.Steps k s (k + c.length) s' ∧ Sim f W B keep m0 i' s' := by
  induction hd generalizing s c k with
  | nil => cases hc; exact ⟨s, .refl, hs⟩
  | cons h1 _ ih =>
    rw [instructions] at hc
    obtain ⟨c1, e1, hc⟩ := Res.bind_eq_ok.1 hc
    obtain ⟨c2, e2, hc⟩ := Res.bind_eq_ok.1 hc
    cases hc
    obtain ⟨a1, a2⟩ := codeAt_map hat
    obtain ⟨s1, st1, hs1⟩ := instruction_sim g hM hF hC (hn _ (by simp)) h1 hs e1 a1
    obtain ⟨s2, st2, hs2⟩ := ih (fun n h => hn n (by simp [h])) hs1 e2 a2
    refine ⟨s2, ?_, hs2⟩
    have := steps_trans st1 st2
    rwa [Nat.add_assoc, ← List.length_append] at this

end

end Verif.FuncCode
