import Verif.FuncSpec
import Verif.CastLemmas
import Verif.MemoryProps
import Verif.CallProps
import Verif.FrameProps
/-!
Lemmas about the code of functions: the machine, the frame, single instructions.
-/
namespace Verif.FuncCode
open Verif Asm X86 Codegen CodegenSpec Memory MemorySpec FuncSpec
open Verif.Call (Dest)
open Verif.CallSpec (regVal)

/-! ### The machine -/

theorem steps_trans {M : Machine} {k1 k2 k3 : Nat} {s1 s2 s3 : State} (h : M.Steps k1 s1 k2 s2) (h' : M.Steps k2 s2 k3 s3) :
    M.Steps k1 s1 k3 s3 := by
  induction h' with
  | refl => exact h
  | tail _ hs ih => exact .tail ih hs

theorem steps_one {M : Machine} {k1 k2 : Nat} {s1 s2 : State} (h : M.Step k1 s1 k2 s2) : M.Steps k1 s1 k2 s2 :=
  .tail .refl h

/-- The lines from `k` on are the code `c`. -/
def CodeAt (M : Machine) (k : Nat) (c : List Item) : Prop := ∃ A B, M.code = A ++ c ++ B ∧ A.length = k

theorem codeAt_append {M : Machine} {k : Nat} {a b : List Item} (h : CodeAt M k (a ++ b)) :
    CodeAt M k a ∧ CodeAt M (k + a.length) b := by
  obtain ⟨A, B, h, rfl⟩ := h
  exact ⟨⟨A, b ++ B, by rw [h]; simp, rfl⟩, ⟨A ++ a, B, by rw [h]; simp, by simp⟩⟩

theorem codeAt_head {M : Machine} {k : Nat} {a : Item} {b : List Item} (h : CodeAt M k (a :: b)) :
    M.code[k]? = some a := by
  obtain ⟨A, B, h, rfl⟩ := h
  rw [h]; simp

theorem codeAt_tail {M : Machine} {k : Nat} {a : Item} {b : List Item} (h : CodeAt M k (a :: b)) :
    CodeAt M (k + 1) b := (codeAt_append (a := [a]) h).2

theorem codeAt_map {M : Machine} {k : Nat} {a b : List Ins} (h : CodeAt M k ((a ++ b).map .ins)) :
    CodeAt M k (a.map .ins) ∧ CodeAt M (k + a.length) (b.map .ins) := by
  rw [List.map_append] at h
  have := codeAt_append h
  simpa using this

/-- Code without jumps. -/
theorem steps_run {M : Machine} {c : List Ins} {k : Nat} {s s' : State} (h : run M.fp c s = .ok s')
    (hc : CodeAt M k (c.map .ins)) : M.Steps k s (k + c.length) s' := by
  induction c generalizing k s with
  | nil => simp only [run_nil, Out.ok.injEq] at h; subst h; exact .refl
  | cons i c ih =>
    rw [run_cons] at h
    cases he : exec M.fp i s with
    | ok t =>
      rw [he, Out.bind_ok] at h
      rw [List.map_cons] at hc
      have := steps_trans (steps_one (.exec (codeAt_head hc) he)) (ih h (codeAt_tail hc))
      rwa [Nat.add_assoc, Nat.add_comm 1] at this
    | trap => rw [he] at h; cases h
    | bad => rw [he] at h; cases h

/-! ### The frame -/

theorem find_zip {α β : Type} (l : List α) (m : List β) (h : m.length = l.length) (p : α → Bool) :
    ((l.zip m).find? fun x => p x.1).map (·.1) = l.find? p := by
  induction l generalizing m with
  | nil => simp
  | cons a l ih =>
    cases m with
    | nil => simp at h
    | cons b m =>
      rw [List.zip_cons_cons, List.find?_cons, List.find?_cons]
      cases hp : p a
      · simpa [hp] using ih m (by simpa using h)
      · simp [hp]

theorem layout_good (f : Func) : Verif.FrameSpec.Good (f.nodes.map (·.frame)) 0 f.layout := Verif.Frame.frame_good _ _

theorem layout_lengths (f : Func) : f.layout.values.length = f.nodes.length ∧ f.layout.allocs.length = f.nodes.length := by
  have h := layout_good f
  exact ⟨by simpa using h.values, by simpa using h.allocs⟩

theorem slot_size (f : Func) (n : Nat) : (f.slot n).size = size f n := by
  have hl := layout_lengths f
  have h := find_zip f.nodes (f.layout.values.zip f.layout.allocs) (by simp [hl.1, hl.2]) (·.num == n)
  unfold Func.slot FuncSpec.size Func.places
  rw [← h]
  cases hf : (f.nodes.zip (f.layout.values.zip f.layout.allocs)).find? fun x => x.1.num == n with
  | none => simp
  | some x => obtain ⟨a, v, b⟩ := x; simp

theorem size_node {f : Func} (hn : (f.nodes.map (·.num)).Nodup) {n : Node} (h : n ∈ f.nodes) : size f n.num = n.size := by
  unfold FuncSpec.size
  have key : ∀ l : List Node, (l.map (·.num)).Nodup → n ∈ l → l.find? (·.num == n.num) = some n := by
    intro l
    induction l with
    | nil => intro _ h; cases h
    | cons a l ih =>
      intro hd h
      rw [List.map_cons, List.nodup_cons] at hd
      rw [List.find?_cons]
      rcases List.mem_cons.1 h with rfl | h
      · simp
      · have : (a.num == n.num) = false := by
          rw [beq_eq_false_iff_ne]
          intro e
          exact hd.1 (by rw [e]; exact List.mem_map_of_mem h)
        rw [this]
        exact ih hd.2 h
  rw [key _ hn h]

/-- Where the value of a node is. -/
def place (f : Func) (B : BitVec 64) (n : Nat) : BitVec 64 := B - BitVec.ofNat 64 (f.slot n).loc

/-- How the frame of a function lies in memory; the bytes of `keep` are never written. -/
structure Geo (f : Func) (W : World) (B : BitVec 64) (keep : BitVec 64 → Prop) : Prop where
  small : ∀ n, size f n ≤ 2 ^ 63
  apart : ∀ n m, n ≠ m → Disj (place f B n) (size f n) (place f B m) (size f m)
  own : ∀ n k, k < size f n → ¬ W.acc (place f B n + BitVec.ofNat 64 k)
  kept : ∀ x, keep x → ¬ W.acc x
  other : ∀ n k, k < size f n → ¬ keep (place f B n + BitVec.ofNat 64 k)
  high : ∀ x, keep x → (B - BitVec.ofNat 64 f.layout.frame).toNat ≤ x.toNat
  above : ∀ n k, k < size f n → (B - BitVec.ofNat 64 f.layout.frame).toNat ≤ (place f B n + BitVec.ofNat 64 k).toNat
  round : 16 ∣ (B - BitVec.ofNat 64 f.layout.frame).toNat
  loc : ∀ n ∈ f.nodes, ∀ k al, n.kind = .alloc k al → W.loc n.num = B - BitVec.ofNat 64 (f.object n.num)
  args : ∀ n ∈ f.nodes, readsStack n → W.args = B + 16

/-- The machine is in the state `i` of the function. -/
structure Sim (f : Func) (W : World) (B : BitVec 64) (keep : BitVec 64 → Prop) (m0 : Mem) (i : IS) (s : State) : Prop where
  rbp : s.reg .rbp = B
  rsp : s.reg .rsp = B - BitVec.ofNat 64 f.layout.frame
  vals : ∀ n v, i.vals n = some v → rd s.mem (place f B n) (size f n) = v
  mem : ∀ x, W.acc x → s.mem x = i.mem x
  keep : ∀ x, keep x → s.mem x = m0 x

section
variable {f : Func} {W : World} {B : BitVec 64} {keep : BitVec 64 → Prop} {m0 : Mem} {i : IS} {s s' : State}

theorem Sim.addr (h : Sim f W B keep m0 i s) (n : Nat) : slotAddr s (f.slot n) = place f B n := by
  rw [slotAddr, h.rbp, place]

theorem Sim.lt (h : Sim f W B keep m0 i s) {n v : Nat} (hv : i.vals n = some v) : v < 256 ^ size f n := by
  rw [← h.vals n v hv]; exact rd_lt _ _ _

theorem frame_mem (h : Sim f W B keep m0 i s) {out : Nat} (hf : CodegenSpec.Frame s s' (f.slot out)) (x : BitVec 64)
    (hx : ∀ k, k < size f out → x ≠ place f B out + BitVec.ofNat 64 k) : s'.mem x = s.mem x := by
  refine hf.2.2 x fun k hk => ?_
  rw [h.addr]
  exact hx k (by rw [← slot_size]; exact hk)

/-- A node gets a value. -/
theorem sim_put (g : Geo f W B keep) (h : Sim f W B keep m0 i s) {out : Nat} {v : Option Nat}
    (hf : CodegenSpec.Frame s s' (f.slot out)) (hv : ∀ x, v = some x → rd s'.mem (place f B out) (size f out) = x) :
    Sim f W B keep m0 (i.put out v) s' := by
  have hm := frame_mem h hf
  refine ⟨hf.1.trans h.rbp, hf.2.1.trans h.rsp, ?_, ?_, ?_⟩
  · intro n w hw
    simp only [IS.put] at hw
    by_cases e : n = out
    · subst e
      rw [if_pos rfl] at hw
      exact hv w hw
    · rw [if_neg e] at hw
      rw [← h.vals n w hw]
      exact rd_congr fun k hk => hm _ fun j hj => g.apart n out e k hk j hj
  · intro x hx
    rw [hm x fun k hk e => g.own out k hk (e ▸ hx)]
    exact h.mem x hx
  · intro x hx
    rw [hm x fun k hk e => g.other out k hk (e ▸ hx)]
    exact h.keep x hx

/-- Memory that may be accessed changes. -/
theorem sim_mem (g : Geo f W B keep) (h : Sim f W B keep m0 i s) {m : Mem} (h1 : s'.reg .rbp = s.reg .rbp)
    (h2 : s'.reg .rsp = s.reg .rsp) (h3 : ∀ x, W.acc x → s'.mem x = m x) (h4 : ∀ x, ¬ W.acc x → s'.mem x = s.mem x) :
    Sim f W B keep m0 { i with mem := m } s' := by
  refine ⟨h1.trans h.rbp, h2.trans h.rsp, ?_, h3, ?_⟩
  · intro n v hv
    rw [← h.vals n v hv]
    exact rd_congr fun k hk => h4 _ (g.own n k hk)
  · intro x hx
    rw [h4 x (g.kept x hx)]
    exact h.keep x hx

theorem acc_of {a x : BitVec 64} {n : Nat} (h : W.Acc a n) (hx : (x - a).toNat < n) : W.acc x := by
  have := h _ hx
  rwa [add_sub_ofNat] at this

/-- A write to accessible bytes. -/
theorem sim_wr (g : Geo f W B keep) (h : Sim f W B keep m0 i s) {a : BitVec 64} {n v : Nat} (ha : W.Acc a n)
    (h1 : s'.reg .rbp = s.reg .rbp) (h2 : s'.reg .rsp = s.reg .rsp) (h3 : s'.mem = wr s.mem a n v) :
    Sim f W B keep m0 { i with mem := wr i.mem a n v } s' := by
  refine sim_mem g h h1 h2 ?_ ?_
  · intro x hx
    rw [h3, wr_eq, wr_eq, h.mem x hx]
  · intro x hx
    rw [h3, wr_eq, if_neg fun hl => hx (acc_of ha hl)]

theorem sim_copied (g : Geo f W B keep) (h : Sim f W B keep m0 i s) {a d : BitVec 64} {n : Nat} (ha : W.Acc a n)
    (hd : W.Acc d n) (h1 : s'.reg .rbp = s.reg .rbp) (h2 : s'.reg .rsp = s.reg .rsp) (h3 : s'.mem = copied s.mem a d n) :
    Sim f W B keep m0 { i with mem := copied i.mem a d n } s' := by
  refine sim_mem g h h1 h2 ?_ ?_
  · intro x hx
    rw [h3, copied, copied, h.mem x hx]
    split
    · rename_i hl
      have := h.mem _ (ha _ hl)
      rwa [BitVec.ofNat_toNat, BitVec.setWidth_eq] at this
    · rfl
  · intro x hx
    rw [h3, copied, if_neg fun hl => hx (acc_of hd hl)]

/-- Accessible bytes are apart from the places of values. -/
theorem acc_apart (g : Geo f W B keep) {a : BitVec 64} {n k : Nat} (ha : W.Acc a n) (hk : k = size f n') :
    Disj a n (place f B n') k := by
  subst hk
  intro i hi j hj e
  exact g.own n' j hj (e ▸ ha i hi)

theorem copied_frame {a : BitVec 64} {v : Slot} (h1 : s'.reg .rbp = s.reg .rbp) (h2 : s'.reg .rsp = s.reg .rsp)
    (h3 : s'.mem = copied s.mem a (slotAddr s v) v.size) : CodegenSpec.Frame s s' v := by
  refine ⟨h1, h2, fun x hx => ?_⟩
  rw [h3, ← wr_rd]
  exact wr_out _ _ _ _ _ hx

theorem copied_rd {m : Mem} {a d : BitVec 64} {n : Nat} (hn : n ≤ 2 ^ 63) : rd (copied m a d n) d n = rd m a n := by
  rw [← wr_rd, rd_wr_same _ _ _ _ (by omega), Nat.mod_eq_of_lt (rd_lt _ _ _)]

theorem rd_acc (h : Sim f W B keep m0 i s) {a : BitVec 64} {n : Nat} (ha : W.Acc a n) : rd s.mem a n = rd i.mem a n :=
  rd_congr fun k hk => h.mem _ (ha k hk)

/-- A node gets a copy of accessible bytes. -/
theorem sim_load (g : Geo f W B keep) (h : Sim f W B keep m0 i s) {a : BitVec 64} {out n : Nat} (hn : size f out = n)
    (ha : W.Acc a n) (h1 : s'.reg .rbp = s.reg .rbp) (h2 : s'.reg .rsp = s.reg .rsp)
    (h3 : s'.mem = copied s.mem a (slotAddr s (f.slot out)) (f.slot out).size) :
    Sim f W B keep m0 (i.put out (some (rd i.mem a n))) s' := by
  refine sim_put g h (copied_frame h1 h2 h3) ?_
  rintro x ⟨⟩
  rw [h3, h.addr, slot_size, copied_rd (g.small _), hn, rd_acc h ha]

theorem target_eq (h : Sim f W B keep m0 i s) {p a : Nat} (hp : size f p = 8) (hv : i.vals p = some a) :
    target s (f.slot p) = BitVec.ofNat 64 a := by
  have := h.vals p a hv
  rw [target, h.addr, ← hp, this]

end

/-! ### Single instructions -/

theorem exec_leaq_slot (F : FP) (s : State) (v : Slot) (r : Reg) : exec F (leaSlot v r) s = .ok (s.set r (slotAddr s v)) := by
  rw [leaSlot, Slot.mem, R8, exec_leaq, State.addr, slot_addr0]

/-- `IR_LOAD_PART_ADDRESS`. -/
theorem load_part_code (F : FP) (p v : Slot) (off : Nat) (hp : p.size = 8) (hv : v.size ≤ 2 ^ 63) (s : State)
    (ho : NoPartialOverlap (target s p + BitVec.ofNat 64 off) (slotAddr s v) v.size) :
    ∃ c s', loadPart p v off = .ok c ∧ run F c s = .ok s' ∧
      s'.mem = copied s.mem (target s p + BitVec.ofNat 64 off) (slotAddr s v) v.size ∧ Scratch s s' := by
  obtain ⟨c, e, l⟩ := run_load F p .rdi (by rw [hp]; simp [ScalarSize])
  let s1 := ((s.set .rdi (target s p)).set .rdi (target s p + BitVec.ofNat 64 off)).set .rsi (slotAddr s v)
  have h1 : run F (c ++ [⟨.leaq, [MEM off .rdi, R8 .rdi]⟩, leaSlot v .rsi]) s = .ok s1 := by
    rw [run_append_ok (l s), hp, run_cons, MEM, R8, exec_leaq, Out.bind_ok, run_cons, exec_leaq_slot, Out.bind_ok, run_nil,
      addr_nat]
    rfl
  obtain ⟨w, hw⟩ := memcpy_copies F v.size hv s1 (by simpa [s1] using ho)
  refine ⟨_, _, by rw [loadPart, e]; rfl, by rw [run_append_ok h1, hw], ?_, ?_⟩
  · simp [s1]
  · refine ⟨?_, rfl⟩
    intro r h1 h2 h3
    simp [s1, h1, h2, h3]

/-- `IR_STORE_PART_ADDRESS`. -/
theorem store_part_code (F : FP) (p v : Slot) (off : Nat) (hp : p.size = 8) (hv : v.size ≤ 2 ^ 63) (s : State)
    (ho : NoPartialOverlap (slotAddr s v) (target s p + BitVec.ofNat 64 off) v.size) :
    ∃ c s', storePart p v off = .ok c ∧ run F c s = .ok s' ∧
      s'.mem = copied s.mem (slotAddr s v) (target s p + BitVec.ofNat 64 off) v.size ∧ Scratch s s' := by
  obtain ⟨c, e, l⟩ := run_load F p .rsi (by rw [hp]; simp [ScalarSize])
  let s1 := ((s.set .rsi (target s p)).set .rsi (target s p + BitVec.ofNat 64 off)).set .rdi (slotAddr s v)
  have h1 : run F (c ++ [⟨.leaq, [MEM off .rsi, R8 .rsi]⟩, leaSlot v .rdi]) s = .ok s1 := by
    rw [run_append_ok (l s), hp, run_cons, MEM, R8, exec_leaq, Out.bind_ok, run_cons, exec_leaq_slot, Out.bind_ok, run_nil,
      addr_nat]
    rfl
  obtain ⟨w, hw⟩ := memcpy_copies F v.size hv s1 (by simpa [s1] using ho)
  refine ⟨_, _, by rw [storePart, e]; rfl, by rw [run_append_ok h1, hw], ?_, ?_⟩
  · simp [s1]
  · refine ⟨?_, rfl⟩
    intro r h1 h2 h3
    simp [s1, h1, h2, h3]

theorem addr_off (s : State) (off : Int) : s.addr off .rbp = s.reg .rbp + 16 + BitVec.ofInt 64 (off - 16) := by
  rw [State.addr, BitVec.add_assoc]
  congr 1
  apply BitVec.eq_of_toInt_eq
  simp [show (16 : Int) + (off - 16) = off by omega]

/-- `IR_LOAD_BASE_RELATIVE`. -/
theorem load_base_code (F : FP) (v : Slot) (off : Int) (hv : v.size ≤ 2 ^ 63) (s : State)
    (ho : NoPartialOverlap (s.reg .rbp + 16 + BitVec.ofInt 64 (off - 16)) (slotAddr s v) v.size) :
    ∃ s', run F (loadBaseCode off v) s = .ok s' ∧
      s'.mem = copied s.mem (s.reg .rbp + 16 + BitVec.ofInt 64 (off - 16)) (slotAddr s v) v.size ∧ Scratch s s' := by
  let s1 := (s.set .rdi (s.reg .rbp + 16 + BitVec.ofInt 64 (off - 16))).set .rsi (slotAddr s v)
  have h1 : run F [⟨.leaq, [MEM off .rbp, R8 .rdi]⟩, leaSlot v .rsi] s = .ok s1 := by
    rw [run_cons, MEM, R8, exec_leaq, Out.bind_ok, run_cons, exec_leaq_slot, Out.bind_ok, run_nil, addr_off]
    rfl
  obtain ⟨w, hw⟩ := memcpy_copies F v.size hv s1 (by simpa [s1] using ho)
  refine ⟨_, by rw [loadBaseCode, run_append_ok h1, hw], ?_, ?_⟩
  · simp [s1]
  · refine ⟨?_, rfl⟩
    intro r h1 h2 h3
    simp [s1, h1, h2, h3]

/-- `IR_LOAD_BASE_RELATIVE_ADDRESS`. -/
theorem load_base_address_code (F : FP) (p : Slot) (off : Int) (n : Nat) (hp : p.size = 8) (hn : n ≤ 2 ^ 63) (s : State)
    (ho : NoPartialOverlap (s.reg .rbp + 16 + BitVec.ofInt 64 (off - 16)) (target s p) n) :
    ∃ c s', loadBaseAddressCode p off n = .ok c ∧ run F c s = .ok s' ∧
      s'.mem = copied s.mem (s.reg .rbp + 16 + BitVec.ofInt 64 (off - 16)) (target s p) n ∧ Scratch s s' := by
  obtain ⟨c, e, l⟩ := run_load F p .rsi (by rw [hp]; simp [ScalarSize])
  let s1 := (s.set .rdi (s.reg .rbp + 16 + BitVec.ofInt 64 (off - 16))).set .rsi (target s p)
  have h1 : run F (⟨.leaq, [MEM off .rbp, R8 .rdi]⟩ :: c) s = .ok s1 := by
    rw [run_cons, MEM, R8, exec_leaq, Out.bind_ok, l, hp, addr_off]
    rfl
  obtain ⟨w, hw⟩ := memcpy_copies F n hn s1 (by simpa [s1] using ho)
  refine ⟨_, _, by rw [loadBaseAddressCode, e]; rfl, by rw [run_append_ok h1, hw], ?_, ?_⟩
  · simp [s1]
  · refine ⟨?_, rfl⟩
    intro r h1 h2 h3
    simp [s1, h1, h2, h3]

/-- `~` and `-`. -/
theorem unary_int_code (F : FP) (m : Mn) (fn : BitVec 64 → BitVec 64) (a out : Slot) (s : State) (ha : ScalarSize a.size)
    (ho : out.size = a.size)
    (hm : ∀ s, exec F ⟨m, [R8 .rax]⟩ s = .ok { s.set .rax (fn (s.reg .rax)) with fl := none }) :
    ∃ c, codegenUnaryInt m a out = .ok c ∧ ∃ s', run F c s = .ok s' ∧ CodegenSpec.Frame s s' out ∧
      rd s'.mem (slotAddr s' out) out.size =
        (fn (BitVec.ofNat 64 (rd s.mem (slotAddr s a) a.size))).toNat % 256 ^ out.size := by
  obtain ⟨c, e, s', h1, h2, h3⟩ := Cast.run_through F a out [⟨m, [R8 .rax]⟩] s ha (by rw [ho]; exact ha)
    (fn (BitVec.ofNat 64 (rd s.mem (slotAddr s a) a.size))) (by
      intro s' hr hk
      refine ⟨{ s'.set .rax (fn (s'.reg .rax)) with fl := none }, by rw [run_cons, hm]; rfl, ?_, by simp [Kept]⟩
      simp [hr])
  unfold codegenUnaryInt
  rw [e]
  exact ⟨_, rfl, s', h1, h2, h3⟩

theorem pow256 (n : Nat) : 256 ^ n = 2 ^ (8 * n) := by rw [show (256 : Nat) = 2 ^ 8 by rfl, ← Nat.pow_mul]

theorem not_low {n x : Nat} (h : ScalarSize n) :
    (~~~ BitVec.ofNat 64 x).toNat % 256 ^ n = (~~~ BitVec.ofNat (8 * n) x).toNat := by
  rw [pow256, ← BitVec.toNat_setWidth]
  have : 8 * n ≤ 64 := by rcases h with h | h | h | h <;> omega
  congr 1
  rw [BitVec.setWidth_not this, BitVec.setWidth_ofNat_of_le this]

theorem neg_low {n x : Nat} (h : ScalarSize n) :
    (- BitVec.ofNat 64 x).toNat % 256 ^ n = (- BitVec.ofNat (8 * n) x).toNat := by
  rw [pow256, ← BitVec.toNat_setWidth]
  have : 8 * n ≤ 64 := by rcases h with h | h | h | h <;> omega
  congr 1
  rw [BitVec.setWidth_neg_of_le this, BitVec.setWidth_ofNat_of_le this]

/-- `IR_INT_CAST_SIGN`. -/
theorem sign_cast_code (F : FP) (a out : Slot) (s : State) (ha : ScalarSize a.size) (ho : ScalarSize out.size) :
    ∃ c, Cast.signCast a out = .ok c ∧ ∃ s', run F c s = .ok s' ∧ CodegenSpec.Frame s s' out ∧
      rd s'.mem (slotAddr s' out) out.size =
        ((BitVec.ofNat (8 * a.size) (rd s.mem (slotAddr s a) a.size)).signExtend (8 * out.size)).toNat := by
  have hoo : 8 * out.size ≤ 64 := by rcases ho with h | h | h | h <;> omega
  by_cases hgt : out.size > a.size
  · have key : ∀ (m : Mn) (n : Nat), n = a.size →
        (∀ s, exec F ⟨m, [.reg .rax n, R8 .rax]⟩ s = Out.of (movx (8 * n) 64 (·.signExtend 64) (.reg .rax n) (R8 .rax) s)) →
        ∃ c, scalarToReg a .rax = .ok c ∧ ∃ s', run F (c ++ [⟨m, [.reg .rax n, R8 .rax]⟩] ++ regToScalar .rax out) s = .ok s' ∧
          CodegenSpec.Frame s s' out ∧ rd s'.mem (slotAddr s' out) out.size =
            ((BitVec.ofNat (8 * a.size) (rd s.mem (slotAddr s a) a.size)).signExtend (8 * out.size)).toNat := by
      intro m n hn hm
      obtain ⟨c, e, s', h1, h2, h3⟩ := Cast.run_through F a out [⟨m, [.reg .rax n, R8 .rax]⟩] s ha ho
        ((BitVec.ofNat (8 * a.size) (rd s.mem (slotAddr s a) a.size)).signExtend 64) (by
          intro s' hr hk
          obtain ⟨s2, h1, h2, h3⟩ := Cast.run_movsx F m n s' hm
          refine ⟨s2, h1, ?_, h3⟩
          rw [h2, hr, hn, BitVec.setWidth_ofNat_of_le (by rcases ha with h | h | h | h <;> omega)])
      refine ⟨c, e, s', h1, h2, ?_⟩
      rw [h3, pow256, ← BitVec.toNat_setWidth]
      congr 1
      ext i hi
      simp [BitVec.getElem_signExtend, show i < 64 by omega]
    unfold Cast.signCast
    rcases ha with h | h | h | h
    · obtain ⟨c, e, s', h1, h2, h3⟩ := key .movsbq 1 h.symm (fun _ => rfl)
      rw [e]
      exact ⟨_, rfl, s', by simpa [h, show out.size > 1 by omega] using h1, h2, h3⟩
    · obtain ⟨c, e, s', h1, h2, h3⟩ := key .movswq 2 h.symm (fun _ => rfl)
      rw [e]
      exact ⟨_, rfl, s', by simpa [h, show out.size > 2 by omega] using h1, h2, h3⟩
    · obtain ⟨c, e, s', h1, h2, h3⟩ := key .movslq 4 h.symm (fun _ => rfl)
      rw [e]
      exact ⟨_, rfl, s', by simpa [h, show out.size > 4 by omega] using h1, h2, h3⟩
    · exfalso; rcases ho with h' | h' | h' | h' <;> omega
  · obtain ⟨c, e, s', h1, h2, h3⟩ := Cast.run_through F a out [] s ha ho
      (BitVec.ofNat 64 (rd s.mem (slotAddr s a) a.size)) (by
        intro s' hr hk
        exact ⟨s', rfl, by rw [hr], Cast.kept_refl _⟩)
    unfold Cast.signCast
    rw [e]
    refine ⟨_, rfl, s', by simpa [hgt] using h1, h2, ?_⟩
    rw [h3, pow256, ← BitVec.toNat_setWidth, BitVec.signExtend_eq_setWidth_of_le _ (by omega),
      BitVec.setWidth_ofNat_of_le hoo, BitVec.setWidth_ofNat_of_le (by omega)]

end Verif.FuncCode
