import Verif.VlaSim
import Verif.ScheduleOrderProps
/-! C108: the storage of variable length arrays. -/
namespace Verif.Vla
open Verif Asm X86 Codegen Frame VlaSpec
open Verif.Ir (Graph Scheduled blockTrees localSchedule)

variable {F : FP} {ns : List Node} {pre : Nat}

/-- C108. The allocations of a function are numbered through in the order of the instructions, and every one has a word of its own. -/
theorem allocations_numbered (ns : List Node) (pre : Nat) {j : Nat} {n : Node} (h : ns[j]? = some n) :
    (numbers 0 ns)[j]? = some (if n.kind = .vla then some (((ns.take j).filter (·.kind = .vla)).length) else none) ∧
    (n.kind = .vla → ((ns.take j).filter (·.kind = .vla)).length < (layout ns pre).vlaCount) := by
  refine ⟨?_, fun hk => filter_lt h hk⟩
  rw [numbers_get ns 0 j n h, Nat.zero_add]

/-- C108. The code of an allocation ends with the address of the array as its value: `len` bytes below the base, which is what the word of the
allocation holds, or the stack pointer if that is zero. The stack pointer is the address rounded down to 16; the base is kept in the word; the words of
greater numbers become zero, those of smaller numbers stay. No other byte and no other register than `%rax` changes. -/
theorem allocation_code (F : FP) {k : Nat} {len out : Slot} (hd : Declares ns pre k len out) (lbl : Nat) {s : State} (hf : (layout ns pre).frame ≤ (s.reg .rbp).toNat) :
    ∃ c s' base, after (layout ns pre) k len out = .ok c ∧ runParts F lbl (before (layout ns pre) k lbl) c s = .ok s' ∧
      base = (if slot (layout ns pre) s k = 0 then (s.reg .rsp).toNat else slot (layout ns pre) s k) ∧
      word s' out.loc = (BitVec.ofNat 64 base - BitVec.ofNat 64 (word s len.loc)).toNat ∧ (s'.reg .rsp).toNat = word s' out.loc / 16 * 16 ∧
      slot (layout ns pre) s' k = base ∧ (∀ j, j < k → slot (layout ns pre) s' j = slot (layout ns pre) s j) ∧
      (∀ j, k < j → j < (layout ns pre).vlaCount → slot (layout ns pre) s' j = 0) ∧
      (∀ r, r ≠ .rax → r ≠ .rsp → s'.reg r = s.reg r) ∧
      ∀ x : BitVec 64, (∀ j, j < (layout ns pre).vlaCount → ∀ i, i < 8 → x ≠ s.reg .rbp - BitVec.ofNat 64 ((layout ns pre).vlaOffset - 8 * j) + BitVec.ofNat 64 i) →
        (∀ i, i < 8 → x ≠ s.reg .rbp - BitVec.ofNat 64 out.loc + BitVec.ofNat 64 i) → s'.mem x = s.mem x := by
  obtain ⟨hk, hl, ho⟩ := declares_facts hd s
  obtain ⟨c, s', h1, h2, h3⟩ := run_alloc F hk lbl (fits_of hf) hl ho
  refine ⟨c, s', _, h1, h2, rfl, ?_, ?_, ?_, ?_, ?_, h3.regs, h3.mem⟩
  · rw [← h3.value, BitVec.toNat_ofNat, Nat.mod_eq_of_lt (word_lt _ _)]
  · rw [h3.rsp, and_16, BitVec.toNat_ofNat, Nat.mod_eq_of_lt (word_lt _ _)]
    omega
  · rw [h3.slots k hk]
    simp
  · intro j hj
    rw [h3.slots j (by omega), if_neg (by omega), if_neg (by omega)]
  · intro j hj hj'
    rw [h3.slots j hj', if_pos hj]

/-- C108. If an array is only alive at the allocation of another one when its own allocation has the smaller number, the arrays that are alive are
apart, between the stack pointer and where the stack pointer was at the start, and aligned. The numbers follow the order of the blocks and not the order
of the declarations, so that the condition is not always met. -/
theorem arrays_apart_partial {Outer : Nat → Nat → Prop} (hO : ∀ i k, Outer i k → i < k) {top : Nat} {live : List Arr} {s : State}
    (h : History F ns pre Outer top live s) : Stored top live s := good_stored (good_history hO h)

/-- C108. A declaration that is executed again, with only allocations of greater numbers in between, gets storage with the same end: a loop does not
use up the stack. -/
theorem space_again {k : Nat} {len out : Slot} (hd : Declares ns pre k len out) {s0 s1 s2 s3 : State} (hf : (layout ns pre).frame ≤ (s0.reg .rbp).toNat)
    (h0 : (s0.reg .rsp).toNat ≠ 0) (h1 : Allocates F ns pre k len out s0 s1) (hw : Within F ns pre k s1 s2) (h3 : Allocates F ns pre k len out s2 s3)
    (f1 : word s0 len.loc ≤ (if slot (layout ns pre) s0 k = 0 then (s0.reg .rsp).toNat else slot (layout ns pre) s0 k))
    (f2 : word s2 len.loc ≤ word s1 out.loc + word s0 len.loc) :
    word s3 out.loc + word s2 len.loc = word s1 out.loc + word s0 len.loc := by
  obtain ⟨hk, -, -⟩ := declares_facts hd s0
  have a1 := allocates_facts hd (fits_of hf) h1
  have hf1 : (layout ns pre).frame ≤ (s1.reg .rbp).toNat := by rw [a1.regs .rbp (by decide) (by decide)]; exact hf
  obtain ⟨w1, w2⟩ := within_slot hk hw hf1
  have a3 := allocates_facts hd (fits_of (by rw [w2]; exact hf1)) h3
  obtain ⟨n1, -⟩ := alloc_numbers a1 f1
  have hs : slot (layout ns pre) s1 k = baseOf (layout ns pre) s0 k := by
    rw [a1.slots k hk]
    simp [baseOf]
  have hne : baseOf (layout ns pre) s0 k ≠ 0 := by
    unfold baseOf
    split
    · exact h0
    · assumption
  have hb : baseOf (layout ns pre) s2 k = baseOf (layout ns pre) s0 k := by
    have e : slot (layout ns pre) s2 k = baseOf (layout ns pre) s0 k := by rw [w1, hs]
    rw [baseOf, if_neg (by rw [e]; exact hne), e]
  obtain ⟨n3, -⟩ := alloc_numbers a3 (by rw [hb]; omega)
  omega

/-! ### A function with two arrays -/

/-- Two allocations in the order of their declarations: the values are the length of the first, its address, the length of the second, its address. -/
def twoArrays : List Node := [⟨8, .plain⟩, ⟨8, .vla⟩, ⟨8, .plain⟩, ⟨8, .vla⟩]

theorem two_first : Declares twoArrays 0 0 ⟨8, 8⟩ ⟨8, 16⟩ := ⟨⟨1, by decide, by decide, by decide⟩, ⟨0, .plain, by decide, by decide⟩, rfl, rfl⟩
theorem two_second : Declares twoArrays 0 1 ⟨8, 24⟩ ⟨8, 32⟩ := ⟨⟨3, by decide, by decide, by decide⟩, ⟨2, .plain, by decide, by decide⟩, rfl, rfl⟩

/-- A state with a value in place. -/
theorem set_word (l : Layout) {s : State} (hf : Fits l s) {v : Slot} (hv : Beside l s v) {n : Nat} (hn : n < 2 ^ 64) :
    ∃ s', Keeps l s s' ∧ word s' v.loc = n := by
  refine ⟨s.store (s.reg .rbp - BitVec.ofNat 64 v.loc) 8 (BitVec.ofNat 64 n).toNat, ⟨rfl, rfl, ?_⟩, ?_⟩
  · intro k hk
    apply slot_congr
    · rfl
    · intro i hi
      exact wr_out _ _ _ _ _ (fun j hj => (beside_disj hf hv hk).symm i hi j hj)
  · have := word_wr_same s v.loc (BitVec.ofNat 64 n) s.mem
    rw [BitVec.toNat_ofNat, Nat.mod_eq_of_lt hn] at this
    rw [BitVec.toNat_ofNat, Nat.mod_eq_of_lt hn]
    exact this

/-- A history can start anywhere. -/
theorem starts (F : FP) (ns : List Node) (pre : Nat) (Outer : Nat → Nat → Prop) {top : Nat} (h : 16 ∣ top) (hb : top + (layout ns pre).frame < 2 ^ 64) :
    ∃ s, History F ns pre Outer top [] s ∧ (s.reg .rsp).toNat = top ∧ (s.reg .rbp).toNat = top + (layout ns pre).frame ∧
      ∀ k, k < (layout ns pre).vlaCount → slot (layout ns pre) s k = 0 := by
  let s0 : State := ⟨fun r => if r = .rsp then BitVec.ofNat 64 top else BitVec.ofNat 64 (top + (layout ns pre).frame), fun _ => 0, none, fun _ => 0⟩
  have e1 : (s0.reg .rsp).toNat = top := by
    show (BitVec.ofNat 64 top).toNat = top
    rw [BitVec.toNat_ofNat]; exact Nat.mod_eq_of_lt (by omega)
  have e2 : (s0.reg .rbp).toNat = top + (layout ns pre).frame := by
    show (BitVec.ofNat 64 (top + (layout ns pre).frame)).toNat = _
    rw [BitVec.toNat_ofNat]; exact Nat.mod_eq_of_lt hb
  obtain ⟨s, h1, h2⟩ := run_clears F (List.range (layout ns pre).vlaCount) (fun i hi => by simpa using hi) (s := s0) (fits_of (by omega))
  refine ⟨s, .start h e1 e2 h1, by rw [h2.reg]; exact e1, by rw [h2.reg]; exact e2, ?_⟩
  intro k hk
  rw [h2.slots k hk, if_pos (by simpa using hk)]

/-- A history can go on with any allocation that is allowed, for an array of `n` bytes. -/
theorem goes_on {Outer : Nat → Nat → Prop} {top : Nat} {live live' : List Arr} {s : State} (h : History F ns pre Outer top live s) (hsub : live'.Sublist live) {k : Nat} {len out : Slot}
    (hd : Declares ns pre k len out) (hf : (layout ns pre).frame ≤ (s.reg .rbp).toNat) (ho : ∀ a ∈ live', a.num = k ∨ Outer a.num k) {n : Nat}
    (hn : n < (s.reg .rsp).toNat) (hb : n ≤ baseOf (layout ns pre) s k) :
    ∃ s', History F ns pre Outer top (⟨k, baseOf (layout ns pre) s k - n, n⟩ :: live'.filter (·.num ≠ k)) s' ∧
      (s'.reg .rsp).toNat = (baseOf (layout ns pre) s k - n) / 16 * 16 ∧ (s'.reg .rbp).toNat = (s.reg .rbp).toNat ∧
      ∀ j, j < (layout ns pre).vlaCount → slot (layout ns pre) s' j = if k < j then 0 else if j = k then baseOf (layout ns pre) s k else slot (layout ns pre) s j := by
  obtain ⟨hk, hl, ho'⟩ := declares_facts hd s
  have hlt : n < 2 ^ 64 := by have := (s.reg .rsp).isLt; omega
  obtain ⟨s1, k1, k2⟩ := set_word _ (fits_of hf) hl hlt
  have hf1 : (layout ns pre).frame ≤ (s1.reg .rbp).toNat := by rw [k1.rbp]; exact hf
  obtain ⟨-, hl1, ho1⟩ := declares_facts hd s1
  obtain ⟨c, s2, g1, g2, g3⟩ := run_alloc F hk 0 (fits_of hf1) hl1 ho1
  have eb : baseOf (layout ns pre) s1 k = baseOf (layout ns pre) s k := by
    unfold baseOf
    rw [k1.slots k hk, k1.rsp]
  obtain ⟨n1, n2⟩ := alloc_numbers g3 (by rw [eb, k2]; exact hb)
  rw [eb, k2] at n1
  have hh := History.alloc (.other h k1 hsub) hd ho (by rw [k2, k1.rsp]; exact hn) ⟨0, c, g1, g2⟩
  have e : word s2 out.loc = baseOf (layout ns pre) s k - n := by omega
  rw [k2, e] at hh
  refine ⟨s2, hh, by rw [n2, e]; omega, ?_, ?_⟩
  · rw [g3.regs .rbp (by decide) (by decide), k1.rbp]
  · intro j hj
    have := g3.slots j hj
    rw [k1.slots k hk, k1.slots j hj, k1.rsp] at this
    exact this

/-- The first array of 20 bytes, then the second of 40 and, in the next pass of a loop, of 24 bytes. -/
example (F : FP) : ∃ s, History F twoArrays 0 (· < ·) 4096 [⟨1, 4040, 24⟩, ⟨0, 4076, 20⟩] s ∧ Stored 4096 [⟨1, 4040, 24⟩, ⟨0, 4076, 20⟩] s := by
  have hc : (layout twoArrays 0).vlaCount = 2 := by decide
  have hfr : (layout twoArrays 0).frame = 48 := by decide
  obtain ⟨s0, h0, r0, b0, z0⟩ := starts F twoArrays 0 (· < ·) (top := 4096) (by decide) (by decide)
  have ba0 : baseOf (layout twoArrays 0) s0 0 = 4096 := by rw [baseOf, if_pos (z0 0 (by decide)), r0]
  obtain ⟨s1, h1, r1, b1, z1⟩ := goes_on h0 (List.Sublist.refl _) two_first (by omega) (by simp) (n := 20) (by omega) (by omega)
  rw [ba0] at h1 r1 z1
  have ba1 : baseOf (layout twoArrays 0) s1 1 = 4064 := by rw [baseOf, if_pos (by rw [z1 1 (by decide)]; rfl), r1]
  obtain ⟨s2, h2, r2, b2, z2⟩ := goes_on h1 (List.Sublist.refl _) two_second (by omega) (by simp) (n := 40) (by omega) (by omega)
  rw [ba1] at h2 r2 z2
  have ba2 : baseOf (layout twoArrays 0) s2 1 = 4064 := by
    have : slot (layout twoArrays 0) s2 1 = 4064 := by rw [z2 1 (by decide)]; rfl
    rw [baseOf, if_neg (by rw [this]; decide), this]
  obtain ⟨s3, h3, r3, b3, z3⟩ := goes_on h2 (List.Sublist.refl _) two_second (by omega) (by simp) (n := 24) (by omega) (by omega)
  rw [ba2] at h3
  exact ⟨s3, h3, arrays_apart_partial (fun _ _ h => h) h3⟩

/-- The code for a state with a frame, and twice for the same declaration. -/
example (F : FP) : ∃ s0 s1 s2, (layout twoArrays 0).frame ≤ (s0.reg .rbp).toNat ∧ (s0.reg .rsp).toNat ≠ 0 ∧ Allocates F twoArrays 0 1 ⟨8, 24⟩ ⟨8, 32⟩ s0 s1 ∧
    Within F twoArrays 0 1 s1 s1 ∧ Allocates F twoArrays 0 1 ⟨8, 24⟩ ⟨8, 32⟩ s1 s2 := by
  have hfr : (layout twoArrays 0).frame = 48 := by decide
  obtain ⟨s0, h0, r0, b0, z0⟩ := starts F twoArrays 0 (· < ·) (top := 4096) (by decide) (by decide)
  obtain ⟨c, s1, base, g1, g2, -, -, -, -, -, -, g3, -⟩ := allocation_code F two_second 0 (s := s0) (by omega)
  have : s1.reg .rbp = s0.reg .rbp := g3 .rbp (by decide) (by decide)
  obtain ⟨c', s2, base', g1', g2', -⟩ := allocation_code F two_second 0 (s := s1) (by rw [this]; omega)
  exact ⟨s0, s1, s2, by omega, by omega, ⟨0, c, g1, g2⟩, .none, ⟨0, c', g1', g2'⟩⟩

/-! ### The graph of `void f(long n, long *p) { int a[n]; while (*p) { int b[*p]; *b = *p; if (*p) *a = *p; } }` -/

/-- src/parser/function_parser.c:276-324 `parse_while_statement`: the calls that build the graph, without the multiplications by the size of `int`; the
kind `.op 3` is `IR_VLA_ALLOC` (src/ir/ir.c:576-578). -/
def mkArrays (fuel : Nat) : Run Graph := do
  let f := Ir.newFunction {}
  let e ← Ir.project fuel f.1 f.2 0 0
  let g ← Ir.blockStart fuel e.1 e.2
  let n := Ir.new g (.op 1) 8
  let p := Ir.new n.1 (.op 2) 8
  let a ← Ir.newWith fuel p.1 (.op 3) [some n.2] 8
  let body := Ir.newBlock a.1
  let control := Ir.newBlock body.1
  let stop := Ir.newBlock control.1
  let g ← Ir.goto fuel stop.1 control.2
  let g ← Ir.blockStart fuel g control.2
  let s ← Ir.getState fuel g
  let x ← Ir.newWith fuel s.1 .load [some p.2, some s.2] 8
  let c ← Ir.ifSelection fuel x.1 x.2
  let g ← Ir.connect fuel c.1 c.2.1 body.2
  let g ← Ir.connect fuel g c.2.2 stop.2
  let g ← Ir.blockStart fuel g body.2
  let s ← Ir.getState fuel g
  let y ← Ir.newWith fuel s.1 .load [some p.2, some s.2] 8
  let b ← Ir.newWith fuel y.1 (.op 3) [some y.2] 8
  let s ← Ir.getState fuel b.1
  let st ← Ir.newWith fuel s.1 .store [some b.2, some y.2, some s.2] 0
  let g ← Run.ofRes (Ir.setState st.1 st.2)
  let join := Ir.newBlock g
  let s ← Ir.getState fuel join.1
  let z ← Ir.newWith fuel s.1 .load [some p.2, some s.2] 8
  let d ← Ir.ifSelection fuel z.1 z.2
  let g ← Ir.blockStart fuel d.1 d.2.1
  let s ← Ir.getState fuel g
  let st ← Ir.newWith fuel s.1 .store [some a.2, some y.2, some s.2] 0
  let g ← Run.ofRes (Ir.setState st.1 st.2)
  let g ← Ir.goto fuel g join.2
  let g ← Ir.blockStart fuel g d.2.2
  let g ← Ir.goto fuel g join.2
  let g ← Ir.blockStart fuel g join.2
  let g ← Ir.goto fuel g control.2
  let g ← Ir.blockStart fuel g stop.2
  let g ← Ir.ret fuel g none
  Ir.sealBlocks fuel g g.seals

open Verif.Ir in
theorem built_arrays (fuel : Nat) : Builds (mkArrays fuel) id :=
  (builds_project (built_newFunction .empty) _ _ _ _).bind fun _ h =>
  (builds_blockStart h _ _).bind fun _ h => (builds_newWith (.new (.new h)) _ _ _ _).bind fun _ h =>
  (builds_goto (built_newBlock (built_newBlock (built_newBlock h))) _ _).bind fun _ h => (builds_blockStart h _ _).bind fun _ h =>
  (builds_getState h _).bind fun _ h => (builds_newWith h _ _ _ _).bind fun _ h => (builds_ifSelection h _ _).bind fun _ h =>
  (builds_connect h _ _ _).bind fun _ h => (builds_connect h _ _ _).bind fun _ h => (builds_blockStart h _ _).bind fun _ h =>
  (builds_getState h _).bind fun _ h => (builds_newWith h _ _ _ _).bind fun _ h => (builds_newWith h _ _ _ _).bind fun _ h =>
  (builds_getState h _).bind fun _ h => (builds_newWith h _ _ _ _).bind fun _ h => (builds_setState h _).bind fun _ h =>
  (builds_getState (built_newBlock h) _).bind fun _ h => (builds_newWith h _ _ _ _).bind fun _ h => (builds_ifSelection h _ _).bind fun _ h =>
  (builds_blockStart h _ _).bind fun _ h => (builds_getState h _).bind fun _ h => (builds_newWith h _ _ _ _).bind fun _ h => (builds_setState h _).bind fun _ h =>
  (builds_goto h _ _).bind fun _ h => (builds_blockStart h _ _).bind fun _ h => (builds_goto h _ _).bind fun _ h =>
  (builds_blockStart h _ _).bind fun _ h => (builds_goto h _ _).bind fun _ h => (builds_blockStart h _ _).bind fun _ h =>
  (builds_ret h _ _).bind fun _ h => builds_sealBlocks h

/-- The graph. -/
def arraysGraph : Graph := Ir.graphOf (mkArrays 60)

open Verif.Ir in
set_option maxRecDepth 10000 in
theorem arrays_scheduled : Scheduled arraysGraph [0] [1] 1000 := by
  have hs : arraysGraph.size = 27 := by decide +kernel
  have w7 : Verif.IrSpec.Walk arraysGraph 1 7 := .step .start (.inl ⟨by decide +kernel, 0, by decide +kernel⟩)
  have w12 : Verif.IrSpec.Walk arraysGraph 1 12 := .step w7 (.inr ⟨11, ⟨by decide +kernel, by decide +kernel⟩, by decide +kernel, by decide +kernel⟩)
  have w13 : Verif.IrSpec.Walk arraysGraph 1 13 := .step w7 (.inr ⟨11, ⟨by decide +kernel, by decide +kernel⟩, by decide +kernel, by decide +kernel⟩)
  have w6 : Verif.IrSpec.Walk arraysGraph 1 6 := .step w13 (.inl ⟨by decide +kernel, 0, by decide +kernel⟩)
  have w21 : Verif.IrSpec.Walk arraysGraph 1 21 := .step w6 (.inr ⟨20, ⟨by decide +kernel, by decide +kernel⟩, by decide +kernel, by decide +kernel⟩)
  have w22 : Verif.IrSpec.Walk arraysGraph 1 22 := .step w6 (.inr ⟨20, ⟨by decide +kernel, by decide +kernel⟩, by decide +kernel, by decide +kernel⟩)
  have w18 : Verif.IrSpec.Walk arraysGraph 1 18 := .step w22 (.inl ⟨by decide +kernel, 0, by decide +kernel⟩)
  refine scheduled_sound (g := arraysGraph) (built_graphOf (built_arrays 60)) (by decide +kernel) ?_ (rank := (List.range 27).map (26 - ·)) (by decide +kernel) (by decide +kernel)
    ⟨by decide +kernel, by decide +kernel, ⟨by decide +kernel, by decide +kernel⟩, by decide +kernel⟩ (by decide +kernel) (by decide +kernel) (by decide +kernel) (by decide +kernel)
    (W := [1, 12, 13, 18, 21, 22]) ?_ (by decide +kernel)
  · intro n hn
    obtain ⟨m, rfl⟩ : ∃ m, n = m + 27 := ⟨n - 27, by omega⟩
    constructor <;> with_unfolding_all exact (id rfl)
  · intro c hc
    simp only [List.mem_cons, List.not_mem_nil, or_false] at hc
    rcases hc with rfl | rfl | rfl | rfl | rfl | rfl
    · exact .start
    · exact w12
    · exact w13
    · exact w18
    · exact w21
    · exact w22

/-- The instruction of a node for the frame; the nodes of the kind `.op v` are the allocations. -/
def instruction (v : Nat) (g : Graph) (n : Nat) : Node := ⟨(g.node n).bytes, if (g.node n).kind = .op v then .vla else .plain⟩

/-- The node `m` among the nodes `ids` in their final order is the allocation number `i`. -/
def Numbered (v : Nat) (g : Graph) (ids : List Nat) (m i : Nat) : Prop :=
  ∃ j : Nat, ids[j]? = some m ∧ (numbers 0 (ids.map (instruction v g)))[j]? = some (some i)

/-- The nodes in their final order. -/
def arraysOrder : List Nat := [2, 4, 9, 10, 11, 25, 26, 14, 15, 16, 17, 19, 20, 3, 5, 23, 24]

theorem inner_declares : Declares (arraysOrder.map (instruction 3 arraysGraph)) 0 0 ⟨8, 24⟩ ⟨8, 32⟩ :=
  ⟨⟨9, by decide +kernel, by decide +kernel, by decide +kernel⟩, ⟨8, .plain, by decide +kernel, by decide +kernel⟩, rfl, rfl⟩
theorem outer_declares : Declares (arraysOrder.map (instruction 3 arraysGraph)) 0 1 ⟨8, 48⟩ ⟨8, 56⟩ :=
  ⟨⟨14, by decide +kernel, by decide +kernel, by decide +kernel⟩, ⟨13, .plain, by decide +kernel, by decide +kernel⟩, rfl, rfl⟩

open Verif.Ir in
set_option maxRecDepth 10000 in
/-- C108 is violated: with the allocations where the compiler puts them and the arrays alive as their declarations tell, two arrays share memory. The
allocation of `a` moves into the branch that uses `a`, behind the allocation of `b`; when `b` is declared again in the next pass of the loop, its
storage begins at the old base and runs over `a`. -/
theorem arrays_apart_violated : ¬∀ (v : Nat) (g : Graph) (fs es : List Nat) (fuel : Nat), Scheduled g fs es fuel → ∀ ls i p os, blockTrees fuel g fs = .ok (ls, i) →
    localSchedule fuel g i ls.flatten = .ok (p, os) → ∀ (F : FP) (pre top : Nat) (live : List Arr) (s : State),
    History F (os.flatten.map (instruction v g)) pre (fun i k => ∃ m n, Numbered v g os.flatten m i ∧ Numbered v g os.flatten n k ∧ m < n) top live s →
    live.Pairwise Apart := by
  intro hall
  obtain ⟨ls, i, p, h1, -, h3, h4, -⟩ := ordersOf_eq arrays_scheduled (bs := [1, 7, 12, 8, 13, 6, 21, 22, 18])
    (os := [[2], [4, 9, 10, 11], [], [25, 26], [], [14, 15, 16, 17, 19, 20], [], [3, 5, 23], [24]])
    (bl := [none, none, some 1, some 22, some 7, some 22, none, none, none, some 7, some 7, some 7, none, none, some 6, some 6, some 6, some 6, none, some 6, some 6, none, none,
      some 22, some 18, some 8, some 8]) (by decide +kernel)
  have F : FP := ⟨fun a _ => a, fun a _ => a, fun a _ => a, fun a _ => a, fun a _ => a, fun a _ => a, fun a _ => a, fun a _ => a, fun _ => 0, fun _ => 0⟩
  have key := hall 3 arraysGraph [0] [1] 1000 arrays_scheduled ls i p _ h1 (by rw [h3]; exact h4) F 0 4096
  have eo : ([[2], [4, 9, 10, 11], [], [25, 26], [], [14, 15, 16, 17, 19, 20], [], [3, 5, 23], [24]] : List (List Nat)).flatten = arraysOrder := by decide
  rw [eo] at key
  have hO : ∃ m n, Numbered 3 arraysGraph arraysOrder m 1 ∧ Numbered 3 arraysGraph arraysOrder n 0 ∧ m < n :=
    ⟨5, 16, ⟨14, by decide, by decide +kernel⟩, ⟨9, by decide, by decide +kernel⟩, by decide⟩
  have hc : (layout (arraysOrder.map (instruction 3 arraysGraph)) 0).vlaCount = 2 := by decide +kernel
  have hfr : (layout (arraysOrder.map (instruction 3 arraysGraph)) 0).frame = 80 := by decide +kernel
  generalize hns : arraysOrder.map (instruction 3 arraysGraph) = ns at *
  generalize hout : (fun i k => ∃ m n, Numbered 3 arraysGraph arraysOrder m i ∧ Numbered 3 arraysGraph arraysOrder n k ∧ m < n) = Outer at *
  have hO' : Outer 1 0 := by rw [← hout]; exact hO
  have d0 : Declares ns 0 0 ⟨8, 24⟩ ⟨8, 32⟩ := by rw [← hns]; exact inner_declares
  have d1 : Declares ns 0 1 ⟨8, 48⟩ ⟨8, 56⟩ := by rw [← hns]; exact outer_declares
  obtain ⟨s0, h0, r0, b0, z0⟩ := starts F ns 0 Outer (top := 4096) (by decide) (by rw [hfr]; decide)
  have ba0 : baseOf (layout ns 0) s0 0 = 4096 := by rw [baseOf, if_pos (z0 0 (by omega)), r0]
  obtain ⟨s1, h1, r1, b1, z1⟩ := goes_on h0 (List.Sublist.refl _) d0 (by omega) (by simp) (n := 16) (by omega) (by omega)
  rw [ba0] at h1 r1 z1
  have ba1 : baseOf (layout ns 0) s1 1 = 4080 := by rw [baseOf, if_pos (by rw [z1 1 (by omega)]; rfl), r1]
  obtain ⟨s2, h2, r2, b2, z2⟩ := goes_on h1 (List.nil_sublist _) d1 (by omega) (by simp) (n := 48) (by omega) (by omega)
  rw [ba1] at h2 r2 z2
  have ba2 : baseOf (layout ns 0) s2 0 = 4096 := by
    have : slot (layout ns 0) s2 0 = 4096 := by rw [z2 0 (by omega), if_neg (by decide), if_neg (by decide), z1 0 (by omega)]; rfl
    rw [baseOf, if_neg (by rw [this]; decide), this]
  obtain ⟨s3, h3, -⟩ := goes_on h2 (List.Sublist.refl _) d0 (by omega) (by simp [hO']) (n := 48) (by omega) (by omega)
  rw [ba2] at h3
  have := key _ _ h3
  revert this
  decide

end Verif.Vla
