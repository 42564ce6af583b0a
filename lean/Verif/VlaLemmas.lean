import Verif.VlaSpec
import Verif.X86Lemmas
import Verif.EntryLemmas
import Verif.FrameProps
/-! Lemmas about the storage of variable length arrays. -/
namespace Verif.Vla
open Verif Asm X86 Codegen Frame VlaSpec

theorem numbers_get (ns : List Node) (c j : Nat) (n : Node) (h : ns[j]? = some n) :
    (numbers c ns)[j]? = some (if n.kind = .vla then some (c + ((ns.take j).filter (·.kind = .vla)).length) else none) := by
  induction ns generalizing c j with
  | nil => simp at h
  | cons m ns ih =>
    rw [numbers]
    cases j with
    | zero =>
      simp only [List.getElem?_cons_zero, Option.some.injEq] at h
      subst h
      split <;> simp
    | succ j =>
      simp only [List.getElem?_cons_succ] at h
      by_cases hm : m.kind = .vla
      · rw [if_pos hm, List.getElem?_cons_succ, ih _ _ h]
        simp [hm, Nat.add_assoc, Nat.add_comm 1]
      · rw [if_neg hm, List.getElem?_cons_succ, ih _ _ h]
        simp [hm]

/-- Positions in the frame. -/
theorem loc_toNat {b : BitVec 64} {loc : Nat} (h : loc ≤ b.toNat) : (b - BitVec.ofNat 64 loc).toNat = b.toNat - loc := by
  have := b.isLt
  rw [BitVec.toNat_sub_of_le]
  · simp; omega
  · rw [BitVec.le_def]; simp; omega

theorem disj_of {b : BitVec 64} {x y : Nat} (hx : x ≤ b.toNat) (hy : y ≤ b.toNat) (hx8 : 8 ≤ x) (hy8 : 8 ≤ y) (h : x + 8 ≤ y ∨ y + 8 ≤ x) :
    Disj (b - BitVec.ofNat 64 x) 8 (b - BitVec.ofNat 64 y) 8 := by
  intro i hi j hj e
  have := congrArg BitVec.toNat e
  have := b.isLt
  rw [BitVec.toNat_add, BitVec.toNat_add, loc_toNat hx, loc_toNat hy] at *
  simp at *
  omega

/-- The words of the allocations are where the code has them. -/
theorem vla_addr (l : Layout) (s : State) {k : Nat} (h : 8 * k ≤ l.vlaOffset) :
    s.reg .rbp + BitVec.ofInt 64 (-(l.vlaOffset : Int) + (k * 8 : Nat)) = s.reg .rbp - BitVec.ofNat 64 (l.vlaOffset - 8 * k) := by
  have : (-(l.vlaOffset : Int) + (k * 8 : Nat)) = -((l.vlaOffset - 8 * k : Nat) : Int) := by omega
  rw [this, BitVec.ofInt_neg, BitVec.sub_eq_add_neg]
  simp

theorem slot_addr (v : Slot) (s : State) : s.reg .rbp + BitVec.ofInt 64 (-(v.loc : Int) + (0 : Nat)) = s.reg .rbp - BitVec.ofNat 64 v.loc := by
  rw [show (-(v.loc : Int) + (0 : Nat)) = -(v.loc : Int) by omega, BitVec.ofInt_neg, BitVec.sub_eq_add_neg]
  simp

/-- What is known of the frame. -/
structure Fits (l : Layout) (s : State) : Prop where
  count : 8 * l.vlaCount ≤ l.vlaOffset
  base : l.vlaOffset ≤ (s.reg .rbp).toNat

/-- A write to the place `y` of the frame. -/
theorem word_wr_same (s : State) (y : Nat) (v : BitVec 64) (m : BitVec 64 → BitVec 8) :
    rd (wr m (s.reg .rbp - BitVec.ofNat 64 y) 8 v.toNat) (s.reg .rbp - BitVec.ofNat 64 y) 8 = v.toNat := by
  rw [rd_wr_same _ _ _ _ (by decide), Nat.mod_eq_of_lt]
  have := v.isLt
  exact Nat.lt_of_lt_of_le this (by decide)

/-- The state after a slot is written. -/
theorem exec_clear (F : FP) (l : Layout) (s : State) {i : Nat} (h : 8 * i ≤ l.vlaOffset) :
    exec F (clear l i) s = .ok (s.store (s.reg .rbp - BitVec.ofNat 64 (l.vlaOffset - 8 * i)) 8 0) := by
  unfold clear vlaAddr IMM
  rw [exec_movq_im]
  simp only [mov, legal, getOp, putOp, State.addr]
  rw [vla_addr l s h]
  rfl

/-- The byte is none of the words of the allocations. -/
def Outside (l : Layout) (s : State) (x : BitVec 64) : Prop :=
  ∀ k, k < l.vlaCount → ∀ i, i < 8 → x ≠ s.reg .rbp - BitVec.ofNat 64 (l.vlaOffset - 8 * k) + BitVec.ofNat 64 i

/-- The slots `is` are cleared, and nothing else. -/
structure Cleared (l : Layout) (is : List Nat) (s s' : State) : Prop where
  reg : s'.reg = s.reg
  slots : ∀ k, k < l.vlaCount → slot l s' k = if k ∈ is then 0 else slot l s k
  mem : ∀ x, Outside l s x → s'.mem x = s.mem x

theorem slot_congr {l : Layout} {s s' : State} {k : Nat} (hr : s'.reg .rbp = s.reg .rbp)
    (h : ∀ i, i < 8 → s'.mem (s.reg .rbp - BitVec.ofNat 64 (l.vlaOffset - 8 * k) + BitVec.ofNat 64 i) =
      s.mem (s.reg .rbp - BitVec.ofNat 64 (l.vlaOffset - 8 * k) + BitVec.ofNat 64 i)) : slot l s' k = slot l s k := by
  unfold slot word
  rw [hr]
  exact rd_congr h

theorem slots_disj {l : Layout} {s : State} (hf : Fits l s) {i j : Nat} (hi : i < l.vlaCount) (hj : j < l.vlaCount) (h : i ≠ j) :
    Disj (s.reg .rbp - BitVec.ofNat 64 (l.vlaOffset - 8 * i)) 8 (s.reg .rbp - BitVec.ofNat 64 (l.vlaOffset - 8 * j)) 8 := by
  have h1 := hf.count
  have h2 := hf.base
  apply disj_of <;> omega

/-- A word of an allocation is written. -/
theorem slot_store {l : Layout} {s : State} (hf : Fits l s) {i k : Nat} (hi : i < l.vlaCount) (hk : k < l.vlaCount) (v : BitVec 64) :
    slot l (s.store (s.reg .rbp - BitVec.ofNat 64 (l.vlaOffset - 8 * i)) 8 v.toNat) k = if k = i then v.toNat else slot l s k := by
  unfold slot word
  simp only [store_reg, store_mem]
  by_cases h : k = i
  · rw [if_pos h, h, word_wr_same]
  · rw [if_neg h, rd_wr_disj (slots_disj hf hk hi h)]

theorem run_clears (F : FP) {l : Layout} (is : List Nat) (his : ∀ i ∈ is, i < l.vlaCount) {s : State} (hf : Fits l s) :
    ∃ s', run F (is.map (clear l)) s = .ok s' ∧ Cleared l is s s' := by
  induction is generalizing s with
  | nil => exact ⟨s, rfl, rfl, fun k _ => by simp, fun _ _ => rfl⟩
  | cons i is ih =>
    have hi := his i (by simp)
    have h1 := hf.count
    have e := exec_clear F l s (i := i) (by omega)
    obtain ⟨s', h2, h3⟩ := ih (fun j hj => his j (by simp [hj])) (s := s.store (s.reg .rbp - BitVec.ofNat 64 (l.vlaOffset - 8 * i)) 8 0)
      ⟨hf.count, hf.base⟩
    refine ⟨s', ?_, h3.reg, ?_, ?_⟩
    · rw [List.map_cons, run_cons, e, Out.bind_ok, h2]
    · intro k hk
      rw [h3.slots k hk]
      have := slot_store hf hi hk 0
      have e0 : (BitVec.toNat (0 : BitVec 64)) = 0 := rfl
      rw [e0] at this
      rw [this]
      by_cases h4 : k ∈ is
      · simp [h4]
      · by_cases h5 : k = i <;> simp [h4, h5]
    · intro x hx
      rw [h3.mem x (fun k hk i' hi' => hx k hk i' hi')]
      exact wr_out _ _ _ _ _ (hx i hi)

theorem runC_clears (F : FP) (l : Layout) (is : List Nat) (rest : List Ins) (s : State) :
    runC F (is.map (clear l) ++ rest) s = (run F (is.map (clear l)) s).bind (runC F rest) := by
  induction is generalizing s with
  | nil => rfl
  | cons i is ih =>
    have e : runC F (clear l i :: (is.map (clear l) ++ rest)) s = (exec F (clear l i) s).bind (runC F (is.map (clear l) ++ rest)) := rfl
    rw [List.map_cons, List.cons_append, e, run_cons]
    cases exec F (clear l i) s with
    | ok s' => simpa using ih s'
    | trap => rfl
    | bad => rfl

/-- What an allocation does. -/
structure Alloc (l : Layout) (k : Nat) (len out : Slot) (s s' : State) : Prop where
  regs : ∀ r, r ≠ .rax → r ≠ .rsp → s'.reg r = s.reg r
  slots : ∀ j, j < l.vlaCount → slot l s' j = if k < j then 0 else if j = k then (if slot l s k = 0 then (s.reg .rsp).toNat else slot l s k) else slot l s j
  value : BitVec.ofNat 64 (word s' out.loc) = BitVec.ofNat 64 (if slot l s k = 0 then (s.reg .rsp).toNat else slot l s k) - BitVec.ofNat 64 (word s len.loc)
  rsp : s'.reg .rsp = BitVec.ofNat 64 (word s' out.loc) &&& BitVec.ofInt 64 (-16)
  mem : ∀ x, Outside l s x → (∀ i, i < 8 → x ≠ s.reg .rbp - BitVec.ofNat 64 out.loc + BitVec.ofNat 64 i) → s'.mem x = s.mem x

/-- A value that is in the frame beside the words of the allocations. -/
structure Beside (l : Layout) (s : State) (v : Slot) : Prop where
  size : v.size = 8
  low : 8 ≤ v.loc
  high : v.loc + 8 * l.vlaCount ≤ l.vlaOffset

theorem beside_disj {l : Layout} {s : State} (hf : Fits l s) {v : Slot} (hv : Beside l s v) {k : Nat} (hk : k < l.vlaCount) :
    Disj (s.reg .rbp - BitVec.ofNat 64 v.loc) 8 (s.reg .rbp - BitVec.ofNat 64 (l.vlaOffset - 8 * k)) 8 := by
  have h1 := hf.count
  have h2 := hf.base
  have h3 := hv.low
  have h4 := hv.high
  apply disj_of <;> omega

theorem beside_outside {l : Layout} {s : State} (hf : Fits l s) {v : Slot} (hv : Beside l s v) {i : Nat} (hi : i < 8) :
    Outside l s (s.reg .rbp - BitVec.ofNat 64 v.loc + BitVec.ofNat 64 i) := fun _ hk j hj => beside_disj hf hv hk i hi j hj

theorem scalarToReg8 {v : Slot} (h : v.size = 8) (r : Reg) : scalarToReg v r = .ok [⟨.movq, [v.mem 0, R8 r]⟩] := by
  obtain ⟨size, loc⟩ := v
  cases h
  rfl

theorem regToScalar8 {v : Slot} (h : v.size = 8) (r : Reg) : regToScalar r v = [⟨.movq, [.reg r 8, v.mem 0]⟩] := by
  unfold regToScalar
  rw [storeLoop, storeLoop]
  simp [h, chunk, movN]

theorem ofNat_rd (m : BitVec 64 → BitVec 8) (a : BitVec 64) : (BitVec.ofNat 64 (rd m a 8)).toNat = rd m a 8 := by
  have := rd_lt m a 8
  simp only [BitVec.toNat_ofNat]
  exact Nat.mod_eq_of_lt (Nat.lt_of_lt_of_le this (by decide))

/-- The machine up to the label: `%rax` and the word hold the base. -/
theorem run_before (F : FP) {l : Layout} {k lbl : Nat} (hk : k < l.vlaCount) {s : State} (hf : Fits l s) :
    ∃ s' e, runC F (before l k lbl) s = .ok (s', e) ∧ (e = .fall ∨ e = .jump lbl) ∧
      (∀ r, r ≠ .rax → s'.reg r = s.reg r) ∧ (s'.reg .rax).toNat = (if slot l s k = 0 then (s.reg .rsp).toNat else slot l s k) ∧
      (∀ j, j < l.vlaCount → j ≠ k → slot l s' j = if k < j then 0 else slot l s j) ∧ (∀ x, Outside l s x → s'.mem x = s.mem x) := by
  have hlater : clearLater l k = ((List.range (l.vlaCount - (k + 1))).map (k + 1 + ·)).map (clear l) := by
    rw [clearLater, List.map_map]; rfl
  have hin : ∀ j, j ∈ (List.range (l.vlaCount - (k + 1))).map (k + 1 + ·) ↔ k < j ∧ j < l.vlaCount := by
    intro j
    simp only [List.mem_map, List.mem_range]
    constructor
    · rintro ⟨a, h1, rfl⟩; omega
    · intro h; exact ⟨j - (k + 1), by omega, by omega⟩
  obtain ⟨s1, h1, h2⟩ := run_clears F ((List.range (l.vlaCount - (k + 1))).map (k + 1 + ·)) (fun i hi => ((hin i).1 hi).2) hf
  have hc := hf.count
  have hrbp : s1.reg .rbp = s.reg .rbp := by rw [h2.reg]
  have hf1 : Fits l s1 := ⟨hf.count, by rw [hrbp]; exact hf.base⟩
  have hs1 : slot l s1 k = slot l s k := by
    rw [h2.slots k hk, if_neg]
    rw [hin]; omega
  unfold before
  rw [hlater, runC_clears, h1, Out.bind_ok]
  have e1 : ∀ rest, runC F (⟨.movq, [vlaAddr l k, R8 .rax]⟩ :: rest) s1 = runC F rest (s1.set .rax (BitVec.ofNat 64 (slot l s1 k))) := by
    intro rest
    have : exec F ⟨.movq, [vlaAddr l k, R8 .rax]⟩ s1 = .ok (s1.set .rax (BitVec.ofNat 64 (slot l s1 k))) := by
      unfold vlaAddr R8
      rw [exec_movq_mr]
      simp only [mov, legal, getOp, putOp, State.addr]
      rw [vla_addr l s1 (by omega)]
      simp [merge64, slot, word]
    show (exec F ⟨.movq, [vlaAddr l k, R8 .rax]⟩ s1).bind (runC F rest) = _
    rw [this, Out.bind_ok]
  rw [e1]
  have e2 : ∀ (s : State) rest, runC F (⟨.cmpq, [IMM 0, R8 .rax]⟩ :: rest) s = runC F rest { s with fl := some (cmpFlags (s.reg .rax) 0) } := by
    intro s rest
    show (exec F ⟨.cmpq, [IMM 0, R8 .rax]⟩ s).bind (runC F rest) = _
    simp [cmpIns, legal, getOp, IMM, R8]
  rw [e2]
  have e3 : ∀ (s : State) rest, runC F (⟨.jne, [.abs (some lbl) 0]⟩ :: rest) s = jcc (!·.zf) lbl s (runC F rest) := fun _ _ => rfl
  rw [e3]
  unfold jcc
  dsimp only
  have hback := ofNat_rd s1.mem (s1.reg .rbp - BitVec.ofNat 64 (l.vlaOffset - 8 * k))
  by_cases hz : slot l s k = 0
  · rw [if_neg (by rw [cc_ne]; simp [hs1, hz]), if_pos hz]
    generalize hs2 : ({ s1.set .rax (BitVec.ofNat 64 (slot l s1 k)) with fl := some (cmpFlags ((s1.set .rax (BitVec.ofNat 64 (slot l s1 k))).reg .rax) 0) } : State) = s2
    have r2 : ∀ r, r ≠ .rax → s2.reg r = s.reg r := by
      intro r hr
      rw [← hs2]
      simp [hr, h2.reg]
    have m2 : s2.mem = s1.mem := by rw [← hs2]; rfl
    have e4 : runC F [⟨.movq, [R8 .rsp, R8 .rax]⟩, ⟨.movq, [R8 .rax, vlaAddr l k]⟩] s2 =
        .ok ((s2.set .rax (s2.reg .rsp)).store (s2.reg .rbp - BitVec.ofNat 64 (l.vlaOffset - 8 * k)) 8 (s2.reg .rsp).toNat, .fall) := by
      show (exec F ⟨.movq, [R8 .rsp, R8 .rax]⟩ s2).bind (fun s => (exec F ⟨.movq, [R8 .rax, vlaAddr l k]⟩ s).bind (runC F [])) = _
      unfold vlaAddr R8
      rw [exec_movq_rr]
      simp only [mov, legal, getOp, putOp, merge64]
      simp only [Nat.reduceMul, if_true, BitVec.setWidth_eq, Option.bind_eq_bind, Option.bind_some, Out.of_some, Out.bind_ok]
      rw [exec_movq_rm]
      simp only [mov, legal, getOp, putOp, State.addr]
      have := vla_addr l (s2.set .rax (s2.reg .rsp)) (k := k) (by omega)
      rw [this]
      simp [runC]
    rw [e4]
    refine ⟨_, _, rfl, .inl rfl, ?_, ?_, ?_, ?_⟩
    · intro r hr
      simp [hr, r2 r hr]
    · simp [r2 .rsp (by decide)]
    · intro j hj hjk
      have hf2 : Fits l (s2.set .rax (s2.reg .rsp)) := ⟨hf.count, by simp [r2 .rbp (by decide)]; exact hf.base⟩
      have := slot_store hf2 (i := k) (k := j) hk hj (s2.reg .rsp)
      simp only [set_reg] at this
      rw [if_neg (by decide)] at this
      rw [this, if_neg hjk]
      have e5 : slot l (s2.set .rax (s2.reg .rsp)) j = slot l s1 j := by
        apply slot_congr
        · simp [r2 .rbp (by decide), hrbp]
        · intro i _
          simp [m2]
      rw [e5, h2.slots j hj]
      by_cases h6 : k < j
      · rw [if_pos ((hin j).2 ⟨h6, hj⟩), if_pos h6]
      · rw [if_neg (fun h => h6 ((hin j).1 h).1), if_neg h6]
    · intro x hx
      simp only [store_mem, set_mem, m2]
      rw [wr_out, h2.mem x hx]
      rw [r2 .rbp (by decide)]
      exact hx k hk
  · rw [if_pos, if_neg hz]
    · refine ⟨_, _, rfl, .inr rfl, ?_, ?_, ?_, ?_⟩
      · intro r hr
        simp [hr, h2.reg]
      · simp only [set_reg, if_true]
        rw [hs1]
        unfold slot word at hs1 ⊢
        rw [← hs1]
        exact hback
      · intro j hj hjk
        have e5 : slot l { s1.set .rax (BitVec.ofNat 64 (slot l s1 k)) with fl := some (cmpFlags ((s1.set .rax (BitVec.ofNat 64 (slot l s1 k))).reg .rax) 0) } j = slot l s1 j := by
          apply slot_congr
          · simp
          · intro i _
            simp
        rw [e5, h2.slots j hj]
        by_cases h6 : k < j
        · rw [if_pos ((hin j).2 ⟨h6, hj⟩), if_pos h6]
        · rw [if_neg (fun h => h6 ((hin j).1 h).1), if_neg h6]
      · intro x hx
        exact h2.mem x hx
    · rw [cc_ne]
      simp only [set_reg, if_true, decide_eq_true_eq]
      intro h
      apply hz
      rw [← hs1]
      have := congrArg BitVec.toNat h
      unfold slot word at this ⊢
      rw [hback] at this
      exact this

theorem state_ext {s t : State} (h1 : ∀ r, s.reg r = t.reg r) (h2 : s.xmm = t.xmm) (h3 : s.fl = t.fl) (h4 : s.mem = t.mem) : s = t := by
  obtain ⟨a, b, c, d⟩ := s
  obtain ⟨a', b', c', d'⟩ := t
  have : a = a' := funext h1
  cases this; cases h2; cases h3; cases h4
  rfl

/-- The machine from the label on. -/
theorem run_after (F : FP) {l : Layout} {k : Nat} (hk : k < l.vlaCount) {len out : Slot} {s : State} (hf : Fits l s) (hl : Beside l s len) (ho : Beside l s out) :
    ∃ c s', after l k len out = .ok c ∧ run F c s = .ok s' ∧ (∀ r, r ≠ .rax → r ≠ .rsp → s'.reg r = s.reg r) ∧
      (∀ j, j < l.vlaCount → slot l s' j = if j = k then (s.reg .rax).toNat else slot l s j) ∧
      BitVec.ofNat 64 (word s' out.loc) = s.reg .rax - BitVec.ofNat 64 (word s len.loc) ∧
      s'.reg .rsp = BitVec.ofNat 64 (word s' out.loc) &&& BitVec.ofInt 64 (-16) ∧
      (∀ x, Outside l s x → (∀ i, i < 8 → x ≠ s.reg .rbp - BitVec.ofNat 64 out.loc + BitVec.ofNat 64 i) → s'.mem x = s.mem x) := by
  have hc := hf.count
  unfold after
  rw [scalarToReg8 hl.size, regToScalar8 ho.size]
  dsimp only [bind, Res.bind]
  generalize hB : s.reg .rbp - BitVec.ofNat 64 (l.vlaOffset - 8 * k) = B
  have hlen : rd (wr s.mem B 8 (s.reg .rax).toNat) (s.reg .rbp - BitVec.ofNat 64 len.loc) 8 = word s len.loc := by
    rw [← hB]
    exact rd_wr_disj (beside_disj hf hl hk)
  generalize hV : s.reg .rax - BitVec.ofNat 64 (word s len.loc) = V
  let s' : State := { reg := fun r => if r = .rsp then V &&& BitVec.ofInt 64 (-16) else if r = .rax then BitVec.ofNat 64 (word s len.loc) else s.reg r,
                      xmm := s.xmm, fl := none, mem := wr (wr s.mem B 8 (s.reg .rax).toNat) (s.reg .rbp - BitVec.ofNat 64 out.loc) 8 V.toNat }
  have hw : word s' out.loc = V.toNat := word_wr_same s out.loc V _
  refine ⟨_, s', rfl, ?_, ?_, ?_, ?_, ?_, ?_⟩
  · have x1 : exec F ⟨.movq, [R8 .rax, R8 .rsp]⟩ s = .ok (s.set .rsp (s.reg .rax)) := by
      unfold R8
      rw [exec_movq_rr]
      simp [mov, legal, getOp, putOp, merge64]
    have x2 : exec F ⟨.movq, [R8 .rsp, vlaAddr l k]⟩ (s.set .rsp (s.reg .rax)) = .ok ((s.set .rsp (s.reg .rax)).store B 8 (s.reg .rax).toNat) := by
      unfold R8 vlaAddr
      rw [exec_movq_rm]
      simp only [mov, legal, getOp, putOp, State.addr]
      rw [vla_addr l _ (by omega)]
      simp [hB]
    have x3 : exec F ⟨.movq, [len.mem 0, R8 .rax]⟩ ((s.set .rsp (s.reg .rax)).store B 8 (s.reg .rax).toNat) =
        .ok (((s.set .rsp (s.reg .rax)).store B 8 (s.reg .rax).toNat).set .rax (BitVec.ofNat 64 (word s len.loc))) := by
      unfold R8 Slot.mem MEM
      rw [exec_movq_mr]
      simp only [mov, legal, getOp, putOp, State.addr]
      rw [slot_addr len]
      simp [merge64, hlen]
    generalize hs3 : ((s.set .rsp (s.reg .rax)).store B 8 (s.reg .rax).toNat).set .rax (BitVec.ofNat 64 (word s len.loc)) = s3 at x3
    have r3 : s3.reg .rsp = s.reg .rax ∧ s3.reg .rax = BitVec.ofNat 64 (word s len.loc) ∧ s3.reg .rbp = s.reg .rbp := by
      rw [← hs3]; simp
    have x4 : exec F ⟨.subq, [R8 .rax, R8 .rsp]⟩ s3 = .ok { s3.set .rsp V with fl := none } := by
      unfold R8
      rw [exec_subq]
      simp [alu, legal, getOp, putOp, merge64, r3.1, r3.2.1, hV]
    have x5 : exec F ⟨.movq, [.reg .rsp 8, out.mem 0]⟩ { s3.set .rsp V with fl := none } =
        .ok (({ s3.set .rsp V with fl := none } : State).store (s.reg .rbp - BitVec.ofNat 64 out.loc) 8 V.toNat) := by
      unfold Slot.mem MEM
      rw [exec_movq_rm]
      simp only [mov, legal, getOp, putOp, State.addr]
      rw [slot_addr out]
      simp [r3.2.2]
    have x6 : ∀ s4 : State, exec F ⟨.andq, [IMM (-16), R8 .rsp]⟩ s4 = .ok { s4.set .rsp (s4.reg .rsp &&& BitVec.ofInt 64 (-16)) with fl := none } := by
      intro s4
      unfold R8 IMM
      rw [exec_andq]
      simp [alu, legal, getOp, putOp, merge64]
    simp only [List.cons_append, List.nil_append]
    rw [run_cons, x1, Out.bind_ok, run_cons, x2, Out.bind_ok, run_cons, x3, Out.bind_ok, run_cons, x4, Out.bind_ok, run_cons, x5, Out.bind_ok, run_cons, x6, Out.bind_ok, run_nil]
    refine congrArg Out.ok (state_ext ?_ ?_ ?_ ?_)
    · intro r
      rw [← hs3]
      simp only [s', set_reg, store_reg, if_true]
      by_cases h1 : r = .rsp
      · rw [if_pos h1, if_pos h1]
      · simp only [h1, if_false]
    · rw [← hs3]; rfl
    · rfl
    · simp only [s', store_mem, set_mem]
      rw [← hs3]
      rfl
  · intro r h1 h2
    simp [s', h1, h2]
  · intro j hj
    have e : slot l s' j = slot l (s.store (s.reg .rbp - BitVec.ofNat 64 (l.vlaOffset - 8 * k)) 8 (s.reg .rax).toNat) j := by
      apply slot_congr
      · rfl
      · intro i hi
        show wr _ _ _ _ _ = _
        rw [wr_out]
        · simp [hB]
        · exact fun i' hi' => (beside_disj hf ho hj).symm i hi i' hi'
    rw [e, slot_store hf hk hj]
  · rw [hw]
    simp
  · rw [hw]
    simp [s']
  · intro x hx hx'
    show wr _ _ _ _ _ = _
    rw [wr_out _ _ _ _ _ hx', wr_out]
    rw [← hB]
    exact hx k hk

/-- The whole code. -/
theorem run_alloc (F : FP) {l : Layout} {k : Nat} (hk : k < l.vlaCount) (lbl : Nat) {len out : Slot} {s : State} (hf : Fits l s) (hl : Beside l s len) (ho : Beside l s out) :
    ∃ c s', after l k len out = .ok c ∧ runParts F lbl (before l k lbl) c s = .ok s' ∧ Alloc l k len out s s' := by
  obtain ⟨s1, e, h1, h2, h3, h4, h5, h6⟩ := run_before F (lbl := lbl) hk hf
  have hrbp := h3 .rbp (by decide)
  have hf1 : Fits l s1 := ⟨hf.count, by rw [hrbp]; exact hf.base⟩
  obtain ⟨c, s2, g1, g2, g3, g4, g5, g6, g7⟩ := run_after F hk (len := len) (out := out) hf1 ⟨hl.size, hl.low, hl.high⟩ ⟨ho.size, ho.low, ho.high⟩
  have ho1 : ∀ x, Outside l s x → Outside l s1 x := by
    intro x hx j hj i hi
    rw [hrbp]
    exact hx j hj i hi
  refine ⟨c, s2, g1, ?_, ?_, ?_, ?_, g6, ?_⟩
  · unfold runParts
    rw [h1]
    rcases h2 with rfl | rfl
    · exact g2
    · simp only [if_true]
      exact g2
  · intro r hr hr'
    rw [g3 r hr hr', h3 r hr]
  · intro j hj
    rw [g4 j hj, h4]
    by_cases hjk : j = k
    · subst hjk
      simp
    · rw [if_neg hjk, h5 j hj hjk]
      simp only [hjk, if_false]
  · rw [g5, ← h4]
    have : word s1 len.loc = word s len.loc := by
      unfold word
      rw [hrbp]
      exact rd_congr fun i hi => h6 _ (beside_outside hf hl hi)
    rw [this]
    simp
  · intro x hx hx'
    rw [g7 x (ho1 x hx) (by rw [hrbp]; exact hx'), h6 x hx]

end Verif.Vla
