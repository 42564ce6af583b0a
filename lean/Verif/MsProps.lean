import Verif.MsLemmas
/-!
Properties of the Microsoft calling convention (C98).
-/
namespace Verif.Ms
open Verif Asm X86 Codegen CodegenSpec Memory MemorySpec CallSpec MsSpec
open Verif.Call (Dest Call StackArg)

/-- C98: for every result and all arguments the caller puts each argument where the convention has its
position: registers and stack offsets, nothing else, no register twice, and room for all. -/
theorem caller_follows (ret : Option Ty) (named : Nat) (args : List Ty) (hn : args.length ≤ 128) :
    ∃ p, plan ret named args = .ok p ∧ Passes p (positions ret named args) ∧ Only p (positions ret named args) ∧
      (p.regs.map (·.1)).Nodup ∧ Room p (positions ret named args).length := by
  obtain ⟨p, h1, h2, h3, h4⟩ := plan_get ret named args hn
  refine ⟨p, h1, ?_, ⟨?_, ?_⟩, ?_, ?_⟩
  · intro k x hx
    cases hd : posReg k x.2 with
    | some d =>
      refine List.mem_of_getElem? (i := k) ?_
      rw [h2, hx]
      simp [hd]
    | none =>
      have hk : 4 ≤ k := by
        rcases Nat.lt_or_ge k 4 with h | h
        · obtain ⟨d, e⟩ := posReg_some k x.2 h
          rw [hd] at e; cases e
        · exact h
      refine List.mem_of_getElem? (i := k - 4) ?_
      rw [h3, show 4 + (k - 4) = k by omega, hx]
      rfl
  · intro d it hm
    obtain ⟨k, hk⟩ := List.mem_iff_getElem?.1 hm
    rw [h2] at hk
    cases hp : (positions ret named args)[k]? with
    | none => rw [hp] at hk; cases hk
    | some x =>
      rw [hp] at hk
      simp only [Option.bind_some, Option.map_eq_some_iff, Prod.mk.injEq] at hk
      obtain ⟨d', e1, rfl, rfl⟩ := hk
      exact ⟨k, x.2, hp, e1⟩
  · intro it o hm
    obtain ⟨j, hj⟩ := List.mem_iff_getElem?.1 hm
    rw [h3] at hj
    cases hp : (positions ret named args)[4 + j]? with
    | none => rw [hp] at hj; cases hj
    | some x =>
      rw [hp] at hj
      simp only [Option.map_some, Option.some.injEq, Prod.mk.injEq] at hj
      obtain ⟨rfl, rfl⟩ := hj
      exact ⟨4 + j, x.2, hp, posReg_none _ _ (by omega), rfl⟩
  · rw [List.Nodup, List.pairwise_iff_getElem]
    intro a b ha hb hab e
    rw [List.length_map] at ha hb
    have key : ∀ k (hk : k < p.regs.length), ∃ f, posReg k f = some (p.regs[k].1) := by
      intro k hk
      have := List.getElem?_eq_getElem hk
      rw [h2] at this
      cases hp : (positions ret named args)[k]? with
      | none => rw [hp] at this; cases this
      | some x =>
        rw [hp] at this
        simp only [Option.bind_some, Option.map_eq_some_iff] at this
        obtain ⟨d', e1, e2⟩ := this
        exact ⟨x.2, by rw [e1, ← e2]⟩
    rw [List.getElem_map, List.getElem_map] at e
    obtain ⟨f, e1⟩ := key a ha
    obtain ⟨f', e2⟩ := key b hb
    rw [← e] at e2
    exact absurd (posReg_inj e1 e2) (by omega)
  · refine ⟨_, h4, by omega, ?_, ?_⟩
    · rw [positions_length]
      have := lead_le ret
      have := round16 (args.length * 8)
      omega
    · have := round16 (args.length * 8)
      omega

/-- Six arguments, among them a `double` and a structure of 24 bytes, and a result through an address. -/
example : plan (some ⟨24, false⟩) 6 [⟨4, false⟩, ⟨8, true⟩, ⟨24, false⟩, ⟨1, false⟩, ⟨4, true⟩, ⟨8, false⟩] =
    .ok ⟨[(.gpr .rcx, .result), (.gpr .rdx, .value 0), (.sse 2, .value 1), (.gpr .r9, .address 2)],
      [(.value 3, 32), (.value 4, 40), (.value 5, 48)], -80⟩ := by decide +kernel

/-- C98: the callee looks for every parameter where the convention puts it. -/
theorem callee_follows (ret : Option Ty) (args : List Ty) (hn : args.length ≤ 128) (hr : ∀ t, ret = some t → Valid t)
    (hv : ∀ t ∈ args, Valid t) : ∃ r, params ret args = .ok r ∧ Takes r ret args := by
  have hl : (if inAddress ret = true then 1 else 0) = lead ret := by rw [inAddress_eq]; rfl
  have hL := lead_le ret
  obtain ⟨r, h1, h2⟩ := paramLoop_get args (lead ret) 0 (by omega) hv
  refine ⟨(if hidden ret then some (.gpr .rcx) else none, r), ?_, rfl, ?_, ?_⟩
  · unfold params
    rw [if_neg (by omega)]
    simp only [hl]
    rw [h1, inAddress_eq]
    cases hh : hidden ret with
    | false => rfl
    | true =>
      cases ret with
      | none => cases hh
      | some t =>
        have : t.floating = false := by
          cases hf : t.floating with
          | false => rfl
          | true =>
            have := hr t rfl hf
            have hh : ¬ Small t := by simpa [hidden] using hh
            exact absurd (by unfold Small; rcases this with e | e <;> simp [e]) hh
        simp only [if_true, gpReg, Option.map_some, Option.getD_some, this]
        rfl
  · simp only
    apply Nat.le_antisymm
    · apply Nat.le_of_not_lt
      intro h
      have := h2 args.length
      rw [List.getElem?_eq_getElem h] at this
      simp at this
    · apply Nat.le_of_not_lt
      intro h
      have := h2 r.length
      rw [List.getElem?_eq_getElem h] at this
      simp at this
  · intro i t hi
    rw [h2, hi]
    simp only [Option.map_some, Option.some.injEq, Input.mk.injEq, and_true]
    split
    · rfl
    · rw [posSrc, posReg_none _ _ (by omega)]
      simp only [posOff]
      congr 1
      omega

example : params (some ⟨24, false⟩) [⟨4, false⟩, ⟨8, true⟩, ⟨24, false⟩, ⟨1, false⟩, ⟨4, true⟩] =
    .ok (some (.gpr .rcx), [⟨.inl (.gpr .rdx), 4, false⟩, ⟨.inl (.sse 2), 8, false⟩, ⟨.inl (.gpr .r9), 8, true⟩,
      ⟨.inr 48, 1, false⟩, ⟨.inr 56, 4, false⟩]) := by decide +kernel

/-! ### From the caller's frame to the callee's -/

/-- The call node is one that can be set up. -/
theorem call_ok (ret : Option Ty) (named : Nat) (args : List Ty) (hn : args.length ≤ 128) (hv : ∀ t ∈ args, Valid t)
    (slot : Item → Slot) (callee out : Slot) (s : State) (p : Plan) (area : Nat) (hp : plan ret named args = .ok p)
    (ha : p.change = -(area : Int)) (hs : Slots s area args slot callee) :
    ∃ c, callOf ret named args slot callee out = .ok c ∧ CallSpec.Ok s area c ∧ c.callee = callee ∧ c.reg = .rbx ∧
      (∀ x ∈ p.regs, (x.1, slot x.2) ∈ c.regs) ∧ (∀ x ∈ p.stack, StackArg.value (slot x.1) x.2 ∈ c.stack) ∧
      ∀ (k : Nat) (it : Item) (f : Bool), (positions ret named args)[k]? = some (it, f) → (slot it).size ≤ 8 := by
  obtain ⟨p', e1, _, o, nd, area', q1, q2, q3, q4⟩ := caller_follows ret named args hn
  rw [hp] at e1; cases e1
  obtain ⟨p', e1, g1, g2, g3⟩ := plan_get ret named args hn
  rw [hp] at e1; cases e1
  have hae : area' = area := by rw [ha] at q1; omega
  subst hae
  have hsize : ∀ (k : Nat) (it : Item) (f : Bool), (positions ret named args)[k]? = some (it, f) → ScalarSize (slot it).size := by
    intro k it f hk
    rw [positions_get] at hk
    split at hk
    · cases hk
      rw [hs.result]; unfold ScalarSize; omega
    · simp only [Option.map_eq_some_iff, Prod.mk.injEq] at hk
      obtain ⟨t, ht, rfl, _⟩ := hk
      unfold passes
      split
      · rename_i hsm
        rw [hs.value _ t ht hsm]
        simpa [ScalarSize, Small] using hsm
      · rw [hs.address]; unfold ScalarSize; omega
  have hle : ∀ {n}, ScalarSize n → n ≤ 8 := by intro n h; unfold ScalarSize at h; omega
  have hpos : ∀ (j : Nat) (x : Item × Nat), p.stack[j]? = some x → x.2 = 8 * (4 + j) ∧ 4 + j < (positions ret named args).length ∧
      ScalarSize (slot x.1).size := by
    intro j x hj
    rw [g2] at hj
    simp only [Option.map_eq_some_iff] at hj
    obtain ⟨y, hy, rfl⟩ := hj
    exact ⟨rfl, (List.getElem?_eq_some_iff.1 hy).1, hsize _ y.1 y.2 hy⟩
  refine ⟨{ change := p.change, stack := (p.stack.map fun x => StackArg.value (slot x.1) x.2).reverse,
            regs := (p.regs.map fun x => (x.1, slot x.2)).reverse, callee := callee, reg := .rbx,
            results := results ret out }, by unfold callOf; rw [hp]; rfl, ⟨ha, ?_, ⟨?_, ?_⟩, ?_, ?_, ?_, ⟨hs.pointer, hs.clear⟩, ?_⟩, rfl, rfl, ?_, ?_, fun k it f hk => hle (hsize k it f hk)⟩
  · rw [g3] at q1
    have := round16 (args.length * 8)
    have : area' ≤ 2000 := by omega
    exact Nat.le_trans this (by decide)
  · intro a hm
    simp only [List.mem_reverse, List.mem_map] at hm
    obtain ⟨x, hx, rfl⟩ := hm
    obtain ⟨j, hj⟩ := List.mem_iff_getElem?.1 hx
    obtain ⟨h1, h2, h3⟩ := hpos j x hj
    simp only [off, CallSpec.size, h1]
    have := hle h3
    omega
  · simp only
    rw [List.pairwise_reverse, List.pairwise_iff_getElem]
    intro i j hi hj hij
    rw [List.length_map] at hi hj
    rw [List.getElem_map, List.getElem_map]
    obtain ⟨h1, h2, h3⟩ := hpos i p.stack[i] (List.getElem?_eq_getElem hi)
    obtain ⟨h1', h2', h3'⟩ := hpos j p.stack[j] (List.getElem?_eq_getElem hj)
    simp only [off, CallSpec.size, h1, h1']
    have := hle h3
    have := hle h3'
    omega
  · intro a hm
    simp only [List.mem_reverse, List.mem_map] at hm
    obtain ⟨x, hx, rfl⟩ := hm
    obtain ⟨j, hj⟩ := List.mem_iff_getElem?.1 hx
    obtain ⟨h1, h2, h3⟩ := hpos j x hj
    intro i hi
    exact hs.items x.1 i (by have := hle h3; omega)
  · intro a hm
    simp only [List.mem_reverse, List.mem_map] at hm
    obtain ⟨⟨d, it⟩, hx, rfl⟩ := hm
    obtain ⟨k, f, hk, hd⟩ := o.1 d it hx
    have hsz := hsize k it f hk
    cases d with
    | sse i => exact hs.items it
    | gpr r =>
      have hr := posReg_frame hd
      refine ⟨hsz, ?_, ?_, ?_⟩
      · rintro rfl; exact absurd hr (by decide)
      · rintro rfl; exact absurd hr (by decide)
      · intro i hi
        exact hs.items it i (Nat.lt_of_lt_of_le hi (hle hsz))
  · simp only [List.map_reverse, List.map_map]
    rw [List.Nodup, List.pairwise_reverse]
    exact nd.imp fun h => Ne.symm h
  · refine ⟨(by decide : Reg.rbx ≠ .rsp), (by decide : Reg.rbx ≠ .rbp), ?_⟩
    intro hm
    simp only [List.map_reverse, List.map_map, List.mem_reverse, List.mem_map] at hm
    obtain ⟨⟨d, it⟩, hx, e⟩ := hm
    simp only [Function.comp] at e
    subst e
    obtain ⟨k, f, hk, hd⟩ := o.1 _ it hx
    exact absurd (posReg_frame hd) (by decide)
  · intro x hx
    simp only [List.mem_reverse, List.mem_map]
    exact ⟨x, hx, rfl⟩
  · intro x hx
    simp only [List.mem_reverse, List.mem_map]
    exact ⟨x, hx, rfl⟩

theorem regVal_entered {s1 s2 : State} {area k : Nat} {f : Bool} {d : Dest} (he : Entered s1 s2 area) (h : posReg k f = some d) :
    regVal s2 d = regVal s1 d := by
  cases d with
  | gpr r => simp only [regVal, he.gpr r (posReg_frame h)]
  | sse i =>
    unfold posReg at h
    cases f with
    | true =>
      simp only [if_true] at h
      split at h
      · cases h; rename_i hk; simp only [regVal, he.xmm _ hk]
      · cases h
    | false => simp at h

/-- What position `k` holds at the call instruction. -/
theorem placed (F : FP) (ret : Option Ty) (named : Nat) (args : List Ty) (hn : args.length ≤ 128) (hv : ∀ t ∈ args, Valid t)
    (slot : Item → Slot) (callee out : Slot) (s : State) (p : Plan) (area : Nat) (hp : plan ret named args = .ok p)
    (ha : p.change = -(area : Int)) (hs : Slots s area args slot callee) :
    ∃ c b s1, callOf ret named args slot callee out = .ok c ∧ Call.before c = .ok b ∧ run F b s = .ok s1 ∧
      s1.reg .rsp = s.reg .rsp - BitVec.ofNat 64 area ∧
      s1.reg .rbx = BitVec.ofNat 64 (rd s.mem (slotAddr s callee) 8) ∧
      (∀ x : BitVec 64, area ≤ (x - s1.reg .rsp).toNat → s1.mem x = s.mem x) ∧
      ∀ (k : Nat) (it : Item) (f : Bool), (positions ret named args)[k]? = some (it, f) → 8 * k + 8 ≤ area ∧ match posReg k f with
        | some d => regVal s1 d % 256 ^ (slot it).size = rd s.mem (slotAddr s (slot it)) (slot it).size
        | none => rd s1.mem (s1.reg .rsp + BitVec.ofNat 64 (8 * k)) (slot it).size = rd s.mem (slotAddr s (slot it)) (slot it).size := by
  obtain ⟨c, h1, h2, h3, h4, h5, h6, h7⟩ := call_ok ret named args hn hv slot callee out s p area hp ha hs
  obtain ⟨b, s1, b1, b2, b3⟩ := Call.call_set_up F c s area h2
  obtain ⟨p', e1, pass, o, _, area', q1, q2, q3, q4⟩ := caller_follows ret named args hn
  rw [hp] at e1; cases e1
  have hae : area' = area := by rw [ha] at q1; omega
  subst hae
  refine ⟨c, b, s1, h1, b1, b2, b3.rsp, ?_, b3.rest, ?_⟩
  · have := b3.callee
    rw [h3, h4] at this
    exact this
  · intro k it f hk
    have hk' := (List.getElem?_eq_some_iff.1 hk).1
    refine ⟨by omega, ?_⟩
    have := pass k (it, f) hk
    cases hd : posReg k f with
    | none =>
      simp only [hd] at this
      have hm := b3.stack _ (h6 _ this)
      simp only [off, CallSpec.size, src, posOff] at hm
      apply rd_eq2
      intro i hi
      rw [Call.add_add_ofNat, hm i hi]
    | some d =>
      simp only [hd] at this
      have hm := b3.regs _ (h5 _ this)
      cases d with
      | gpr r =>
        simp only [Holds] at hm
        simp only [regVal, hm, BitVec.toNat_ofNat]
        rw [rd_mod64 _ _ _ (h7 k it f hk), Nat.mod_eq_of_lt (rd_lt _ _ _)]
      | sse i =>
        simp only [Holds] at hm
        simp only [regVal, hm, BitVec.toNat_ofNat]
        rw [rd_mod64 _ _ _ (by omega), ← rd_low _ _ _ _ (h7 k it f hk)]

theorem size_le {s : State} {area : Nat} {args : List Ty} {slot : Item → Slot} {callee : Slot} {i : Nat} {t : Ty}
    (hs : Slots s area args slot callee) (hi : args[i]? = some t) : (slot (passes i t)).size ≤ 8 := by
  unfold passes
  split
  · rename_i hsm
    rw [hs.value i t hi hsm]
    simp [Small] at hsm
    omega
  · rw [hs.address]; omega

/-- Bytes on the stack at the call are there for the callee. -/
theorem entered_rd {s1 s2 : State} {area o n : Nat} (he : Entered s1 s2 area) (h : o + n ≤ area) :
    rd s2.mem (s2.reg .rbp + BitVec.ofNat 64 (16 + o)) n = rd s1.mem (s1.reg .rsp + BitVec.ofNat 64 o) n := by
  have e : s2.reg .rbp + BitVec.ofNat 64 (16 + o) = s1.reg .rsp + BitVec.ofNat 64 o := by
    rw [he.rbp, BitVec.ofNat_add, ← BitVec.add_assoc]
    congr 1
    exact BitVec.sub_add_cancel _ _
  rw [e]
  apply rd_congr
  intro i hi
  rw [Call.add_add_ofNat]
  exact he.mem _ (by omega)

/-- C98: between a caller and a callee of this compiler every argument arrives: run the code of the call
up to the call instruction, enter the callee, and each parameter is fetched with the bytes that the
caller's slot had — the value, or the address of the object for types that are not small. -/
theorem arguments_arrive (F : FP) (ret : Option Ty) (args : List Ty) (hn : args.length ≤ 128)
    (hr : ∀ t, ret = some t → Valid t) (hv : ∀ t ∈ args, Valid t)
    (slot : Item → Slot) (callee out : Slot) (s : State) (p : Plan) (area : Nat) (hp : plan ret args.length args = .ok p)
    (ha : p.change = -(area : Int)) (hs : Slots s area args slot callee) :
    ∃ c b s1 r, callOf ret args.length args slot callee out = .ok c ∧ Call.before c = .ok b ∧ run F b s = .ok s1 ∧
      params ret args = .ok r ∧
      s1.reg .rbx = BitVec.ofNat 64 (rd s.mem (slotAddr s callee) 8) ∧
      (∀ x : BitVec 64, area ≤ (x - s1.reg .rsp).toNat → s1.mem x = s.mem x) ∧
      ∀ s2, Entered s1 s2 area →
        (∀ (i : Nat) (t : Ty), args[i]? = some t → ∃ inp, r.2[i]? = some inp ∧ inp.byAddress = decide (¬ Small t) ∧
          fetch s2 (slot (passes i t)).size inp.src = rd s.mem (slotAddr s (slot (passes i t))) (slot (passes i t)).size ∧
          inp.size = (slot (passes i t)).size) ∧
        (hidden ret = true → ∃ d, r.1 = some d ∧ fetch s2 8 (.inl d) = rd s.mem (slotAddr s (slot .result)) 8) := by
  obtain ⟨c, b, s1, h1, h2, h3, h4, h5, h6, h7⟩ := placed F ret args.length args hn hv slot callee out s p area hp ha hs
  obtain ⟨r, r1, r2, r3, r4⟩ := callee_follows ret args hn hr hv
  refine ⟨c, b, s1, r, h1, h2, h3, r1, h5, h6, fun s2 he => ⟨?_, ?_⟩⟩
  · intro i t hi
    refine ⟨_, r4 i t hi, rfl, ?_, ?_⟩
    · have hk : (positions ret args.length args)[lead ret + i]? = some (passes i t, t.floating) := by
        rw [positions_get, if_neg (by omega), Nat.add_sub_cancel_left, hi]
        have := (List.getElem?_eq_some_iff.1 hi).1
        simp [this]
      obtain ⟨q1, q2⟩ := h7 _ _ _ hk
      simp only [posSrc]
      cases hd : posReg (lead ret + i) t.floating with
      | some d =>
        simp only [hd] at q2
        simp only [fetch]
        rw [regVal_entered he hd, q2]
      | none =>
        simp only [hd] at q2
        simp only [fetch, posOff]
        rw [entered_rd he, q2]
        have := size_le hs hi
        omega
    · simp only [passes]
      split
      · rename_i hsm; rw [hs.value i t hi hsm]
      · rw [hs.address]
  · intro hh
    rw [r2, if_pos hh]
    refine ⟨_, rfl, ?_⟩
    have hk : (positions ret args.length args)[0]? = some (.result, false) := by
      rw [positions_get, if_pos]
      unfold lead; rw [if_pos hh]; omega
    obtain ⟨_, q2⟩ := h7 _ _ _ hk
    have e : posReg 0 false = some (.gpr .rcx) := rfl
    rw [hs.result] at q2
    simp only [e] at q2
    simp only [fetch]
    rw [regVal_entered he e, q2]

/-- An `int` and a `double`. -/
def someSlot : Item → Slot
  | .value 0 => ⟨4, 8⟩
  | _ => ⟨8, 16⟩

theorem someSlots : Slots Call.someState 64 [⟨4, false⟩, ⟨8, true⟩] someSlot ⟨8, 32⟩ := by
  refine ⟨?_, fun _ => rfl, rfl, rfl, ?_, ?_⟩
  · intro i t h hs
    match i, h with
    | 0, h => cases h; rfl
    | 1, h => cases h; rfl
  · have h1 : Outside (Call.someState.reg .rsp - BitVec.ofNat 64 64) 64 (slotAddr Call.someState ⟨4, 8⟩) 8 := by
      unfold Outside; decide +kernel
    have h2 : Outside (Call.someState.reg .rsp - BitVec.ofNat 64 64) 64 (slotAddr Call.someState ⟨8, 16⟩) 8 := by
      unfold Outside; decide +kernel
    intro it
    match it with
    | .value 0 => exact h1
    | .value (i + 1) => exact h2
    | .address _ => exact h2
    | .result => exact h2
  · unfold Outside
    decide +kernel

/-- The hypotheses of `arguments_arrive`. -/
example : ∃ p, plan (some ⟨4, false⟩) 2 [⟨4, false⟩, ⟨8, true⟩] = .ok p ∧ p.change = -((64 : Nat) : Int) ∧
    Slots Call.someState 64 [⟨4, false⟩, ⟨8, true⟩] someSlot ⟨8, 32⟩ := ⟨_, rfl, rfl, someSlots⟩

/-- C98: an unprototyped function is called as if all arguments were unnamed: a `double` goes to `%rcx`
only, but a function defined with that parameter takes it from `%xmm0`. -/
theorem unprototyped_violated : ∃ p r, plan none 0 [⟨8, true⟩] = .ok p ∧ params none [⟨8, true⟩] = .ok (none, [r]) ∧
    r.src = .inl (.sse 0) ∧ ∀ it, (Dest.sse 0, it) ∉ p.regs := by
  refine ⟨_, _, rfl, rfl, rfl, ?_⟩
  intro it h
  simp at h

/-- C98: the caller passes the address for a `long double` result in `%rcx`, the callee takes it from
`%xmm2`. -/
theorem long_double_result_violated : ∃ p, plan (some ⟨16, true⟩) 0 [] = .ok p ∧ p.regs = [(.gpr .rcx, .result)] ∧
    params (some ⟨16, true⟩) [] = .ok (some (.sse 2), []) := ⟨_, rfl, rfl, rfl⟩

/-! ### Results -/

/-- The result and saved registers are loaded from slots of scalar sizes. -/
theorem returnRegs_ok (ret : Option Ty) (value rbx rdi rsi : Slot) (hv : ∀ t, ret = some t → Small t → value.size = t.size)
    (h1 : rbx.size = 8) (h2 : rdi.size = 8) (h3 : rsi.size = 8) :
    (∀ r v, (Dest.gpr r, v) ∈ returnRegs ret value rbx rdi rsi → ScalarSize v.size ∧ r ≠ .rbp) ∧
    ((returnRegs ret value rbx rdi rsi).map (·.1)).Nodup := by
  have e8 : ScalarSize 8 := by unfold ScalarSize; omega
  constructor
  · intro r v hm
    simp only [returnRegs, List.cons_append, List.nil_append, List.mem_cons, Prod.mk.injEq, Dest.gpr.injEq] at hm
    rcases hm with ⟨rfl, rfl⟩ | ⟨rfl, rfl⟩ | ⟨rfl, rfl⟩ | hm
    · exact ⟨h3 ▸ e8, by decide⟩
    · exact ⟨h2 ▸ e8, by decide⟩
    · exact ⟨h1 ▸ e8, by decide⟩
    · cases ret with
      | none => simp at hm
      | some t =>
        simp only at hm
        split at hm
        · rename_i hf
          rw [fits_iff] at hf
          have hs : Small t := of_decide_eq_true hf
          simp only [List.mem_singleton, Prod.mk.injEq, retReg] at hm
          obtain ⟨e, rfl⟩ := hm
          split at e
          · cases e
          · cases e
            refine ⟨?_, by decide⟩
            rw [hv t rfl hs]
            simpa [ScalarSize, Small] using hs
        · simp at hm
  · cases ret with
    | none => simp [returnRegs]
    | some t =>
      simp only [returnRegs, retReg]
      cases hf : fits t <;> cases hg : t.floating <;> simp

/-- C98: a small result goes through `%rax` or, if it is floating, `%xmm0`: `return` puts it there and the
caller takes it from there. -/
theorem result_arrives (F : FP) (t : Ty) (hs : Small t) (ht : Valid t) (value out rbx rdi rsi : Slot)
    (hv : value.size = t.size) (ho : out.size = t.size) (h1 : rbx.size = 8) (h2 : rdi.size = 8) (h3 : rsi.size = 8) (s : State) :
    ∃ c s1, Call.setRegs (returnRegs (some t) value rbx rdi rsi) = .ok c ∧ run F c s = .ok s1 ∧ s1.mem = s.mem ∧
      regVal s1 (resReg t) % 256 ^ t.size = rd s.mem (slotAddr s value) t.size ∧
      ∀ s2, regVal s2 (resReg t) = regVal s1 (resReg t) →
        ∃ s3, run F (Call.getRegs (results (some t) out)) s2 = .ok s3 ∧
          rd s3.mem (slotAddr s2 out) t.size = rd s.mem (slotAddr s value) t.size ∧
          ∀ x, (∀ i, i < t.size → x ≠ slotAddr s2 out + BitVec.ofNat 64 i) → s3.mem x = s2.mem x := by
  have hf : fits t = true := by rw [fits_iff]; exact decide_eq_true hs
  obtain ⟨k1, k2⟩ := returnRegs_ok (some t) value rbx rdi rsi (fun t' e _ => by cases e; exact hv) h1 h2 h3
  obtain ⟨c, s1, c1, c2, c3, c4, c5, c6⟩ := Call.run_setRegs F _ s k1 k2
  have hm := c6 (retReg t, value) (by simp [returnRegs, hf])
  have h8 : t.size ≤ 8 := by simp [Small] at hs; omega
  have hval : regVal s1 (resReg t) % 256 ^ t.size = rd s.mem (slotAddr s value) t.size := by
    unfold retReg at hm
    unfold resReg
    split at hm
    · rename_i hfl
      rw [if_pos hfl]
      simp only [Holds] at hm
      simp only [regVal, hm, BitVec.toNat_ofNat]
      rw [rd_mod64 _ _ _ (by omega), ← rd_low _ _ _ _ h8]
    · rename_i hfl
      rw [if_neg hfl]
      simp only [Holds] at hm
      simp only [regVal, hm, BitVec.toNat_ofNat, hv]
      rw [rd_mod64 _ _ _ h8, Nat.mod_eq_of_lt (rd_lt _ _ _)]
  refine ⟨c, s1, c1, c2, c3, hval, fun s2 hs2 => ?_⟩
  have hres : results (some t) out = [(resReg t, out)] := by simp [results, hf, retReg, resReg]
  obtain ⟨s3, d1, _, d3, d4⟩ := Call.run_getRegs F (results (some t) out) s2 (by
    rw [hres]
    intro r hr
    rw [List.mem_singleton] at hr
    subst hr
    unfold resReg
    split
    · rename_i hfl
      simp only [ResultOk, ho]
      exact ht hfl
    · exact ⟨by decide, by rw [ho]; simpa [Small] using hs⟩)
  rw [hres] at d3 d4
  refine ⟨s3, d1, ?_, ?_⟩
  · have := d4 (by simp) _ (List.mem_singleton_self _)
    simp only [ho] at this
    rw [this, hs2, hval]
  · intro x hx
    apply d3
    intro r hr i hi
    rw [List.mem_singleton] at hr
    subst hr
    exact hx i (by simpa [ho] using hi)

example : Small ⟨4, true⟩ ∧ Valid ⟨4, true⟩ := by unfold Valid; decide

/-- C98: `%rbx`, `%rdi` and `%rsi` are saved at entry and restored on return, provided the body keeps
`%rbp` and the three slots. -/
theorem registers_kept (F : FP) (ret : Option Ty) (value rbx rdi rsi : Slot) (hv : ∀ t, ret = some t → Small t → value.size = t.size)
    (h1 : rbx.size = 8) (h2 : rdi.size = 8) (h3 : rsi.size = 8) (s : State)
    (hd : [rbx, rdi, rsi].Pairwise fun a b => Disj (slotAddr s a) 8 (slotAddr s b) 8) :
    ∃ s1, run F (Call.getRegs (saved rbx rdi rsi)) s = .ok s1 ∧ s1.reg = s.reg ∧ ∀ s2 : State, s2.reg .rbp = s.reg .rbp →
      (∀ v ∈ [rbx, rdi, rsi], ∀ i, i < 8 → s2.mem (slotAddr s v + BitVec.ofNat 64 i) = s1.mem (slotAddr s v + BitVec.ofNat 64 i)) →
      (∀ r ∈ kept, r ∉ [.rbx, .rdi, .rsi] → s2.reg r = s.reg r) →
      ∃ c s3, Call.setRegs (returnRegs ret value rbx rdi rsi) = .ok c ∧ run F c s2 = .ok s3 ∧ ∀ r ∈ kept, s3.reg r = s.reg r := by
  obtain ⟨k1, k2⟩ := returnRegs_ok ret value rbx rdi rsi hv h1 h2 h3
  obtain ⟨s1, d1, d2, _, d4⟩ := Call.run_getRegs F (saved rbx rdi rsi) s (by
    intro r hr
    simp only [saved, List.mem_cons, List.not_mem_nil, or_false] at hr
    rcases hr with rfl | rfl | rfl
    · exact ⟨by decide, by simp [h1]⟩
    · exact ⟨by decide, by simp [h2]⟩
    · exact ⟨by decide, by simp [h3]⟩)
  have d4 := d4 (by
    simp only [saved, List.pairwise_cons, List.mem_cons, List.not_mem_nil, or_false] at hd ⊢
    obtain ⟨a, b, _⟩ := hd
    refine ⟨?_, ?_, by simp⟩
    · rintro x (rfl | rfl)
      · simp only [h1, h2]; exact a _ (.inl rfl)
      · simp only [h1, h3]; exact a _ (.inr rfl)
    · rintro x rfl
      simp only [h2, h3]; exact b _ rfl)
  refine ⟨s1, d1, d2, fun s2 hb hk hr => ?_⟩
  obtain ⟨c, s3, c1, c2, c3, c4, c5, c6⟩ := Call.run_setRegs F _ s2 k1 k2
  refine ⟨c, s3, c1, c2, ?_⟩
  have back : ∀ r v, v.size = 8 → (Dest.gpr r, v) ∈ returnRegs ret value rbx rdi rsi → (Dest.gpr r, v) ∈ saved rbx rdi rsi →
      v ∈ [rbx, rdi, rsi] → s3.reg r = s.reg r := by
    intro r v h8 m1 m2 m3
    have e1 := c6 _ m1
    have e2 := d4 _ m2
    simp only [Holds, regVal, h8] at e1 e2
    have hsl : slotAddr s2 v = slotAddr s v := by simp [slotAddr, hb]
    rw [e1, hsl, rd_congr (hk v m3), e2, show (256 : Nat) ^ 8 = 2 ^ 64 by decide, Nat.mod_eq_of_lt (s.reg r).isLt]
    simp
  intro r hm
  by_cases hin : r ∈ [Reg.rbx, .rdi, .rsi]
  · simp only [List.mem_cons, List.not_mem_nil, or_false] at hin
    rcases hin with rfl | rfl | rfl
    · exact back _ rbx h1 (by simp [returnRegs]) (by simp [saved]) (by simp)
    · exact back _ rdi h2 (by simp [returnRegs]) (by simp [saved]) (by simp)
    · exact back _ rsi h3 (by simp [returnRegs]) (by simp [saved]) (by simp)
  · rw [c4 r, hr r hm hin]
    intro h
    obtain ⟨⟨d, v⟩, hv, e⟩ := List.mem_map.1 h
    simp only at e
    subst e
    simp only [returnRegs, List.cons_append, List.nil_append, List.mem_cons, Prod.mk.injEq, Dest.gpr.injEq] at hv
    rcases hv with ⟨rfl, _⟩ | ⟨rfl, _⟩ | ⟨rfl, _⟩ | hv
    · simp at hin
    · simp at hin
    · simp at hin
    · cases ret with
      | none => simp at hv
      | some t =>
        simp only at hv
        split at hv
        · simp only [List.mem_singleton, Prod.mk.injEq, retReg] at hv
          obtain ⟨e, _⟩ := hv
          split at e
          · cases e
          · cases e; simp [kept] at hm
        · simp at hv

example : [(⟨8, 8⟩ : Slot), ⟨8, 16⟩, ⟨8, 24⟩].Pairwise fun a b =>
    Disj (slotAddr Call.someState a) 8 (slotAddr Call.someState b) 8 := by
  unfold Disj
  decide +kernel

/-- C98: a function that returns through an address does not return that address in `%rax`. -/
theorem returns_address_violated (F : FP) : ¬ ReturnsAddress F returnRegs := by
  intro h
  let s : State := { Call.someState with reg := fun r => if r = .rax then 1 else 0, mem := fun _ => 0 }
  obtain ⟨c, s', h1, h2, h3⟩ := h (some ⟨24, false⟩) ⟨8, 8⟩ ⟨8, 16⟩ ⟨8, 24⟩ ⟨8, 32⟩ ⟨8, 40⟩ s (by decide) rfl rfl rfl rfl
  obtain ⟨k1, k2⟩ := returnRegs_ok (some ⟨24, false⟩) ⟨8, 8⟩ ⟨8, 16⟩ ⟨8, 24⟩ ⟨8, 32⟩ (by
    intro t e hs; cases e; exact absurd hs (by decide)) rfl rfl rfl
  obtain ⟨c', s1, c1, c2, c3, c4, _⟩ := Call.run_setRegs F _ s k1 k2
  rw [h1] at c1; cases c1
  rw [h2] at c2; cases c2
  rw [c4 .rax (by decide)] at h3
  exact absurd h3 (by decide +kernel)

/-! ### Variadic functions -/

/-- C98: the preamble of a variadic function stores the four registers in their homes. -/
theorem preamble_code (F : FP) (s : State) :
    ∃ s', run F preamble s = .ok s' ∧ Homed s s' ∧ s'.reg = s.reg ∧ s'.xmm = s.xmm ∧
      ∀ x, (∀ i, i < 32 → x ≠ home (s.reg .rbp) 0 + BitVec.ofNat 64 i) → s'.mem x = s.mem x := by
  let m := s.mem
  let b := s.reg .rbp
  refine ⟨{ s with mem := wr (wr (wr (wr m (home b 0) 8 (s.reg .rcx).toNat) (home b 1) 8 (s.reg .rdx).toNat)
    (home b 2) 8 (s.reg .r8).toNat) (home b 3) 8 (s.reg .r9).toNat }, ?_, ?_, rfl, rfl, ?_⟩
  · rw [preamble, run_cons, VaArg.exec_st64, Out.bind_ok, run_cons, VaArg.exec_st64, Out.bind_ok, run_cons,
      VaArg.exec_st64, Out.bind_ok, run_cons, VaArg.exec_st64, Out.bind_ok, run_nil]
    rfl
  · have hd : ∀ i j, i < 4 → j < 4 → i ≠ j → Disj (home b i) 8 (home b j) 8 := by
      intro i j hi hj hij a ha c hc e
      unfold home at e
      rw [Call.add_add_ofNat, Call.add_add_ofNat] at e
      have e := congrArg (fun x => (x - b).toNat) e
      rw [Call.off_toNat _ _ (by omega), Call.off_toNat _ _ (by omega)] at e
      omega
    intro k r hk
    have hlt : ∀ r, (s.reg r).toNat % 256 ^ 8 = (s.reg r).toNat := fun r => Nat.mod_eq_of_lt (s.reg r).isLt
    match k, hk with
    | 0, hk =>
      cases hk
      show rd (wr (wr (wr (wr _ _ _ _) _ _ _) _ _ _) _ _ _) _ _ = _
      rw [rd_wr_disj (hd 0 3 (by omega) (by omega) (by omega)), rd_wr_disj (hd 0 2 (by omega) (by omega) (by omega)),
        rd_wr_disj (hd 0 1 (by omega) (by omega) (by omega)), rd_wr_same _ _ _ _ (by omega), hlt]
    | 1, hk =>
      cases hk
      show rd (wr (wr (wr (wr _ _ _ _) _ _ _) _ _ _) _ _ _) _ _ = _
      rw [rd_wr_disj (hd 1 3 (by omega) (by omega) (by omega)), rd_wr_disj (hd 1 2 (by omega) (by omega) (by omega)),
        rd_wr_same _ _ _ _ (by omega), hlt]
    | 2, hk =>
      cases hk
      show rd (wr (wr (wr (wr _ _ _ _) _ _ _) _ _ _) _ _ _) _ _ = _
      rw [rd_wr_disj (hd 2 3 (by omega) (by omega) (by omega)), rd_wr_same _ _ _ _ (by omega), hlt]
    | 3, hk =>
      cases hk
      show rd (wr (wr (wr (wr _ _ _ _) _ _ _) _ _ _) _ _ _) _ _ = _
      rw [rd_wr_same _ _ _ _ (by omega), hlt]
    | k + 4, hk => cases hk
  · intro x hx
    have ho : ∀ k, k < 4 → ∀ i, i < 8 → x ≠ home b k + BitVec.ofNat 64 i := by
      intro k hk i hi e
      refine hx (8 * k + i) (by omega) ?_
      rw [e]
      unfold home
      rw [Call.add_add_ofNat, Call.add_add_ofNat]
      congr 2
      omega
    show wr (wr (wr (wr _ _ _ _) _ _ _) _ _ _) _ _ _ x = _
    rw [wr_out _ _ _ _ _ (ho 3 (by omega)), wr_out _ _ _ _ _ (ho 2 (by omega)), wr_out _ _ _ _ _ (ho 1 (by omega)),
      wr_out _ _ _ _ _ (ho 0 (by omega))]

/-- C98: in a variadic callee, behind the preamble, every unnamed argument is in the home of its position. -/
theorem unnamed_homed (F : FP) (ret : Option Ty) (named : Nat) (args : List Ty) (hn : args.length ≤ 128)
    (hv : ∀ t ∈ args, Valid t)
    (slot : Item → Slot) (callee out : Slot) (s : State) (p : Plan) (area : Nat) (hp : plan ret named args = .ok p)
    (ha : p.change = -(area : Int)) (hs : Slots s area args slot callee) :
    ∃ c b s1, callOf ret named args slot callee out = .ok c ∧ Call.before c = .ok b ∧ run F b s = .ok s1 ∧
      ∀ s2, Entered s1 s2 area → ∃ s3, run F preamble s2 = .ok s3 ∧ s3.reg = s2.reg ∧
        ∀ (i : Nat) (t : Ty), args[i]? = some t → named ≤ i →
          rd s3.mem (home (s3.reg .rbp) (lead ret + i)) (slot (passes i t)).size =
            rd s.mem (slotAddr s (slot (passes i t))) (slot (passes i t)).size := by
  obtain ⟨c, b, s1, h1, h2, h3, h4, h5, h6, h7⟩ := placed F ret named args hn hv slot callee out s p area hp ha hs
  refine ⟨c, b, s1, h1, h2, h3, fun s2 he => ?_⟩
  obtain ⟨s3, g1, g2, g3, g4, g5⟩ := preamble_code F s2
  refine ⟨s3, g1, g3, ?_⟩
  intro i t hi hni
  have hsz := size_le hs hi
  have hk : (positions ret named args)[lead ret + i]? = some (passes i t, false) := by
    rw [positions_get, if_neg (by omega), Nat.add_sub_cancel_left, hi]
    simp [show ¬ i < named by omega]
  obtain ⟨q1, q2⟩ := h7 _ _ _ hk
  cases hd : posReg (lead ret + i) false with
  | some d =>
    simp only [hd] at q2
    have hd' := hd
    simp only [posReg, Bool.false_eq_true, if_false, Option.map_eq_some_iff] at hd'
    obtain ⟨r, hr, rfl⟩ := hd'
    have := g2 _ _ hr
    rw [rd_low _ _ 8 _ hsz, g3, this, ← q2, ← regVal_entered he hd]
    rfl
  | none =>
    simp only [hd] at q2
    have hk4 : 4 ≤ lead ret + i := by
      rcases Nat.lt_or_ge (lead ret + i) 4 with h | h
      · obtain ⟨d, e⟩ := posReg_some _ false h
        rw [hd] at e; cases e
      · exact h
    rw [← q2, ← entered_rd he (by omega), g3]
    apply rd_congr
    intro j hj
    apply g5
    intro l hl e
    unfold home at e
    rw [Call.add_add_ofNat, Call.add_add_ofNat] at e
    have e := congrArg (fun x => (x - s2.reg .rbp).toNat) e
    have := (List.getElem?_eq_some_iff.1 hi).1
    have := lead_le ret
    rw [Call.off_toNat _ _ (by omega), Call.off_toNat _ _ (by omega)] at e
    omega

theorem exec_lea (F : FP) (s : State) (o : Nat) (b r : Reg) :
    exec F ⟨.leaq, [MEM o b, R8 r]⟩ s = .ok (s.set r (s.reg b + BitVec.ofNat 64 o)) := by
  rw [MEM, R8, exec_leaq, addr_nat]

/-- What `va_start` does. -/
theorem run_vaStart (F : FP) (va : Slot) (hva : va.size = 8) (n : Nat) (s : State) :
    ∃ c s', vaStart va n = .ok c ∧ run F c s = .ok s' ∧ At s'.mem (target s va) (s.reg .rbp) n ∧
      (∀ x, (∀ i, i < 8 → x ≠ target s va + BitVec.ofNat 64 i) → s'.mem x = s.mem x) ∧
      ∀ r, r ≠ .rax → r ≠ .rdx → s'.reg r = s.reg r := by
  obtain ⟨c, l1, l2⟩ := run_load F va .rdx (by unfold ScalarSize; omega)
  have e1 := exec_lea F s (n * 8 + 16) .rbp .rax
  have e2 := l2 (s.set .rax (s.reg .rbp + BitVec.ofNat 64 (n * 8 + 16)))
  rw [slotAddr_set _ _ _ _ (by decide), hva] at e2
  have e3 : target s va = BitVec.ofNat 64 (rd s.mem (slotAddr s va) 8) := rfl
  refine ⟨⟨.leaq, [MEM (n * 8 + 16 : Nat) .rbp, R8 .rax]⟩ :: c ++ [⟨.movq, [R8 .rax, MEM 0 .rdx]⟩], (((s.set .rax (s.reg .rbp + BitVec.ofNat 64 (n * 8 + 16))).set .rdx (target s va)).store
    (target s va + BitVec.ofInt 64 0) 8 (s.reg .rbp + BitVec.ofNat 64 (n * 8 + 16)).toNat), ?_, ?_, ?_, ?_, ?_⟩
  · unfold vaStart
    rw [l1]
    rfl
  · rw [List.cons_append, run_cons, e1, Out.bind_ok, run_append, e2, Out.bind_ok, run_cons, VaArg.exec_st64, Out.bind_ok, run_nil]
    simp [target]
  · unfold At home
    simp only [State.store, State.set, BitVec.ofInt_ofNat, BitVec.add_zero]
    rw [rd_wr_same _ _ _ _ (by omega),
      Nat.mod_eq_of_lt (BitVec.isLt _), show n * 8 + 16 = 16 + 8 * n by omega]
  · intro x hx
    simp only [State.store, State.set]
    rw [show target s va + BitVec.ofInt 64 0 = target s va by simp]
    exact wr_out _ _ _ _ _ hx
  · intro r h1 h2
    simp [State.store, State.set, h1, h2]

/-- C98: `va_start` puts the `va_list` at the first unnamed argument — in functions whose result is not
returned through an address.  `va_start_violated` shows that the restriction is needed. -/
theorem va_start_partial (F : FP) (ret : Option Ty) (hr : hidden ret = false) (named : Nat) (va : Slot) (hva : va.size = 8) (s : State) :
    ∃ c s', vaStart va named = .ok c ∧ run F c s = .ok s' ∧ At s'.mem (target s va) (s.reg .rbp) (lead ret + named) ∧
      (∀ x, (∀ i, i < 8 → x ≠ target s va + BitVec.ofNat 64 i) → s'.mem x = s.mem x) ∧
      ∀ r, r ≠ .rax → r ≠ .rdx → s'.reg r = s.reg r := by
  have : lead ret = 0 := by unfold lead; rw [hr]; rfl
  rw [this, Nat.zero_add]
  exact run_vaStart F va hva named s

example : hidden (some ⟨8, false⟩) = false := by decide

/-- C98: in every function that returns through an address, `va_start` puts the `va_list` at the last
named argument (or, if there is none, at the address of the result). -/
theorem va_start_violated (F : FP) (ret : Option Ty) (hr : hidden ret = true) (named : Nat) (va : Slot) (hva : va.size = 8) (s : State) :
    ∃ c s', vaStart va named = .ok c ∧ run F c s = .ok s' ∧ ¬ At s'.mem (target s va) (s.reg .rbp) (lead ret + named) := by
  have hl : lead ret = 1 := by unfold lead; rw [hr]; rfl
  obtain ⟨c, s', h1, h2, h3, _⟩ := run_vaStart F va hva named s
  refine ⟨c, s', h1, h2, fun h => ?_⟩
  unfold At at h h3
  rw [h3, hl] at h
  have e := BitVec.eq_of_toNat_eq h
  unfold home at e
  rw [show 16 + 8 * (1 + named) = 16 + 8 * named + 8 by omega, BitVec.ofNat_add _ 8, ← BitVec.add_assoc] at e
  have e : s.reg .rbp + BitVec.ofNat 64 (16 + 8 * named) + 0#64 = s.reg .rbp + BitVec.ofNat 64 (16 + 8 * named) + 8#64 := by
    rw [BitVec.add_zero]; exact e
  exact absurd (BitVec.add_right_inj _ |>.1 e) (by decide)

example : hidden (some ⟨24, false⟩) = true := by decide

theorem home_succ (b : BitVec 64) (k : Nat) : home b k + BitVec.ofNat 64 8 = home b (k + 1) := by
  unfold home
  rw [Call.add_add_ofNat]
  congr 2

/-- C98: `va_arg` of any type copies the argument at the `va_list`'s position to the given object and
moves the `va_list` to the next position. -/
theorem va_arg_code (F : FP) (t : Ty) (dst va : Slot) (s : State) (k : Nat) (h : Ready s dst va k t) :
    ∃ c s', vaArg t dst va = .ok c ∧ run F c s = .ok s' ∧ Done s s' dst va k t := by
  obtain ⟨c1, l1, l2⟩ := run_load F va .rbx (by unfold ScalarSize; have := h.vaSize; omega)
  obtain ⟨c2, m1, m2⟩ := run_load F dst .rsi (by unfold ScalarSize; have := h.dstSize; omega)
  have g1 := l2 s
  rw [h.vaSize] at g1
  change run F c1 s = .ok (s.set .rbx (target s va)) at g1
  have hl := h.list
  unfold At at hl
  generalize hsa : s.set .rbx (target s va) = sa at g1
  have a1 : sa.reg .rbx = target s va := by subst hsa; simp
  have a2 : sa.mem = s.mem := by subst hsa; rfl
  have a3 : ∀ r, r ≠ .rbx → sa.reg r = s.reg r := by subst hsa; intro r hr; simp [State.set, hr]
  have g2 := VaArg.exec_ld64 F sa 0 .rbx .rax
  rw [a1, a2, show target s va + BitVec.ofNat 64 0 = target s va by simp, hl, BitVec.ofNat_toNat, BitVec.setWidth_eq] at g2
  generalize hsb : sa.set .rax (MsSpec.home (s.reg .rbp) k) = sb at g2
  have b1 : sb.reg .rax = MsSpec.home (s.reg .rbp) k := by subst hsb; simp
  have b2 : sb.mem = s.mem := by subst hsb; exact a2
  have b3 : sb.reg .rbx = target s va := by subst hsb; simpa using a1
  have b4 : ∀ r, r ≠ .rbx → r ≠ .rax → sb.reg r = s.reg r := by
    subst hsb; intro r hr hr'; simp [State.set, hr']; exact a3 r hr
  have g3 := exec_lea F sb 8 .rax .rdx
  rw [b1, home_succ] at g3
  generalize hsc : sb.set .rdx (MsSpec.home (s.reg .rbp) (k + 1)) = sc at g3
  have c3 : sc.reg .rdx = MsSpec.home (s.reg .rbp) (k + 1) := by subst hsc; simp
  have c4 : sc.reg .rbx = target s va := by subst hsc; simpa using b3
  have c5 : sc.reg .rax = MsSpec.home (s.reg .rbp) k := by subst hsc; simpa using b1
  have c6 : sc.mem = s.mem := by subst hsc; exact b2
  have c7 : ∀ r, r ≠ .rbx → r ≠ .rax → r ≠ .rdx → sc.reg r = s.reg r := by
    subst hsc; intro r h1 h2 h3; simp [State.set, h3]; exact b4 r h1 h2
  have g4 := VaArg.exec_st64 F sc 0 .rbx .rdx
  rw [c4, c3, show target s va + BitVec.ofInt 64 0 = target s va by simp] at g4
  generalize hsd : sc.store (target s va) 8 (MsSpec.home (s.reg .rbp) (k + 1)).toNat = sd at g4
  have d1 : sd.mem = wr s.mem (target s va) 8 (MsSpec.home (s.reg .rbp) (k + 1)).toNat := by
    subst hsd; rw [← c6]; rfl
  have d2 : sd.reg = sc.reg := by subst hsd; rfl
  have g5 := VaArg.exec_ld64 F sd 0 .rax .rax
  rw [d2, c5, show MsSpec.home (s.reg .rbp) k + BitVec.ofNat 64 0 = MsSpec.home (s.reg .rbp) k by simp, d1,
    rd_wr_disj (fun i hi j hj e => h.home j hj i hi e.symm)] at g5
  generalize hw : BitVec.ofNat 64 (rd s.mem (MsSpec.home (s.reg .rbp) k) 8) = w at g5
  generalize hse : sd.set .rax w = se at g5
  have e1 : se.reg .rax = w := by subst hse; simp
  have e2 : se.mem = wr s.mem (target s va) 8 (MsSpec.home (s.reg .rbp) (k + 1)).toNat := by subst hse; exact d1
  have e3 : ∀ r, r ≠ .rbx → r ≠ .rax → r ≠ .rdx → se.reg r = s.reg r := by
    subst hse; intro r h1 h2 h3; simp [State.set, h2, d2]; exact c7 r h1 h2 h3
  have hrun : run F (c1 ++ [⟨.movq, [MEM 0 .rbx, R8 .rax]⟩, ⟨.leaq, [MEM 8 .rax, R8 .rdx]⟩, ⟨.movq, [R8 .rdx, MEM 0 .rbx]⟩,
      ⟨.movq, [MEM 0 .rax, R8 .rax]⟩]) s = .ok se := by
    rw [run_append_ok g1, run_cons]
    erw [g2]
    rw [Out.bind_ok, run_cons]
    erw [g3]
    rw [Out.bind_ok, run_cons, g4, Out.bind_ok, run_cons]
    erw [g5]
    rfl
  have hdst : ∀ u : State, u.reg .rbp = s.reg .rbp → u.mem = se.mem →
      BitVec.ofNat 64 (rd u.mem (slotAddr u dst) dst.size) = target s dst := by
    intro u hu hm
    rw [hm, e2, h.dstSize]
    have : slotAddr u dst = slotAddr s dst := by unfold slotAddr; rw [hu]
    rw [this, rd_wr_disj (fun i hi j hj e => h.slot j hj i hi e.symm)]
    rfl
  have hlist : ∀ m : BitVec 64 → BitVec 8, (∀ i, i < 8 → m (target s va + BitVec.ofNat 64 i) = se.mem (target s va + BitVec.ofNat 64 i)) →
      At m (target s va) (s.reg .rbp) (k + 1) := by
    intro m hm
    unfold At
    rw [rd_congr hm, e2, rd_wr_same _ _ _ _ (by omega), Nat.mod_eq_of_lt (BitVec.isLt _)]
  have hse_rest : ∀ x, (∀ i, i < 8 → x ≠ target s va + BitVec.ofNat 64 i) → se.mem x = s.mem x := by
    intro x hx; rw [e2]; exact wr_out _ _ _ _ _ hx
  by_cases hf : fits t = true
  · have hsm : Small t := by rw [fits_iff] at hf; exact of_decide_eq_true hf
    have h8 : t.size ≤ 8 := by simp [Small] at hsm; omega
    have g6 := m2 se
    rw [hdst se (e3 .rbp (by decide) (by decide) (by decide)) rfl] at g6
    generalize hsf : se.set .rsi (target s dst) = sf at g6
    have f1 : sf.reg .rsi = target s dst := by subst hsf; simp
    have f2 : sf.reg .rax = w := by subst hsf; simpa using e1
    have f3 : sf.mem = se.mem := by subst hsf; rfl
    have f4 : ∀ r, r ≠ .rbx → r ≠ .rax → r ≠ .rdx → r ≠ .rsi → sf.reg r = s.reg r := by
      subst hsf; intro r h1 h2 h3 h4; simp [State.set, h4]; exact e3 r h1 h2 h3
    obtain ⟨s', r1, r2, r3, _⟩ := store_memory_exact F t.size h8 .rax (by decide) sf
    rw [f1, f2] at r2
    refine ⟨c1 ++ [⟨.movq, [MEM 0 .rbx, R8 .rax]⟩, ⟨.leaq, [MEM 8 .rax, R8 .rdx]⟩, ⟨.movq, [R8 .rdx, MEM 0 .rbx]⟩,
      ⟨.movq, [MEM 0 .rax, R8 .rax]⟩] ++ (c2 ++ regToMemory .rax t.size), s', ?_, ?_, ?_, ?_, ?_, ?_, ?_⟩
    · unfold vaArg
      rw [l1, m1, Res.bind_ok, Res.bind_ok, if_pos hf]
      rfl
    · rw [run_append_ok hrun, run_append_ok g6, r1]
    · intro i hi
      have hb : s'.mem (target s dst + BitVec.ofNat 64 i) = BitVec.ofNat 8 (w.toNat / 256 ^ i) := by
        rw [r2]
        have := rd_byte (wr sf.mem (target s dst) t.size w.toNat) (target s dst) t.size i hi
        rw [rd_wr_same _ _ _ _ (by omega)] at this
        rw [← this]
        rw [← byte_mod w.toNat t.size i hi]
      rw [hb, source, if_pos hsm, ← hw, BitVec.toNat_ofNat, rd_mod64 _ _ _ (by omega), rd_byte _ _ _ _ (by omega)]
    · apply hlist
      intro i hi
      rw [r2, f3]
      exact wr_out _ _ _ _ _ (fun j hj => h.obj i hi j hj)
    · intro x h1 h2
      rw [r2, wr_out _ _ _ _ _ h2, f3]
      exact hse_rest x h1
    · rw [r3 _ (by decide)]; exact f4 _ (by decide) (by decide) (by decide) (by decide)
    · rw [r3 _ (by decide)]; exact f4 _ (by decide) (by decide) (by decide) (by decide)
  · have hsm : ¬ Small t := by rw [fits_iff] at hf; simpa using hf
    have hsrc : source s.mem (MsSpec.home (s.reg .rbp) k) t = w := by rw [source, if_neg hsm, hw]
    have g0 : exec F ⟨.movq, [R8 .rax, R8 .rdi]⟩ se = .ok (se.set .rdi w) := by
      rw [← e1]
      rw [R8, R8, exec_movq_rr]
      simp [mov, legal, getOp, putOp, merge64]
    generalize hsg : se.set .rdi w = sg at g0
    have k1 : sg.reg .rdi = w := by subst hsg; simp
    have k2 : sg.mem = se.mem := by subst hsg; rfl
    have k3 : ∀ r, r ≠ .rbx → r ≠ .rax → r ≠ .rdx → r ≠ .rdi → sg.reg r = s.reg r := by
      subst hsg; intro r h1 h2 h3 h4; simp [State.set, h4]; exact e3 r h1 h2 h3
    have g6 := m2 sg
    rw [hdst sg (k3 .rbp (by decide) (by decide) (by decide) (by decide)) k2] at g6
    generalize hsf : sg.set .rsi (target s dst) = sf at g6
    have f1 : sf.reg .rsi = target s dst := by subst hsf; simp
    have f2 : sf.reg .rdi = w := by subst hsf; simpa using k1
    have f3 : sf.mem = se.mem := by subst hsf; exact k2
    have f4 : ∀ r, r ≠ .rbx → r ≠ .rax → r ≠ .rdx → r ≠ .rdi → r ≠ .rsi → sf.reg r = s.reg r := by
      subst hsf; intro r h1 h2 h3 h4 h5; simp [State.set, h5]; exact k3 r h1 h2 h3 h4
    have hn : t.size ≤ 2 ^ 63 := Nat.le_trans h.size (by decide)
    obtain ⟨v, r1⟩ := memcpy_copies F t.size hn sf (by rw [f1, f2, ← hsrc]; exact h.copy)
    rw [f1, f2] at r1
    refine ⟨c1 ++ [⟨.movq, [MEM 0 .rbx, R8 .rax]⟩, ⟨.leaq, [MEM 8 .rax, R8 .rdx]⟩, ⟨.movq, [R8 .rdx, MEM 0 .rbx]⟩,
      ⟨.movq, [MEM 0 .rax, R8 .rax]⟩] ++ (⟨.movq, [R8 .rax, R8 .rdi]⟩ :: c2 ++ memcpy t.size),
      { sf.set .rax v with mem := copied sf.mem w (target s dst) t.size }, ?_, ?_, ?_, ?_, ?_, ?_, ?_⟩
    · unfold vaArg
      rw [l1, m1, Res.bind_ok, Res.bind_ok, if_neg hf]
      rfl
    · rw [run_append_ok hrun, List.cons_append, run_cons, g0, Out.bind_ok, run_append_ok g6, r1]
    · intro i hi
      simp only
      rw [VaArg.copied_in _ _ _ _ _ hi hn, f3, hsrc, hse_rest]
      intro j hj e
      refine h.src j hj i hi ?_
      rw [hsrc, e]
    · apply hlist
      intro i hi
      simp only
      rw [VaArg.copied_out _ _ _ _ _ (fun j hj => h.obj i hi j hj), f3]
    · intro x h1 h2
      simp only
      rw [VaArg.copied_out _ _ _ _ _ h2, f3]
      exact hse_rest x h1
    · show (sf.set .rax v).reg .rbp = _
      rw [← f4 .rbp (by decide) (by decide) (by decide) (by decide) (by decide)]; simp
    · show (sf.set .rax v).reg .rsp = _
      rw [← f4 .rsp (by decide) (by decide) (by decide) (by decide) (by decide)]; simp

/-- The `va_list` is at `%rbp` - 32 and points to the second position. -/
def vaState : State :=
  { reg := fun r => if r = .rbp then 0x2000 else if r = .rsp then 0x1f00 else 0, xmm := fun _ => 0, fl := none,
    mem := wr (wr (wr (fun _ => 0) 0x1ff8 8 0x1fe0) 0x1ff0 8 0x1fd0) 0x1fe0 8 0x2018 }

/-- A `va_arg` of a `double` that is passed in the second position. -/
example : Ready vaState ⟨8, 16⟩ ⟨8, 8⟩ 1 ⟨8, true⟩ := by
  refine ⟨rfl, rfl, ?_, by decide, ?_, ?_, ?_, ?_, .inr ?_⟩
  · unfold At; decide +kernel
  all_goals (unfold Disj; decide +kernel)

end Verif.Ms
