import Verif.MsSpec
import Verif.CallProps
import Verif.VaArgProps
import Verif.StoreRegisterProps
/-!
Lemmas about the Microsoft convention.
-/
namespace Verif.Ms
open Verif Asm X86 Codegen CodegenSpec Memory MemorySpec CallSpec MsSpec
open Verif.Call (Dest Call StackArg)

theorem fits_iff (t : Ty) : fits t = decide (Small t) := by
  simp [fits, Small, Bool.or_assoc]
  rcases h : t.size with _ | _ | _ | _ | _ | _ | _ | _ | _ | n <;> simp

theorem inAddress_eq (ret : Option Ty) : inAddress ret = hidden ret := by
  cases ret with
  | none => rfl
  | some t => simp [inAddress, hidden, fits_iff]

theorem argLoop_regs (named : Nat) : ∀ (ts : List Ty) (i idx mem j : Nat), idx ≤ 4 →
    (argLoop named i idx mem ts).1[j]? =
      if idx + j < 4 then ts[j]?.map fun t => (passes (i + j) t, decide (i + j < named) && t.floating) else none := by
  intro ts
  induction ts with
  | nil => intro i idx mem j _; simp [argLoop]
  | cons t ts ih =>
    intro i idx mem j hi
    rw [argLoop]
    split
    · rename_i h
      cases j with
      | zero =>
        simp only [List.getElem?_cons_zero, Nat.add_zero, if_pos h, Option.map_some]
        congr 2
        · simp [passes, fits_iff]
        · by_cases hn : i < named <;> simp [hn]
      | succ j =>
        rw [List.getElem?_cons_succ, ih _ _ _ _ (by omega), show idx + 1 + j = idx + (j + 1) by omega,
          show i + 1 + j = i + (j + 1) by omega]
        simp
    · rename_i h
      simp only
      rw [ih _ _ _ _ hi, if_neg (by omega), if_neg (by omega)]

theorem argLoop_stack (named : Nat) : ∀ (ts : List Ty) (i idx mem j : Nat), idx ≤ 4 →
    (argLoop named i idx mem ts).2[j]? =
      ts[4 - idx + j]?.map fun t => (passes (i + (4 - idx) + j) t, mem + 32 + 8 * j) := by
  intro ts
  induction ts with
  | nil => intro i idx mem j _; simp [argLoop]
  | cons t ts ih =>
    intro i idx mem j hi
    rw [argLoop]
    split
    · rename_i h
      simp only
      rw [ih _ _ _ _ (by omega), show 4 - idx + j = (4 - (idx + 1) + j) + 1 by omega, List.getElem?_cons_succ]
      rw [show i + 1 + (4 - (idx + 1)) + j = i + (4 - idx) + j by omega]
    · rename_i h
      have : idx = 4 := by omega
      subst this
      cases j with
      | zero =>
        simp [passes, fits_iff, shadow]
      | succ j =>
        simp only [List.getElem?_cons_succ]
        rw [ih _ _ _ _ hi, show 4 - 4 + (j + 1) = (4 - 4 + j) + 1 by omega, List.getElem?_cons_succ,
          show i + 1 + (4 - 4) + j = i + (4 - 4) + (j + 1) by omega, show mem + 8 + 32 + 8 * j = mem + 32 + 8 * (j + 1) by omega]

theorem posReg_some (k : Nat) (f : Bool) (h : k < 4) : ∃ d, posReg k f = some d := by
  match k, f with
  | 0, true => exact ⟨_, rfl⟩
  | 1, true => exact ⟨_, rfl⟩
  | 2, true => exact ⟨_, rfl⟩
  | 3, true => exact ⟨_, rfl⟩
  | 0, false => exact ⟨_, rfl⟩
  | 1, false => exact ⟨_, rfl⟩
  | 2, false => exact ⟨_, rfl⟩
  | 3, false => exact ⟨_, rfl⟩
  | k + 4, _ => omega

theorem posReg_none (k : Nat) (f : Bool) (h : 4 ≤ k) : posReg k f = none := by
  unfold posReg
  cases f with
  | true => rw [if_pos rfl, if_neg (by omega)]
  | false =>
    have : intRegs[k]? = none := List.getElem?_eq_none (by simpa [intRegs] using h)
    simp [this]

theorem posReg_inj {k k' : Nat} {f f' : Bool} {d : Dest} (h : posReg k f = some d) (h' : posReg k' f' = some d) : k = k' := by
  by_cases hk : k < 4
  · by_cases hk' : k' < 4
    · revert h h'
      have key : ∀ k < 4, ∀ k' < 4, ∀ f f', posReg k f = posReg k' f' → k = k' := by decide
      intro h h'
      exact key k hk k' hk' f f' (h.trans h'.symm)
    · rw [posReg_none k' f' (by omega)] at h'; cases h'
  · rw [posReg_none k f (by omega)] at h; cases h

theorem posReg_frame {k : Nat} {f : Bool} {r : Reg} (h : posReg k f = some (.gpr r)) : r ∈ intRegs := by
  unfold posReg at h
  cases f with
  | true => simp only [if_true] at h; split at h <;> cases h
  | false =>
    simp only [Bool.false_eq_true, if_false, Option.map_eq_some_iff, Dest.gpr.injEq] at h
    obtain ⟨r', h1, rfl⟩ := h
    exact List.mem_of_getElem? h1

theorem gpReg_eq {k : Nat} (h : k < 4) : ∃ g, gpReg k = .ok g ∧ posReg k false = some (.gpr g) := by
  match k with
  | 0 => exact ⟨_, rfl, rfl⟩
  | 1 => exact ⟨_, rfl, rfl⟩
  | 2 => exact ⟨_, rfl, rfl⟩
  | 3 => exact ⟨_, rfl, rfl⟩
  | k + 4 => omega

theorem dest_eq {k : Nat} (f : Bool) (h : k < 4) :
    ∃ d, posReg k f = some d ∧ (if f then .ok (Dest.sse k) else do let g ← gpReg k; pure (Dest.gpr g) : Res Dest) = .ok d := by
  cases f with
  | true => exact ⟨_, by rw [posReg, if_pos rfl, if_pos h], rfl⟩
  | false =>
    obtain ⟨g, h1, h2⟩ := gpReg_eq h
    exact ⟨_, h2, by rw [h1]; rfl⟩

theorem setRegs_get : ∀ (rs : List (Item × Bool)) (i : Nat), i + rs.length ≤ 4 →
    ∃ r, setRegs i rs = .ok r ∧ ∀ j, r[j]? = rs[j]?.bind fun x => (posReg (i + j) x.2).map (·, x.1) := by
  intro rs
  induction rs with
  | nil => intro i _; exact ⟨[], rfl, by simp⟩
  | cons x rs ih =>
    intro i hi
    obtain ⟨it, f⟩ := x
    rw [List.length_cons] at hi
    obtain ⟨r, h1, h2⟩ := ih (i + 1) (by omega)
    obtain ⟨d, h3, h4⟩ := dest_eq f (show i < 4 by omega)
    refine ⟨(d, it) :: r, by rw [setRegs, h4, h1]; rfl, ?_⟩
    intro j
    cases j with
    | zero => simp [h3]
    | succ j =>
      rw [List.getElem?_cons_succ, h2, List.getElem?_cons_succ, show i + 1 + j = i + (j + 1) by omega]

theorem positions_get (ret : Option Ty) (named : Nat) (args : List Ty) (k : Nat) :
    (positions ret named args)[k]? = if k < lead ret then some (.result, false)
      else args[k - lead ret]?.map fun t => (passes (k - lead ret) t, decide (k - lead ret < named) && t.floating) := by
  unfold positions lead
  cases hidden ret with
  | false => simp [List.getElem?_mapIdx]
  | true =>
    cases k with
    | zero => simp
    | succ k => simp [List.getElem?_mapIdx]

theorem lead_le (ret : Option Ty) : lead ret ≤ 1 := by unfold lead; split <;> omega

theorem positions_length (ret : Option Ty) (named : Nat) (args : List Ty) :
    (positions ret named args).length = lead ret + args.length := by
  unfold positions lead
  cases hidden ret <;> simp [Nat.add_comm]

/-- The registers and the stack of the plan, by position. -/
theorem plan_get (ret : Option Ty) (named : Nat) (args : List Ty) (hn : args.length ≤ 128) :
    ∃ p, plan ret named args = .ok p ∧
      (∀ k, p.regs[k]? = (positions ret named args)[k]?.bind fun x => (posReg k x.2).map (·, x.1)) ∧
      (∀ j, p.stack[j]? = (positions ret named args)[4 + j]?.map fun x => (x.1, posOff (4 + j))) ∧
      p.change = -((max 32 (Convention.round (args.length * 8) 16) + 32 : Nat) : Int) := by
  have hl : (if inAddress ret = true then 1 else 0) = lead ret := by rw [inAddress_eq]; rfl
  have hL := lead_le ret
  have hregs : ∀ k, ((if inAddress ret then [(Item.result, false)] else []) ++ (argLoop named 0 (lead ret) 0 args).1)[k]? =
      if k < 4 then (positions ret named args)[k]? else none := by
    intro k
    rw [positions_get, inAddress_eq]
    unfold lead
    cases hidden ret with
    | false =>
      simp only [Bool.false_eq_true, if_false, List.nil_append]
      rw [argLoop_regs _ _ _ _ _ _ (by omega)]
      simp
    | true =>
      simp only [if_true, List.singleton_append]
      cases k with
      | zero => simp
      | succ k =>
        rw [List.getElem?_cons_succ, argLoop_regs _ _ _ _ _ _ (by omega)]
        by_cases h : k + 1 < 4
        · rw [if_pos (by omega), if_pos h, if_neg (by omega)]; simp
        · rw [if_neg (by omega), if_neg h]
  generalize hR : ((if inAddress ret then [(Item.result, false)] else []) ++ (argLoop named 0 (lead ret) 0 args).1) = R at hregs
  have hlen : R.length ≤ 4 := by
    rcases Nat.lt_or_ge 4 R.length with h | h
    · have := hregs 4
      rw [if_neg (by omega), List.getElem?_eq_some_iff.2 ⟨by omega, rfl⟩] at this
      cases this
    · exact h
  obtain ⟨r, h1, h2⟩ := setRegs_get R 0 (by omega)
  refine ⟨⟨r, (argLoop named 0 (lead ret) 0 args).2, -((max 32 (Convention.round (args.length * 8) 16) : Nat) : Int) - shadow⟩, ?_, ?_, ?_, ?_⟩
  · unfold plan
    rw [if_neg (by omega)]
    simp only [hl]
    rw [hR, h1]
    rfl
  · intro k
    rw [h2 k, hregs k, Nat.zero_add]
    by_cases h : k < 4
    · rw [if_pos h]
    · rw [if_neg h]
      cases (positions ret named args)[k]? with
      | none => rfl
      | some x => simp [posReg_none k x.2 (by omega)]
  · intro j
    rw [argLoop_stack _ _ _ _ _ _ (by omega), positions_get, if_neg (by omega)]
    rw [show 4 - lead ret + j = 4 + j - lead ret by omega, show 0 + (4 - lead ret) + j = 4 + j - lead ret by omega]
    cases args[4 + j - lead ret]? with
    | none => rfl
    | some t => simp [posOff]; omega
  · simp only [shadow]; omega

theorem paramLoop_get : ∀ (ts : List Ty) (idx mem : Nat), idx ≤ 4 → (∀ t ∈ ts, Valid t) →
    ∃ r, paramLoop idx mem ts = .ok r ∧ ∀ j, r[j]? = ts[j]?.map fun t =>
      Input.mk (if idx + j < 4 then posSrc (idx + j) t.floating else .inr (mem + 48 + 8 * (idx + j - 4)))
        (if Small t then t.size else 8) (decide (¬ Small t)) := by
  intro ts
  induction ts with
  | nil => intro idx mem _ _; exact ⟨[], rfl, by simp⟩
  | cons t ts ih =>
    intro idx mem hi hv
    by_cases h : idx < 4
    · obtain ⟨r, h1, h2⟩ := ih (idx + 1) mem (by omega) (fun t ht => hv t (List.mem_cons_of_mem _ ht))
      obtain ⟨d, h3, h4⟩ := dest_eq t.floating h
      refine ⟨⟨.inl d, if fits t then t.size else 8, !fits t⟩ :: r, ?_, ?_⟩
      · rw [paramLoop]
        simp only [if_pos h]
        rw [h4, h1]
        rfl
      · intro j
        cases j with
        | zero =>
          simp only [List.getElem?_cons_zero, Nat.add_zero, if_pos h, Option.map_some, posSrc, h3, fits_iff]
          congr 2
          · simp
          · simp
        | succ j =>
          rw [List.getElem?_cons_succ, h2, List.getElem?_cons_succ, show idx + 1 + j = idx + (j + 1) by omega]
    · have : idx = 4 := by omega
      subst this
      obtain ⟨r, h1, h2⟩ := ih 4 (mem + 8) (by omega) (fun t ht => hv t (List.mem_cons_of_mem _ ht))
      refine ⟨⟨.inr (mem + 16 + shadow), if fits t then t.size else 8, !fits t⟩ :: r, ?_, ?_⟩
      · rw [paramLoop]
        simp only [if_neg h]
        rw [h1]
        rfl
      · intro j
        cases j with
        | zero =>
          simp only [List.getElem?_cons_zero, Nat.add_zero, if_neg h, Option.map_some, fits_iff, shadow]
          simp
        | succ j =>
          rw [List.getElem?_cons_succ, h2, List.getElem?_cons_succ]
          simp only [show ¬ 4 + j < 4 by omega, show ¬ 4 + (j + 1) < 4 by omega, if_false,
            show mem + 8 + 48 + 8 * (4 + j - 4) = mem + 48 + 8 * (4 + (j + 1) - 4) by omega]

theorem rd_eq2 {m m' : BitVec 64 → BitVec 8} {n : Nat} : ∀ {a b : BitVec 64},
    (∀ i, i < n → m (a + BitVec.ofNat 64 i) = m' (b + BitVec.ofNat 64 i)) → rd m a n = rd m' b n := by
  induction n with
  | zero => intros; rfl
  | succ n ih =>
    intro a b h
    have h0 := h 0 (by omega)
    simp only [BitVec.add_zero, BitVec.ofNat_eq_ofNat] at h0
    rw [rd, rd, h0, ih (a := a + 1) (b := b + 1)]
    intro i hi
    have := h (i + 1) (by omega)
    rw [Nat.add_comm, BitVec.ofNat_add, ← BitVec.add_assoc, ← BitVec.add_assoc] at this
    exact this

theorem round16 (n : Nat) : n ≤ Convention.round n 16 ∧ Convention.round n 16 % 16 = 0 ∧ Convention.round n 16 < n + 16 := by
  unfold Convention.round
  split <;> omega

theorem byte_mod (v n i : Nat) (h : i < n) : BitVec.ofNat 8 (v % 256 ^ n / 256 ^ i) = BitVec.ofNat 8 (v / 256 ^ i) := by
  apply BitVec.eq_of_toNat_eq
  simp only [BitVec.toNat_ofNat]
  obtain ⟨j, rfl⟩ : ∃ j, n = i + 1 + j := ⟨n - i - 1, by omega⟩
  have e : (256 : Nat) ^ (i + 1 + j) = 256 ^ i * (256 * 256 ^ j) := by rw [Nat.pow_add, Nat.pow_succ, Nat.mul_assoc]
  rw [e, Nat.mod_mul_right_div_self, Nat.mod_mul_right_mod]

theorem rd_mod64 (m : BitVec 64 → BitVec 8) (a : BitVec 64) (n : Nat) (h : n ≤ 8) : rd m a n % 2 ^ 64 = rd m a n := by
  have h1 := rd_lt m a n
  have h2 : 256 ^ n ≤ 256 ^ 8 := Nat.pow_le_pow_right (by omega) h
  exact Nat.mod_eq_of_lt (by omega)

end Verif.Ms
