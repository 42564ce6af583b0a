import Verif.Bitfield
/-!
# C21: bit-field store and load
-/
namespace Verif.Bitfield
open Verif

/-- Bits `[o, o + n)` of `x` are those of `v`, all others those of `old`: the meaning of a
store to a bit-field. -/
def Stored {w k : Nat} (old new : BitVec w) (v : BitVec k) (o n : Nat) : Prop :=
  ∀ i, i < w → new.getLsbD i = if o ≤ i ∧ i < o + n then v.getLsbD (i - o) else old.getLsbD i

theorem uc_eq {x : Int} (h0 : 0 ≤ x) (h : x < 256) : uc x = x.toNat := by
  unfold uc
  rw [Int.emod_eq_of_lt h0 h]

/-- **C21, store.**  For every storage width up to 64 bits, every position and width that
fits, every old content and value of any size up to 64 bits. -/
theorem set_bits_spec {w k : Nat} (hw : w ≤ 64) (old : BitVec w) (v : BitVec k) (o n : Nat)
    (hn : 1 ≤ n) (h : o + n ≤ w) : ∃ new, setBits old v o n = .ok new ∧ Stored old new v o n := by
  unfold setBits
  rw [uc_eq (by omega) (by omega), uc_eq (by omega) (by omega)]
  obtain ⟨m, hm, _⟩ := Bytes.genMask_getLsb (64 - (o : Int) - n).toNat (o : Int).toNat (by omega) (by omega) 0 (by omega)
  rw [hm]
  refine ⟨_, rfl, fun i hi => ?_⟩
  obtain ⟨m', hm', hb⟩ := Bytes.genMask_getLsb (64 - (o : Int) - n).toNat (o : Int).toNat (by omega) (by omega) i (by omega)
  rw [hm] at hm'
  cases hm'
  have h64 : i < 64 := by omega
  simp only [BitVec.getLsbD_setWidth, BitVec.getLsbD_or, BitVec.getLsbD_and, BitVec.getLsbD_not, hb,
    BitVec.getLsbD_shiftLeft, h64, hi, decide_true, Bool.true_and, Int.toNat_natCast]
  by_cases h1 : o ≤ i
  · by_cases h2 : i < o + n
    · have e1 : i + (64 - o - n) < 64 := by omega
      have e2 : decide (i < o) = false := by simp; omega
      have e3 : decide (i - o < 64) = true := by simp; omega
      simp [h1, h2, e1, e2, e3]
    · have e1 : ¬ i + (64 - o - n) < 64 := by omega
      simp [h1, h2, e1]
  · simp [h1]

/-- **C21, load.**  The loaded value is the `n` bits at the position, zero- or
sign-extended to the storage width. -/
theorem get_bits_spec {w : Nat} (hw : w ≤ 64) (x : BitVec w) (o n : Nat) (hn : 1 ≤ n) (h : o + n ≤ w) (signed : Bool) :
    getBits x o n signed =
      if signed then (x.extractLsb' o n).signExtend w else (x.extractLsb' o n).setWidth w := by
  refine BitVec.eq_of_getLsbD_eq fun i hi => ?_
  unfold getBits shr
  have e0 : ((64 : Int) - n).toNat = 64 - n := by omega
  have e1 : ((64 : Int) - o - n).toNat = 64 - o - n := by omega
  rw [e0, e1]
  cases signed with
  | false =>
    simp only [Bool.false_eq_true, if_false, BitVec.getLsbD_setWidth, hi, decide_true, Bool.true_and,
      BitVec.getLsbD_ushiftRight, BitVec.getLsbD_shiftLeft, BitVec.getLsbD_extractLsb']
    by_cases h1 : i < n
    · have a1 : decide (64 - n + i < 64) = true := by simp; omega
      have a2 : decide (64 - n + i < 64 - o - n) = false := by simp; omega
      have a3 : decide (64 - n + i - (64 - o - n) < 64) = true := by simp; omega
      have a4 : 64 - n + i - (64 - o - n) = o + i := by omega
      rw [a4] at a3 ⊢
      simp only [a1, a2, a3, h1, decide_true, Bool.not_false, Bool.true_and]
    · have a1 : decide (64 - n + i < 64) = false := by simp; omega
      simp [a1, h1]
  | true =>
    simp only [if_true, BitVec.getLsbD_setWidth, hi, decide_true, Bool.true_and, BitVec.getLsbD_signExtend,
      BitVec.getLsbD_sshiftRight, BitVec.getLsbD_shiftLeft, BitVec.msb_eq_getLsbD_last, BitVec.getLsbD_extractLsb']
    by_cases h1 : i < n
    · have a0 : decide (64 ≤ i) = false := by simp; omega
      have a1 : 64 - n + i < 64 := by omega
      have a2 : decide (64 - n + i < 64 - o - n) = false := by simp; omega
      have a3 : decide (64 - n + i - (64 - o - n) < 64) = true := by simp; omega
      have a4 : 64 - n + i - (64 - o - n) = o + i := by omega
      rw [a4] at a3 ⊢
      simp only [a0, a1, a2, a3, h1, if_true, decide_true, Bool.not_false, Bool.true_and]
    · have a0 : decide (64 ≤ i) = false := by simp; omega
      have a1 : ¬ 64 - n + i < 64 := by omega
      have a2 : decide (64 - 1 < 64 - o - n) = false := by simp; omega
      have a3 : 64 - 1 - (64 - o - n) = o + (n - 1) := by omega
      have a4 : decide (o + (n - 1) < 64) = true := by simp; omega
      have a5 : decide (n - 1 < n) = true := by simp; omega
      simp only [a0, if_neg a1, a2, a3, a4, a5, h1, if_false, Bool.not_false, Bool.true_and,
        show decide (64 - 1 < 64) = true by decide]

/-- **C21.**  Storing and loading back gives the value reduced to `n` bits, extended by the
signedness of the member. -/
theorem store_load {w k : Nat} (hw : w ≤ 64) (old : BitVec w) (v : BitVec k) (o n : Nat) (hn : 1 ≤ n)
    (h : o + n ≤ w) (signed : Bool) : ∃ new, setBits old v o n = .ok new ∧
      getBits new o n signed = if signed then (v.setWidth n).signExtend w else (v.setWidth n).setWidth w := by
  obtain ⟨new, h1, h2⟩ := set_bits_spec hw old v o n hn h
  refine ⟨new, h1, ?_⟩
  rw [get_bits_spec hw new o n hn h]
  have : new.extractLsb' o n = v.setWidth n := by
    refine BitVec.eq_of_getLsbD_eq fun i hi => ?_
    rw [BitVec.getLsbD_extractLsb', h2 _ (by omega), if_pos (by omega), BitVec.getLsbD_setWidth]
    simp [hi]
  rw [this]

/-- **C21.**  Another member of the same unit keeps its value. -/
theorem store_frame {w k : Nat} (hw : w ≤ 64) (old : BitVec w) (v : BitVec k) (o n o' n' : Nat) (hn : 1 ≤ n)
    (h : o + n ≤ w) (hn' : 1 ≤ n') (h' : o' + n' ≤ w) (hd : o + n ≤ o' ∨ o' + n' ≤ o) (signed : Bool) :
    ∃ new, setBits old v o n = .ok new ∧ getBits new o' n' signed = getBits old o' n' signed := by
  obtain ⟨new, h1, h2⟩ := set_bits_spec hw old v o n hn h
  refine ⟨new, h1, ?_⟩
  rw [get_bits_spec hw new o' n' hn' h', get_bits_spec hw old o' n' hn' h']
  have : new.extractLsb' o' n' = old.extractLsb' o' n' := by
    refine BitVec.eq_of_getLsbD_eq fun i hi => ?_
    rw [BitVec.getLsbD_extractLsb', BitVec.getLsbD_extractLsb', h2 _ (by omega), if_neg (by omega)]
  rw [this]

/-- **C21, static initialisers.**  `constant_to_buffer` stores the same bits into the bytes
of the object, all other bits and bytes stay. -/
theorem to_buffer_spec (buffer : List Byte) (size : Nat) (hs : size = 1 ∨ size = 2 ∨ size = 4 ∨ size = 8)
    (hl : size ≤ buffer.length) (v : BitVec 64) (o n : Nat) (hn : 1 ≤ n) (h : o + n ≤ 8 * size) :
    ∃ new : BitVec (8 * size), toBuffer buffer size v o n = .ok (Bytes.leBytes size new.toNat ++ buffer.drop size) ∧
      Stored (BitVec.ofNat (8 * size) (Bytes.leVal (buffer.take size))) new v o n := by
  obtain ⟨m, hm, _⟩ := Bytes.genMask_getLsb (64 - (n : Int) - o).toNat (o : Int).toNat (by omega) (by omega) 0 (by omega)
  have hbit : ∀ i, i < 64 → m.getLsbD i = !(decide (o ≤ i) && decide (i < o + n)) := by
    intro i hi
    obtain ⟨m', hm', hb⟩ := Bytes.genMask_getLsb (64 - (n : Int) - o).toNat (o : Int).toNat (by omega) (by omega) i (by omega)
    rw [hm] at hm'
    cases hm'
    rw [hb]
    congr 2
    rw [decide_eq_decide]
    omega
  have hlt := Bytes.leVal_lt (buffer.take size)
  rw [List.length_take, Nat.min_eq_left hl] at hlt
  have h256 : (256 : Nat) ^ size = 2 ^ (8 * size) := by rw [Nat.pow_mul]
  have hsz64 : 8 * size ≤ 64 := by omega
  let prev : BitVec 64 := BitVec.ofNat 64 (Bytes.leVal (buffer.take size))
  let val : BitVec 64 := (prev &&& m) ||| ((v <<< o) &&& ~~~ m)
  refine ⟨val.setWidth (8 * size), ?_, ?_⟩
  · have hpatch : ∀ bs : List Byte, bs.length = size → Bytes.patch buffer 0 bs = bs ++ buffer.drop size := by
      intro bs hb
      simp [Bytes.patch, hb]
    have hmod : ∀ x : BitVec 64, Bytes.leBytes size (x.setWidth (8 * size)).toNat = Bytes.leBytes size x.toNat := by
      intro x
      have e1 := Bytes.leBytes_leVal (Bytes.leBytes size x.toNat)
      rw [Bytes.leBytes_length, Bytes.leVal_leBytes, h256] at e1
      rw [BitVec.toNat_setWidth]
      exact e1
    have hsl : ∀ i < size, buffer[0 + i]? = (buffer.take size)[i]? := by
      intro i hi
      simp [hi]
    have hlen : (buffer.take size).length = size := by simp; omega
    have hload : load buffer size = .ok prev := by
      have hw : ∀ k, 8 * size = k → (BitVec.ofNat k (Bytes.leVal (buffer.take size))).setWidth 64 = prev := by
        intro k hk
        refine BitVec.eq_of_toNat_eq ?_
        have h1 : Bytes.leVal (buffer.take size) < 2 ^ k := by rw [← hk, ← h256]; exact hlt
        have h2 : Bytes.leVal (buffer.take size) < 2 ^ 64 :=
          Nat.lt_of_lt_of_le h1 (Nat.pow_le_pow_right (by decide) (by omega))
        simp only [BitVec.toNat_setWidth, BitVec.toNat_ofNat, prev, Nat.mod_eq_of_lt h1]
      rcases hs with rfl | rfl | rfl | rfl
      · cases hb : buffer with
        | nil => simp [hb] at hl
        | cons b bs =>
          have := hw 8 rfl
          simp only [hb] at this
          simp only [load, Bytes.read8_eq (b :: bs) 0 b rfl, Res.bind_ok, Res.pure_eq]
          rw [← hb] at this
          rw [← this, hb]
          congr 1
          refine BitVec.eq_of_toNat_eq ?_
          simp [Bytes.leVal]
      · simp only [load, Bytes.read16_eq buffer 0 _ hlen hsl, Res.bind_ok, Res.pure_eq, hw 16 rfl]
      · simp only [load, Bytes.read32_eq buffer 0 _ hlen hsl, Res.bind_ok, Res.pure_eq, hw 32 rfl]
      · simp only [load, Bytes.read64_eq buffer 0 _ hlen hsl, prev]
    have hmerge : merge buffer size v o n = .ok val := by
      unfold merge
      rw [if_pos (by omega), uc_eq (by omega) (by omega), uc_eq (by omega) (by omega), hm, Res.bind_ok, hload]
      rfl
    unfold toBuffer
    rw [hmerge, Res.bind_ok, hmod]
    rcases hs with rfl | rfl | rfl | rfl
    · simp only [save, Bytes.write8_eq buffer 0 val (by omega), hpatch _ (Bytes.leBytes_length _ _)]
    · simp only [save, Bytes.write16_eq buffer 0 val (by omega), hpatch _ (Bytes.leBytes_length _ _)]
    · simp only [save, Bytes.write32_eq buffer 0 val (by omega), hpatch _ (Bytes.leBytes_length _ _)]
    · simp only [save, Bytes.write64_eq buffer 0 val (by omega), hpatch _ (Bytes.leBytes_length _ _)]
  · intro i hi
    have h64 : i < 64 := by omega
    have hp : prev.getLsbD i = (BitVec.ofNat (8 * size) (Bytes.leVal (buffer.take size))).getLsbD i := by
      simp only [prev, BitVec.getLsbD_ofNat, h64, hi, decide_true]
    simp only [val, BitVec.getLsbD_setWidth, hi, decide_true, Bool.true_and, BitVec.getLsbD_or, BitVec.getLsbD_and,
      BitVec.getLsbD_not, h64, BitVec.getLsbD_shiftLeft, hbit i h64, hp]
    by_cases h1 : o ≤ i
    · by_cases h2 : i < o + n
      · have e2 : decide (i < o) = false := by simp; omega
        simp [h1, h2, e2]
      · simp [h1, h2]
    · simp [h1]

/-- A signed 5-bit member at bit 3 of an `int`: store -3, read -3 back. -/
example : setBits (0xffffffff#32) (0xfffffffd#32) 3 5 = .ok 0xffffffef#32 ∧
    getBits (0xffffffef#32) 3 5 true = 0xfffffffd#32 ∧ getBits (0xffffffef#32) 3 5 false = 0x1d#32 := by decide

end Verif.Bitfield
