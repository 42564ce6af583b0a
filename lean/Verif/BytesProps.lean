import Verif.Bytes
/-!
# C04 – little-endian integer serialisation

Every integer written into a buffer or file is stored least significant byte
first in exactly width/8 bytes, nothing else changes, and reading it back gives
the value modulo 2^width.  Accesses outside the buffer are undefined behaviour of
the compiler, shown by the `_oob` theorems.
-/
namespace Verif.Bytes
open Verif

/-- What `write_N` leaves in the buffer: exactly the `n` little-endian bytes at
`off`, all other bytes as before. -/
def Wrote (m m' : List Byte) (off n v : Nat) : Prop :=
  m'.length = m.length ∧
  (∀ i < n, m'[off + i]? = some (BitVec.ofNat 8 (v / 256 ^ i))) ∧
  (∀ i, i < off ∨ off + n ≤ i → m'[i]? = m[i]?)

theorem leBytes_get (n v i : Nat) (h : i < n) :
    (leBytes n v)[i]? = some (BitVec.ofNat 8 (v / 256 ^ i)) := by
  induction n generalizing v i with
  | zero => omega
  | succ n ih =>
    cases i with
    | zero => simp [leBytes]
    | succ i =>
      simp only [leBytes, List.getElem?_cons_succ]
      rw [ih _ _ (by omega), Nat.div_div_eq_div_mul, Nat.pow_succ, Nat.mul_comm 256]

theorem wrote_patch (m : List Byte) (off n v : Nat) (h : off + n ≤ m.length) :
    Wrote m (patch m off (leBytes n v)) off n v := by
  have hl : off + (leBytes n v).length ≤ m.length := by simpa using h
  refine ⟨patch_length _ _ _ hl, ?_, ?_⟩
  · intro i hi
    rw [patch_get_in _ _ _ _ hl (by simpa using hi), leBytes_get _ _ _ hi]
  · intro i hi
    exact patch_get_out _ _ _ _ hl (by simpa using hi)

theorem write8_wrote (m : List Byte) (off : Nat) (v : BitVec 64) (h : off + 1 ≤ m.length) :
    ∃ m', write8 m off v = .ok m' ∧ Wrote m m' off 1 v.toNat :=
  ⟨_, write8_eq m off v h, wrote_patch _ _ _ _ h⟩

theorem write16_wrote (m : List Byte) (off : Nat) (v : BitVec 64) (h : off + 2 ≤ m.length) :
    ∃ m', write16 m off v = .ok m' ∧ Wrote m m' off 2 v.toNat :=
  ⟨_, write16_eq m off v h, wrote_patch _ _ _ _ h⟩

theorem write32_wrote (m : List Byte) (off : Nat) (v : BitVec 64) (h : off + 4 ≤ m.length) :
    ∃ m', write32 m off v = .ok m' ∧ Wrote m m' off 4 v.toNat :=
  ⟨_, write32_eq m off v h, wrote_patch _ _ _ _ h⟩

theorem write64_wrote (m : List Byte) (off : Nat) (v : BitVec 64) (h : off + 8 ≤ m.length) :
    ∃ m', write64 m off v = .ok m' ∧ Wrote m m' off 8 v.toNat :=
  ⟨_, write64_eq m off v h, wrote_patch _ _ _ _ h⟩

example : Wrote [1#8, 2#8, 3#8, 4#8] [1#8, 0xcd#8, 0xab#8, 4#8] 1 2 0xabcd := by
  refine ⟨rfl, ?_, ?_⟩
  · intro i hi; match i, hi with | 0, _ => rfl | 1, _ => rfl
  · intro i hi
    match i with
    | 0 => rfl
    | 1 => omega
    | 2 => omega
    | 3 => rfl
    | n + 4 => rfl

/-- Reading a field just written gives the value truncated to the field. -/
theorem read8_write8 (m : List Byte) (off : Nat) (v : BitVec 64) (h : off + 1 ≤ m.length) :
    (write8 m off v >>= fun m' => read8 m' off) = .ok (v.setWidth 8) := by
  rw [write8_eq m off v h, Res.bind_ok]
  exact read8_eq _ _ _ (by
    have := patch_get_in m off (leBytes 1 v.toNat) 0 (by simpa using h) (by simp)
    rw [Nat.add_zero] at this; rw [this]; rfl)

theorem read16_write16 (m : List Byte) (off : Nat) (v : BitVec 64) (h : off + 2 ≤ m.length) :
    (write16 m off v >>= fun m' => read16 m' off) = .ok (v.setWidth 16) := by
  rw [write16_eq m off v h, Res.bind_ok,
    read16_eq _ off (leBytes 2 v.toNat) (by simp)
      (fun i hi => patch_get_in _ _ _ _ (by simpa using h) (by simpa using hi))]
  rw [leVal_leBytes]
  congr 1; apply BitVec.eq_of_toNat_eq; simp

theorem read32_write32 (m : List Byte) (off : Nat) (v : BitVec 64) (h : off + 4 ≤ m.length) :
    (write32 m off v >>= fun m' => read32 m' off) = .ok (v.setWidth 32) := by
  rw [write32_eq m off v h, Res.bind_ok,
    read32_eq _ off (leBytes 4 v.toNat) (by simp)
      (fun i hi => patch_get_in _ _ _ _ (by simpa using h) (by simpa using hi))]
  rw [leVal_leBytes]
  congr 1; apply BitVec.eq_of_toNat_eq; simp

theorem read64_write64 (m : List Byte) (off : Nat) (v : BitVec 64) (h : off + 8 ≤ m.length) :
    (write64 m off v >>= fun m' => read64 m' off) = .ok v := by
  rw [write64_eq m off v h, Res.bind_ok,
    read64_eq _ off (leBytes 8 v.toNat) (by simp)
      (fun i hi => patch_get_in _ _ _ _ (by simpa using h) (by simpa using hi))]
  rw [leVal_leBytes]
  congr 1; apply BitVec.eq_of_toNat_eq; simp; exact v.isLt

example : (write32 [0#8, 0#8, 0#8, 0#8, 7#8] 1 0x1122334455667788#64 >>= fun m' => read32 m' 1)
    = .ok 0x55667788#32 := by rfl

/-- What `file_write_word/long/quad` append to a file is what `read_16/32/64`
read back at that position, whatever precedes and follows it. -/
theorem read16_fileWord (pre post : List Byte) (w : BitVec 16) :
    read16 (pre ++ fileWord w ++ post) pre.length = .ok w := by
  rw [fileWord_eq]
  rw [read16_eq _ pre.length (leBytes 2 w.toNat) (by simp)]
  · rw [leVal_leBytes]; congr 1; apply BitVec.eq_of_toNat_eq; simp; exact w.isLt
  · intro i hi
    rw [List.append_assoc, List.getElem?_append_right (by omega),
      List.getElem?_append_left (by simp; omega)]
    congr 1; omega

theorem read32_fileLong (pre post : List Byte) (w : BitVec 32) :
    read32 (pre ++ fileLong w ++ post) pre.length = .ok w := by
  rw [fileLong_eq]
  rw [read32_eq _ pre.length (leBytes 4 w.toNat) (by simp)]
  · rw [leVal_leBytes]; congr 1; apply BitVec.eq_of_toNat_eq; simp; exact w.isLt
  · intro i hi
    rw [List.append_assoc, List.getElem?_append_right (by omega),
      List.getElem?_append_left (by simp; omega)]
    congr 1; omega

theorem read64_fileQuad (pre post : List Byte) (w : BitVec 64) :
    read64 (pre ++ fileQuad w ++ post) pre.length = .ok w := by
  rw [fileQuad_eq]
  rw [read64_eq _ pre.length (leBytes 8 w.toNat) (by simp)]
  · rw [leVal_leBytes]; congr 1; apply BitVec.eq_of_toNat_eq; simp; exact w.isLt
  · intro i hi
    rw [List.append_assoc, List.getElem?_append_right (by omega),
      List.getElem?_append_left (by simp; omega)]
    congr 1; omega

/-- The file helpers write the little-endian digits, and exactly width/8 of them. -/
theorem file_write_le (w : BitVec 16) (l : BitVec 32) (q : BitVec 64) :
    fileWord w = leBytes 2 w.toNat ∧ fileLong l = leBytes 4 l.toNat ∧
    fileQuad q = leBytes 8 q.toNat :=
  ⟨fileWord_eq w, fileLong_eq l, fileQuad_eq q⟩

/-- Little-endian digits determine the number (and conversely). -/
theorem le_roundtrip (n v : Nat) (bs : List Byte) :
    leVal (leBytes n v) = v % 256 ^ n ∧ leBytes bs.length (leVal bs) = bs :=
  ⟨leVal_leBytes n v, leBytes_leVal bs⟩

theorem store_oob (m : List Byte) (o : Nat) (b : Byte) (h : m.length ≤ o) : store m o b = .ub := by
  simp [store]; omega

/-- A write whose field is not inside the buffer is undefined behaviour, never a
silent wrap or truncation. -/
theorem write16_oob (m : List Byte) (off : Nat) (v : BitVec 64) (h : m.length < off + 2) :
    write16 m off v = .ub := by
  simp only [write16]
  by_cases h1 : off + 1 ≤ m.length
  · rw [store_eq _ _ _ (by omega), Res.bind_ok, store_oob]
    rw [patch_length _ _ _ (by simp; omega)]; omega
  · rw [store_oob _ _ _ (by omega)]; rfl

theorem write32_oob (m : List Byte) (off : Nat) (v : BitVec 64) (h : m.length < off + 4) :
    write32 m off v = .ub := by
  simp only [write32]
  by_cases h1 : off + 2 ≤ m.length
  · rw [write16_eq _ _ _ h1, Res.bind_ok, write16_oob]
    rw [patch_length _ _ _ (by simp; omega)]; omega
  · rw [write16_oob _ _ _ (by omega)]; rfl

theorem write64_oob (m : List Byte) (off : Nat) (v : BitVec 64) (h : m.length < off + 8) :
    write64 m off v = .ub := by
  simp only [write64]
  by_cases h1 : off + 4 ≤ m.length
  · rw [write32_eq _ _ _ h1, Res.bind_ok, write32_oob]
    rw [patch_length _ _ _ (by simp; omega)]; omega
  · rw [write32_oob _ _ _ (by omega)]; rfl

example : write32 [0#8, 0#8, 0#8] 1 5#64 = .ub := write32_oob _ _ _ (by decide)

/-- `file_write_skip` leaves the file exactly `target` bytes long, old content
first and zeros after it; going backwards is refused. -/
theorem fileSkip_spec (f : List Byte) (target : Nat) :
    (f.length ≤ target →
      fileSkip f target = .ok (f ++ List.replicate (target - f.length) 0#8) ∧
      (f ++ List.replicate (target - f.length) 0#8).length = target) ∧
    (target < f.length → fileSkip f target = .fail) := by
  constructor
  · intro h; simp [fileSkip, fileZero, h]
  · intro h; simp [fileSkip]; omega

/-- `round_up_to_nearest` gives the least multiple of `div` that is ≥ `num`. -/
theorem roundUp_spec (num div : Nat) (h : 0 < div) :
    ∃ r, roundUp num div = .ok r ∧ div ∣ r ∧ num ≤ r ∧ ∀ q, div ∣ q → num ≤ q → r ≤ q := by
  simp only [roundUp, Nat.ne_of_gt h, if_false]
  refine ⟨_, rfl, ?_, ?_, ?_⟩
  · have hm := Nat.mod_lt num h
    have hd := Nat.div_add_mod num div
    by_cases h0 : num % div = 0
    · simp only [h0, ne_eq, not_true, if_false]; exact Nat.dvd_of_mod_eq_zero h0
    · simp only [h0, ne_eq, not_false_eq_true, if_true]
      refine ⟨num / div + 1, ?_⟩
      rw [Nat.mul_add]; omega
  · split <;> omega
  · rintro q ⟨k, rfl⟩ hq
    have hm := Nat.mod_lt num h
    have hd := Nat.div_add_mod num div
    by_cases h0 : num % div = 0
    · simp only [h0, ne_eq, not_true, if_false]; exact hq
    · simp only [h0, ne_eq, not_false_eq_true, if_true]
      have hk : num / div < k := by
        rcases Nat.lt_or_ge (num / div) k with h1 | h1
        · exact h1
        · have := Nat.mul_le_mul_left div h1; omega
      have := Nat.mul_le_mul_left div hk
      rw [Nat.succ_eq_add_one, Nat.mul_add] at this; omega

example : roundUp 13 8 = .ok 16 ∧ roundUp 16 8 = .ok 16 := by decide

end Verif.Bytes
