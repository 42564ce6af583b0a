import Verif.Basic
/-!
Model of the integer serialisation helpers of src/common.c (`write_8` … `read_64`,
`file_write_*`).  A `uint8_t *data` that points `off` bytes into an array is
modelled by the array as a list of bytes and the index `off`; an access outside
the list is `Res.ub`.  A `FILE *` opened for writing is modelled by the list of
bytes written so far (short writes, which end in an ICE, are not modelled).
-/
namespace Verif.Bytes
open Verif

/-- `data[off] = b` : out of range is undefined behaviour. -/
def store (m : List Byte) (off : Nat) (b : Byte) : Res (List Byte) :=
  if off < m.length then .ok (m.set off b) else .ub

/-- `data[off]` : out of range is undefined behaviour. -/
def fetch (m : List Byte) (off : Nat) : Res Byte :=
  match m[off]? with
  | some b => .ok b
  | none => .ub

/-- src/common.c:103-105 `write_8` (the assignment truncates to `uint8_t`). -/
def write8 (m : List Byte) (off : Nat) (v : BitVec 64) : Res (List Byte) :=
  store m off (v.setWidth 8)

/-- src/common.c:107-110 `write_16`. -/
def write16 (m : List Byte) (off : Nat) (v : BitVec 64) : Res (List Byte) := do
  let m ← store m off (v.setWidth 8)
  store m (off + 1) ((v >>> 8).setWidth 8)

/-- src/common.c:112-115 `write_32`. -/
def write32 (m : List Byte) (off : Nat) (v : BitVec 64) : Res (List Byte) := do
  let m ← write16 m off v
  write16 m (off + 2) (v >>> 16)

/-- src/common.c:117-120 `write_64`. -/
def write64 (m : List Byte) (off : Nat) (v : BitVec 64) : Res (List Byte) := do
  let m ← write32 m off v
  write32 m (off + 4) (v >>> 32)

/-- src/common.c:122-124 `read_8`. -/
def read8 (m : List Byte) (off : Nat) : Res (BitVec 8) := fetch m off

/-- src/common.c:126-128 `read_16`. -/
def read16 (m : List Byte) (off : Nat) : Res (BitVec 16) := do
  let a ← read8 m off
  let b ← read8 m (off + 1)
  pure (a.setWidth 16 ||| (b.setWidth 16 <<< 8))

/-- src/common.c:130-132 `read_32`. -/
def read32 (m : List Byte) (off : Nat) : Res (BitVec 32) := do
  let a ← read16 m off
  let b ← read16 m (off + 2)
  pure (a.setWidth 32 ||| (b.setWidth 32 <<< 16))

/-- src/common.c:134-136 `read_64`. -/
def read64 (m : List Byte) (off : Nat) : Res (BitVec 64) := do
  let a ← read32 m off
  let b ← read32 m (off + 4)
  pure (a.setWidth 64 ||| (b.setWidth 64 <<< 32))

/-! `file_write_*`: the bytes appended to the file. -/

/-- src/common.c:146-148 `file_write_byte`. -/
def fileByte (b : BitVec 8) : List Byte := [b]

/-- src/common.c:150-153 `file_write_word`. -/
def fileWord (w : BitVec 16) : List Byte :=
  fileByte (w.setWidth 8) ++ fileByte ((w >>> 8).setWidth 8)

/-- src/common.c:155-158 `file_write_long`. -/
def fileLong (l : BitVec 32) : List Byte :=
  fileWord (l.setWidth 16) ++ fileWord ((l >>> 16).setWidth 16)

/-- src/common.c:160-163 `file_write_quad`. -/
def fileQuad (q : BitVec 64) : List Byte :=
  fileLong (q.setWidth 32) ++ fileLong ((q >>> 32).setWidth 32)

/-- src/common.c:165-168 `file_write_zero`. -/
def fileZero (n : Nat) : List Byte := List.replicate n 0#8

/-- src/common.c:170-174 `file_write_skip`: pad with zeros up to `target`;
the `assert` fails when the file is already longer. -/
def fileSkip (file : List Byte) (target : Nat) : Res (List Byte) :=
  if file.length ≤ target then .ok (file ++ fileZero (target - file.length)) else .fail

/-- src/common.c:44-49 `round_up_to_nearest` on non-negative arguments
(`div = 0` is a division by zero). -/
def roundUp (num div : Nat) : Res Nat :=
  if div = 0 then .ub
  else
    let r := num % div
    .ok (if r ≠ 0 then num + (div - r) else num)

/-- src/common.c:94-101 `gen_mask`.  Shift counts of 64 or more are undefined. -/
def genMask (left right : Nat) : Res (BitVec 64) :=
  if left < 64 ∧ right < 64 then
    let start := BitVec.allOnes 64
    let start := (start >>> right) <<< right
    let start := (start <<< left) >>> left
    .ok (~~~ start)
  else .ub

/-! ### Independent specification -/

/-- Little-endian digits of a natural number: `n` bytes, least significant first. -/
def leBytes : Nat → Nat → List Byte
  | 0, _ => []
  | n + 1, v => BitVec.ofNat 8 v :: leBytes n (v / 256)

/-- The number a little-endian byte string denotes. -/
def leVal : List Byte → Nat
  | [] => 0
  | b :: bs => b.toNat + 256 * leVal bs

/-- The byte list `m` with the bytes from position `off` replaced by `bs`. -/
def patch (m : List Byte) (off : Nat) (bs : List Byte) : List Byte :=
  m.take off ++ bs ++ m.drop (off + bs.length)

/-! ### Helper lemmas -/

@[simp] theorem leBytes_length (n v : Nat) : (leBytes n v).length = n := by
  induction n generalizing v with
  | zero => rfl
  | succ n ih => simp [leBytes, ih]

theorem leVal_leBytes (n v : Nat) : leVal (leBytes n v) = v % 256 ^ n := by
  induction n generalizing v with
  | zero => simp [leBytes, leVal, Nat.mod_one]
  | succ n ih =>
    simp only [leBytes, leVal, ih, BitVec.toNat_ofNat]
    rw [Nat.pow_succ 256 n, Nat.mul_comm (256 ^ n) 256, Nat.mod_mul]

theorem leBytes_leVal (bs : List Byte) : leBytes bs.length (leVal bs) = bs := by
  induction bs with
  | nil => rfl
  | cons b bs ih =>
    simp only [List.length_cons, leBytes, leVal]
    have hb := b.isLt
    have h1 : (b.toNat + 256 * leVal bs) / 256 = leVal bs := by omega
    rw [h1, ih]
    congr 1
    apply BitVec.eq_of_toNat_eq
    simp; omega

theorem leVal_lt (bs : List Byte) : leVal bs < 256 ^ bs.length := by
  induction bs with
  | nil => simp [leVal]
  | cons b bs ih =>
    simp only [leVal, List.length_cons, Nat.pow_succ]
    have := b.isLt
    omega

theorem leVal_append (as bs : List Byte) :
    leVal (as ++ bs) = leVal as + 256 ^ as.length * leVal bs := by
  induction as with
  | nil => simp [leVal]
  | cons a as ih =>
    simp only [List.cons_append, leVal, ih, List.length_cons, Nat.pow_succ]
    rw [Nat.mul_add, Nat.mul_comm (256 ^ as.length) 256, Nat.mul_assoc]
    omega

theorem store_eq (m : List Byte) (off : Nat) (b : Byte) (h : off < m.length) :
    store m off b = .ok (patch m off [b]) := by
  simp only [store, h, if_true, patch]
  rw [List.set_eq_take_append_cons_drop]
  simp [h]

theorem patch_patch (m : List Byte) (off : Nat) (as bs : List Byte)
    (h : off + as.length + bs.length ≤ m.length) :
    patch (patch m off as) (off + as.length) bs = patch m off (as ++ bs) := by
  simp only [patch]
  have h1 : (m.take off).length = off := by simp; omega
  have h2 : (m.take off ++ as).length = off + as.length := by simp; omega
  rw [List.take_append_of_le_length (by omega), List.take_of_length_le (by omega)]
  rw [List.drop_append, List.drop_of_length_le (by simp; omega), h2]
  simp only [List.nil_append, List.drop_drop, List.append_assoc, List.length_append]
  congr 4
  omega

theorem patch_length (m : List Byte) (off : Nat) (bs : List Byte)
    (h : off + bs.length ≤ m.length) : (patch m off bs).length = m.length := by
  simp [patch]; omega

theorem patch_get_in (m : List Byte) (off : Nat) (bs : List Byte) (i : Nat)
    (h : off + bs.length ≤ m.length) (hi : i < bs.length) :
    (patch m off bs)[off + i]? = bs[i]? := by
  simp only [patch, List.append_assoc]
  rw [List.getElem?_append_right (by simp; omega)]
  rw [List.getElem?_append_left (by simp; omega)]
  congr 1; simp; omega

theorem patch_get_out (m : List Byte) (off : Nat) (bs : List Byte) (i : Nat)
    (h : off + bs.length ≤ m.length) (hi : i < off ∨ off + bs.length ≤ i) :
    (patch m off bs)[i]? = m[i]? := by
  simp only [patch, List.append_assoc]
  cases hi with
  | inl hi =>
    rw [List.getElem?_append_left (by simp; omega)]
    simp [hi]
  | inr hi =>
    rw [List.getElem?_append_right (by simp; omega)]
    rw [List.getElem?_append_right (by simp; omega)]
    rw [List.getElem?_drop]
    congr 1; simp; omega

theorem shr_setWidth8 (v : BitVec 64) (k : Nat) :
    (v >>> k).setWidth 8 = BitVec.ofNat 8 (v.toNat / 2 ^ k) := by
  apply BitVec.eq_of_toNat_eq
  simp [Nat.shiftRight_eq_div_pow]

theorem write8_eq (m : List Byte) (off : Nat) (v : BitVec 64) (h : off + 1 ≤ m.length) :
    write8 m off v = .ok (patch m off (leBytes 1 v.toNat)) := by
  rw [write8, store_eq _ _ _ (by omega)]
  rfl

theorem write16_eq (m : List Byte) (off : Nat) (v : BitVec 64) (h : off + 2 ≤ m.length) :
    write16 m off v = .ok (patch m off (leBytes 2 v.toNat)) := by
  have hl : (patch m off [v.setWidth 8]).length = m.length := patch_length _ _ _ (by simp; omega)
  simp only [write16]
  rw [store_eq _ _ _ (by omega), Res.bind_ok, store_eq _ _ _ (by omega)]
  rw [show off + 1 = off + [v.setWidth 8].length from rfl, patch_patch _ _ _ _ (by simp; omega)]
  rw [shr_setWidth8]
  rfl

theorem leBytes_add (a b v : Nat) : leBytes (a + b) v = leBytes a v ++ leBytes b (v / 256 ^ a) := by
  induction a generalizing v with
  | zero => simp [leBytes]
  | succ a ih =>
    rw [show a + 1 + b = (a + b) + 1 by omega]
    simp only [leBytes, ih, List.cons_append, Nat.div_div_eq_div_mul, Nat.pow_succ,
      Nat.mul_comm (256 ^ a) 256]

theorem write32_eq (m : List Byte) (off : Nat) (v : BitVec 64) (h : off + 4 ≤ m.length) :
    write32 m off v = .ok (patch m off (leBytes 4 v.toNat)) := by
  have hl : (patch m off (leBytes 2 v.toNat)).length = m.length := patch_length _ _ _ (by simp; omega)
  simp only [write32]
  rw [write16_eq _ _ _ (by omega), Res.bind_ok, write16_eq _ _ _ (by omega)]
  have := patch_patch m off (leBytes 2 v.toNat) (leBytes 2 (v >>> 16).toNat) (by simp; omega)
  rw [leBytes_length] at this
  rw [this, leBytes_add 2 2]
  simp [Nat.shiftRight_eq_div_pow]

theorem write64_eq (m : List Byte) (off : Nat) (v : BitVec 64) (h : off + 8 ≤ m.length) :
    write64 m off v = .ok (patch m off (leBytes 8 v.toNat)) := by
  have hl : (patch m off (leBytes 4 v.toNat)).length = m.length := patch_length _ _ _ (by simp; omega)
  simp only [write64]
  rw [write32_eq _ _ _ (by omega), Res.bind_ok, write32_eq _ _ _ (by omega)]
  have := patch_patch m off (leBytes 4 v.toNat) (leBytes 4 (v >>> 32).toNat) (by simp; omega)
  rw [leBytes_length] at this
  rw [this, leBytes_add 4 4]
  simp [Nat.shiftRight_eq_div_pow]

/-- `a | (b << k)` with `a` of width `w ≤ k` is addition. -/
theorem or_shl_toNat {w n : Nat} (a : BitVec w) (b : BitVec w) (h : 2 * w = n) :
    (a.setWidth n ||| (b.setWidth n <<< w)).toNat = a.toNat + 2 ^ w * b.toNat := by
  subst h
  have ha := a.isLt
  have hb := b.isLt
  have hp : (2:Nat) ^ (2 * w) = 2 ^ w * 2 ^ w := by rw [Nat.two_mul, Nat.pow_add]
  have hle : (2:Nat) ^ w ≤ 2 ^ w * 2 ^ w := Nat.le_mul_of_pos_left _ (Nat.two_pow_pos w)
  simp only [BitVec.toNat_or, BitVec.toNat_shiftLeft, BitVec.toNat_setWidth]
  rw [Nat.mod_eq_of_lt (a := a.toNat) (by omega), Nat.mod_eq_of_lt (a := b.toNat) (by omega)]
  rw [Nat.shiftLeft_eq]
  have hlt : b.toNat * 2 ^ w < 2 ^ (2 * w) := by
    rw [hp]; exact Nat.mul_lt_mul_of_pos_right hb (Nat.two_pow_pos w)
  rw [Nat.mod_eq_of_lt hlt, Nat.mul_comm, Nat.or_comm]
  rw [← Nat.two_pow_add_eq_or_of_lt ha b.toNat]
  omega

theorem read8_eq (m : List Byte) (off : Nat) (b : Byte) (h : m[off]? = some b) :
    read8 m off = .ok b := by
  simp [read8, fetch, h]

theorem read16_eq (m : List Byte) (off : Nat) (bs : List Byte) (hl : bs.length = 2)
    (h : ∀ i < 2, m[off + i]? = bs[i]?) :
    read16 m off = .ok (BitVec.ofNat 16 (leVal bs)) := by
  match bs, hl with
  | [a, b], _ =>
    have h0 := h 0 (by omega)
    have h1 := h 1 (by omega)
    simp only [read16, read8_eq m off a (by simpa using h0), read8_eq m (off + 1) b (by simpa using h1),
      Res.bind_ok, Res.pure_eq]
    congr 1
    apply BitVec.eq_of_toNat_eq
    rw [or_shl_toNat (w := 8) a b rfl]
    have := a.isLt; have := b.isLt
    simp [leVal]; omega

theorem read32_eq (m : List Byte) (off : Nat) (bs : List Byte) (hl : bs.length = 4)
    (h : ∀ i < 4, m[off + i]? = bs[i]?) :
    read32 m off = .ok (BitVec.ofNat 32 (leVal bs)) := by
  match bs, hl with
  | [a, b, c, d], _ =>
    have r1 := read16_eq m off [a, b] rfl (fun i hi => by
      rw [h i (by omega)]; match i, hi with | 0, _ => rfl | 1, _ => rfl)
    have r2 := read16_eq m (off + 2) [c, d] rfl (fun i hi => by
      rw [Nat.add_assoc, h (2 + i) (by omega)]; match i, hi with | 0, _ => rfl | 1, _ => rfl)
    simp only [read32, r1, r2, Res.bind_ok, Res.pure_eq]
    congr 1
    apply BitVec.eq_of_toNat_eq
    rw [or_shl_toNat (w := 16) _ _ rfl]
    have := a.isLt; have := b.isLt; have := c.isLt; have := d.isLt
    simp [leVal]; omega

theorem read64_eq (m : List Byte) (off : Nat) (bs : List Byte) (hl : bs.length = 8)
    (h : ∀ i < 8, m[off + i]? = bs[i]?) :
    read64 m off = .ok (BitVec.ofNat 64 (leVal bs)) := by
  match bs, hl with
  | [a, b, c, d, e, f, g, k], _ =>
    have r1 := read32_eq m off [a, b, c, d] rfl (fun i hi => by
      rw [h i (by omega)]
      match i, hi with | 0, _ => rfl | 1, _ => rfl | 2, _ => rfl | 3, _ => rfl)
    have r2 := read32_eq m (off + 4) [e, f, g, k] rfl (fun i hi => by
      rw [Nat.add_assoc, h (4 + i) (by omega)]
      match i, hi with | 0, _ => rfl | 1, _ => rfl | 2, _ => rfl | 3, _ => rfl)
    simp only [read64, r1, r2, Res.bind_ok, Res.pure_eq]
    congr 1
    apply BitVec.eq_of_toNat_eq
    rw [or_shl_toNat (w := 32) _ _ rfl]
    have := a.isLt; have := b.isLt; have := c.isLt; have := d.isLt
    have := e.isLt; have := f.isLt; have := g.isLt; have := k.isLt
    simp [leVal]; omega

theorem fileWord_eq (w : BitVec 16) : fileWord w = leBytes 2 w.toNat := by
  simp only [fileWord, fileByte, leBytes, List.cons_append, List.nil_append]
  congr 1
  congr 1
  apply BitVec.eq_of_toNat_eq
  simp [Nat.shiftRight_eq_div_pow]

theorem leBytes_mod (n v k : Nat) (h : n ≤ k) : leBytes n (v % 256 ^ k) = leBytes n v := by
  induction n generalizing v k with
  | zero => rfl
  | succ n ih =>
    obtain ⟨k, rfl⟩ : ∃ k', k = k' + 1 := ⟨k - 1, by omega⟩
    simp only [leBytes]
    rw [Nat.pow_succ, Nat.mul_comm, Nat.mod_mul]
    have h1 : (v % 256 + 256 * (v / 256 % 256 ^ k)) / 256 = v / 256 % 256 ^ k := by omega
    rw [h1, ih _ _ (by omega)]
    congr 1
    apply BitVec.eq_of_toNat_eq
    simp

theorem fileLong_eq (l : BitVec 32) : fileLong l = leBytes 4 l.toNat := by
  rw [fileLong, fileWord_eq, fileWord_eq, leBytes_add 2 2]
  simp only [BitVec.toNat_setWidth, BitVec.toNat_ushiftRight, Nat.shiftRight_eq_div_pow]
  rw [show (2:Nat) ^ 16 = 256 ^ 2 by decide, leBytes_mod _ _ _ (by omega), leBytes_mod _ _ _ (by omega)]

theorem fileQuad_eq (q : BitVec 64) : fileQuad q = leBytes 8 q.toNat := by
  rw [fileQuad, fileLong_eq, fileLong_eq, leBytes_add 4 4]
  simp only [BitVec.toNat_setWidth, BitVec.toNat_ushiftRight, Nat.shiftRight_eq_div_pow]
  rw [show (2:Nat) ^ 32 = 256 ^ 4 by decide, leBytes_mod _ _ _ (by omega), leBytes_mod _ _ _ (by omega)]

theorem genMask_getLsb (l r : Nat) (hl : l < 64) (hr : r < 64) (i : Nat) (hi : i < 64) :
    ∃ m, genMask l r = .ok m ∧ m.getLsbD i = !(decide (r ≤ i) && decide (i + l < 64)) := by
  refine ⟨_, by simp only [genMask, hl, hr, and_self, if_true]; rfl, ?_⟩
  simp only [BitVec.getLsbD_not, BitVec.getLsbD_ushiftRight, BitVec.getLsbD_shiftLeft,
    BitVec.getLsbD_allOnes]
  by_cases h1 : r ≤ i <;> by_cases h2 : i + l < 64 <;> simp [h1, h2, hi] <;> omega

end Verif.Bytes
