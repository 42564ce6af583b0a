import Verif.Basic
/-!
Model of src/utf8.c.  `char output[4]` is a list of four bytes, a `const char **`
into a NUL-terminated buffer is the list of the remaining bytes (including the
terminating NUL); reading past the end of that list is undefined behaviour.
-/
namespace Verif.Utf8
open Verif

/-- src/utf8.c:7-27 `utf8_encode`.  `~0xE0` etc. are 32-bit complements; storing
into `char` keeps the low 8 bits. -/
def encode (cp : BitVec 32) : Res (List Byte) :=
  if cp.toNat ≤ 0x7f then
    .ok [(cp &&& 0xff#32).setWidth 8, 0, 0, 0]
  else if cp.toNat ≤ 0x7ff then
    .ok [(0xC0#32 ||| ((cp >>> 6) &&& ~~~ 0xE0#32)).setWidth 8,
         (0x80#32 ||| ((cp >>> 0) &&& ~~~ 0xC0#32)).setWidth 8, 0, 0]
  else if cp.toNat ≤ 0xffff then
    .ok [(0xE0#32 ||| ((cp >>> 12) &&& ~~~ 0xF0#32)).setWidth 8,
         (0x80#32 ||| ((cp >>> 6) &&& ~~~ 0xC0#32)).setWidth 8,
         (0x80#32 ||| ((cp >>> 0) &&& ~~~ 0xC0#32)).setWidth 8, 0]
  else if cp.toNat ≤ 0x10ffff then
    .ok [(0xF0#32 ||| ((cp >>> 18) &&& ~~~ 0xF8#32)).setWidth 8,
         (0x80#32 ||| ((cp >>> 12) &&& ~~~ 0xC0#32)).setWidth 8,
         (0x80#32 ||| ((cp >>> 6) &&& ~~~ 0xC0#32)).setWidth 8,
         (0x80#32 ||| ((cp >>> 0) &&& ~~~ 0xC0#32)).setWidth 8]
  else .fail

/-- src/utf8.c:29-41 `utf8_code_point_length`. -/
def codePointLength (s : Byte) : Res Nat :=
  if s &&& 0x80#8 = 0 then .ok 1
  else if s &&& 0xE0#8 = 0xC0#8 then .ok 2
  else if s &&& 0xF0#8 = 0xE0#8 then .ok 3
  else if s &&& 0xF8#8 = 0xF0#8 then .ok 4
  else .fail

/-- `s[i] & ~mask`, with the usual promotion of `unsigned char` to `int`. -/
def payload (s : Byte) (mask : BitVec 32) : BitVec 32 := s.setWidth 32 &&& ~~~ mask

/-- src/utf8.c:43-72 `utf8_decode`: the code point and the rest of the input. -/
def decode (s : List Byte) : Res (BitVec 32 × List Byte) :=
  match s with
  | [] => .ub
  | s0 :: r0 =>
    if s0 &&& 0x80#8 = 0 then
      .ok (payload s0 0x80#32 <<< 0, r0)
    else if s0 &&& 0xE0#8 = 0xC0#8 then
      match r0 with
      | s1 :: r1 => .ok (payload s0 0xE0#32 <<< 6 ||| payload s1 0xC0#32 <<< 0, r1)
      | _ => .ub
    else if s0 &&& 0xF0#8 = 0xE0#8 then
      match r0 with
      | s1 :: s2 :: r2 =>
        .ok (payload s0 0xE0#32 <<< 12 ||| payload s1 0xC0#32 <<< 6 |||
          payload s2 0xC0#32 <<< 0, r2)
      | _ => .ub
    else if s0 &&& 0xF8#8 = 0xF0#8 then
      match r0 with
      | s1 :: s2 :: s3 :: r3 =>
        .ok (payload s0 0xF8#32 <<< 18 ||| payload s1 0xC0#32 <<< 12 |||
          payload s2 0xC0#32 <<< 6 ||| payload s3 0xC0#32 <<< 0, r3)
      | _ => .ub
    else .fail

/-! ### Specification: RFC 3629 section 3 -/

/-- The UTF-8 octets of a code point, as arithmetic on its value. -/
def specBytes (n : Nat) : List Nat :=
  if n < 0x80 then [n]
  else if n < 0x800 then [0xC0 + n / 64, 0x80 + n % 64]
  else if n < 0x10000 then [0xE0 + n / 4096, 0x80 + n / 64 % 64, 0x80 + n % 64]
  else [0xF0 + n / 262144, 0x80 + n / 4096 % 64, 0x80 + n / 64 % 64, 0x80 + n % 64]

/-- Same as a byte string. -/
def specUtf8 (n : Nat) : List Byte := (specBytes n).map (BitVec.ofNat 8)

/-! ### Helper lemmas -/

theorem byte_cont (b : Byte) : (0x80#8 ||| (b &&& 0x3f#8)).toNat = 0x80 + b.toNat % 64 := by
  revert b; decide +kernel
theorem byte_lead2 (b : Byte) (h : b.toNat < 32) : (0xC0#8 ||| (b &&& 0x1f#8)).toNat = 0xC0 + b.toNat := by
  revert b; decide +kernel
theorem byte_lead3 (b : Byte) (h : b.toNat < 16) : (0xE0#8 ||| (b &&& 0x0f#8)).toNat = 0xE0 + b.toNat := by
  revert b; decide +kernel
theorem byte_lead4 (b : Byte) (h : b.toNat < 8) : (0xF0#8 ||| (b &&& 0x07#8)).toNat = 0xF0 + b.toNat := by
  revert b; decide +kernel

theorem trunc_toNat (cp : BitVec 32) (k : Nat) :
    ((cp >>> k).setWidth 8).toNat = cp.toNat / 2 ^ k % 256 := by
  simp [Nat.shiftRight_eq_div_pow]

theorem enc_cont (cp : BitVec 32) (k : Nat) :
    (0x80#32 ||| ((cp >>> k) &&& ~~~ 0xC0#32)).setWidth 8
      = BitVec.ofNat 8 (0x80 + cp.toNat / 2 ^ k % 64) := by
  apply BitVec.eq_of_toNat_eq
  have h := byte_cont ((cp >>> k).setWidth 8)
  rw [BitVec.setWidth_or, BitVec.setWidth_and,
    show (~~~ 0xC0#32).setWidth 8 = 0x3f#8 by decide, show (0x80#32).setWidth 8 = 0x80#8 by decide,
    h, trunc_toNat]
  simp; omega

theorem enc_lead2 (cp : BitVec 32) (h : cp.toNat / 2 ^ 6 < 32) :
    (0xC0#32 ||| ((cp >>> 6) &&& ~~~ 0xE0#32)).setWidth 8
      = BitVec.ofNat 8 (0xC0 + cp.toNat / 64) := by
  apply BitVec.eq_of_toNat_eq
  have h := byte_lead2 ((cp >>> 6).setWidth 8) (by rw [trunc_toNat]; omega)
  rw [BitVec.setWidth_or, BitVec.setWidth_and,
    show (~~~ 0xE0#32).setWidth 8 = 0x1f#8 by decide, show (0xC0#32).setWidth 8 = 0xC0#8 by decide,
    h, trunc_toNat]
  simp; omega

theorem enc_lead3 (cp : BitVec 32) (h : cp.toNat / 2 ^ 12 < 16) :
    (0xE0#32 ||| ((cp >>> 12) &&& ~~~ 0xF0#32)).setWidth 8
      = BitVec.ofNat 8 (0xE0 + cp.toNat / 4096) := by
  apply BitVec.eq_of_toNat_eq
  have h := byte_lead3 ((cp >>> 12).setWidth 8) (by rw [trunc_toNat]; omega)
  rw [BitVec.setWidth_or, BitVec.setWidth_and,
    show (~~~ 0xF0#32).setWidth 8 = 0x0f#8 by decide, show (0xE0#32).setWidth 8 = 0xE0#8 by decide,
    h, trunc_toNat]
  simp; omega

theorem enc_lead4 (cp : BitVec 32) (h : cp.toNat / 2 ^ 18 < 8) :
    (0xF0#32 ||| ((cp >>> 18) &&& ~~~ 0xF8#32)).setWidth 8
      = BitVec.ofNat 8 (0xF0 + cp.toNat / 262144) := by
  apply BitVec.eq_of_toNat_eq
  have h := byte_lead4 ((cp >>> 18).setWidth 8) (by rw [trunc_toNat]; omega)
  rw [BitVec.setWidth_or, BitVec.setWidth_and,
    show (~~~ 0xF8#32).setWidth 8 = 0x07#8 by decide, show (0xF0#32).setWidth 8 = 0xF0#8 by decide,
    h, trunc_toNat]
  simp; omega

theorem encode_eq (cp : BitVec 32) (h : cp.toNat ≤ 0x10ffff) :
    encode cp = .ok (specUtf8 cp.toNat ++ List.replicate (4 - (specUtf8 cp.toNat).length) 0) := by
  unfold encode
  split
  · rename_i h1
    have : specUtf8 cp.toNat = [BitVec.ofNat 8 cp.toNat] := by
      simp only [specUtf8, specBytes]
      rw [if_pos (by omega)]; rfl
    rw [this]
    simp only [List.length_cons, List.length_nil, List.replicate, List.cons_append, List.nil_append]
    congr 2
    apply BitVec.eq_of_toNat_eq
    rw [BitVec.setWidth_and]
    simp
    exact (Nat.and_two_pow_sub_one_eq_mod (cp.toNat % 256) 8).trans (by omega)
  · split
    · have : specUtf8 cp.toNat =
          [BitVec.ofNat 8 (0xC0 + cp.toNat / 64), BitVec.ofNat 8 (0x80 + cp.toNat % 64)] := by
        simp only [specUtf8, specBytes]
        rw [if_neg (by omega), if_pos (by omega)]; rfl
      rw [this, enc_lead2 _ (by omega), enc_cont]
      simp [List.replicate]
    · split
      · have : specUtf8 cp.toNat =
            [BitVec.ofNat 8 (0xE0 + cp.toNat / 4096), BitVec.ofNat 8 (0x80 + cp.toNat / 64 % 64),
             BitVec.ofNat 8 (0x80 + cp.toNat % 64)] := by
          simp only [specUtf8, specBytes]
          rw [if_neg (by omega), if_neg (by omega), if_pos (by omega)]; rfl
        rw [this, enc_lead3 _ (by omega), enc_cont, enc_cont]
        simp
      · have : specUtf8 cp.toNat =
            [BitVec.ofNat 8 (0xF0 + cp.toNat / 262144), BitVec.ofNat 8 (0x80 + cp.toNat / 4096 % 64),
             BitVec.ofNat 8 (0x80 + cp.toNat / 64 % 64), BitVec.ofNat 8 (0x80 + cp.toNat % 64)] := by
          simp only [specUtf8, specBytes]
          rw [if_neg (by omega), if_neg (by omega), if_neg (by omega)]; rfl
        rw [this, enc_lead4 _ (by omega), enc_cont, enc_cont, enc_cont]
        simp

theorem pay7 : ∀ b : Byte, b.toNat < 128 → b &&& 0x80#8 = 0 ∧ (payload b 0x80#32).toNat = b.toNat := by
  decide +kernel
theorem lead2 : ∀ b : Byte, 0xC0 ≤ b.toNat → b.toNat < 0xE0 →
    (b &&& 0x80#8 ≠ 0) ∧ (b &&& 0xE0#8 = 0xC0#8) ∧ (payload b 0xE0#32).toNat = b.toNat - 0xC0 := by
  decide +kernel
theorem lead3 : ∀ b : Byte, 0xE0 ≤ b.toNat → b.toNat < 0xF0 →
    (b &&& 0x80#8 ≠ 0) ∧ (b &&& 0xE0#8 ≠ 0xC0#8) ∧ (b &&& 0xF0#8 = 0xE0#8) ∧
    (payload b 0xE0#32).toNat = b.toNat - 0xE0 := by
  decide +kernel
theorem lead4 : ∀ b : Byte, 0xF0 ≤ b.toNat → b.toNat < 0xF8 →
    (b &&& 0x80#8 ≠ 0) ∧ (b &&& 0xE0#8 ≠ 0xC0#8) ∧ (b &&& 0xF0#8 ≠ 0xE0#8) ∧
    (b &&& 0xF8#8 = 0xF0#8) ∧ (payload b 0xF8#32).toNat = b.toNat - 0xF0 := by
  decide +kernel
theorem cont : ∀ b : Byte, 0x80 ≤ b.toNat → b.toNat < 0xC0 → (payload b 0xC0#32).toNat = b.toNat - 0x80 := by
  decide +kernel

/-- `(hi << k) | lo` with `lo < 2^k` and no overflow is `hi * 2^k + lo`. -/
theorem shl_or (hi lo : BitVec 32) (k : Nat) (h1 : lo.toNat < 2 ^ k)
    (h2 : hi.toNat * 2 ^ k < 2 ^ 32) :
    (hi <<< k ||| lo).toNat = hi.toNat * 2 ^ k + lo.toNat := by
  simp only [BitVec.toNat_or, BitVec.toNat_shiftLeft, Nat.shiftLeft_eq]
  rw [Nat.mod_eq_of_lt h2, Nat.mul_comm, Nat.two_pow_add_eq_or_of_lt h1]

theorem cont_ofNat (x : Nat) (h : x < 64) :
    (payload (BitVec.ofNat 8 (0x80 + x)) 0xC0#32).toNat = x := by
  have : (BitVec.ofNat 8 (0x80 + x)).toNat = 0x80 + x := by simp; omega
  rw [cont _ (by omega) (by omega)]; omega

theorem decode_spec (n : Nat) (h : n ≤ 0x10ffff) (rest : List Byte) :
    decode (specUtf8 n ++ rest) = .ok (BitVec.ofNat 32 n, rest) := by
  unfold specUtf8 specBytes
  split
  · rename_i h1
    have hb : (BitVec.ofNat 8 n).toNat = n := by simp; omega
    have := pay7 (BitVec.ofNat 8 n) (by omega)
    simp only [List.map, List.cons_append, List.nil_append, decode, this.1, if_true]
    congr 2
    apply BitVec.eq_of_toNat_eq
    simp only [BitVec.shiftLeft_zero, this.2, hb]
    simp; omega
  · split
    · rename_i h0 h1
      have hb : (BitVec.ofNat 8 (0xC0 + n / 64)).toNat = 0xC0 + n / 64 := by simp; omega
      obtain ⟨a, b, c⟩ := lead2 (BitVec.ofNat 8 (0xC0 + n / 64)) (by omega) (by omega)
      have d := cont_ofNat (n % 64) (by omega)
      simp only [List.map, List.cons_append, List.nil_append, decode, a, b, if_true, if_false]
      congr 2
      apply BitVec.eq_of_toNat_eq
      rw [BitVec.shiftLeft_zero, shl_or _ _ _ (by omega) (by omega), c, d, hb]
      simp; omega
    · split
      · rename_i h0 h1 h2
        have hb : (BitVec.ofNat 8 (0xE0 + n / 4096)).toNat = 0xE0 + n / 4096 := by simp; omega
        obtain ⟨a, b, c, d⟩ := lead3 (BitVec.ofNat 8 (0xE0 + n / 4096)) (by omega) (by omega)
        have e := cont_ofNat (n / 64 % 64) (by omega)
        have f := cont_ofNat (n % 64) (by omega)
        simp only [List.map, List.cons_append, List.nil_append, decode, a, b, c, if_true, if_false]
        congr 2
        apply BitVec.eq_of_toNat_eq
        have s1 := shl_or (payload (BitVec.ofNat 8 (0x80 + n / 64 % 64)) 0xC0#32)
          (payload (BitVec.ofNat 8 (0x80 + n % 64)) 0xC0#32) 6 (by omega) (by omega)
        rw [BitVec.shiftLeft_zero, BitVec.or_assoc, shl_or _ _ _ (by omega) (by omega), s1, d, e, f, hb]
        simp; omega
      · rename_i h0 h1 h2
        have hb : (BitVec.ofNat 8 (0xF0 + n / 262144)).toNat = 0xF0 + n / 262144 := by simp; omega
        obtain ⟨a, b, c, d, g⟩ := lead4 (BitVec.ofNat 8 (0xF0 + n / 262144)) (by omega) (by omega)
        have e := cont_ofNat (n / 64 % 64) (by omega)
        have f := cont_ofNat (n % 64) (by omega)
        have k := cont_ofNat (n / 4096 % 64) (by omega)
        simp only [List.map, List.cons_append, List.nil_append, decode, a, b, c, d, if_true, if_false]
        congr 2
        apply BitVec.eq_of_toNat_eq
        have s1 := shl_or (payload (BitVec.ofNat 8 (0x80 + n / 64 % 64)) 0xC0#32)
          (payload (BitVec.ofNat 8 (0x80 + n % 64)) 0xC0#32) 6 (by omega) (by omega)
        have s2 := shl_or (payload (BitVec.ofNat 8 (0x80 + n / 4096 % 64)) 0xC0#32)
          (payload (BitVec.ofNat 8 (0x80 + n / 64 % 64)) 0xC0#32 <<< 6 |||
            payload (BitVec.ofNat 8 (0x80 + n % 64)) 0xC0#32) 12 (by omega) (by omega)
        rw [BitVec.shiftLeft_zero, BitVec.or_assoc, BitVec.or_assoc,
          shl_or _ _ _ (by omega) (by omega), s2, s1, g, e, f, k, hb]
        simp; omega

theorem specUtf8_length (n : Nat) : 1 ≤ (specUtf8 n).length ∧ (specUtf8 n).length ≤ 4 := by
  simp only [specUtf8, specBytes]
  split
  · simp
  · split
    · simp
    · split <;> simp

end Verif.Utf8
