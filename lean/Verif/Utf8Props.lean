import Verif.Utf8
/-!
# C01 – UTF-8 round trip
-/
namespace Verif.Utf8
open Verif

/-- The encoder writes exactly the RFC 3629 octets, padded with NULs to four. -/
theorem encode_is_rfc3629 (cp : BitVec 32) (h : cp.toNat ≤ 0x10ffff) :
    encode cp = .ok (specUtf8 cp.toNat ++ List.replicate (4 - (specUtf8 cp.toNat).length) 0) :=
  encode_eq cp h

/-- Larger numbers are refused with a diagnostic, never silently truncated. -/
theorem encode_too_large (cp : BitVec 32) (h : 0x10ffff < cp.toNat) : encode cp = .fail := by
  unfold encode
  rw [if_neg (by omega), if_neg (by omega), if_neg (by omega), if_neg (by omega)]

/-- Decoding the octets of `n` in front of arbitrary text gives `n` and leaves
exactly that text. -/
theorem decode_rfc3629 (n : Nat) (h : n ≤ 0x10ffff) (rest : List Byte) :
    decode (specUtf8 n ++ rest) = .ok (BitVec.ofNat 32 n, rest) :=
  decode_spec n h rest

/-- Round trip through both functions: taking the reported number of bytes from
the encoder's buffer and decoding them in any context restores the code point. -/
theorem decode_encode (cp : BitVec 32) (h : cp.toNat ≤ 0x10ffff) (rest : List Byte) :
    ∃ buf len, encode cp = .ok buf ∧ buf.length = 4 ∧
      (∀ b, buf.head? = some b → codePointLength b = .ok len) ∧
      decode (buf.take len ++ rest) = .ok (cp, rest) := by
  refine ⟨_, (specUtf8 cp.toNat).length, encode_eq cp h, ?_, ?_, ?_⟩
  · have := specUtf8_length cp.toNat
    simp; omega
  · intro b hb
    have hb' : (specUtf8 cp.toNat).head? = some b := by
      have := (specUtf8_length cp.toNat).1
      match hs : specUtf8 cp.toNat with
      | [] => simp [hs] at this
      | x :: xs => rw [hs] at hb; simpa using hb
    clear hb
    unfold specUtf8 specBytes at hb' ⊢
    split at hb'
    · rename_i h1
      simp at hb'
      have hb2 : b.toNat = cp.toNat := by rw [← hb']; simp; omega
      have := pay7 b (by omega)
      simp [codePointLength, this.1, h1]
    · split at hb'
      · rename_i h0 h1
        simp at hb'
        have hb2 : b.toNat = 0xC0 + cp.toNat / 64 := by rw [← hb']; simp; omega
        obtain ⟨a1, a2, _⟩ := lead2 b (by omega) (by omega)
        simp only [codePointLength, a1, a2, if_true, if_false, h0, h1]; rfl
      · split at hb'
        · rename_i h0 h1 h2
          simp at hb'
          have hb2 : b.toNat = 0xE0 + cp.toNat / 4096 := by rw [← hb']; simp; omega
          obtain ⟨a1, a2, a3, _⟩ := lead3 b (by omega) (by omega)
          simp only [codePointLength, a1, a2, a3, if_true, if_false, h0, h1, h2]; rfl
        · rename_i h0 h1 h2
          simp at hb'
          have hb2 : b.toNat = 0xF0 + cp.toNat / 262144 := by rw [← hb']; simp; omega
          obtain ⟨a1, a2, a3, a4, _⟩ := lead4 b (by omega) (by omega)
          simp only [codePointLength, a1, a2, a3, a4, if_true, if_false, h0, h1, h2]; rfl
  · rw [List.take_append_of_le_length (by omega), List.take_of_length_le (by omega), decode_spec _ h]
    simp

/-- Whole strings: decode the octets of a sequence of code points one by one. -/
def decodeN : Nat → List Byte → Res (List (BitVec 32) × List Byte)
  | 0, s => .ok ([], s)
  | n + 1, s => do
    let (c, s) ← decode s
    let (cs, s) ← decodeN n s
    pure (c :: cs, s)

theorem decode_string (cps : List Nat) (h : ∀ n ∈ cps, n ≤ 0x10ffff) (rest : List Byte) :
    decodeN cps.length ((cps.map specUtf8).flatten ++ rest)
      = .ok (cps.map (BitVec.ofNat 32), rest) := by
  induction cps with
  | nil => simp [decodeN]
  | cons n cps ih =>
    simp only [List.length_cons, decodeN, List.map_cons, List.flatten_cons, List.append_assoc]
    rw [decode_spec n (h n (by simp))]
    simp only [Res.bind_ok]
    rw [ih (fun m hm => h m (by simp [hm]))]
    rfl

/-- Distinct code points have distinct encodings, none a prefix of another. -/
theorem encoding_prefix_free (a b : Nat) (ha : a ≤ 0x10ffff) (hb : b ≤ 0x10ffff)
    (r s : List Byte) (h : specUtf8 a ++ r = specUtf8 b ++ s) : a = b ∧ r = s := by
  have h1 := decode_spec a ha r
  have h2 := decode_spec b hb s
  rw [h, h2] at h1
  injection h1 with h1
  injection h1 with h3 h4
  refine ⟨?_, h4.symm⟩
  have := congrArg BitVec.toNat h3
  simp at this; omega

/-- A stray continuation byte (10xxxxxx) or 11111xxx lead byte is diagnosed. -/
theorem decode_bad_lead (b : Byte) (h : 0x80 ≤ b.toNat ∧ b.toNat < 0xC0 ∨ 0xF8 ≤ b.toNat)
    (rest : List Byte) : decode (b :: rest) = .fail := by
  have : ∀ b : Byte, (0x80 ≤ b.toNat ∧ b.toNat < 0xC0 ∨ 0xF8 ≤ b.toNat) →
    b &&& 0x80#8 ≠ 0 ∧ b &&& 0xE0#8 ≠ 0xC0#8 ∧ b &&& 0xF0#8 ≠ 0xE0#8 ∧ b &&& 0xF8#8 ≠ 0xF0#8 := by
    decide +kernel
  obtain ⟨a1, a2, a3, a4⟩ := this b h
  simp only [decode, a1, a2, a3, a4, if_false]

example : encode 0x1F600#32 = .ok [0xF0#8, 0x9F#8, 0x98#8, 0x80#8] ∧
    decode [0xF0#8, 0x9F#8, 0x98#8, 0x80#8, 0x41#8] = .ok (0x1F600#32, [0x41#8]) := by decide
example : specUtf8 0x20AC = [0xE2#8, 0x82#8, 0xAC#8] := by decide

end Verif.Utf8
