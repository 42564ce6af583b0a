import Verif.Escape
import Verif.EscapeSpec
/-! Helper lemmas for the literal-reading properties. -/
namespace Verif.Escape
open Verif EscapeSpec

theorem hasProp_ok (c : Byte) (p : Nat) (h : c.toNat < 255) :
    hasProp c p = .ok (charProp c.toNat &&& p != 0) := by simp [hasProp, h]

theorem isOctal_spec : ∀ c : Byte, c.toNat < 255 → isOctal c = .ok (isOct c) := by decide +kernel
theorem isHexadecimal_spec : ∀ c : Byte, c.toNat < 255 → isHexadecimal c = .ok (isHex c) := by
  decide +kernel

theorem digit_oct : ∀ d < 8, isOctal (digit d) = .ok true ∧ charToInt (digit d) = .ok d ∧
    digit d ≠ ch 'x' := by decide
theorem digit_hex : ∀ d < 16, isHexadecimal (digit d) = .ok true ∧ charToInt (digit d) = .ok d := by
  decide

/-- Folding digits with an arbitrary multiplier on 32-bit words. -/
def foldBV (m : Nat) (r : BitVec 32) (ds : List Nat) : BitVec 32 :=
  ds.foldl (fun r d => r * BitVec.ofNat 32 m + BitVec.ofNat 32 d) r

theorem foldBV_ofNat (m : Nat) (ds : List Nat) (r : Nat) :
    foldBV m (BitVec.ofNat 32 r) ds = BitVec.ofNat 32 (ds.foldl (fun r d => r * m + d) r) := by
  induction ds generalizing r with
  | nil => rfl
  | cons d ds ih =>
    simp only [foldBV, List.foldl_cons] at ih ⊢
    rw [← ih]
    congr 1
    rw [BitVec.ofNat_add, BitVec.ofNat_mul]

theorem octLoop_digits (k : Nat) (r : BitVec 32) (ds : List Nat) (tl : List Byte)
    (hd : ∀ d ∈ ds, d < 8) (hk : ds.length ≤ k)
    (hn : ds.length < k → ∃ c t, tl = c :: t ∧ isOctal c = .ok false) :
    octLoop k r (ds.map digit ++ tl) = .ok (foldBV 8 r ds, tl) := by
  induction ds generalizing k r with
  | nil =>
    cases k with
    | zero => rfl
    | succ k =>
      obtain ⟨c, t, rfl, hc⟩ := hn (by simp)
      simp [octLoop, hc, foldBV]
  | cons d ds ih =>
    cases k with
    | zero => simp at hk
    | succ k =>
      have h := digit_oct d (hd d (by simp))
      simp only [List.map_cons, List.cons_append, octLoop, h.1, h.2.1, Res.bind_ok, if_true]
      rw [ih k _ (fun d hd' => hd d (by simp [hd'])) (by simp at hk; omega)
        (fun h => hn (by simp; omega))]
      rfl

theorem hexLoop_digits (k : Nat) (r : BitVec 32) (ds : List Nat) (tl : List Byte)
    (hd : ∀ d ∈ ds, d < 16) (hk : ds.length ≤ k)
    (hn : ds.length < k → ∃ c t, tl = c :: t ∧ isHexadecimal c = .ok false) :
    hexLoop k r (ds.map digit ++ tl) = .ok (foldBV 8 r ds, tl) := by
  induction ds generalizing k r with
  | nil =>
    cases k with
    | zero => rfl
    | succ k =>
      obtain ⟨c, t, rfl, hc⟩ := hn (by simp)
      simp [hexLoop, hc, foldBV]
  | cons d ds ih =>
    cases k with
    | zero => simp at hk
    | succ k =>
      have h := digit_hex d (hd d (by simp))
      simp only [List.map_cons, List.cons_append, hexLoop, h.1, h.2, Res.bind_ok, if_true]
      rw [ih k _ (fun d hd' => hd d (by simp [hd'])) (by simp at hk; omega)
        (fun h => hn (by simp; omega))]
      rfl

theorem simple_spec (c : Char) (v : Nat) (h : simpleVal c = some v) :
    isOctal (ch c) = .ok false ∧ ch c ≠ ch 'x' ∧ simpleEscape (ch c) = .ok (BitVec.ofNat 32 v) := by
  unfold simpleVal at h
  split at h <;> first | (cases h; decide) | cases h

theorem specUtf8_bytes (cp : Nat) (h : cp ≤ 0x10ffff) :
    (cp < 128 ∧ Utf8.specUtf8 cp = [BitVec.ofNat 8 cp]) ∨
    (128 ≤ cp ∧ ∀ b ∈ Utf8.specUtf8 cp, 128 ≤ b.toNat ∧ b.toNat < 255) := by
  by_cases h1 : cp < 0x80
  · left; exact ⟨h1, by simp [Utf8.specUtf8, Utf8.specBytes, h1]⟩
  · right
    refine ⟨by omega, ?_⟩
    intro b hb
    simp only [Utf8.specUtf8, Utf8.specBytes, h1, if_false] at hb
    split at hb
    · simp at hb
      rcases hb with rfl | rfl <;> simp <;> omega
    · split at hb
      · simp at hb
        rcases hb with rfl | rfl | rfl <;> simp <;> omega
      · simp at hb
        rcases hb with rfl | rfl | rfl | rfl <;> simp <;> omega

theorem specUtf8_plain (cp : Nat) (q : Byte) (hq : q.toNat < 128) (h : cp ≤ 0x10ffff) (h92 : cp ≠ 92)
    (hcq : cp ≠ q.toNat) :
    ∀ b ∈ Utf8.specUtf8 cp, b ≠ ch '\\' ∧ b ≠ q ∧ b.toNat < 255 := by
  intro b hb
  rcases specUtf8_bytes cp h with ⟨h1, h2⟩ | ⟨h1, h2⟩
  · rw [h2] at hb
    simp at hb
    subst hb
    have hn : (BitVec.ofNat 8 cp).toNat = cp := by simp; omega
    refine ⟨?_, ?_, by omega⟩
    · intro hc; have := congrArg BitVec.toNat hc; rw [hn] at this; exact h92 this
    · intro hc; have := congrArg BitVec.toNat hc; rw [hn] at this; exact hcq this
  · have := h2 b hb
    refine ⟨?_, ?_, by omega⟩
    · intro hc; subst hc; revert this; decide
    · intro hc; subst hc; omega

/-- First byte of a rendered body followed by its quote exists and is < 255. -/
theorem next_byte (q : Byte) (hq : q.toNat < 128) (is : List Item) (h : BodyWF q is) (rest : List Byte) :
    ∃ c t, renderAll is ++ q :: rest = c :: t ∧ c.toNat < 255 ∧
      (renderAll is ++ [q]).head? = some c := by
  cases is with
  | nil => exact ⟨q, rest, rfl, by omega, rfl⟩
  | cons i is =>
    have hi := h.1
    cases i with
    | plain cp =>
      obtain ⟨h1, h2, h3⟩ := hi
      have hl := (Utf8.specUtf8_length cp).1
      match hs : Utf8.specUtf8 cp with
      | [] => simp [hs] at hl
      | c :: t =>
        refine ⟨c, t ++ (renderAll is ++ q :: rest), ?_, ?_, ?_⟩
        · simp [renderAll, render, hs]
        · exact (specUtf8_plain cp q hq h1 h2 h3 c (by simp [hs])).2.2
        · simp [renderAll, render, hs]
    | simple c => exact ⟨ch '\\', _, rfl, by decide, rfl⟩
    | oct ds => exact ⟨ch '\\', _, rfl, by decide, rfl⟩
    | hex ds => exact ⟨ch '\\', _, rfl, by decide, rfl⟩

/-- `escape_sequence_read` on an octal escape. -/
theorem escRead_oct (ds : List Nat) (tl : List Byte) (n : Nat) (h1 : 1 ≤ ds.length)
    (h3 : ds.length ≤ 3) (hd : ∀ d ∈ ds, d < 8) (hn : ds.length + 1 ≤ n)
    (ht : ds.length < 3 → ∃ c t, tl = c :: t ∧ isOctal c = .ok false) :
    escRead (ch '\\' :: (ds.map digit ++ tl)) n
      = .ok (some (BitVec.ofNat 32 (digitsVal 8 ds), tl)) := by
  obtain ⟨d, ds', rfl⟩ : ∃ d ds', ds = d :: ds' := by
    cases ds with
    | nil => simp at h1
    | cons d ds' => exact ⟨d, ds', rfl⟩
  have h := digit_oct d (hd d (by simp))
  have hlen : (d :: ds').length ≤ min 3 n := by omega
  have := octLoop_digits (min 3 n) 0 (d :: ds') tl hd hlen (by
    intro hlt; exact ht (by omega))
  rw [List.map_cons, List.cons_append] at this
  simp only [escRead, List.map_cons, List.cons_append, ne_eq, not_true, if_false]
  rw [if_neg (by omega), h.1, Res.bind_ok, if_pos rfl, this]
  simp only [Res.bind_ok, Res.pure_eq]
  rw [show (0 : BitVec 32) = BitVec.ofNat 32 0 from rfl, foldBV_ofNat]
  rfl

/-- `escape_sequence_read` on a hexadecimal escape: digits weighted by powers of 8. -/
theorem escRead_hex (ds : List Nat) (tl : List Byte) (n : Nat)
    (hd : ∀ d ∈ ds, d < 16) (hn : ds.length + 2 ≤ n)
    (ht : ∃ c t, tl = c :: t ∧ isHexadecimal c = .ok false) :
    escRead (ch '\\' :: ch 'x' :: (ds.map digit ++ tl)) n
      = .ok (some (BitVec.ofNat 32 (digitsVal 8 ds), tl)) := by
  have := hexLoop_digits n 0 ds tl hd (by omega) (fun _ => ht)
  simp only [escRead, ne_eq, not_true, if_false]
  rw [if_neg (by omega), show isOctal (ch 'x') = .ok false by decide, Res.bind_ok]
  simp only [Bool.false_eq_true, if_false, if_true, this, Res.bind_ok, Res.pure_eq]
  rw [show (0 : BitVec 32) = BitVec.ofNat 32 0 from rfl, foldBV_ofNat]
  rfl

theorem escRead_simple (c : Char) (v : Nat) (tl : List Byte) (n : Nat) (h : simpleVal c = some v)
    (hn : 2 ≤ n) :
    escRead (ch '\\' :: ch c :: tl) n = .ok (some (BitVec.ofNat 32 v, tl)) := by
  obtain ⟨a, b, d⟩ := simple_spec c v h
  simp only [escRead, ne_eq, not_true, if_false]
  rw [if_neg (by omega), a, Res.bind_ok]
  simp [b, d]

theorem escRead_plain (c : Byte) (tl : List Byte) (n : Nat) (hc : c ≠ ch '\\') :
    escRead (c :: tl) n = .ok none := by
  unfold escRead
  split
  · rfl
  · simp [hc]

/-- Model string types as specified encodings. -/
def enc : StrType → Enc
  | .default | .u8 => .narrow
  | .uSmall => .utf16
  | .uLarge | .l => .utf32

theorem byte_and_ff (c : BitVec 32) : (c &&& 0xff#32).setWidth 8 = c.setWidth 8 := by
  rw [BitVec.setWidth_and, show (0xff#32).setWidth 8 = BitVec.allOnes 8 by decide, BitVec.and_allOnes]

theorem writeChar_le (ty : StrType) (v : Nat) (hv : v < 2 ^ 32) :
    writeChar ty (BitVec.ofNat 32 v) =
      match enc ty with
      | .narrow => [BitVec.ofNat 8 v]
      | .utf16 => le 2 v
      | .utf32 => le 4 v := by
  have s : ∀ k, ((BitVec.ofNat 32 v) >>> k).setWidth 8 = BitVec.ofNat 8 (v / 2 ^ k) := by
    intro k
    apply BitVec.eq_of_toNat_eq
    simp [Nat.shiftRight_eq_div_pow]
    rw [Nat.mod_eq_of_lt hv]
  have s0 : (BitVec.ofNat 32 v).setWidth 8 = BitVec.ofNat 8 v := by
    exact BitVec.setWidth_ofNat_of_le (by omega) v
  cases ty <;>
    simp only [writeChar, enc, byte_and_ff, s, s0, le, Nat.div_div_eq_div_mul] <;> rfl

theorem len_sub (a b : List Byte) (k : Nat) :
    (a.length + k) - ((a ++ b).length - b.length) = k := by
  simp

/-- One escape item is consumed in one step. -/
theorem escapeChar_esc (ty : StrType) (e : Byte) (txt tl : List Byte) (k v : Nat)
    (h0 : ∃ t, txt = ch '\\' :: t) (he : e ≠ ch '\\')
    (hr : escRead (txt ++ tl) (txt.length + k) = .ok (some (BitVec.ofNat 32 v, tl))) :
    escapeChar (txt ++ tl) (txt.length + k) e ty
      = .ok (some (tl, k, writeChar ty (BitVec.ofNat 32 v))) := by
  obtain ⟨t, rfl⟩ := h0
  unfold escapeChar
  rw [if_neg (by simp)]
  simp only [List.cons_append]
  rw [if_neg (Ne.symm he)]
  rw [List.cons_append] at hr
  rw [hr]
  simp only [Res.bind_ok, Res.pure_eq]
  congr 4
  simp; omega

/-- One raw byte in a narrow literal. -/
theorem escapeChar_raw (ty : StrType) (e c : Byte) (tl : List Byte) (k : Nat)
    (hty : enc ty = .narrow) (hc : c ≠ ch '\\') (hce : c ≠ e) :
    escapeChar (c :: tl) (k + 1) e ty = .ok (some (tl, k, [c])) := by
  unfold escapeChar
  rw [if_neg (by omega)]
  simp only [hce, if_false]
  rw [escRead_plain c tl _ hc]
  have hc8 : (c.signExtend 32).setWidth 8 = c := by
    have : ∀ c : Byte, (c.signExtend 32).setWidth 8 = c := by decide +kernel
    exact this c
  cases ty <;> simp [enc] at hty <;> simp [writeChar, hc8]

/-- One source character in a wide literal. -/
theorem escapeChar_wide (ty : StrType) (e : Byte) (cp : Nat) (tl : List Byte) (k : Nat)
    (hty : enc ty ≠ .narrow) (he : e.toNat < 128) (h : cp ≤ 0x10ffff) (h92 : cp ≠ 92) (hq : cp ≠ e.toNat) :
    escapeChar (Utf8.specUtf8 cp ++ tl) ((Utf8.specUtf8 cp).length + k) e ty
      = .ok (some (tl, k, writeChar ty (BitVec.ofNat 32 cp))) := by
  have hl := (Utf8.specUtf8_length cp).1
  have hp := specUtf8_plain cp e he h h92 hq
  have hd := Utf8.decode_spec cp h tl
  have hlen : (Utf8.specUtf8 cp).length + k - ((Utf8.specUtf8 cp ++ tl).length - tl.length) = k := by
    simp
  match hs : Utf8.specUtf8 cp with
  | [] => simp [hs] at hl
  | c :: t =>
    rw [hs] at hp hd hlen
    have hc := hp c (by simp)
    unfold escapeChar
    rw [if_neg (by simp)]
    simp only [List.cons_append] at hd hlen ⊢
    rw [if_neg hc.2.1, escRead_plain _ _ _ hc.1]
    simp only [Res.bind_ok]
    rw [if_pos (by cases ty <;> simp_all [enc]), hd]
    simp only [Res.bind_ok, Res.pure_eq, hlen]

theorem escapeLoop_some (fuel : Nat) (input : List Byte) (len : Nat) (e : Byte) (ty : StrType)
    (buf : List Byte) (i' : List Byte) (l' : Nat) (bs : List Byte)
    (h : escapeChar input len e ty = .ok (some (i', l', bs))) :
    escapeLoop (fuel + 1) input len e ty buf = escapeLoop fuel i' l' e ty (buf ++ bs) := by
  simp [escapeLoop, h]

theorem escapeLoop_raw (ty : StrType) (e : Byte) (hty : enc ty = .narrow) (bs tl : List Byte) (k fuel : Nat)
    (buf : List Byte) (hb : ∀ b ∈ bs, b ≠ ch '\\' ∧ b ≠ e ∧ b.toNat < 255) :
    escapeLoop (bs.length + fuel) (bs ++ tl) (bs.length + k) e ty buf
      = escapeLoop fuel tl k e ty (buf ++ bs) := by
  induction bs generalizing buf with
  | nil => simp
  | cons b bs ih =>
    have h := hb b (by simp)
    rw [List.length_cons, show bs.length + 1 + fuel = (bs.length + fuel) + 1 by omega,
      show bs.length + 1 + k = (bs.length + k) + 1 by omega, List.cons_append]
    rw [escapeLoop_some _ _ _ _ _ _ _ _ _ (escapeChar_raw ty e b (bs ++ tl) (bs.length + k) hty h.1 h.2.1)]
    rw [ih _ (fun b hb' => hb b (by simp [hb']))]
    simp

/-- Restriction under which the reader agrees with the standard: hexadecimal
escapes have one digit, and UTF-16 literals contain no supplementary characters. -/
def Supported (en : Enc) : Item → Prop
  | .hex ds => ds.length = 1
  | .plain cp => en = .utf16 → cp < 0x10000
  | _ => True

theorem render_cons_length (i : Item) (is : List Item) :
    (renderAll (i :: is)).length = (render i).length + (renderAll is).length := by
  simp [renderAll]

theorem renderAll_cons (i : Item) (is : List Item) (tl : List Byte) :
    renderAll (i :: is) ++ tl = render i ++ (renderAll is ++ tl) := by
  simp [renderAll]

theorem digitsVal_one (b d : Nat) : digitsVal b [d] = d := by simp [digitsVal]

theorem digitsVal_lt (b : Nat) (ds : List Nat) (hd : ∀ d ∈ ds, d < b) : digitsVal b ds < b ^ ds.length := by
  suffices h : ∀ r k, r < b ^ k → ds.foldl (fun r d => r * b + d) r < b ^ (k + ds.length) by
    have := h 0 0 (by simp); simpa [digitsVal] using this
  induction ds with
  | nil => intro r k h; simpa using h
  | cons d ds ih =>
    intro r k h
    have hd0 := hd d (by simp)
    have := ih (fun d h' => hd d (by simp [h'])) (r * b + d) (k + 1) (by
      rw [Nat.pow_succ]
      calc r * b + d < r * b + b := by omega
        _ = (r + 1) * b := by rw [Nat.add_mul]; omega
        _ ≤ b ^ k * b := Nat.mul_le_mul_right _ h)
    simp only [List.foldl_cons, List.length_cons]
    rwa [show k + (ds.length + 1) = k + 1 + ds.length by omega]

/-- The reading loop over a whole body. -/
theorem escapeLoop_body (ty : StrType) (q : Byte) (hq : q.toNat < 128) (hq2 : q ≠ ch '\\')
    (is : List Item) (hwf : BodyWF q is) (hsup : ∀ i ∈ is, Supported (enc ty) i)
    (rest : List Byte) (k fuel : Nat) (buf : List Byte)
    (hf : (renderAll is).length < fuel) :
    escapeLoop fuel (renderAll is ++ q :: rest) ((renderAll is).length + (k + 1)) q ty buf
      = .ok (buf ++ denoteAll (enc ty) is) := by
  induction is generalizing fuel buf with
  | nil =>
    obtain ⟨fuel, rfl⟩ : ∃ f, fuel = f + 1 := ⟨fuel - 1, by omega⟩
    have : escapeChar (q :: rest) (k + 1) q ty = .ok none := by simp [escapeChar]
    simp [renderAll, denoteAll, escapeLoop, this]
  | cons i is ih =>
    obtain ⟨hi, hrest⟩ := hwf
    have hs := hsup i (by simp)
    obtain ⟨c, t, hct, hc255, hchead⟩ := next_byte q hq is hrest rest
    rw [renderAll_cons, render_cons_length, Nat.add_assoc]
    rw [render_cons_length] at hf
    have ih' := fun fuel buf hf => ih hrest (fun i hi => hsup i (by simp [hi])) fuel buf hf
    have hden : denoteAll (enc ty) (i :: is) = denote (enc ty) i ++ denoteAll (enc ty) is := by
      simp [denoteAll]
    rw [hden]
    -- a step that consumes one escape item
    have esc : ∀ v, (∃ t, render i = ch '\\' :: t) → v < 2 ^ 32 →
        (∀ n, (render i).length ≤ n → escRead (render i ++ (renderAll is ++ q :: rest)) n
          = .ok (some (BitVec.ofNat 32 v, renderAll is ++ q :: rest))) →
        denote (enc ty) i = writeChar ty (BitVec.ofNat 32 v) →
        escapeLoop fuel (render i ++ (renderAll is ++ q :: rest))
          ((render i).length + ((renderAll is).length + (k + 1))) q ty buf
          = .ok (buf ++ (denote (enc ty) i ++ denoteAll (enc ty) is)) := by
      intro v h0 hv hr hde
      obtain ⟨fuel, rfl⟩ : ∃ f, fuel = f + 1 := ⟨fuel - 1, by omega⟩
      have hstep := escapeChar_esc ty q (render i) (renderAll is ++ q :: rest)
        ((renderAll is).length + (k + 1)) v h0 hq2 (hr _ (by omega))
      rw [escapeLoop_some _ _ _ _ _ _ _ _ _ hstep]
      rw [ih' fuel _ (by
        obtain ⟨t, ht⟩ := h0
        have : 1 ≤ (render i).length := by rw [ht]; simp
        omega)]
      rw [hde, List.append_assoc]
    cases i with
    | plain cp =>
      obtain ⟨h1, h2, h3⟩ := hi
      have hl := (Utf8.specUtf8_length cp).1
      by_cases hn : enc ty = .narrow
      · have hp := specUtf8_plain cp q hq h1 h2 h3
        simp only [render] at hf ⊢
        have := escapeLoop_raw ty q hn (Utf8.specUtf8 cp) (renderAll is ++ q :: rest)
          ((renderAll is).length + (k + 1)) (fuel - (Utf8.specUtf8 cp).length) buf hp
        rw [show (Utf8.specUtf8 cp).length + (fuel - (Utf8.specUtf8 cp).length) = fuel by omega] at this
        rw [this, ih' _ _ (by omega)]
        simp [hn, denote]
      · simp only [render] at hf ⊢
        obtain ⟨fuel, rfl⟩ : ∃ f, fuel = f + 1 := ⟨fuel - 1, by omega⟩
        rw [escapeLoop_some _ _ _ _ _ _ _ _ _
          (escapeChar_wide ty q cp (renderAll is ++ q :: rest) ((renderAll is).length + (k + 1)) hn hq h1 h2 h3)]
        rw [ih' _ _ (by omega), writeChar_le ty cp (by omega)]
        have hd : (match enc ty with
          | .narrow => [BitVec.ofNat 8 cp] | .utf16 => le 2 cp | .utf32 => le 4 cp)
          = denote (enc ty) (.plain cp) := by
          cases he : enc ty with
          | narrow => exact absurd he hn
          | utf16 => simp [denote, (hs : enc ty = .utf16 → cp < 0x10000) he]
          | utf32 => simp [denote, value]
        rw [hd, List.append_assoc]
    | simple c =>
      obtain ⟨v, hv⟩ := Option.isSome_iff_exists.mp (hi : (simpleVal c).isSome)
      have hvlt : v < 2 ^ 8 := by
        unfold simpleVal at hv; split at hv <;> first | (cases hv; decide) | cases hv
      refine esc v ⟨_, rfl⟩ (by omega) (fun n hn => ?_) ?_
      · simp only [render, List.cons_append, List.nil_append]
        exact escRead_simple c v _ n hv (by simpa [render] using hn)
      · rw [writeChar_le ty v (by omega)]
        cases he : enc ty <;> simp [denote, value, hv]
    | oct ds =>
      obtain ⟨h1, h2, h3, h4⟩ := hi
      have hvlt := digitsVal_lt 8 ds h3
      have hpow : 8 ^ ds.length ≤ 8 ^ 3 := Nat.pow_le_pow_right (by omega) h2
      refine esc (digitsVal 8 ds) ⟨_, rfl⟩ (by omega) (fun n hn => ?_) ?_
      · simp only [render, List.cons_append]
        refine escRead_oct ds _ n h1 h2 h3 (by simpa [render] using hn) ?_
        intro hlt
        refine ⟨c, t, hct, ?_⟩
        rw [isOctal_spec c hc255, h4 hlt c (by simp [hchead])]
      · rw [writeChar_le ty _ (by omega)]
        cases he : enc ty <;> simp [denote, value]
    | hex ds =>
      obtain ⟨h1, h2, h3⟩ := hi
      have hlen : ds.length = 1 := hs
      obtain ⟨d, rfl⟩ : ∃ d, ds = [d] := List.length_eq_one_iff.mp hlen
      have hd16 := h2 d (by simp)
      refine esc d ⟨_, rfl⟩ (by omega) (fun n hn => ?_) ?_
      · simp only [render, List.cons_append]
        have := escRead_hex [d] (renderAll is ++ q :: rest) n h2 (by simpa [render] using hn)
          ⟨c, t, hct, by rw [isHexadecimal_spec c hc255, h3 c (by simp [hchead])]⟩
        rw [digitsVal_one] at this
        exact this
      · rw [writeChar_le ty _ (by omega)]
        cases he : enc ty <;> simp [denote, value, digitsVal_one]

end Verif.Escape
