import Verif.Literals
import Verif.LiteralsSpec
import Verif.EscapeProps
/-! Lemmas about literals. -/
namespace Verif.Literals
open Verif Simple Preprocessed Escape EscapeSpec LiteralsSpec

/-! ### Floating constants -/

theorem mem_dropWhile {α} (p : α → Bool) (l : List α) (c : α) (h : c ∈ l) (hp : p c = false) : c ∈ l.dropWhile p := by
  induction l with
  | nil => cases h
  | cons x xs ih =>
    rw [List.dropWhile_cons]
    split
    · rename_i hx
      rcases List.mem_cons.1 h with rfl | h
      · simp [hx] at hp
      · exact ih h
    · exact h

theorem any_rest (p q : Byte → Bool) (l : Str) (c : Byte) (h : c ∈ l) (hp : p c = false) (hq : q c = true) :
    (l.dropWhile p).any q = true := List.any_eq_true.2 ⟨c, mem_dropWhile p l c h hp, hq⟩

/-- No letter of a prefix. -/
def NoPrefix (c : Byte) : Prop := c ≠ ch 'x' ∧ c ≠ ch 'X' ∧ c ≠ ch 'b' ∧ c ≠ ch 'B'

theorem floatPrefix_none (s : Str) (h : ∀ c ∈ s, NoPrefix c) : floatPrefix s = (false, s) := by
  match s, h with
  | [], _ => rfl
  | [_], _ => rfl
  | c :: d :: r, h =>
    have := h d (by simp)
    simp only [floatPrefix]
    rw [if_neg (fun hh => hh.2.elim this.1 this.2.1), if_neg (fun hh => hh.2.elim this.2.2.1 this.2.2.2)]

theorem isFloat_dec (s : Str) (h : ∀ c ∈ s, NoPrefix c) (c : Byte) (hc : c ∈ s) (h1 : c = ch '.' ∨ c = ch 'e' ∨ c = ch 'E') :
    isFloat s = true := by
  simp only [isFloat, floatPrefix_none s h]
  refine any_rest _ _ _ c hc ?_ ?_ <;> rcases h1 with rfl | rfl | rfl <;> decide

theorem isFloat_hex (x : Byte) (hx : x = ch 'x' ∨ x = ch 'X') (s : Str) (c : Byte) (hc : c ∈ s) (h1 : c = ch 'p' ∨ c = ch 'P') :
    isFloat (ch '0' :: x :: s) = true := by
  simp only [isFloat, floatPrefix, true_and, if_pos hx]
  refine any_rest _ _ _ c hc ?_ ?_ <;> rcases h1 with rfl | rfl <;> decide

theorem dec_facts : ∀ c : Byte, Dec c → NoPrefix c ∧ (c ≠ ch 'f' ∧ c ≠ ch 'F' ∧ c ≠ ch 'l' ∧ c ≠ ch 'L') := by
  unfold Dec NoPrefix; decide +kernel

/-- What the end of a constant tells. -/
def Ends (s : Str) : Prop := ∃ c, s.getLast? = some c ∧ c ≠ ch 'f' ∧ c ≠ ch 'F' ∧ c ≠ ch 'l' ∧ c ≠ ch 'L'

theorem ends_append {a b : Str} (h : Ends b) : Ends (a ++ b) := by
  obtain ⟨c, h, r⟩ := h
  exact ⟨c, by rw [List.getLast?_append, h]; rfl, r⟩

theorem ends_cons {x : Byte} {b : Str} (h : Ends b) : Ends (x :: b) := ends_append (a := [x]) h

theorem ends_digits {ds : Str} (h : Digits Dec ds) : Ends ds := by
  cases e : ds.getLast? with
  | none => exact absurd (List.getLast?_eq_none_iff.1 e) h.1
  | some c => exact ⟨c, e, (dec_facts c (h.2 c (List.mem_of_getLast? e))).2⟩

theorem ends_exponent {a b : Byte} {e : Str} (h : Exponent a b e) : Ends e := by
  obtain ⟨l, sign, ds, rfl, _, _, hd⟩ := h
  exact ends_cons (ends_append (ends_digits hd))

theorem ends_fraction {f : Str} (h : Fractional Dec f) : Ends f := by
  obtain ⟨a, b, rfl, _, _, hb⟩ := h
  refine ends_append ?_
  cases b with
  | nil => exact ⟨ch '.', rfl, by decide⟩
  | cons x xs => exact ends_cons (ends_digits ⟨by simp, hb⟩)

theorem fraction_chars {f : Str} (h : Fractional Dec f) : (∀ c ∈ f, NoPrefix c) ∧ ch '.' ∈ f := by
  obtain ⟨a, b, rfl, _, ha, hb⟩ := h
  refine ⟨fun c hc => ?_, by simp⟩
  rcases List.mem_append.1 hc with hc | hc
  · exact (dec_facts c (ha c hc)).1
  · rcases List.mem_cons.1 hc with rfl | hc
    · unfold NoPrefix; decide
    · exact (dec_facts c (hb c hc)).1

theorem exponent_chars {a b : Byte} {e : Str} (h : Exponent a b e) (ha : NoPrefix a) (hb : NoPrefix b) :
    (∀ c ∈ e, NoPrefix c) ∧ ∃ c, c ∈ e ∧ (c = a ∨ c = b) := by
  obtain ⟨l, sign, ds, rfl, hl, hs, hd⟩ := h
  refine ⟨fun c hc => ?_, l, by simp, hl⟩
  rcases List.mem_cons.1 hc with rfl | hc
  · rcases hl with rfl | rfl <;> assumption
  rcases List.mem_append.1 hc with hc | hc
  · rcases hs with rfl | rfl | rfl
    · cases hc
    · simp at hc; subst hc; unfold NoPrefix; decide
    · simp at hc; subst hc; unfold NoPrefix; decide
  · exact (dec_facts c (hd.2 c hc)).1

/-- A floating constant ends properly, and is recognised with a suffix that has no letter of a prefix. -/
theorem floating_facts {s : Str} (h : Floating s) :
    Ends s ∧ ∀ sp : Str, (∀ c ∈ sp, NoPrefix c) → isFloat (s ++ sp) = true := by
  have ne : NoPrefix (ch 'e') := by unfold NoPrefix; decide
  have nE : NoPrefix (ch 'E') := by unfold NoPrefix; decide
  have np : NoPrefix (ch 'p') := by unfold NoPrefix; decide
  have nP : NoPrefix (ch 'P') := by unfold NoPrefix; decide
  cases h with
  | fraction hf =>
    obtain ⟨c1, c2⟩ := fraction_chars hf
    refine ⟨ends_fraction hf, fun sp hsp => isFloat_dec _ (fun c hc => ?_) (ch '.') (by simp [c2]) (.inl rfl)⟩
    exact (List.mem_append.1 hc).elim (c1 c) (hsp c)
  | fractionExp hf he =>
    obtain ⟨c1, c2⟩ := fraction_chars hf
    obtain ⟨d1, _⟩ := exponent_chars he ne nE
    refine ⟨ends_append (ends_exponent he), fun sp hsp => isFloat_dec _ (fun c hc => ?_) (ch '.') (by simp [c2]) (.inl rfl)⟩
    exact (List.mem_append.1 hc).elim (fun hc => (List.mem_append.1 hc).elim (c1 c) (d1 c)) (hsp c)
  | digitsExp hf he =>
    obtain ⟨d1, l, hl, hl'⟩ := exponent_chars he ne nE
    refine ⟨ends_append (ends_exponent he), fun sp hsp => isFloat_dec _ (fun c hc => ?_) l (by simp [hl]) (.inr hl')⟩
    exact (List.mem_append.1 hc).elim (fun hc => (List.mem_append.1 hc).elim (fun hc => (dec_facts c (hf.2 c hc)).1) (d1 c)) (hsp c)
  | hexFraction hx hf he =>
    obtain ⟨_, l, hl, hl'⟩ := exponent_chars he np nP
    exact ⟨ends_cons (ends_cons (ends_append (ends_exponent he))),
      fun sp _ => isFloat_hex _ hx _ l (by simp [hl]) hl'⟩
  | hexDigits hx hf he =>
    obtain ⟨_, l, hl, hl'⟩ := exponent_chars he np nP
    exact ⟨ends_cons (ends_cons (ends_append (ends_exponent he))),
      fun sp _ => isFloat_hex _ hx _ l (by simp [hl]) hl'⟩

/-! ### Elements -/

theorem le_length (w v : Nat) : (le w v).length = w := by
  induction w generalizing v with
  | zero => rfl
  | succ w ih => simp [le, ih]

theorem number_le (w v : Nat) (h : v < 256 ^ w) : LiteralsSpec.number (le w v) = v := by
  induction w generalizing v with
  | zero => simp [le, LiteralsSpec.number] at *; omega
  | succ w ih =>
    have : v / 256 < 256 ^ w := by
      rw [Nat.div_lt_iff_lt_mul (by decide)]; rw [Nat.pow_succ] at h; exact h
    simp only [le, LiteralsSpec.number, ih _ this, BitVec.toNat_ofNat]
    omega

theorem holds_flatten (w : Nat) (us : List Nat) (h : ∀ u ∈ us, u < 256 ^ w) : Holds w us (us.map (le w)).flatten := by
  induction us with
  | nil => exact ⟨by simp, fun j u h => by simp at h⟩
  | cons x xs ih =>
    obtain ⟨h1, h2⟩ := ih fun u hu => h u (by simp [hu])
    refine ⟨by simp [le_length, h1, Nat.add_mul]; omega, fun j u hj => ?_⟩
    cases j with
    | zero =>
      simp at hj; subst hj
      rw [Nat.zero_mul, List.drop_zero, List.map_cons, List.flatten_cons, List.take_left' (le_length w x),
        number_le w x (h x (by simp))]
    | succ j =>
      simp at hj
      rw [List.map_cons, List.flatten_cons, Nat.add_mul, Nat.one_mul, Nat.add_comm, ← List.drop_drop,
        List.drop_left' (le_length w x)]
      exact h2 j u hj

theorem le_one (b : Byte) : le 1 b.toNat = [b] := by simp [le]

theorem utf8_bytes (bs : List Byte) : ((bs.map BitVec.toNat).map (le 1)).flatten = bs := by
  induction bs with
  | nil => rfl
  | cons b bs ih => simp only [List.map_cons, List.flatten_cons, ih, le_one]; rfl

theorem denote_units (e : Enc) (i : Item) : denote e i = ((units e i).map (le (width e))).flatten := by
  cases e <;> cases i <;> simp only [denote, units, width]
  case narrow.plain => exact (utf8_bytes _).symm
  case utf16.plain => split <;> simp
  all_goals simp [le]

theorem nul_units (e : Enc) : nul e = ([0].map (le (width e))).flatten := by cases e <;> rfl

theorem units_lt (e : Enc) (q : Byte) (next : List Byte) (i : Item) (hw : ItemWF q next i) (hf : Fits e i) :
    ∀ u ∈ units e i, u < 256 ^ width e := by
  intro u hu
  cases i with
  | plain cp =>
    have := hw.1
    cases e with
    | narrow =>
      simp only [units, List.mem_map] at hu
      obtain ⟨b, _, rfl⟩ := hu
      simp only [width]; have := b.isLt; omega
    | utf16 =>
      simp only [units] at hu
      simp only [width]
      split at hu
      · simp at hu; omega
      · simp at hu; omega
    | utf32 => simp [units, value] at hu; simp only [width]; omega
  | simple c => cases e <;> simp [units] at hu <;> subst hu <;> exact hf
  | oct ds => cases e <;> simp [units] at hu <;> subst hu <;> exact hf
  | hex ds => cases e <;> simp [units] at hu <;> subst hu <;> exact hf

theorem denoteAll_units (e : Enc) (is : List Item) :
    denoteAll e is = ((is.map (units e)).flatten.map (le (width e))).flatten := by
  induction is with
  | nil => rfl
  | cons i is ih =>
    have : denoteAll e (i :: is) = denote e i ++ denoteAll e is := rfl
    rw [this, ih, denote_units]; simp

theorem body_units_lt (e : Enc) (q : Byte) (is : List Item) (hw : BodyWF q is) (hf : ∀ i ∈ is, Fits e i) :
    ∀ u ∈ (is.map (units e)).flatten, u < 256 ^ width e := by
  induction is with
  | nil => simp
  | cons i is ih =>
    intro u hu
    rw [List.map_cons, List.flatten_cons] at hu
    rcases List.mem_append.1 hu with hu | hu
    · exact units_lt e q _ i hw.1 (hf i (by simp)) u hu
    · exact ih hw.2 (fun j hj => hf j (by simp [hj])) u hu

/-! ### Characters -/

theorem testBit_part (v k i : Nat) (h : k ≤ i) : (v / 2 ^ k).testBit (i - k) = v.testBit i := by
  rw [Nat.testBit_div_two_pow]; congr 1; omega

theorem join4 (v : Nat) : ((BitVec.ofNat 8 v).setWidth 32 ||| ((BitVec.ofNat 8 (v / 256)).setWidth 32 <<< 8) |||
    ((BitVec.ofNat 8 (v / 256 / 256)).setWidth 32 <<< 16) ||| ((BitVec.ofNat 8 (v / 256 / 256 / 256)).setWidth 32 <<< 24))
    = BitVec.ofNat 32 v := by
  apply BitVec.eq_of_getLsbD_eq
  intro i hi
  have e1 : v / 256 = v / 2 ^ 8 := rfl
  have e2 : v / 256 / 256 = v / 2 ^ 16 := by omega
  have e3 : v / 256 / 256 / 256 = v / 2 ^ 24 := by omega
  rw [e3, e2, e1]
  clear e1 e2 e3
  simp only [BitVec.getLsbD_or, BitVec.getLsbD_shiftLeft, BitVec.getLsbD_setWidth, BitVec.getLsbD_ofNat]
  by_cases h1 : i < 8
  · have : i < 16 := by omega
    have : i < 24 := by omega
    simp [*]
  by_cases h2 : i < 16
  · have : i < 24 := by omega
    have a : 8 + (i - 8) = i := by omega
    have b : i - 8 < 8 := by omega
    have c : i - 8 < 32 := by omega
    simp [*]
    exact testBit_part v 8 i (by omega)
  by_cases h3 : i < 24
  · have a : 16 + (i - 16) = i := by omega
    have b : i - 16 < 8 := by omega
    have c : i - 16 < 32 := by omega
    have d : ¬ i - 8 < 8 := by omega
    simp [*]
    exact testBit_part v 16 i (by omega)
  · have a : 24 + (i - 24) = i := by omega
    have b : i - 24 < 8 := by omega
    have c : i - 24 < 32 := by omega
    have d : ¬ i - 8 < 8 := by omega
    have e : ¬ i - 16 < 8 := by omega
    simp [*]
    exact testBit_part v 24 i (by omega)

theorem join2 (v : Nat) (h : v < 2 ^ 16) :
    ((BitVec.ofNat 8 v).setWidth 32 ||| ((BitVec.ofNat 8 (v / 256)).setWidth 32 <<< 8)) = BitVec.ofNat 32 v := by
  have := join4 v
  have z1 : v / 256 / 256 = 0 := by omega
  rw [z1] at this
  simpa using this

theorem extend (v : Nat) (h : v < 2 ^ 31) : (BitVec.ofNat 32 v).signExtend 64 = BitVec.ofNat 64 v := by
  rw [BitVec.signExtend_eq_setWidth_of_msb_false]
  · apply BitVec.eq_of_toNat_eq; simp; omega
  · rw [BitVec.msb_eq_decide]; simp; omega

theorem shift_zero (n : Nat) : shiftLeft 0 n = .ok 0 := by simp [shiftLeft]

theorem wchar_one (v : Nat) (h : v < 2 ^ 31) : wcharLoop 0 (le 4 v) = .ok (BitVec.ofNat 64 v) := by
  simp only [le, wcharLoop, shift_zero, Res.bind_ok, fourBytes]
  rw [if_neg (by simp; omega), Res.bind_ok, join4, extend v h]
  simp

theorem char16_one (v : Nat) (h : v < 2 ^ 16) : char16Loop 0 (le 2 v) = .ok (BitVec.ofNat 64 v) := by
  simp only [le, char16Loop, shift_zero, Res.bind_ok]
  rw [join2 v h, extend v (by omega)]
  simp

/-- The text of a character constant. -/
def charText (p : StrType) (is : List Item) : Str := prefixText p ++ ch '\'' :: (renderAll is ++ [ch '\''])

theorem takePrefix_char (p : StrType) (is : List Item) :
    takePrefix (charText p is) = (p, ch '\'' :: (renderAll is ++ [ch '\''])) := by
  have n : ∀ c ∈ [ch 'u', ch 'U', ch 'L', ch '8'], ch '\'' ≠ c := by decide
  have n1 := n (ch 'u') (by simp)
  have n2 := n (ch 'U') (by simp)
  have n3 := n (ch 'L') (by simp)
  have n4 := n (ch '8') (by simp)
  have m1 : ch 'U' ≠ ch 'u' := by decide
  have m2 : ch 'L' ≠ ch 'u' := by decide
  have m3 : ch 'L' ≠ ch 'U' := by decide
  cases p <;> simp [charText, prefixText, takePrefix, n1, n2, n3, n4, m1, m2, m3]

theorem escape_char (p : StrType) (is : List Item) (hw : BodyWF (ch '\'') is) (hs : ∀ i ∈ is, Supported (enc p) i) :
    escapeString ((ch '\'' :: (renderAll is ++ [ch '\''])) ++ [0]) (ch '\'' :: (renderAll is ++ [ch '\''])).length p []
      = .ok (denoteAll (enc p) is) := by
  have hb := escapeLoop_body p (ch '\'') (by decide) (by decide) is hw hs [0] 0
    ((renderAll is ++ [ch '\'', 0]).length + 1) [] (by simp; omega)
  simp only [escapeString, List.cons_append, List.length_cons]
  rw [if_neg (by omega), if_neg (by decide)]
  simpa using hb

theorem single_char (p : StrType) (is : List Item) (t : Tok) (ht : t.type = .T_CHARACTER_CONSTANT)
    (hx : t.str = charText p is) (hw : BodyWF (ch '\'') is) (hs : ∀ i ∈ is, Supported (enc p) i) (ty : TType)
    (hty : Preprocessed.charType p = .ok ty) :
    single t = .ok { t with type := ty, str := denoteAll (enc p) is } := by
  unfold single
  rw [if_neg (by rw [ht]; decide), if_pos ht]
  simp only [hx, takePrefix_char, hty, Res.bind_ok, escape_char p is hw hs]
  rfl

end Verif.Literals
