import Verif.SimpleLemmas
/-!
Properties C15 (integer constants), C16 (constant casts), C17 (constant folding),
C18 (usual arithmetic conversions).
-/
namespace Verif.Simple
open Verif SimpleSpec

/-! ### C16 -/

/-- Full statement of **C16**: the cast of a valid integer constant to an integer type is
its conversion. -/
def CastIsConversion : Prop :=
  ∀ (abi : Abi) (c : Const) (t : ST), Valid abi c → IsInt t →
    ∃ c', simpleCast abi c t = .ok c' ∧ c'.ty = t ∧ IsConversion abi t (val c) (val c')

/-- **C16 (partial)**: to every integer type except `_Bool`, from every integer type
including `_Bool`: the result has the target type, is in its range, and is congruent to
the source value modulo 2^width.  Missing: `_Bool` as a target (false, below). -/
theorem cast_is_conversion_partial (abi : Abi) (c : Const) (t : ST) (hc : Valid abi c)
    (ht : IsInt t) (hb : t ≠ .bool) :
    ∃ c', simpleCast abi c t = .ok c' ∧ c'.ty = t ∧ IsConversion abi t (val c) (val c') := by
  obtain ⟨r, rmin, rmax, h1, h2, h3, h4, h5, h6, h7⟩ := target_masks abi t ht hb
  have hv : t ≠ .void := by rintro rfl; exact absurd ht (by decide)
  by_cases hsame : t = c.ty
  · subst hsame
    refine ⟨c, by simp [simpleCast], rfl, ?_⟩
    simp only [IsConversion, hb, if_false]
    exact ⟨hc.2, by simp⟩
  · have hi := (isInteger_iff c.ty).2 hc.1
    have hi' := (isInteger_iff t).2 ht
    have hs := isSigned_int c.ty hc.1
    simp only [IsConversion, hb, if_false]
    cases hts : signed t with
    | true =>
      have hm := h6 hts
      cases hcs : signed c.ty with
      | true =>
        refine ⟨⟨t, convII c.bits rmin rmax⟩, ?_, rfl, ?_⟩
        · simp [simpleCast, hv, hsame, hi, hi', h1, h2, h3, h4, hs, hts, hcs]
        · have := conv_signed hts hm h5 c
          simpa [val, hts, convII_eq hm] using this
      | false =>
        refine ⟨⟨t, convUI c.bits rmin rmax⟩, ?_, rfl, ?_⟩
        · simp [simpleCast, hv, hsame, hi, hi', h1, h2, h3, h4, hs, hts, hcs]
        · have := conv_signed hts hm h5 c
          simpa [val, hts] using this
    | false =>
      have hm := (h7 hts).2
      cases hcs : signed c.ty with
      | true =>
        refine ⟨⟨t, convIU c.bits rmax⟩, ?_, rfl, ?_⟩
        · simp [simpleCast, hv, hsame, hi, hi', h1, h2, h3, h4, hs, hts, hcs]
        · have := conv_unsigned hts hm h5 c
          simpa [val, hts, convIU] using this
      | false =>
        refine ⟨⟨t, convUU c.bits rmax⟩, ?_, rfl, ?_⟩
        · simp [simpleCast, hv, hsame, hi, hi', h1, h2, h3, h4, hs, hts, hcs]
        · have := conv_unsigned hts hm h5 c
          simpa [val, hts, convUU] using this

/-- The conversion is unique, so the theorem above determines the value. -/
theorem conversion_unique (abi : Abi) (t : ST) (ht : IsInt t) (v w w' : Int)
    (h : IsConversion abi t v w) (h' : IsConversion abi t v w') : w = w' := by
  unfold IsConversion at h h'
  split at h
  · rename_i hb; rw [if_pos hb] at h'; rw [h, h']
  · rename_i hb
    rw [if_neg hb] at h'
    obtain ⟨a1, a2⟩ := h
    obtain ⟨b1, b2⟩ := h'
    have hd : (2 ^ width abi t : Int) ∣ (w - w') := by
      have := Int.dvd_sub a2 b2
      rwa [show w - v - (w' - v) = w - w' by omega] at this
    obtain ⟨k, hk⟩ := hd
    revert a1 b1 hk
    cases abi <;> cases t <;>
      first
      | exact absurd ht (by decide)
      | (simp only [InRange, inBits, signed, width]; simp; omega)

/-- **C16 is violated**: `(_Bool)256` is folded to 0 and `(_Bool)2` to the invalid value 2. -/
theorem cast_to_bool_violated : ¬ CastIsConversion := by
  intro h
  obtain ⟨c', h1, _, h3⟩ := h .sysv ⟨.int, 256⟩ .bool (by decide) (by decide)
  have : c' = ⟨.bool, 0⟩ := by
    have h2 : simpleCast .sysv ⟨.int, 256⟩ .bool = .ok ⟨.bool, 0⟩ := by decide
    rw [h2] at h1; injection h1 with h1; exact h1.symm
  subst this
  revert h3
  simp only [IsConversion]; decide

example : simpleCast .sysv ⟨.int, 2⟩ .bool = .ok ⟨.bool, 2⟩ := by decide

/-- Hypotheses: casting the `int` -200 to `signed char` gives 56, to `unsigned long` on LP64
gives 2^64-200. -/
example : Valid .sysv ⟨.int, -200⟩ ∧ simpleCast .sysv ⟨.int, -200⟩ .schar = .ok ⟨.schar, 56⟩ ∧
    simpleCast .sysv ⟨.int, -200⟩ .ulong = .ok ⟨.ulong, 18446744073709551416⟩ ∧
    simpleCast .ms ⟨.int, -200⟩ .ulong = .ok ⟨.ulong, 4294967096⟩ := by decide

/-! ### C15 -/

/-- What 6.4.4.1 says about the constant `pre ds sp`: its type and value, or that it is
not valid. -/
def constantSpec (abi : Abi) (b : Base) (s : Suffix) (n : Nat) : Res Const :=
  match constantType abi (b = .dec) s n with
  | some t => .ok ⟨t, BitVec.ofNat 64 n⟩
  | none => .fail

/-- Full statement of **C15**. -/
def IntegerConstantsExact : Prop :=
  ∀ (abi : Abi) (b : Base) (pre ds sp : Str) (s : Suffix),
    IsConstant b pre ds → sp ∈ spellings s →
    integerConstant abi (pre ++ ds ++ sp) = constantSpec abi b s (number b (ds))

theorem number_eq (b : Base) (ds : Str) :
    number b ds = ds.foldl (fun a c => a * radix b + (dval c).getD 0) 0 := rfl

theorem zero_digit (b : Base) : IsDigit b (ch '0') := ⟨0, by decide, by cases b <;> decide⟩

theorem digits_const (abi : Abi) (b : Base) (ds sp : Str) (s : Suffix) (n : Nat)
    (hd : ∀ c ∈ ds, IsDigit b c) (hs : sp ∈ spellings s) (hn : number b ds = n) (hlt : n < 2 ^ 64) :
    (do
      let (v, rest) := digits b 0 (ds ++ sp)
      let a ← suffix { uns := b = .hex ∨ b = .oct ∨ b = .bin } rest
      pickType abi v a) = constantSpec abi b s n := by
  obtain ⟨s1, s2, _, _⟩ := suffix_table s sp hs (decide (b = .hex ∨ b = .oct ∨ b = .bin))
  have h := digits_spec b ds sp hd (s2 b) 0
  rw [show (0 : BitVec 64) = BitVec.ofNat 64 0 from rfl, h]
  simp only [s1, Res.bind_ok]
  rw [← number_eq, hn]
  have := pickType_spec abi (decide (b = .dec)) s n hlt
  rw [show (!decide (b = Base.dec)) = decide (b = .hex ∨ b = .oct ∨ b = .bin) by cases b <;> rfl] at this
  exact this

/-- **C15 (partial)**: for every notation, digit string of any length and suffix, if the
number spelled is below 2^64 the constant has exactly that value and the type the table
of 6.4.4.1 prescribes, or is rejected if no listed type can hold it.
Missing: numbers of 2^64 and more, which are not rejected (below). -/
theorem integer_constant_partial (abi : Abi) (b : Base) (pre ds sp : Str) (s : Suffix)
    (hc : IsConstant b pre ds) (hs : sp ∈ spellings s) (hlt : number b ds < 2 ^ 64) :
    integerConstant abi (pre ++ ds ++ sp) = constantSpec abi b s (number b ds) := by
  obtain ⟨hd, hp⟩ := hc
  cases b with
  | dec =>
    obtain ⟨rfl, c, cs, rfl, h0⟩ := hp
    have hb : baseOf ([] ++ (c :: cs) ++ sp) = .ok .dec := by
      have hc9 : (ch '1').toNat ≤ c.toNat ∧ c.toNat ≤ (ch '9').toNat := by
        have key : ∀ c : Byte, accepts .dec c = true → c ≠ ch '0' →
            (ch '1').toNat ≤ c.toNat ∧ c.toNat ≤ (ch '9').toNat := by decide +kernel
        exact key c (accepts_digit (hd c (by simp))) h0
      cases h : cs ++ sp with
      | nil => simp [baseOf, h, h0, hc9]
      | cons x xs => simp [baseOf, h, h0, hc9]
    simp only [integerConstant, hb, Res.bind_ok]
    exact digits_const abi .dec (c :: cs) sp s _ hd hs rfl hlt
  | oct =>
    subst hp
    have hb : baseOf (str "0" ++ ds ++ sp) = .ok .oct := by
      have hne : ∀ x ∈ (ds ++ sp).head?, ¬ (x = ch 'x' ∨ x = ch 'X') ∧ ¬ (x = ch 'b' ∨ x = ch 'B') := by
        intro x hx
        have key : ∀ x : Byte, accepts .oct x = true →
          ¬ (x = ch 'x' ∨ x = ch 'X') ∧ ¬ (x = ch 'b' ∨ x = ch 'B') := by decide +kernel
        cases ds with
        | cons d ds' =>
          simp only [List.cons_append, List.head?_cons, Option.mem_def, Option.some.injEq] at hx
          subst hx
          exact key d (accepts_digit (hd d (by simp)))
        | nil =>
          obtain ⟨_, _, h3, _⟩ := suffix_table s sp hs true
          cases sp with
          | nil => simp at hx
          | cons y ys =>
            simp only [List.nil_append, List.head?_cons, Option.mem_def, Option.some.injEq] at hx
            subst hx
            simp only [List.any_cons, Bool.or_eq_false_iff, Bool.not_eq_false'] at h3
            have key2 : ∀ x : Byte, (x = ch 'u' || x = ch 'U' || x = ch 'l' || x = ch 'L') = true →
              ¬ (x = ch 'x' ∨ x = ch 'X') ∧ ¬ (x = ch 'b' ∨ x = ch 'B') := by decide +kernel
            exact key2 y h3.1
      cases h : ds ++ sp with
      | nil => rw [List.append_assoc, h]; decide
      | cons x xs =>
        have := hne x (by simp [h])
        rw [List.append_assoc, h]
        show baseOf (ch '0' :: x :: xs) = _
        simp only [baseOf]
        rw [if_pos trivial, if_neg this.1, if_neg this.2]
    have e : str "0" ++ ds ++ sp = (ch '0' :: ds) ++ sp := rfl
    have hn : number .oct (ch '0' :: ds) = number .oct ds := by
      simp only [number, List.foldl_cons]; rfl
    simp only [integerConstant, hb, Res.bind_ok]
    rw [if_neg (by decide), e]
    exact digits_const abi .oct (ch '0' :: ds) sp s _
      (fun c hc => (List.mem_cons.1 hc).elim (fun h => h ▸ zero_digit _) (hd c)) hs hn hlt
  | hex =>
    obtain ⟨hp, hne⟩ := hp
    have hb : baseOf (pre ++ ds ++ sp) = .ok .hex := by
      rcases hp with rfl | rfl <;> rfl
    have e : (pre ++ ds ++ sp).drop 2 = ds ++ sp := by rcases hp with rfl | rfl <;> rfl
    simp only [integerConstant, hb, Res.bind_ok]
    rw [if_pos (by decide), e]
    exact digits_const abi .hex ds sp s _ hd hs rfl hlt
  | bin =>
    obtain ⟨hp, hne⟩ := hp
    have hb : baseOf (pre ++ ds ++ sp) = .ok .bin := by
      rcases hp with rfl | rfl <;> rfl
    have e : (pre ++ ds ++ sp).drop 2 = ds ++ sp := by rcases hp with rfl | rfl <;> rfl
    simp only [integerConstant, hb, Res.bind_ok]
    rw [if_pos (by decide), e]
    exact digits_const abi .bin ds sp s _ hd hs rfl hlt

/-- **C15 is violated**: `18446744073709551616` (2^64) is silently read as the `int` 0. -/
theorem integer_constant_violated : ¬ IntegerConstantsExact := by
  intro h
  have h1 := h .sysv .dec [] (str "18446744073709551616") [] .none
    ⟨by intro c hc
        have key : ∀ c ∈ str "18446744073709551616", ∃ v < 10, dval c = some v := by decide +kernel
        obtain ⟨v, h1, h2⟩ := key c hc; exact ⟨v, h2, h1⟩, rfl, _, _, rfl, by decide⟩ (by simp [spellings])
  have h2 : integerConstant .sysv ([] ++ str "18446744073709551616" ++ []) = .ok ⟨.int, 0⟩ := by
    decide +kernel
  have h3 : constantSpec .sysv .dec .none (number .dec (str "18446744073709551616")) = .fail := by
    decide +kernel
  rw [h2, h3] at h1
  cases h1

/-- Repeated suffixes, not valid in C, are accepted. -/
theorem bad_suffix_accepted : integerConstant .sysv (str "1uuu") = .ok ⟨.uint, 1⟩ ∧
    integerConstant .sysv (str "1lll") = .ok ⟨.llong, 1⟩ := by decide +kernel

/-- No valid integer constant is mistaken for a floating constant. -/
theorem integer_not_float (b : Base) (pre ds sp : Str) (s : Suffix)
    (hc : IsConstant b pre ds) (hs : sp ∈ spellings s) : isFloat (pre ++ ds ++ sp) = false := by
  obtain ⟨hd, hp⟩ := hc
  obtain ⟨_, _, h3, h4⟩ := suffix_table s sp hs true
  have key : ∀ c : Byte, (accepts .dec c = true → between '0' '9' c = true) ∧
      (accepts .oct c = true → between '0' '9' c = true ∧ ¬ (c = ch 'x' ∨ c = ch 'X') ∧ ¬ (c = ch 'b' ∨ c = ch 'B')) ∧
      (accepts .bin c = true → between '0' '9' c = true) ∧
      ((between '0' '9' c || between 'a' 'f' c || between 'A' 'F' c) = false → between '0' '9' c = false) := by
    decide +kernel
  have drop : ∀ (p : Byte → Bool) (ds : Str), (∀ c ∈ ds, p c = true) → (∀ c ∈ sp.head?, p c = false) →
      (ds ++ sp).dropWhile p = sp := by
    intro p ds h1 h2
    induction ds with
    | nil =>
      cases sp with
      | nil => rfl
      | cons x xs => simp [h2 x (by simp)]
    | cons d ds ih =>
      simp only [List.cons_append, List.dropWhile, h1 d (by simp)]
      exact ih fun c hc => h1 c (by simp [hc])
  have fin : ∀ (isHex : Bool) (ds : Str),
      (∀ c ∈ ds, (between '0' '9' c || (isHex && between 'a' 'f' c) || (isHex && between 'A' 'F' c)) = true) →
      floatPrefix (pre ++ ds ++ sp) = (isHex, ds ++ sp) → isFloat (pre ++ ds ++ sp) = false := by
    intro isHex ds h1 h2
    simp only [isFloat, h2]
    rw [drop _ ds h1]
    · exact h3
    · intro c hc
      have := h4 c hc
      revert this
      cases isHex <;> simp <;> intros <;> simp_all
  cases b with
  | dec =>
    obtain ⟨rfl, c, cs, rfl, h0⟩ := hp
    refine fin false (c :: cs) (fun x hx => by simp [(key x).1 (accepts_digit (hd x hx))]) ?_
    cases h : cs ++ sp with
    | nil => simp [floatPrefix, h]
    | cons x xs => simp [floatPrefix, h, h0]
  | oct =>
    subst hp
    have hd' : ∀ x ∈ ch '0' :: ds, IsDigit .oct x := fun c hc => (List.mem_cons.1 hc).elim (fun h => h ▸ zero_digit _) (hd c)
    have fp : floatPrefix ((ch '0' :: ds) ++ sp) = (false, (ch '0' :: ds) ++ sp) := by
      cases h : ds ++ sp with
      | nil => simp [floatPrefix, h]
      | cons x xs =>
        have hx : ¬ (x = ch 'x' ∨ x = ch 'X') ∧ ¬ (x = ch 'b' ∨ x = ch 'B') := by
          cases ds with
          | cons d ds' =>
            simp only [List.cons_append, List.cons.injEq] at h
            rw [← h.1]
            exact ((key d).2.1 (accepts_digit (hd d (by simp)))).2
          | nil =>
            simp only [List.nil_append] at h
            subst h
            simp only [List.any_cons, Bool.or_eq_false_iff, Bool.not_eq_false'] at h3
            have key2 : ∀ x : Byte, (x = ch 'u' || x = ch 'U' || x = ch 'l' || x = ch 'L') = true →
              ¬ (x = ch 'x' ∨ x = ch 'X') ∧ ¬ (x = ch 'b' ∨ x = ch 'B') := by decide +kernel
            exact key2 x h3.1
        simp only [List.cons_append, h, floatPrefix]
        rw [if_neg (fun hh => hx.1 hh.2), if_neg (fun hh => hx.2 hh.2)]
    simp only [isFloat, show str "0" ++ ds ++ sp = (ch '0' :: ds) ++ sp from rfl, fp]
    rw [drop _ (ch '0' :: ds) (fun x hx => by simp [((key x).2.1 (accepts_digit (hd' x hx))).1])]
    · exact h3
    · intro c hc
      simp [(key c).2.2.2 (h4 c hc)]
  | hex =>
    obtain ⟨hp, _⟩ := hp
    refine fin true ds (fun x hx => ?_) ?_
    · have := accepts_digit (hd x hx)
      simpa [accepts] using this
    · rcases hp with rfl | rfl <;> rfl
  | bin =>
    obtain ⟨hp, _⟩ := hp
    refine fin false ds (fun x hx => by simp [(key x).2.2.1 (accepts_digit (hd x hx))]) ?_
    rcases hp with rfl | rfl
    · rfl
    · rfl

/-- Hypotheses: `0xFFFFFFFFul` on LLP64 is an `unsigned long`, `2147483648` a `long` on LP64
and a `long long` on LLP64, `0x80000000` an `unsigned int`. -/
example : IsConstant .hex (str "0x") (str "80000000") ∧
    integerConstant .sysv (str "0x80000000") = .ok ⟨.uint, 0x80000000⟩ ∧
    integerConstant .sysv (str "2147483648") = .ok ⟨.long, 0x80000000⟩ ∧
    integerConstant .ms (str "2147483648") = .ok ⟨.llong, 0x80000000⟩ ∧
    integerConstant .ms (str "0xFFFFFFFFul") = .ok ⟨.ulong, 0xffffffff⟩ ∧
    integerConstant .sysv (str "9223372036854775808") = .fail := by
  refine ⟨⟨?_, by decide⟩, by decide +kernel⟩
  intro c hc
  have key : ∀ c ∈ str "80000000", ∃ v < 16, dval c = some v := by decide +kernel
  obtain ⟨v, h1, h2⟩ := key c hc; exact ⟨v, h2, h1⟩

/-! ### C17 -/

/-- Full statement of **C17**, second half: folding never executes undefined behaviour
in the compiler, whatever the (valid, promoted) operands. -/
def FoldNeverCrashes : Prop :=
  ∀ (abi : Abi) (op : Op) (l r : Const), Valid abi l → Valid abi r → Promoted l.ty → l.ty = r.ty →
    foldBinary abi op l r ≠ .ub

/-- **C17**, first half: if the C expression `l op r` has a value, the folded constant has
that value, the result type C prescribes, and is valid for it. -/
theorem fold_correct (abi : Abi) (op : Op) (l r : Const) (hl : Valid abi l) (hr : Valid abi r)
    (hp : Promoted l.ty) (hty : l.ty = r.ty) (v : Int)
    (hv : opVal abi l.ty op (val l) (val r) = some v) :
    ∃ c, foldBinary abi op l r = .ok (some c) ∧ c.ty = opType l.ty op ∧ val c = v ∧ Valid abi c := by
  have hw := promoted_width (abi := abi) hp
  cases hs : signed l.ty with
  | true =>
    have hvl : val l = l.bits.toInt := by simp [val, hs]
    have hvr : val r = r.bits.toInt := by simp [val, ← hty, hs]
    have ar : ∀ x, arith abi l.ty x = some v → InRange abi l.ty v ∧ x = v := by
      intro x hx
      simp only [arith, hs, if_true] at hx
      split at hx
      · simp only [Option.some.injEq] at hx; subst hx; exact ⟨by assumption, rfl⟩
      · cases hx
    have bitw : ∀ (f : ∀ {n}, BitVec n → BitVec n → BitVec n)
        (hse : ∀ n (x y : BitVec n), (f x y).signExtend 64 = f (x.signExtend 64) (y.signExtend 64)),
        v = (f (BitVec.ofInt (width abi l.ty) (val l)) (BitVec.ofInt (width abi l.ty) (val r))).toInt →
        v = (f l.bits r.bits).toInt ∧ InRange abi l.ty v := by
      intro f hse hv
      have e1 := bits_signExtend hp hs hl
      have e2 := bits_signExtend (c := r) (hty ▸ hp) (hty ▸ hs) hr
      rw [← hty] at e2
      refine ⟨?_, ?_⟩
      · rw [e1, e2, ← hse, BitVec.toInt_signExtend_of_le (by omega), hv]
      · rw [hv]
        simp only [InRange, inBits, hs, if_true]
        generalize f (BitVec.ofInt (width abi l.ty) (val l)) (BitVec.ofInt (width abi l.ty) (val r)) = x
        have a := BitVec.le_two_mul_toInt (x := x)
        have b := BitVec.two_mul_toInt_lt (x := x)
        clear hv hse e1 e2
        revert x
        rcases hw with hw | hw <;> rw [hw] <;> intro x a b <;> omega
    cases op with
    | add =>
      obtain ⟨h1, h2⟩ := ar _ hv
      obtain ⟨i1, i2⟩ := int64_ok hp hs h1
      exact signed_result hp hs hty (by simp only [foldSigned, ← hvl, ← hvr, h2, i1]) rfl
        (by simp) v i2.symm h1
    | sub =>
      obtain ⟨h1, h2⟩ := ar _ hv
      obtain ⟨i1, i2⟩ := int64_ok hp hs h1
      exact signed_result hp hs hty (by simp only [foldSigned, ← hvl, ← hvr, h2, i1]) rfl
        (by simp) v i2.symm h1
    | mul =>
      obtain ⟨h1, h2⟩ := ar _ hv
      obtain ⟨i1, i2⟩ := int64_ok hp hs h1
      exact signed_result hp hs hty (by simp only [foldSigned, ← hvl, ← hvr, h2, i1]) rfl
        (by simp) v i2.symm h1
    | div =>
      simp only [opVal] at hv
      split at hv
      · cases hv
      · rename_i hz
        obtain ⟨h1, h2⟩ := ar _ hv
        obtain ⟨i1, i2⟩ := int64_ok hp hs h1
        exact signed_result hp hs hty
          (by simp only [foldSigned, ← hvl, ← hvr, h2, i1, hz, if_false]) rfl
          (by rintro ⟨_, h⟩; exact hz (by rw [hvr, h]; rfl)) v i2.symm h1
    | mod =>
      simp only [opVal] at hv
      split at hv
      · cases hv
      · rename_i hz
        simp only [arith, hs, if_true] at hv
        split at hv
        · rename_i hq
          simp only [Option.bind_some, Option.some.injEq] at hv
          obtain ⟨i1, i2⟩ := int64_ok hp hs hq
          have hrange : InRange abi l.ty v := by
            have hr2 := hr.2
            rw [← hty] at hr2
            have habs : v.natAbs < (val r).natAbs := by
              rw [← hv, Int.natAbs_tmod]
              exact Nat.mod_lt _ (by omega)
            simp only [InRange, inBits, hs, if_true] at hr2 ⊢
            rcases hw with hw | hw <;> rw [hw] at hr2 ⊢ <;> omega
          obtain ⟨j1, j2⟩ := int64_ok hp hs hrange
          exact signed_result hp hs hty
            (by simp only [foldSigned, ← hvl, ← hvr, hv, i1, j1, hz, if_false, Res.bind_ok]) rfl
            (by simp) v j2.symm hrange
        · cases hv
    | bxor =>
      simp only [opVal, bitsVal, hs, if_true, Option.some.injEq] at hv
      obtain ⟨h1, h2⟩ := bitw (fun x y => x ^^^ y) (fun n x y => BitVec.signExtend_xor) hv.symm
      exact signed_result hp hs hty rfl rfl (by simp) v h1 h2
    | bor =>
      simp only [opVal, bitsVal, hs, if_true, Option.some.injEq] at hv
      obtain ⟨h1, h2⟩ := bitw (fun x y => x ||| y) (fun n x y => BitVec.signExtend_or) hv.symm
      exact signed_result hp hs hty rfl rfl (by simp) v h1 h2
    | band =>
      simp only [opVal, bitsVal, hs, if_true, Option.some.injEq] at hv
      obtain ⟨h1, h2⟩ := bitw (fun x y => x &&& y) (fun n x y => BitVec.signExtend_and) hv.symm
      exact signed_result hp hs hty rfl rfl (by simp) v h1 h2
    | lshift =>
      simp only [opVal] at hv
      split at hv
      · rename_i hc
        obtain ⟨h1, h2⟩ := ar _ hv
        obtain ⟨i1, i2⟩ := int64_ok hp hs h1
        have hcond : 0 ≤ r.bits.toInt ∧ r.bits.toInt < 64 ∧ 0 ≤ l.bits.toInt := by
          rw [← hvl, ← hvr]; omega
        refine signed_result hp hs hty ?_ rfl (by simp) v i2.symm h1
        simp only [foldSigned]
        rw [if_pos hcond, ← hvl, ← hvr, h2, i1]
      · cases hv
    | rshift =>
      simp only [opVal] at hv
      split at hv
      · rename_i hc
        simp only [Option.some.injEq] at hv
        have hcond : 0 ≤ r.bits.toInt ∧ r.bits.toInt < 64 := by rw [← hvr]; omega
        have hx : v = (l.bits.sshiftRight r.bits.toInt.toNat).toInt := by
          rw [BitVec.toInt_sshiftRight, Int.shiftRight_eq_div_pow, ← hvl, ← hvr, ← hv]; simp
        refine signed_result hp hs hty (x := l.bits.sshiftRight r.bits.toInt.toNat) ?_ rfl (by simp) v hx ?_
        · simp only [foldSigned]
          exact if_pos hcond
        · have hl2 := hl.2
          have hpos : (0 : Int) < 2 ^ (val r).toNat := Int.pow_pos (by decide)
          have hone : (1 : Int) ≤ 2 ^ (val r).toNat := hpos
          simp only [InRange, inBits, hs, if_true] at hl2 ⊢
          rw [← hv]
          have hlo : ∀ M : Int, 0 ≤ M → -M ≤ val l → -M ≤ val l / 2 ^ (val r).toNat := by
            intro M hM hm
            refine (Int.le_ediv_iff_mul_le hpos).2 ?_
            have : -M * 2 ^ (val r).toNat ≤ -M * 1 := Int.mul_le_mul_of_nonpos_left (by omega) hone
            omega
          have hhi : ∀ M : Int, 0 < M → val l < M → val l / 2 ^ (val r).toNat < M := by
            intro M hM hm
            refine (Int.ediv_lt_iff_lt_mul hpos).2 ?_
            have : M * 1 ≤ M * 2 ^ (val r).toNat := Int.mul_le_mul_of_nonneg_left hone (by omega)
            omega
          exact ⟨hlo _ (Int.pow_nonneg (by decide)) hl2.1, hhi _ (Int.pow_pos (by decide)) hl2.2⟩
      · cases hv
    | less =>
      obtain ⟨c, h1, h2, h3, h4⟩ := compare_result (abi := abi) (op := .less) (l := l) (r := r)
        (b := decide (val l < val r)) hp hty rfl (by simp [hs, foldSigned, hvl, hvr])
      exact ⟨c, h1, h2, by simpa [opVal] using h3.trans (by simpa [opVal] using hv), h4⟩
    | greater =>
      obtain ⟨c, h1, h2, h3, h4⟩ := compare_result (abi := abi) (op := .greater) (l := l) (r := r)
        (b := decide (val l > val r)) hp hty rfl (by simp [hs, foldSigned, hvl, hvr])
      exact ⟨c, h1, h2, by simpa [opVal] using h3.trans (by simpa [opVal] using hv), h4⟩
    | lessEq =>
      obtain ⟨c, h1, h2, h3, h4⟩ := compare_result (abi := abi) (op := .lessEq) (l := l) (r := r)
        (b := decide (val l ≤ val r)) hp hty rfl (by simp [hs, foldSigned, hvl, hvr])
      exact ⟨c, h1, h2, by simpa [opVal] using h3.trans (by simpa [opVal] using hv), h4⟩
    | greaterEq =>
      obtain ⟨c, h1, h2, h3, h4⟩ := compare_result (abi := abi) (op := .greaterEq) (l := l) (r := r)
        (b := decide (val l ≥ val r)) hp hty rfl (by simp [hs, foldSigned, hvl, hvr])
      exact ⟨c, h1, h2, by simpa [opVal] using h3.trans (by simpa [opVal] using hv), h4⟩
    | equal =>
      obtain ⟨c, h1, h2, h3, h4⟩ := compare_result (abi := abi) (op := .equal) (l := l) (r := r)
        (b := decide (val l = val r)) hp hty rfl
        (by simp [hs, foldSigned, hvl, hvr, BitVec.toInt_inj])
      exact ⟨c, h1, h2, by simpa [opVal] using h3.trans (by simpa [opVal] using hv), h4⟩
    | notEqual =>
      obtain ⟨c, h1, h2, h3, h4⟩ := compare_result (abi := abi) (op := .notEqual) (l := l) (r := r)
        (b := decide (val l ≠ val r)) hp hty rfl
        (by simp [hs, foldSigned, hvl, hvr, BitVec.toInt_inj])
      exact ⟨c, h1, h2, by simpa [opVal] using h3.trans (by simpa [opVal] using hv), h4⟩
  | false =>
    have hvl : val l = l.bits.toNat := by simp [val, hs]
    have hvr : val r = r.bits.toNat := by simp [val, ← hty, hs]
    have ar : ∀ x, arith abi l.ty x = some v → v = x % 2 ^ width abi l.ty := by
      intro x hx
      simpa [arith, hs, wrap, eq_comm] using hx
    have bitw : ∀ (f : ∀ {n}, BitVec n → BitVec n → BitVec n)
        (hse : ∀ n (x y : BitVec n), n ≤ 64 → (f x y).setWidth 64 = f (x.setWidth 64) (y.setWidth 64)),
        v = (f (BitVec.ofInt (width abi l.ty) (val l)) (BitVec.ofInt (width abi l.ty) (val r))).toNat →
        v = (((f l.bits r.bits).toNat % 2 ^ width abi l.ty : Nat) : Int) := by
      intro f hse hv
      have e1 := bits_setWidth hp hs hl
      have e2 := bits_setWidth (c := r) (hty ▸ hp) (hty ▸ hs) hr
      rw [← hty] at e2
      rw [e1, e2, ← hse _ _ _ (by omega), BitVec.toNat_setWidth, hv]
      generalize f (BitVec.ofInt (width abi l.ty) (val l)) (BitVec.ofInt (width abi l.ty) (val r)) = x
      have := x.isLt
      have h64 : 2 ^ width abi l.ty ≤ 2 ^ 64 := by rcases hw with hw | hw <;> rw [hw] <;> decide
      rw [Nat.mod_eq_of_lt (show x.toNat < 2 ^ 64 by omega), Nat.mod_eq_of_lt this]
    cases op with
    | add =>
      refine unsigned_result hp hs hty (x := l.bits + r.bits) rfl rfl v ?_
      rw [BitVec.toNat_add, mod64_mod hw, ar _ hv, hvl, hvr]; simp
    | sub =>
      refine unsigned_result hp hs hty (x := l.bits - r.bits) rfl rfl v ?_
      have := r.bits.isLt
      rw [BitVec.toNat_sub, mod64_mod hw, ar _ hv, hvl, hvr]
      rcases hw with hw | hw <;> rw [hw] <;> omega
    | mul =>
      refine unsigned_result hp hs hty (x := l.bits * r.bits) rfl rfl v ?_
      rw [BitVec.toNat_mul, mod64_mod hw, ar _ hv, hvl, hvr]; simp
    | div =>
      simp only [opVal] at hv
      split at hv
      · cases hv
      · rename_i hz
        have hz' : r.bits ≠ 0 := by intro h; exact hz (by rw [hvr, h]; rfl)
        refine unsigned_result hp hs hty (x := l.bits / r.bits) (by simp only [foldUnsigned]; exact if_neg hz') rfl v ?_
        rw [BitVec.toNat_udiv, ar _ hv, hvl, hvr, Int.tdiv_eq_ediv_of_nonneg (by omega)]; simp
    | mod =>
      simp only [opVal] at hv
      split at hv
      · cases hv
      · rename_i hz
        have hz' : r.bits ≠ 0 := by intro h; exact hz (by rw [hvr, h]; rfl)
        simp only [arith, hs, Bool.false_eq_true, if_false, Option.bind_some, Option.some.injEq] at hv
        refine unsigned_result hp hs hty (x := l.bits % r.bits) (by simp only [foldUnsigned]; exact if_neg hz') rfl v ?_
        have hl2 := hl.2
        simp only [InRange, inBits, hs, Bool.false_eq_true, if_false, hvl] at hl2
        have hlt : l.bits.toNat < 2 ^ width abi l.ty := by exact_mod_cast hl2.2
        rw [BitVec.toNat_umod, Nat.mod_eq_of_lt (Nat.lt_of_le_of_lt (Nat.mod_le _ _) hlt), ← hv, hvl, hvr,
          Int.tmod_eq_emod_of_nonneg (by omega)]; simp
    | bxor =>
      simp only [opVal, bitsVal, hs, Bool.false_eq_true, if_false, Option.some.injEq] at hv
      exact unsigned_result hp hs hty (x := l.bits ^^^ r.bits) rfl rfl v
        (bitw (fun x y => x ^^^ y) (fun n x y _ => BitVec.setWidth_xor) hv.symm)
    | bor =>
      simp only [opVal, bitsVal, hs, Bool.false_eq_true, if_false, Option.some.injEq] at hv
      exact unsigned_result hp hs hty (x := l.bits ||| r.bits) rfl rfl v
        (bitw (fun x y => x ||| y) (fun n x y _ => BitVec.setWidth_or) hv.symm)
    | band =>
      simp only [opVal, bitsVal, hs, Bool.false_eq_true, if_false, Option.some.injEq] at hv
      exact unsigned_result hp hs hty (x := l.bits &&& r.bits) rfl rfl v
        (bitw (fun x y => x &&& y) (fun n x y _ => BitVec.setWidth_and) hv.symm)
    | lshift =>
      simp only [opVal] at hv
      split at hv
      · rename_i hc
        have hcond : r.bits.toNat < 64 := by omega
        refine unsigned_result hp hs hty (x := l.bits <<< r.bits.toNat)
          (by simp only [foldUnsigned]; exact if_pos hcond) rfl v ?_
        rw [BitVec.toNat_shiftLeft, mod64_mod hw, ar _ hv, hvl, hvr, Nat.shiftLeft_eq]; simp
      · cases hv
    | rshift =>
      simp only [opVal] at hv
      split at hv
      · rename_i hc
        simp only [Option.some.injEq] at hv
        have hcond : r.bits.toNat < 64 := by omega
        refine unsigned_result hp hs hty (x := l.bits >>> r.bits.toNat)
          (by simp only [foldUnsigned]; exact if_pos hcond) rfl v ?_
        have hl2 := hl.2
        simp only [InRange, inBits, hs, Bool.false_eq_true, if_false, hvl] at hl2
        have hlt : l.bits.toNat < 2 ^ width abi l.ty := by exact_mod_cast hl2.2
        rw [BitVec.toNat_ushiftRight, Nat.shiftRight_eq_div_pow,
          Nat.mod_eq_of_lt (Nat.lt_of_le_of_lt (Nat.div_le_self _ _) hlt), ← hv, hvl, hvr]; simp
      · cases hv
    | less =>
      obtain ⟨c, h1, h2, h3, h4⟩ := compare_result (abi := abi) (op := .less) (l := l) (r := r)
        (b := decide (val l < val r)) hp hty rfl (by simp [hs, foldUnsigned, hvl, hvr])
      exact ⟨c, h1, h2, by simpa [opVal] using h3.trans (by simpa [opVal] using hv), h4⟩
    | greater =>
      obtain ⟨c, h1, h2, h3, h4⟩ := compare_result (abi := abi) (op := .greater) (l := l) (r := r)
        (b := decide (val l > val r)) hp hty rfl (by simp [hs, foldUnsigned, hvl, hvr])
      exact ⟨c, h1, h2, by simpa [opVal] using h3.trans (by simpa [opVal] using hv), h4⟩
    | lessEq =>
      obtain ⟨c, h1, h2, h3, h4⟩ := compare_result (abi := abi) (op := .lessEq) (l := l) (r := r)
        (b := decide (val l ≤ val r)) hp hty rfl (by simp [hs, foldUnsigned, hvl, hvr])
      exact ⟨c, h1, h2, by simpa [opVal] using h3.trans (by simpa [opVal] using hv), h4⟩
    | greaterEq =>
      obtain ⟨c, h1, h2, h3, h4⟩ := compare_result (abi := abi) (op := .greaterEq) (l := l) (r := r)
        (b := decide (val l ≥ val r)) hp hty rfl (by simp [hs, foldUnsigned, hvl, hvr])
      exact ⟨c, h1, h2, by simpa [opVal] using h3.trans (by simpa [opVal] using hv), h4⟩
    | equal =>
      obtain ⟨c, h1, h2, h3, h4⟩ := compare_result (abi := abi) (op := .equal) (l := l) (r := r)
        (b := decide (val l = val r)) hp hty rfl
        (by simp [hs, foldUnsigned, hvl, hvr, ← BitVec.toNat_inj, Int.ofNat_inj])
      exact ⟨c, h1, h2, by simpa [opVal] using h3.trans (by simpa [opVal] using hv), h4⟩
    | notEqual =>
      obtain ⟨c, h1, h2, h3, h4⟩ := compare_result (abi := abi) (op := .notEqual) (l := l) (r := r)
        (b := decide (val l ≠ val r)) hp hty rfl
        (by simp [hs, foldUnsigned, hvl, hvr, ← BitVec.toNat_inj, Int.ofNat_inj])
      exact ⟨c, h1, h2, by simpa [opVal] using h3.trans (by simpa [opVal] using hv), h4⟩

example : Valid .sysv ⟨.int, 5⟩ ∧ Valid .sysv ⟨.int, BitVec.ofInt 64 (-3)⟩ ∧ Promoted .int ∧
    opVal .sysv .int .mod (val ⟨.int, BitVec.ofInt 64 (-3)⟩) (val ⟨.int, 5⟩) = some (-3) := by decide

/-- **C17**, first half, unary operators. -/
theorem fold_unary_correct (abi : Abi) (op : UOp) (l : Const) (hl : Valid abi l)
    (hp : Promoted l.ty) (v : Int) (hv : uopVal abi l.ty op (val l) = some v) :
    ∃ c, foldUnary abi op l = .ok c ∧ c.ty = l.ty ∧ val c = v ∧ Valid abi c := by
  have hw := promoted_width (abi := abi) hp
  obtain ⟨hi, hb⟩ := promoted_int hp
  have hl2 := hl.2
  cases hs : signed l.ty with
  | true =>
    have hvl : val l = l.bits.toInt := by simp [val, hs]
    have fin : ∀ x : BitVec 64, x.toInt = v → InRange abi l.ty v →
        val ⟨l.ty, x⟩ = v ∧ Valid abi ⟨l.ty, x⟩ := by
      intro x h1 h2
      have : val ⟨l.ty, x⟩ = v := by simp [val, hs, h1]
      exact ⟨this, hi, this ▸ h2⟩
    cases op with
    | plus =>
      simp only [uopVal, Option.some.injEq] at hv
      exact ⟨l, by simp [foldUnary, (isInteger_iff l.ty).2 hi, isSigned_int l.ty hi, hs], rfl, hv, hl⟩
    | neg =>
      simp only [uopVal, arith, hs, if_true] at hv
      split at hv
      · rename_i hr
        simp only [Option.some.injEq] at hv
        obtain ⟨i1, i2⟩ := int64_ok hp hs hr
        rw [hv] at i1 i2 hr
        have hv' : -l.bits.toInt = v := by omega
        obtain ⟨f1, f2⟩ := fin _ i2 hr
        exact ⟨⟨l.ty, BitVec.ofInt 64 v⟩, by
          simp [foldUnary, (isInteger_iff l.ty).2 hi, isSigned_int l.ty hi, hs, hv', i1], rfl, f1, f2⟩
      · cases hv
    | bnot =>
      simp only [uopVal, hs, if_true, Option.some.injEq] at hv
      have e : (~~~ l.bits).toInt = v := by rw [BitVec.toInt_not, ← hv, hvl, Int.bmod_def]; have := l.bits.isLt; have := BitVec.toInt_eq_toNat_cond l.bits; omega
      obtain ⟨f1, f2⟩ := fin _ e (by
        rw [← hv]
        simp only [InRange, inBits, hs, if_true] at hl2 ⊢
        omega)
      exact ⟨⟨l.ty, ~~~ l.bits⟩, by
          simp [foldUnary, (isInteger_iff l.ty).2 hi, isSigned_int l.ty hi, hs], rfl, f1, f2⟩
  | false =>
    have hvl : val l = l.bits.toNat := by simp [val, hs]
    simp only [InRange, inBits, hs, Bool.false_eq_true, if_false] at hl2
    have fin : ∀ x : BitVec 64, v = ((x.toNat % 2 ^ width abi l.ty : Nat) : Int) →
        ∃ c, normalize abi ⟨l.ty, x⟩ = .ok c ∧ c.ty = l.ty ∧ val c = v ∧ Valid abi c := by
      intro x hx
      obtain ⟨b, h1, h2⟩ := normalize_unsigned (abi := abi) (c := ⟨l.ty, x⟩) hp hs
      have hval : val ⟨l.ty, b⟩ = v := by simp only [val, hs, h2, hx]; simp
      refine ⟨_, h1, rfl, hval, hi, ?_⟩
      show InRange abi l.ty (val ⟨l.ty, b⟩)
      rw [hval, hx]
      simp only [InRange, inBits, hs, Bool.false_eq_true, if_false]
      have := Nat.mod_lt x.toNat (Nat.pow_pos (n := width abi l.ty) (show 0 < 2 by decide))
      exact ⟨by omega, by exact_mod_cast this⟩
    have hf : ∀ o, foldUnary abi o l = normalize abi ⟨l.ty, match o with
        | .plus => l.bits | .neg => -l.bits | .bnot => ~~~ l.bits⟩ := by
      intro o; cases o <;> simp [foldUnary, (isInteger_iff l.ty).2 hi, isSigned_int l.ty hi, hs]
    rw [hf]
    apply fin
    have := l.bits.isLt
    cases op with
    | plus =>
      simp only [uopVal, Option.some.injEq] at hv
      rcases hw with hw | hw <;> rw [hw] at hl2 ⊢ <;> simp only <;> omega
    | neg =>
      simp only [uopVal, arith, hs, wrap, Bool.false_eq_true, if_false, Option.some.injEq] at hv
      rcases hw with hw | hw <;> rw [hw] at hl2 hv ⊢ <;> simp only [BitVec.toNat_neg] <;> omega
    | bnot =>
      simp only [uopVal, hs, Bool.false_eq_true, if_false, Option.some.injEq] at hv
      rcases hw with hw | hw <;> rw [hw] at hl2 hv ⊢ <;> simp only [BitVec.toNat_not] <;> omega

example : Valid .ms ⟨.ulong, 1⟩ ∧ Promoted .ulong ∧
    uopVal .ms .ulong .bnot (val ⟨.ulong, 1⟩) = some 4294967294 := by decide

/-- **C17 is violated**: `1 % 0` of type int, `1u / 0u`, `1u % 0u` and
`(-9223372036854775807L - 1) / -1L` divide in the compiler with undefined behaviour. -/
theorem fold_crashes_violated : ¬ FoldNeverCrashes ∧
    foldBinary .sysv .mod ⟨.int, 1⟩ ⟨.int, 0⟩ = .ub ∧
    foldBinary .sysv .div ⟨.uint, 1⟩ ⟨.uint, 0⟩ = .ub ∧
    foldBinary .sysv .mod ⟨.uint, 1⟩ ⟨.uint, 0⟩ = .ub ∧
    foldBinary .sysv .div ⟨.long, BitVec.ofInt 64 (-2 ^ 63)⟩ ⟨.long, BitVec.ofInt 64 (-1)⟩ = .ub := by
  refine ⟨fun h => h .sysv .mod ⟨.int, 1⟩ ⟨.int, 0⟩ ?_ ?_ ?_ ?_ ?_, ?_, ?_, ?_, ?_⟩ <;> decide

/-- Folding of 32-bit operands that is neither a shift nor a remainder, nor an unsigned
quotient, by zero is free of undefined behaviour: in particular signed `/ 0` is left alone
and every 32-bit overflow stays inside `int64_t`. -/
theorem fold_no_crash_partial (abi : Abi) (op : Op) (l r : Const) (hl : Valid abi l)
    (hr : Valid abi r) (hp : Promoted l.ty) (hty : l.ty = r.ty) (hw : width abi l.ty = 32)
    (hsh : op ≠ .lshift ∧ op ≠ .rshift)
    (hz : val r = 0 → op ≠ .mod ∧ (signed l.ty = false → op ≠ .div)) :
    foldBinary abi op l r ≠ .ub := by
  obtain ⟨hi, hb⟩ := promoted_int hp
  have hl2 := hl.2
  have hr2 := hr.2
  rw [← hty] at hr2
  cases hs : signed l.ty with
  | true =>
    have hvl : val l = l.bits.toInt := by simp [val, hs]
    have hvr : val r = r.bits.toInt := by simp [val, ← hty, hs]
    simp only [InRange, inBits, hs, if_true, hw, hvl, hvr] at hl2 hr2
    by_cases hd : (op = .div ∨ op = .div) ∧ r.bits = 0
    · have hop : op = .div := by simpa using hd.1
      subst hop
      simp [foldBinary, ← hty, (isInteger_iff l.ty).2 hi, isSigned_int l.ty hi, hs, hd.2]
    have key : ∃ x, foldSigned op l.bits r.bits = .ok x := by
      have i64 : ∀ v : Int, -2 ^ 63 ≤ v ∧ v < 2 ^ 63 → ∃ x, int64 v = .ok x :=
        fun v hv => ⟨BitVec.ofInt 64 v, by simp only [int64]; exact if_pos hv⟩
      have hquot : r.bits.toInt ≠ 0 → -2 ^ 63 ≤ l.bits.toInt.tdiv r.bits.toInt ∧
          l.bits.toInt.tdiv r.bits.toInt < 2 ^ 63 := by
        intro h0
        have := Int.natAbs_tdiv_le_natAbs l.bits.toInt r.bits.toInt
        omega
      cases op with
      | add => exact i64 _ (by omega)
      | sub => exact i64 _ (by omega)
      | mul =>
        refine i64 _ ?_
        have : (l.bits.toInt * r.bits.toInt).natAbs ≤ 2 ^ 31 * 2 ^ 31 := by
          rw [Int.natAbs_mul]; exact Nat.mul_le_mul (by omega) (by omega)
        omega
      | div =>
        have h0 : r.bits.toInt ≠ 0 := by
          intro h
          exact hd ⟨.inl rfl, BitVec.eq_of_toInt_eq (by rw [h]; rfl)⟩
        simp only [foldSigned, h0, if_false]
        exact i64 _ (hquot h0)
      | mod =>
        have h0 : r.bits.toInt ≠ 0 := fun h => (hz (by rw [hvr, h])).1 rfl
        obtain ⟨x, hx⟩ := i64 _ (hquot h0)
        simp only [foldSigned, h0, if_false, hx, Res.bind_ok]
        refine i64 _ ?_
        have : (l.bits.toInt.tmod r.bits.toInt).natAbs < r.bits.toInt.natAbs := by
          rw [Int.natAbs_tmod]; exact Nat.mod_lt _ (by omega)
        omega
      | lshift => exact absurd rfl hsh.1
      | rshift => exact absurd rfl hsh.2
      | _ => exact ⟨_, rfl⟩
    obtain ⟨x, hx⟩ := key
    rw [show foldBinary abi op l r = .ok (some ⟨resultType op l.ty, x⟩) by
      simp only [foldBinary, ← hty, (isInteger_iff l.ty).2 hi, isSigned_int l.ty hi, hs, hx, hd]
      simp]
    simp
  | false =>
    have hvr : val r = r.bits.toNat := by simp [val, ← hty, hs]
    have key : ∃ x, foldUnsigned op l.bits r.bits = .ok x := by
      have h0 : r.bits = 0 → val r = 0 := fun h => by rw [hvr, h]; rfl
      cases op with
      | div =>
        have : r.bits ≠ 0 := fun h => (hz (h0 h)).2 hs rfl
        exact ⟨_, by simp only [foldUnsigned]; exact if_neg this⟩
      | mod =>
        have : r.bits ≠ 0 := fun h => (hz (h0 h)).1 rfl
        exact ⟨_, by simp only [foldUnsigned]; exact if_neg this⟩
      | lshift => exact absurd rfl hsh.1
      | rshift => exact absurd rfl hsh.2
      | _ => exact ⟨_, rfl⟩
    obtain ⟨x, hx⟩ := key
    cases hc : isCompare op with
    | true =>
      simp [foldBinary, ← hty, (isInteger_iff l.ty).2 hi, isSigned_int l.ty hi, hs, hx, hc]
    | false =>
      obtain ⟨c, h, _⟩ := unsigned_result (abi := abi) hp hs hty hx hc _ rfl
      rw [h]; simp

example : Valid .sysv ⟨.int, BitVec.ofInt 64 (-2 ^ 31)⟩ ∧ Valid .sysv ⟨.int, BitVec.ofInt 64 (-1)⟩ ∧
    width .sysv .int = 32 ∧ val ⟨.int, BitVec.ofInt 64 (-1)⟩ ≠ 0 := by decide

/-! ### C18 -/

/-- Full statement of **C18** for one data model. -/
def UsualConversions (abi : Abi) : Prop :=
  ∀ (a b : ST) (bfa bfb : Int) (wa wb : Nat), Operand abi a bfa wa → Operand abi b bfb wb →
    ∃ a' b' t bfa' bfb', promote abi a bfa = .ok (a', bfa') ∧ promote abi b bfb = .ok (b', bfb') ∧
      IsPromotion abi a wa a' ∧ IsPromotion abi b wb b' ∧
      commonType abi a bfa b bfb = .ok t ∧ IsCommon abi a' b' t

/-- **C18** holds on LP64 (System V). -/
theorem usual_conversions_lp64 : UsualConversions .sysv := by
  have one : ∀ (a : ST) (bf : Int) (w : Nat), Operand .sysv a bf w →
      ∃ a' bf', promote .sysv a bf = .ok (a', bf') ∧ IsPromotion .sysv a w a' ∧
        (Arithmetic a' ∧ (rank a' ≥ 3 ∨ ¬ IsInt a')) ∧ (bf' = -1 ∨ (a' = .uint ∧ bf' = 32)) := by
    rintro a bf w (⟨rfl, rfl, h⟩ | ⟨rfl, h1, h2, h3⟩)
    · obtain ⟨t', p1, p2⟩ := promote_plain a h
      refine ⟨t', -1, p1, p2, ?_, .inl rfl⟩
      revert p1 h
      clear p2
      cases a <;> first
        | (intro h; exact absurd h (by decide))
        | (intro _ p1; cases p1; decide)
    · rcases promote_bitfield .sysv a h3 w ⟨h1, h2⟩ with ⟨p1, p2⟩ | ⟨rfl, rfl, p1, p2⟩
      · exact ⟨_, _, p1, p2, by decide, .inl rfl⟩
      · exact ⟨_, _, p1, p2, by decide, .inr ⟨rfl, rfl⟩⟩
  intro a b bfa bfb wa wb ha hb
  obtain ⟨a', bfa', a1, a2, a3, a4⟩ := one a bfa wa ha
  obtain ⟨b', bfb', b1, b2, b3, b4⟩ := one b bfb wb hb
  obtain ⟨t, t1, t2⟩ := common_table a' b' a3 b3 bfa' bfb' a4 b4
  exact ⟨a', b', t, bfa', bfb', a1, b1, a2, b2, by simp [commonType, a1, b1, t1], t2⟩

example : Operand .sysv .uint 5 5 ∧ Operand .sysv .long (-1) 64 := by
  unfold Operand; decide

/-- **C18 is violated** on LLP64 (Windows): `long` is promoted to `int` because its values
fit, although its rank is greater, and so `long + unsigned` becomes `unsigned int` instead
of `unsigned long`, and `long + int` becomes `int`. -/
theorem usual_conversions_llp64_violated : ¬ UsualConversions .ms ∧
    promote .ms .long (-1) = .ok (.int, -1) ∧
    commonType .ms .long (-1) .uint (-1) = .ok .uint ∧ IsCommon .ms .long .uint .ulong ∧
    commonType .ms .long (-1) .int (-1) = .ok .int ∧ IsCommon .ms .long .int .long := by
  refine ⟨fun h => ?_, by decide, by decide, by decide, by decide, by decide⟩
  obtain ⟨a', b', t, bfa', bfb', h1, h2, h3, h4, _⟩ := h .long .long (-1) (-1) 32 32
    (.inl ⟨rfl, rfl, by decide⟩) (.inl ⟨rfl, rfl, by decide⟩)
  have e : promote .ms .long (-1) = .ok (.int, -1) := by decide
  rw [e] at h1
  cases h1
  exact absurd h3 (by decide)

/-- On LLP64 the conversions are right when neither operand has type `long`. -/
theorem usual_conversions_llp64_partial (a b : ST) (ha : Arithmetic a ∧ a ≠ .long)
    (hb : Arithmetic b ∧ b ≠ .long) :
    ∃ a' b' t, promote .ms a (-1) = .ok (a', -1) ∧ promote .ms b (-1) = .ok (b', -1) ∧
      IsPromotion .ms a (width .ms a) a' ∧ IsPromotion .ms b (width .ms b) b' ∧
      commonType .ms a (-1) b (-1) = .ok t ∧ IsCommon .ms a' b' t := by
  cases a <;> first
    | exact absurd ha (by decide)
    | (clear ha
       cases b <;> first
         | exact absurd hb (by decide)
         | exact ⟨_, _, _, rfl, rfl, by decide, by decide, rfl, by decide⟩)

end Verif.Simple
