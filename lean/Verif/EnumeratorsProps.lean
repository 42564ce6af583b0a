import Verif.EnumeratorsLemmas
/-!
# C101: Enumerators have type int and the values C says
# C102: Array sizes and widths of bit-fields
-/
namespace Verif.Enumerators
open Verif Simple ConstExpr SimpleSpec ConstExprSpec EnumeratorsSpec

/-! ### C101 -/

/-- Full statement of **C101**: every list of enumerators that C allows is read to its closing
brace, and the names that are visible afterwards, with their types and values, are those C says. -/
def EnumeratorsRead (abi : Abi) : Prop :=
  ∀ (s : Scope) (N : Names), Agree s.names N → Declared abi N →
  ∀ (ms : List Enumerator) (N' : Names) (trailing : Bool) (rest : List ETok), ms ≠ [] →
    Enumerates abi N none ms N' → Fresh s.here ms →
    ∃ s', parseEnumBody abi s (listToks trailing ms ++ .rbrace :: rest) = .ok (s', rest) ∧
      Agree s'.names N'

/-- **C101 (partial)**: for every list of enumerators of any length whose expressions have type int,
with and without a trailing comma, the whole list is read and declares exactly what C says: each
name as an int constant with the value given, 0 for the first, or one more than the one before; and
later expressions see the earlier constants.  Missing: expressions of other types, below. -/
theorem enumerators_read_partial (s : Scope) (N : Names) (hA : Agree s.names N)
    (hD : Declared .sysv N) (ms : List Enumerator) (N' : Names) (trailing : Bool) (rest : List ETok)
    (hE : Enumerates .sysv N none ms N') (hF : Fresh s.here ms) (hI : IntExpressions N none ms) :
    ∃ s', parseEnumBody .sysv s (listToks trailing ms ++ .rbrace :: rest) = .ok (s', rest) ∧
      Agree s'.names N' := by
  refine parse_main ms s N N' none none true trailing rest _ hA hD hE hF hI (fun _ => rfl)
    (fun h => by cases h) ?_
  simp only [List.length_append, List.length_cons]
  omega

/-- A part of a result. -/
def onOk {α β : Type} (f : α → β) : Res α → Res β
  | .ok a => .ok (f a)
  | .fail => .fail
  | .ub => .ub

/-- `{ A, B = A + 5, C, }` -/
def sampleList : List Enumerator :=
  [⟨str "A", none⟩, ⟨str "B", some (.bin .add (.name (str "A")) (.lit .int 5))⟩, ⟨str "C", none⟩]

/-- Nothing declared. -/
def emptyScope : Scope := ⟨fun _ => none, fun _ => false⟩

/-- What it declares. -/
def sampleNames : Names :=
  declare (declare (declare noNames (str "A") 0) (str "B") 5) (str "C") 6

theorem sample_bin (N : Names) (h : N (str "A") = some (.int, 0)) :
    HasType .sysv N (.bin .add (.name (str "A")) (.lit .int 5)) .int ∧
    HasValue .sysv N (.bin .add (.name (str "A")) (.lit .int 5)) (.int 5) :=
  ⟨.bin _ _ _ .int .int .int .int .int (by decide) (.name _ _ 0 h) (.lit _ _ (by decide) (by decide))
    (by decide) (by decide) (by decide) (by decide) (by decide),
   .bin _ _ _ .int .int .int .int .int 0 5 0 5 5 (by decide) (.name _ _ 0 h)
    (.lit _ _ (by decide) (by decide)) (by decide) (by decide) (by decide) (.name _ .int _ h) (.lit _ _)
    (by decide) (by decide) (by decide)⟩

example : Enumerates .sysv noNames none sampleList sampleNames ∧ Fresh emptyScope.here sampleList := by
  refine ⟨?_, fun _ _ => rfl, by decide⟩
  refine .first _ _ _ _ (.explicit _ _ _ _ .int 5 _ _ ?_ (by decide) ?_ (by decide) (.next _ _ _ _ _ (by decide) (.done _ _)))
  · exact (sample_bin _ rfl).1
  · exact (sample_bin _ rfl).2

/-- The sample, read by the model. -/
theorem sample_read : (onOk (fun r => (r.1.names (str "A"), r.1.names (str "B"), r.1.names (str "C"), r.2))
    (parseEnumBody .sysv emptyScope (listToks true sampleList ++ [.rbrace]))) =
    .ok (some ⟨.int, 0⟩, some ⟨.int, 5⟩, some ⟨.int, 6⟩, []) := by decide +kernel

/-- **C101 is violated**: in `enum { A = 5u }` the constant `A` has type unsigned int instead of int
(6.7.2.2p3), so that `A - 6 < 0` is false. -/
theorem enumerator_type_violated : ¬ EnumeratorsRead .sysv ∧
    onOk (fun r => r.1.names (str "A")) (parseEnumBody .sysv emptyScope [.ident (str "A"), .eq (.lit .uint 5), .rbrace]) = .ok (some ⟨.uint, 5⟩) := by
  have hb : onOk (fun r => r.1.names (str "A")) (parseEnumBody .sysv emptyScope [.ident (str "A"), .eq (.lit .uint 5), .rbrace]) = .ok (some ⟨.uint, 5⟩) := by decide +kernel
  refine ⟨fun h => ?_, hb⟩
  obtain ⟨s', h1, h2⟩ := h emptyScope noNames agree_none (declared_none _)
    [⟨str "A", some (.lit .uint 5)⟩] (declare noNames (str "A") 5) false [] (by simp)
    (.explicit _ _ _ _ .uint 5 _ _ (.lit _ _ (by decide) (by decide)) (by decide) (.lit _ _) (by decide)
      (.done _ _)) ⟨fun _ _ => rfl, by decide⟩
  have h1' : parseEnumBody .sysv emptyScope [.ident (str "A"), .eq (.lit .uint 5), .rbrace] = .ok (s', []) := h1
  rw [h1'] at hb
  simp only [onOk] at hb
  have h3 := h2 (str "A")
  injection hb with hb
  rw [hb] at h3
  revert h3
  decide

/-- **C101 is violated**: `enum { A = sizeof(int), B }` is rejected (`NOTIMP` in
`constant_increment`), although `B` is 5. -/
theorem increment_violated : ¬ EnumeratorsRead .sysv ∧
    onOk (fun r => r.2) (parseEnumBody .sysv emptyScope [.ident (str "A"), .eq (.lit .ulong 4), .comma, .ident (str "B"),
      .rbrace]) = .fail := by
  have hb : onOk (fun r => r.2) (parseEnumBody .sysv emptyScope [.ident (str "A"), .eq (.lit .ulong 4), .comma,
      .ident (str "B"), .rbrace]) = .fail := by decide +kernel
  refine ⟨fun h => ?_, hb⟩
  obtain ⟨s', h1, h2⟩ := h emptyScope noNames agree_none (declared_none _)
    [⟨str "A", some (.lit .ulong 4)⟩, ⟨str "B", none⟩]
    (declare (declare noNames (str "A") 4) (str "B") 5) false [] (by simp)
    (.explicit _ _ _ _ .ulong 4 _ _ (.lit _ _ (by decide) (by decide)) (by decide) (.lit _ _) (by decide)
      (.next _ _ _ _ _ (by decide) (.done _ _))) ⟨fun _ _ => rfl, by decide⟩
  have h1' : parseEnumBody .sysv emptyScope [.ident (str "A"), .eq (.lit .ulong 4), .comma,
      .ident (str "B"), .rbrace] = .ok (s', []) := h1
  rw [h1'] at hb
  cases hb

/-- **C101 is violated** the other way: lists that break a constraint of 6.7.2.2 or the syntax are
accepted: `{ A = 2147483647, B }` (and `B` is an int constant with the value 2147483648),
`{ A = 4294967296 }`, `{ A = 1.0 }` and `{ }`. -/
theorem enumerators_accepted :
    onOk (fun r => r.1.names (str "B")) (parseEnumBody .sysv emptyScope [.ident (str "A"), .eq (.lit .int 2147483647), .comma,
      .ident (str "B"), .rbrace]) =
        .ok (some ⟨.int, 2147483648⟩) ∧
    onOk (fun r => r.1.names (str "A")) (parseEnumBody .sysv emptyScope [.ident (str "A"), .eq (.lit .long 4294967296), .rbrace]) = .ok (some ⟨.long, 4294967296⟩) ∧
    onOk (fun r => r.1.names (str "A")) (parseEnumBody .sysv emptyScope [.ident (str "A"), .eq (.dbl 0x3ff0000000000000), .rbrace]) = .ok (some ⟨.double, 0x3ff0000000000000⟩) ∧
    onOk (fun r => r.2) (parseEnumBody .sysv emptyScope [.rbrace]) = .ok [] := by decide +kernel

/-- **C101**: a list that is accepted ends with a closing brace, and what is left begins behind it. -/
theorem enumerators_end (abi : Abi) (n : Nat) (s : Scope) (prev : Option Const) (first : Bool) (ts : List ETok) (s' : Scope) (rest : List ETok)
    (h : parseEnumerators abi n s prev first ts = .ok (s', rest)) : ∃ l, ts = l ++ .rbrace :: rest := by
  have value : ∀ (names : Str → Option Const) (prev : Option Const) (first : Bool) (ts : List ETok) (c : Const) (us : List ETok),
      enumValue abi names prev first ts = .ok (c, us) → ∃ l, ts = l ++ us := by
    intro names prev first ts c us h
    unfold enumValue at h
    split at h
    · obtain ⟨t, _, h⟩ := Res.bind_eq_ok.1 h
      cases t with
      | const d => cases h; exact ⟨[_], rfl⟩
      | other d => cases h
    · cases first with
      | true => cases h; exact ⟨[], rfl⟩
      | false =>
        cases prev with
        | none => cases h
        | some p =>
          obtain ⟨q, _, h⟩ := Res.bind_eq_ok.1 h
          cases h; exact ⟨[], rfl⟩
  induction n generalizing s prev first ts with
  | zero => cases h
  | succ n ih =>
    unfold parseEnumerators at h
    obtain ⟨⟨more, s1, p1, us⟩, hp, h⟩ := Res.bind_eq_ok.1 h
    have hl : ∃ l, ts = l ++ us := by
      unfold parseEnumerator at hp
      split at hp
      · rename_i x ts'
        obtain ⟨⟨c, vs⟩, hv, hp⟩ := Res.bind_eq_ok.1 hp
        obtain ⟨s2, _, hp⟩ := Res.bind_eq_ok.1 hp
        obtain ⟨l, hl⟩ := value _ _ _ _ _ _ hv
        split at hp
        · cases hp
          exact ⟨.ident x :: l ++ [.comma], by rw [hl]; simp⟩
        · cases hp
          exact ⟨.ident x :: l, by rw [hl]; simp⟩
      · cases hp; exact ⟨[], rfl⟩
    obtain ⟨l, hl⟩ := hl
    dsimp only at h
    split at h
    · obtain ⟨l', hl'⟩ := ih _ _ _ _ h
      exact ⟨l ++ l', by rw [hl, hl']; simp⟩
    · split at h
      · cases h; exact ⟨l, hl⟩
      · cases h

example : onOk (fun r => r.2) (parseEnumBody .sysv emptyScope [.ident (str "A"), .comma, .rbrace, .comma]) = .ok [.comma] := by decide +kernel

/-- **C101**: a list with an expression that depends on an object is rejected, wherever the
enumerator stands. -/
theorem object_rejected (abi : Abi) (s : Scope) (prev : Option Const) (first : Bool) (n : Nat) (x : Str)
    (e : E) (ts : List ETok) (h : mentionsObject e = true) (r : Scope × List ETok) :
    parseEnumerators abi n s prev first (.ident x :: .eq e :: ts) ≠ .ok r := by
  intro hr
  cases n with
  | zero => cases hr
  | succ n =>
    unfold parseEnumerators at hr
    obtain ⟨q, hq, hr⟩ := Res.bind_eq_ok.1 hr
    unfold parseEnumerator at hq
    obtain ⟨p, hp, hq⟩ := Res.bind_eq_ok.1 hq
    unfold enumValue at hp
    obtain ⟨t, ht, hp⟩ := Res.bind_eq_ok.1 hp
    cases t with
    | const c => exact objects_not_constant abi s.names e h c ht
    | other t => cases hp

/-- **C101**: so is one in which a name is declared that the scope already has. -/
theorem redeclaration_rejected (abi : Abi) (s : Scope) (prev : Option Const) (first : Bool) (n : Nat)
    (x : Str) (ts : List ETok) (h : s.here x = true) (r : Scope × List ETok) :
    parseEnumerators abi n s prev first (.ident x :: ts) ≠ .ok r := by
  intro hr
  cases n with
  | zero => cases hr
  | succ n =>
    unfold parseEnumerators at hr
    obtain ⟨q, hq, hr⟩ := Res.bind_eq_ok.1 hr
    unfold parseEnumerator at hq
    obtain ⟨p, hp, hq⟩ := Res.bind_eq_ok.1 hq
    obtain ⟨t, ht, hq⟩ := Res.bind_eq_ok.1 hq
    unfold Scope.add at ht
    rw [if_pos h] at ht
    cases ht

example : mentionsObject (.bin .add (.obj .int) (.lit .int 1)) = true ∧
    (⟨fun _ => none, fun _ => true⟩ : Scope).here (str "A") = true := ⟨rfl, rfl⟩

/-! ### C102 -/

/-- Full statement of **C102** for arrays (6.7.6.2p1, p4): a constant size that is positive gives an
array of that many elements, another one is diagnosed. -/
def ArraySizes (abi : Abi) : Prop :=
  ∀ (names : Str → Option Const) (N : Names), Agree names N → Declared abi N →
  ∀ (e : E) (t : ST) (v : Int), HasType abi N e t → IsInt t → HasValue abi N e (.int v) →
    Plain abi N e →
    arrayLength abi names e = if 0 < v then .ok (some v.toNat) else .fail

/-- **C102 (partial)**: for every constant size expression of C100 that is not an unsigned zero. -/
theorem array_sizes_partial (names : Str → Option Const) (N : Names) (ha : Agree names N)
    (hd : Declared .sysv N) (e : E) (t : ST) (v : Int) (ht : HasType .sysv N e t) (hi : IsInt t)
    (hv : HasValue .sysv N e (.int v)) (hp : Plain .sysv N e) (h0 : v ≠ 0 ∨ signed t = true) :
    arrayLength .sysv names e = if 0 < v then .ok (some v.toNat) else .fail := by
  obtain ⟨c, h1, h2, h3, h4⟩ := constant_main names N ha hd e t (.int v) ht hv hp
  subst h2
  unfold arrayLength
  have hs := isSigned_int c.ty hi
  simp only [h1, Res.bind_ok, Tree.constant?, hs]
  show (if (signed c.ty && decide (c.bits.toInt ≤ 0)) = true then _ else _) = _
  have hneg : (signed c.ty && decide (c.bits.toInt ≤ 0)) = true ↔ ¬ 0 < v := by
    rw [← h4]
    cases hsg : signed c.ty with
    | true =>
      have : val c = c.bits.toInt := by unfold val; rw [if_pos hsg]
      rw [this]
      simp
    | false =>
      have : val c = c.bits.toNat := by unfold val; rw [if_neg (by simp [hsg])]
      rw [this]
      rcases h0 with h0 | h0
      · rw [← h4, this] at h0
        simp
        omega
      · rw [hsg] at h0; cases h0
  by_cases hpos : 0 < v
  · rw [if_neg (fun h => hneg.1 h hpos), if_pos hpos]
    obtain ⟨c', k1, k2, k3, k4⟩ := cast_const (t := sizeType .sysv) h3 (by decide) (by decide)
    simp only [k1, Res.bind_ok]
    have hvc : val c' = v := by
      rw [h4] at k4
      refine conversion_unique .sysv (sizeType .sysv) (by decide) _ _ _ k4 (conv_self (by decide) ?_)
      have hr := h3.2
      rw [h4] at hr
      revert hr
      cases c.ty <;> simp only [InRange, inBits, signed, width, sizeType] <;> simp <;> omega
    have : val c' = c'.bits.toNat := by unfold val; rw [k2]; rfl
    rw [this] at hvc
    show Res.ok (some c'.bits.toNat) = _
    rw [← hvc]
    simp
  · rw [if_pos (hneg.2 hpos), if_neg hpos]

example : HasType .sysv noNames (.un .neg (.lit .int 1)) .int ∧ IsInt .int ∧
    HasValue .sysv noNames (.un .neg (.lit .int 1)) (.int (-1)) ∧ ((-1 : Int) ≠ 0 ∨ signed .int = true) := by
  have ht : HasType .sysv noNames (.un .neg (.lit .int 1)) .int :=
    .un _ _ .int _ (.lit _ _ (by decide) (by decide)) (by decide) (by decide)
  exact ⟨ht, by decide, .un _ _ .int 1 _ ht (.lit _ _) (by decide), .inr rfl⟩

/-- **C102 is violated**: `int a[sizeof(int) - 4];` is an array of no elements. -/
theorem array_size_violated : ¬ ArraySizes .sysv ∧
    arrayLength .sysv (fun _ => none) (.lit .ulong 0) = .ok (some 0) := by
  have hb : arrayLength .sysv (fun _ => none) (.lit .ulong 0) = .ok (some 0) := by decide +kernel
  refine ⟨fun h => ?_, hb⟩
  have := h (fun _ => none) noNames agree_none (declared_none _) (.lit .ulong 0) .ulong 0
    (.lit _ _ (by decide) (by decide)) (by decide) (.lit _ _) trivial
  rw [hb] at this
  cases this

/-- **C102**: a size that depends on an object makes a variable-length array. -/
theorem variable_size (names : Str → Option Const) (e : E) (h : mentionsObject e = true) (r : Option Nat)
    (hr : arrayLength .sysv names e = .ok r) : r = none := by
  unfold arrayLength at hr
  obtain ⟨t, ht, hr⟩ := Res.bind_eq_ok.1 hr
  cases t with
  | const c => exact absurd ht (objects_not_constant _ names e h c)
  | other t =>
    simp only [Tree.constant?] at hr
    obtain ⟨b, hb, hr⟩ := Res.bind_eq_ok.1 hr
    cases hb
    rw [if_neg (by decide)] at hr
    obtain ⟨l, hl, hr⟩ := Res.bind_eq_ok.1 hr
    obtain ⟨q, rfl⟩ := cast_other hl
    cases hr
    rfl

example : arrayLength .sysv (fun _ => none) (.bin .mul (.obj .int) (.lit .int 2)) = .ok none := by
  decide +kernel

/-- Full statement of **C102** for bit-fields (6.7.2.1p4): a constant width from 0 to the width of
the type, not 0 with a declarator, is taken; every other one is diagnosed. -/
def BitWidths (abi : Abi) : Prop :=
  ∀ (names : Str → Option Const) (N : Names), Agree names N → Declared abi N →
  ∀ (e : E) (t : ST) (v : Int) (T : ST) (named : Bool), HasType abi N e t → IsInt t →
    HasValue abi N e (.int v) → Plain abi N e → IsInt T →
    bitWidth abi names e =
      if 0 ≤ v ∧ v ≤ width abi T ∧ (named = true → v ≠ 0) then .ok v else .fail

/-- **C102 (partial)**: a width that is representable as an int is taken as it is, so all widths that
C allows are right.  Missing: the constraint is not checked, below. -/
theorem bit_widths_partial (names : Str → Option Const) (N : Names) (ha : Agree names N)
    (hd : Declared .sysv N) (e : E) (t : ST) (v : Int) (ht : HasType .sysv N e t)
    (hv : HasValue .sysv N e (.int v)) (hp : Plain .sysv N e) (hr : InRange .sysv .int v) :
    bitWidth .sysv names e = .ok v := by
  obtain ⟨c, h1, h2, h3, h4⟩ := constant_main names N ha hd e t (.int v) ht hv hp
  obtain ⟨c', k1, k2, k3, k4⟩ := cast_const (t := .int) h3 (by decide) (by decide)
  have hvc : val c' = v := by
    rw [h4] at k4
    exact conversion_unique .sysv .int (by decide) _ _ _ k4 (conv_self (by decide) hr)
  have hb : c'.bits.toInt = v := by rw [← hvc]; unfold val; rw [k2]; rfl
  unfold bitWidth
  simp only [h1, Res.bind_ok, k1, Tree.constant?]
  rw [if_pos k2]
  show Res.ok _ = _
  congr 1
  have e32 : c'.bits = BitVec.ofInt 64 v := BitVec.eq_of_toInt_eq (by
    rw [hb, toInt_ofInt64]
    simp only [InRange, inBits, signed, width] at hr
    simp at hr
    omega)
  rw [e32]
  have : (BitVec.ofInt 64 v).setWidth 32 = BitVec.ofInt 32 v := by
    apply BitVec.eq_of_toNat_eq
    simp only [BitVec.toNat_setWidth, BitVec.toNat_ofInt]
    omega
  rw [this, BitVec.toInt_ofInt]
  simp only [InRange, inBits, signed, width] at hr
  simp at hr
  rw [Int.bmod_def]
  split <;> omega

example : HasType .sysv noNames (.lit .uint 7) .uint ∧ HasValue .sysv noNames (.lit .uint 7) (.int 7) ∧
    InRange .sysv .int 7 := ⟨.lit _ _ (by decide) (by decide), .lit _ _, by decide⟩

/-- **C102 is violated**: `int x : 40`, `int x : 0` and `int x : 4294967297` (taken for 1) are
accepted; `int x : -1` declares an ordinary member, since -1 stands for no bit-field. -/
theorem bit_width_violated : ¬ BitWidths .sysv ∧
    bitWidth .sysv (fun _ => none) (.lit .int 40) = .ok 40 ∧
    bitWidth .sysv (fun _ => none) (.lit .int 0) = .ok 0 ∧
    bitWidth .sysv (fun _ => none) (.lit .long 4294967297) = .ok 1 ∧
    bitWidth .sysv (fun _ => none) (.un .neg (.lit .int 1)) = .ok (-1) := by
  have hb : bitWidth .sysv (fun _ => none) (.lit .int 40) = .ok 40 := by decide +kernel
  refine ⟨fun h => ?_, hb, by decide +kernel, by decide +kernel, by decide +kernel⟩
  have := h (fun _ => none) noNames agree_none (declared_none _) (.lit .int 40) .int 40 .int true
    (.lit _ _ (by decide) (by decide)) (by decide) (.lit _ _) trivial (by decide)
  rw [hb, if_neg (by decide)] at this
  cases this

end Verif.Enumerators
