import Verif.LiteralsLemmas
import Verif.SimpleProps
/-!
C104: the type and the value of the literals in an expression: string literals, character constants with a prefix and
floating constants.
-/
namespace Verif.Literals
open Verif Simple SimpleSpec Preprocessed Escape EscapeSpec LiteralsSpec

/-! ### Floating constants -/

/-- The types of the compiler that stand for the floating types of C. -/
def floatST : FloatType → ST
  | .float => .float | .double => .double | .longDouble => .ldouble

/-- C17 6.4.4.2: every floating constant is taken for one; its type is that of its suffix, and the text goes to
`strtod`, which stops in front of the suffix. -/
def FloatingRight (abi : Abi) : Prop :=
  ∀ (s sp : Str) (ft : FloatType) (t : Tok), Floating s → sp ∈ suffixes ft → t.type = .T_NUM → t.str = s ++ sp →
    literal abi t = .ok (some (.floating (floatST ft) (s ++ sp)))

/-- C104, `_partial`: so it is for `float` and `double`. Full statement: `FloatingRight`. Missing: `long double`, which is
violated, see `long_double_violated`. -/
theorem floating_partial (abi : Abi) (s sp : Str) (ft : FloatType) (t : Tok) (hft : ft = .float ∨ ft = .double)
    (h : Floating s) (hs : sp ∈ suffixes ft) (ht : t.type = .T_NUM) (hx : t.str = s ++ sp) :
    literal abi t = .ok (some (.floating (floatST ft) (s ++ sp))) := by
  obtain ⟨⟨c, hc, c1, c2, c3, c4⟩, hf⟩ := floating_facts h
  have f1 : NoPrefix (ch 'f') := by unfold NoPrefix; decide
  have f2 : NoPrefix (ch 'F') := by unfold NoPrefix; decide
  simp only [literal, ht, hx, Literals.number]
  rcases hft with rfl | rfl <;> simp only [suffixes, List.mem_cons, List.not_mem_nil, or_false] at hs
  · rcases hs with rfl | rfl
    · rw [hf _ (fun c hc => by simp at hc; exact hc ▸ f1)]
      simp only [if_true, floatingConstant, List.getLast?_concat]
      simp [floatST, Res.bind_ok, pure]
    · rw [hf _ (fun c hc => by simp at hc; exact hc ▸ f2)]
      simp only [if_true, floatingConstant, List.getLast?_concat]
      simp [floatST, Res.bind_ok, pure]
  · subst hs
    rw [hf [] (fun c hc => by cases hc)]
    simp only [List.append_nil, if_true, floatingConstant, hc]
    simp [c1, c2, c3, c4, floatST, Res.bind_ok, pure]

/-- Constants of type `long double` are not translated. -/
theorem long_double_rejected (abi : Abi) (s sp : Str) (t : Tok)
    (h : Floating s) (hs : sp ∈ suffixes .longDouble) (ht : t.type = .T_NUM) (hx : t.str = s ++ sp) :
    literal abi t = .fail := by
  obtain ⟨_, hf⟩ := floating_facts h
  have f1 : NoPrefix (ch 'l') := by unfold NoPrefix; decide
  have f2 : NoPrefix (ch 'L') := by unfold NoPrefix; decide
  simp only [literal, ht, hx, Literals.number]
  simp only [suffixes, List.mem_cons, List.not_mem_nil, or_false] at hs
  rcases hs with rfl | rfl
  · rw [hf _ (fun c hc => by simp at hc; exact hc ▸ f1)]
    simp only [if_true, floatingConstant, List.getLast?_concat]
    rfl
  · rw [hf _ (fun c hc => by simp at hc; exact hc ▸ f2)]
    simp only [if_true, floatingConstant, List.getLast?_concat]
    rfl

theorem one_half : Floating (str "1.5") :=
  .fraction ⟨str "1", str "5", by decide, .inl (by decide), by unfold Dec; decide, by unfold Dec; decide⟩

/-- A constant that the two theorems are about. -/
example : Floating (str "0x.8p-3") ∧ [ch 'f'] ∈ suffixes .float := by
  refine ⟨.hexFraction (f := str ".8") (e := str "p-3") (.inl rfl) ?_ ?_, by simp [suffixes]⟩
  · exact ⟨[], str "8", by decide, .inr (by decide), by simp, by unfold Hex Dec; decide⟩
  · exact ⟨ch 'p', str "-", str "3", by decide, .inl rfl, .inr (.inr (by decide)), by decide, by unfold Dec; decide⟩

/-- C104, violation: `1.5L` is not translated. -/
theorem long_double_violated (abi : Abi) : ¬ FloatingRight abi := by
  intro h
  have a := h (str "1.5") (str "L") .longDouble { (default : Tok) with type := .T_NUM, str := str "1.5L" } one_half
    (by decide) rfl (by decide)
  rw [long_double_rejected abi (str "1.5") (str "L") _ one_half (by decide) rfl (by decide)] at a
  cases a

/-- The integer constants are not among them: C06 has their type and value. -/
theorem integer_constants (abi : Abi) (b : Base) (pre ds sp : Str) (s : SimpleSpec.Suffix) (t : Tok) (c : Const)
    (hc : IsConstant b pre ds) (hs : sp ∈ spellings s) (ht : t.type = .T_NUM) (hx : t.str = pre ++ ds ++ sp)
    (hv : integerConstant abi (pre ++ ds ++ sp) = .ok c) : literal abi t = .ok (some (.const c)) := by
  simp only [literal, ht, hx, Literals.number, integer_not_float b pre ds sp s hc hs, hv]
  rfl

/-! ### Characters and strings -/

/-- 6.4.4.4p9, p11, 6.4.5p6 and 7.28p2: the type of an element. `wchar_t` is `int` under the System V ABI, and
`unsigned short` for Windows. -/
def elementType : Abi → StrType → ST
  | _, .default | _, .u8 => .char
  | _, .uSmall => .ushort
  | _, .uLarge => .uint
  | .sysv, .l => .int
  | .ms, .l => .ushort

/-- The encoding that goes with it. -/
def encoding : Abi → StrType → Enc
  | _, .default | _, .u8 => .narrow
  | _, .uSmall => .utf16
  | _, .uLarge => .utf32
  | .sysv, .l => .utf32
  | .ms, .l => .utf16

/-- C17 6.4.4.4p11: a constant of one character with a prefix has the type of the prefix and the value of the character. -/
def CharactersRight (abi : Abi) : Prop :=
  ∀ (p : StrType) (i : Item) (t : Tok), p = .uSmall ∨ p = .uLarge ∨ p = .l → t.type = .T_CHARACTER_CONSTANT →
    t.str = charText p [i] → BodyWF (ch '\'') [i] → value i < 256 ^ sizeOf abi (elementType abi p) → value i < 2 ^ 31 →
    ∃ u, single t = .ok u ∧ literal abi u = .ok (some (.const ⟨elementType abi p, BitVec.ofNat 64 (value i)⟩))

theorem small_value (e : Enc) (q : Byte) (next : List Byte) (i : Item) (hw : ItemWF q next i) (hs : Supported e i) :
    value i < 2 ^ 31 := by
  have dv : ∀ (b : Nat) (ds : List Nat) (n r : Nat), ds.length ≤ n → (∀ d ∈ ds, d < b) → 1 ≤ b →
      ds.foldl (fun r d => r * b + d) r < (r + 1) * b ^ n := by
    intro b ds n
    induction ds generalizing n with
    | nil =>
      intro r _ _ hb
      have : 1 ≤ b ^ n := Nat.one_le_pow _ _ hb
      calc r < r + 1 := by omega
        _ ≤ (r + 1) * b ^ n := Nat.le_mul_of_pos_right _ this
    | cons d ds ih =>
      intro r hn hd hb
      cases n with
      | zero => simp at hn
      | succ n =>
        have h1 := ih n (r * b + d) (by simpa using hn) (fun x hx => hd x (by simp [hx])) hb
        have h2 : r * b + d + 1 ≤ (r + 1) * b := by have := hd d (by simp); rw [Nat.add_mul]; omega
        calc _ < (r * b + d + 1) * b ^ n := h1
          _ ≤ (r + 1) * b * b ^ n := Nat.mul_le_mul_right _ h2
          _ = (r + 1) * b ^ (n + 1) := by rw [Nat.pow_succ, Nat.mul_assoc, Nat.mul_comm b]
  cases i with
  | plain cp => have := hw.1; simp only [value]; omega
  | simple c =>
    have : ∀ c : Char, (simpleVal c).getD 0 < 2 ^ 31 := by intro c; unfold simpleVal; split <;> decide
    exact this c
  | oct ds =>
    have := dv 8 ds 3 0 hw.2.1 hw.2.2.1 (by decide)
    simp only [value, digitsVal]; omega
  | hex ds =>
    have := dv 16 ds 1 0 (Nat.le_of_eq hs) hw.2.1 (by decide)
    simp only [value, digitsVal]; omega

/-- C104, `_partial`: so it is for both ABIs, for source characters, simple and octal escapes. Full statement:
`CharactersRight`. Missing: hexadecimal escapes of more than one digit, which are misread (C03), see `characters_violated`. -/
theorem characters_partial (abi : Abi) (p : StrType) (i : Item) (t : Tok) (hp : p = .uSmall ∨ p = .uLarge ∨ p = .l)
    (ht : t.type = .T_CHARACTER_CONSTANT) (hx : t.str = charText p [i]) (hw : BodyWF (ch '\'') [i])
    (hv : value i < 256 ^ sizeOf abi (elementType abi p)) (hs : ∀ ds, i = .hex ds → ds.length = 1) :
    ∃ u, single t = .ok u ∧ literal abi u = .ok (some (.const ⟨elementType abi p, BitVec.ofNat 64 (value i)⟩)) := by
  have sup : Supported (enc p) i := by
    cases i with
    | hex ds => exact hs ds rfl
    | plain cp =>
      intro he
      rcases hp with rfl | rfl | rfl
      · cases abi <;> exact hv
      · cases he
      · cases he
    | _ => trivial
  have sm := small_value (enc p) (ch '\'') _ i hw.1 sup
  have all : ∀ j ∈ [i], Supported (enc p) j := fun j hj => by simp at hj; exact hj ▸ sup
  rcases hp with rfl | rfl | rfl
  · refine ⟨_, single_char .uSmall [i] t ht hx hw all _ rfl, ?_⟩
    have hv' : value i < 2 ^ 16 := by cases abi <;> exact hv
    have : denoteAll .utf16 [i] = le 2 (value i) := by
      cases i <;> simp [denoteAll, denote, value]
      intro h; exact absurd hv' (Nat.not_lt.2 h)
    simp only [literal, enc, this, char16_one _ hv']
    cases abi <;> rfl
  · refine ⟨_, single_char .uLarge [i] t ht hx hw all _ rfl, ?_⟩
    have : denoteAll .utf32 [i] = le 4 (value i) := by cases i <;> simp [denoteAll, denote]
    simp only [literal, enc, this, wchar_one _ sm]
    cases abi <;> rfl
  · refine ⟨_, single_char .l [i] t ht hx hw all _ rfl, ?_⟩
    have : denoteAll .utf32 [i] = le 4 (value i) := by cases i <;> simp [denoteAll, denote]
    simp only [literal, enc, this, wchar_one _ sm]
    cases abi <;> rfl

/-- A character that the theorem is about: `L'é'`. -/
example : BodyWF (ch '\'') [.plain 233] ∧ value (.plain 233) < 256 ^ sizeOf .ms (elementType .ms .l) ∧
    charText .l [.plain 233] = [ch 'L', ch '\'', 0xc3, 0xa9, ch '\''] :=
  ⟨⟨⟨by decide, by decide, by decide⟩, trivial⟩, by decide, by decide⟩

/-- C104, violation: `L'\x41'` is not 65. -/
theorem characters_violated (abi : Abi) : ¬ CharactersRight abi := by
  intro h
  obtain ⟨u, h1, h2⟩ := h .l (.hex [4, 1])
    { (default : Tok) with type := .T_CHARACTER_CONSTANT, str := charText .l [.hex [4, 1]] } (.inr (.inr rfl)) rfl rfl
    ⟨⟨by decide, by decide, by decide⟩, trivial⟩ (by cases abi <;> decide) (by decide)
  have e : single { (default : Tok) with type := .T_CHARACTER_CONSTANT, str := charText .l [.hex [4, 1]] } =
      .ok { (default : Tok) with type := .T_CHARACTER_CONSTANT_WCHAR, str := [33, 0, 0, 0] } := by decide +kernel
  rw [e] at h1
  cases h1
  revert h2
  cases abi <;> decide +kernel

/-- C17 6.4.4.4p10, p11: the value of a character constant is one of its type. -/
def InRange (abi : Abi) : Prop :=
  ∀ (p : StrType) (is : List Item) (t u : Tok) (c : Const), p = .uSmall ∨ p = .uLarge ∨ p = .l →
    t.type = .T_CHARACTER_CONSTANT → t.str = charText p is → BodyWF (ch '\'') is →
    single t = .ok u → literal abi u = .ok (some (.const c)) → c.bits.toNat < 256 ^ sizeOf abi c.ty

/-- C104, violation: `u'ab'` is 0x610062, of type `unsigned short`. -/
theorem range_violated (abi : Abi) : ¬ InRange abi := by
  intro h
  have := h .uSmall [.plain 97, .plain 98]
    { (default : Tok) with type := .T_CHARACTER_CONSTANT, str := charText .uSmall [.plain 97, .plain 98] }
    { (default : Tok) with type := .T_CHARACTER_CONSTANT_CHAR16, str := [97, 0, 98, 0] } ⟨.ushort, 0x610062⟩
    (.inl rfl) rfl rfl ⟨⟨by decide, by decide, by decide⟩, ⟨by decide, by decide, by decide⟩, trivial⟩
    (by decide +kernel) (by cases abi <;> decide +kernel)
  revert this
  cases abi <;> decide

/-- `L'abc'` shifts a number out of the `intmax_t` it is collected in: that is undefined. -/
theorem three_wide_ub (abi : Abi) : ∃ u, single { (default : Tok) with type := .T_CHARACTER_CONSTANT, str := str "L'abc'" } = .ok u ∧
    literal abi u = .ub :=
  ⟨{ (default : Tok) with type := .T_CHARACTER_CONSTANT_WCHAR, str := [97, 0, 0, 0, 98, 0, 0, 0, 99, 0, 0, 0] },
    by decide +kernel, by cases abi <;> decide +kernel⟩

/-- Tokens of string literals. -/
def StringTokens (ls : List (StrType × List Item)) (ts : List Tok) : Prop :=
  (∀ t ∈ ts, t.type = .T_STRING) ∧ ts.map (·.str) = ls.map litText

/-- C17 6.4.5p5, p6: adjacent string literals are one array of the elements that the prefix says, with a zero at the end. -/
def StringsRight (abi : Abi) : Prop :=
  ∀ (c : StrType) (ls : List (StrType × List Item)) (ts : List Tok), ls ≠ [] → Combined c ls →
    (∀ l ∈ ls, BodyWF (ch '"') l.2) → (∀ l ∈ ls, ∀ i ∈ l.2, Fits (encoding abi c) i) → StringTokens ls ts →
    ∃ r bytes, concat ts.length ts = .ok [r] ∧
      literal abi r = .ok (some (.array (elementType abi c) (elements (encoding abi c) (ls.map (·.2)).flatten).length bytes)) ∧
      Holds (sizeOf abi (elementType abi c)) (elements (encoding abi c) (ls.map (·.2)).flatten) bytes

theorem concat_strings (c : StrType) (ls : List (StrType × List Item)) (ts : List Tok) (hne : ls ≠ [])
    (ht : StringTokens ls ts) (b : Str) (h : concatStrings (ls.map litText) = .ok (c, b)) :
    ∃ r, concat ts.length ts = .ok [r] ∧ r.type = stringType c ∧ r.str = b := by
  obtain ⟨h1, h2⟩ := ht
  cases ts with
  | nil => exact absurd (by simpa using h2.symm) hne
  | cons t ts =>
    have is : ∀ x ∈ t :: ts, isString x = true := fun x hx => by simp [isString, h1 x hx]
    have tw : ts.takeWhile isString = ts := by
      rw [show ts = ts ++ [] by simp, List.takeWhile_append_of_pos (fun x hx => is x (by simp at hx ⊢; exact .inr hx))]
      simp
    have dw : ts.dropWhile isString = [] := by
      rw [show ts = ts ++ [] by simp, List.dropWhile_append_of_pos (fun x hx => is x (by simp at hx ⊢; exact .inr hx))]
      rfl
    refine ⟨{ t with type := stringType c, str := b }, ?_, rfl, rfl⟩
    simp only [List.length_cons, concat, is t (by simp), if_true, tw, dw]
    have : t.str :: ts.map (·.str) = ls.map litText := by simpa using h2
    rw [this, h]
    rfl

/-- C104, `_partial`: so it is, under both ABIs. Full statement: `StringsRight`. Missing: wide strings for Windows
(violated, see `wide_strings_violated`), hexadecimal escapes of more than one digit (violated, C03), characters from
0x10000 on in `u""` (violated, C62). -/
theorem strings_partial (abi : Abi) (c : StrType) (ls : List (StrType × List Item)) (ts : List Tok) (hne : ls ≠ [])
    (hc : Combined c ls) (hwf : ∀ l ∈ ls, BodyWF (ch '"') l.2) (hf : ∀ l ∈ ls, ∀ i ∈ l.2, Fits (encoding abi c) i)
    (ht : StringTokens ls ts) (hw : c = .l → abi = .sysv) (hsup : ∀ l ∈ ls, ∀ i ∈ l.2, Supported (enc c) i) :
    ∃ r bytes, concat ts.length ts = .ok [r] ∧
      literal abi r = .ok (some (.array (elementType abi c) (elements (encoding abi c) (ls.map (·.2)).flatten).length bytes)) ∧
      Holds (sizeOf abi (elementType abi c)) (elements (encoding abi c) (ls.map (·.2)).flatten) bytes := by
  obtain ⟨r, h1, h2, h3⟩ := concat_strings c ls ts hne ht _ (concat_strings_partial c ls hc hwf hsup)
  have he : enc c = encoding abi c := by cases c <;> cases abi <;> first | rfl | cases hw rfl
  have hb : (ls.map fun l => denoteAll (enc c) l.2).flatten ++ nul (enc c) =
      ((elements (encoding abi c) (ls.map (·.2)).flatten).map (le (width (encoding abi c)))).flatten := by
    rw [← he, nul_units]
    simp only [elements, List.map_append, List.flatten_append]
    congr 1
    clear h3 h1 hc hwf hf hsup ht hne
    induction ls with
    | nil => rfl
    | cons l ls ih => simp only [List.map_cons, List.flatten_cons, List.map_append, List.flatten_append, ih]; rw [denoteAll_units]
  have lt : ∀ u ∈ elements (encoding abi c) (ls.map (·.2)).flatten, u < 256 ^ width (encoding abi c) := by
    intro u hu
    rcases List.mem_append.1 hu with hu | hu
    · obtain ⟨v, hv, hu⟩ := List.mem_flatten.1 hu
      obtain ⟨i, hi, rfl⟩ := List.mem_map.1 hv
      obtain ⟨is, his, hi⟩ := List.mem_flatten.1 hi
      obtain ⟨l, hl, rfl⟩ := List.mem_map.1 his
      exact body_units_lt (encoding abi c) (ch '"') l.2 (hwf l hl) (hf l hl) u
        (List.mem_flatten.2 ⟨_, List.mem_map.2 ⟨i, hi, rfl⟩, hu⟩)
    · simp at hu; subst hu; cases encoding abi c <;> decide
  have hold := holds_flatten (width (encoding abi c)) _ lt
  have hsz : sizeOf abi (elementType abi c) = width (encoding abi c) := by cases c <;> cases abi <;> rfl
  rw [hb] at h3
  refine ⟨r, r.str, h1, ?_, by rw [hsz, h3]; exact hold⟩
  have hn : (elements (encoding abi c) (ls.map (·.2)).flatten).length = r.str.length / sizeOf abi (elementType abi c) := by
    rw [h3, hold.1, hsz, Nat.mul_div_cancel]
    cases encoding abi c <;> decide
  rw [hn]
  cases c <;> simp [literal, h2, stringType, exprStr, elementType, char16Type, char32Type]
  · have := hw rfl; subst this; simp [wcharType]

/-- Literals that the theorem is about: `"a" L"\n"`. -/
example : Combined .l [(.default, [.plain 97]), (.l, [.simple 'n'])] ∧
    (∀ l ∈ [((.default : StrType), [Item.plain 97]), (.l, [.simple 'n'])], BodyWF (ch '"') l.2) ∧
    elements (encoding .sysv .l) [.plain 97, .simple 'n'] = [97, 10, 0] := by
  refine ⟨⟨by simp, .inr ⟨_, List.mem_cons_of_mem _ (List.mem_cons_self ..), rfl⟩⟩, ?_, by decide⟩
  intro l hl
  simp at hl
  rcases hl with rfl | rfl
  · exact ⟨⟨by decide, by decide, by decide⟩, trivial⟩
  · exact ⟨by unfold ItemWF; decide, trivial⟩

/-- What `L"ab"` is when compiling for Windows: six elements, every second of them zero. -/
theorem wide_strings_actual : ∃ r, concat 1 [{ (default : Tok) with type := .T_STRING, str := litText (.l, [.plain 97, .plain 98]) }] = .ok [r] ∧
    literal .ms r = .ok (some (.array .ushort 6 [97, 0, 0, 0, 98, 0, 0, 0, 0, 0, 0, 0])) :=
  ⟨{ (default : Tok) with type := .T_STRING_WCHAR, str := [97, 0, 0, 0, 98, 0, 0, 0, 0, 0, 0, 0] }, by decide +kernel, by decide +kernel⟩

/-- C104, violation: for Windows `L"ab"` should be three elements. -/
theorem wide_strings_violated : ¬ StringsRight .ms := by
  intro h
  obtain ⟨r, b, h1, h2, _⟩ := h .l [(.l, [.plain 97, .plain 98])]
    [{ (default : Tok) with type := .T_STRING, str := litText (.l, [.plain 97, .plain 98]) }] (by simp)
    ⟨by simp, .inr ⟨_, List.mem_cons_self .., rfl⟩⟩
    (fun l hl => by simp at hl; subst hl; exact ⟨⟨by decide, by decide, by decide⟩, ⟨by decide, by decide, by decide⟩, trivial⟩)
    (fun l hl i hi => by simp at hl; subst hl; simp at hi; rcases hi with rfl | rfl <;> trivial)
    ⟨by simp, rfl⟩
  obtain ⟨r', g1, g2⟩ := wide_strings_actual
  rw [show [({ (default : Tok) with type := .T_STRING, str := litText (.l, [.plain 97, .plain 98]) } : Tok)].length = 1 from rfl, g1] at h1
  cases h1
  rw [g2] at h2
  revert h2
  simp [elements, encoding, units, elementType]

end Verif.Literals
