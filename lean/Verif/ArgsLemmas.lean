import Verif.ArgsSpec
import Verif.SimpleLemmas
import Verif.CastLemmas
/-!
Lemmas about the operands of calls.
-/
namespace Verif.Args
open Verif Simple SimpleSpec CodegenSpec

/-! ### Operands -/

theorem valueType_idem (t : Ty) : valueType (valueType t) = valueType t := by cases t <;> rfl

theorem valueType_unconst (t : Ty) : (valueType t).isConst = false := by cases t <;> rfl

theorem decay_value {e : Ex} (h : valueType e.ty = e.ty) : e.decay = e := by
  unfold Ex.decay
  have hc := valueType_unconst e.ty
  rw [h] at hc
  cases ht : e.ty with
  | array t => rw [ht] at h; cases h
  | func k => rw [ht] at h; cases h
  | _ => rw [ht] at hc; simp [ht, hc]

theorem decay_leaf (F : X86.FP) (d : Decls) (env : Nat → Option V) (i : Nat) (t : Ty) (bf : Int) :
    (Ex.leaf i t bf).decay.ty = valueType t ∧ (Ex.leaf i t bf).decay.eval F d env = .ok ⟨valueType t, env i⟩ ∧
    (t.isConst = false → valueType t = t → (Ex.leaf i t bf).decay = .leaf i t bf) ∧
    (t.isConst = true → (Ex.leaf i t bf).decay.bitfield = -1) := by
  cases t with
  | simple s c => cases c <;> simp [Ex.decay, Ex.ty, Ty.isConst, Ty.unconst, valueType, Ex.eval, Ex.bitfield, bind, Res.bind]
  | ptr s c => cases c <;> simp [Ex.decay, Ex.ty, Ty.isConst, Ty.unconst, valueType, Ex.eval, Ex.bitfield, bind, Res.bind]
  | record s c => cases c <;> simp [Ex.decay, Ex.ty, Ty.isConst, Ty.unconst, valueType, Ex.eval, Ex.bitfield, bind, Res.bind]
  | array t => simp [Ex.decay, Ex.ty, Ty.isConst, valueType, Ex.eval, bind, Res.bind]
  | func k => simp [Ex.decay, Ex.ty, Ty.isConst, valueType, Ex.eval, bind, Res.bind]

theorem castTo_eval {F : X86.FP} {d : Decls} {env : Nat → Option V} {e : Ex} {v : V} {u : Ty}
    (h : valueType e.ty = e.ty) (he : e.eval F d env = .ok ⟨e.ty, some v⟩) :
    (e.castTo u).ty = u ∧ (e.castTo u).eval F d env = EE.cast F d ⟨e.ty, some v⟩ u := by
  unfold Ex.castTo
  rw [decay_value h]
  by_cases hu : e.ty = u
  · rw [if_pos hu, he]
    refine ⟨hu, ?_⟩
    simp [EE.cast, hu]
  · rw [if_neg hu]
    refine ⟨rfl, ?_⟩
    simp [Ex.eval, he, bind, Res.bind]

/-! ### Integers -/

theorem isInt_bytes {abi : Abi} {s : ST} (h : IsInt s) :
    isInteger s = true ∧ isFloating s = false ∧ isSigned s = .ok (signed s) ∧ sizeOf abi s = bytesOf abi s ∧
    (bytesOf abi s = 1 ∨ bytesOf abi s = 2 ∨ bytesOf abi s = 4 ∨ bytesOf abi s = 8) ∧
    (s ≠ .bool → width abi s = 8 * bytesOf abi s) := by
  revert h
  cases abi <;> cases s <;> decide

theorem range_bytes {abi : Abi} {s : ST} (h : IsInt s) {n : Int} (hr : InRange abi s n) :
    (signed s = true → -2 ^ (8 * bytesOf abi s - 1) ≤ n ∧ n < 2 ^ (8 * bytesOf abi s - 1)) ∧
    (signed s = false → 0 ≤ n ∧ n < 2 ^ (8 * bytesOf abi s)) := by
  unfold InRange inBits at hr
  by_cases hb : s = .bool
  · subst hb
    refine ⟨fun h => (nomatch h), fun _ => ?_⟩
    have : bytesOf abi .bool = 1 := rfl
    rw [this]
    simp [signed, width] at hr
    omega
  · rw [(isInt_bytes h).2.2.2.2.2 hb] at hr
    constructor
    · intro hs; rw [hs] at hr; simpa using hr
    · intro hs; rw [hs] at hr; simpa using hr

theorem sval_of {B : Nat} {v : V} {n : Int} (hB : B = 1 ∨ B = 2 ∨ B = 4 ∨ B = 8) (hs : v.size = B)
    (hb : (v.bits : Int) = n % 2 ^ (8 * B)) (hr : -2 ^ (8 * B - 1) ≤ n ∧ n < 2 ^ (8 * B - 1)) : v.sval = n := by
  unfold V.sval
  rw [hs]
  rcases hB with rfl | rfl | rfl | rfl <;> simp at hb hr ⊢ <;> split <;> omega

theorem castInt_bits {B B' : Nat} {sg : Bool} {v : V} {n : Int} (hB : B = 1 ∨ B = 2 ∨ B = 4 ∨ B = 8)
    (hB' : B' = 1 ∨ B' = 2 ∨ B' = 4 ∨ B' = 8) (hs : v.size = B) (hb : (v.bits : Int) = n % 2 ^ (8 * B))
    (h1 : sg = true → -2 ^ (8 * B - 1) ≤ n ∧ n < 2 ^ (8 * B - 1)) (h2 : sg = false → 0 ≤ n ∧ n < 2 ^ (8 * B)) :
    ((castInt B' sg v).bits : Int) = n % 2 ^ (8 * B') := by
  unfold castInt
  rw [hs]
  dsimp only
  by_cases h : sg = true ∧ B < B'
  · rw [if_pos h, sval_of hB hs hb (h1 h.1)]
    rcases hB' with rfl | rfl | rfl | rfl <;> simp <;> omega
  · rw [if_neg h]
    cases sg with
    | true =>
      have : B' ≤ B := by simp at h; exact h
      rcases hB with rfl | rfl | rfl | rfl <;> rcases hB' with rfl | rfl | rfl | rfl <;> simp at hb this ⊢ <;> omega
    | false =>
      have := h2 rfl
      rcases hB with rfl | rfl | rfl | rfl <;> rcases hB' with rfl | rfl | rfl | rfl <;> simp at hb this ⊢ <;> omega

/-- The bits of a number are those of the number it is converted to. -/
theorem converted {d : Decls} {s' : ST} {c : Bool} (h : IsInt s') (hb : s' ≠ .bool) {n : Int} {v : V} (hs : v.size = bytesOf d.abi s')
    (hv : (v.bits : Int) = n % 2 ^ (8 * bytesOf d.abi s')) :
    ∃ n', IsConversion d.abi s' n n' ∧ Rep d (.simple s' c) (.int n') v := by
  obtain ⟨-, -, -, -, hB, hw⟩ := isInt_bytes (abi := d.abi) h
  simp only [IsConversion, Rep, InRange, inBits, hw hb, hb, if_false]
  generalize bytesOf d.abi s' = B at *
  cases hsg : signed s' with
  | true =>
    refine ⟨(n + 2 ^ (8 * B - 1)) % 2 ^ (8 * B) - 2 ^ (8 * B - 1), ?_⟩
    rcases hB with rfl | rfl | rfl | rfl <;> simp [h, hs] at hv ⊢ <;> omega
  | false =>
    refine ⟨n % 2 ^ (8 * B), ?_⟩
    rcases hB with rfl | rfl | rfl | rfl <;> simp [h, hs] at hv ⊢ <;> omega

theorem bool_rep (d : Decls) (c : Bool) (p : Prop) [Decidable p] :
    Rep d (.simple .bool c) (.int (if p then 0 else 1)) ⟨1, if p then 0 else 1⟩ := by
  have h : ∀ abi : Abi, (InRange abi .bool 0 ∧ InRange abi .bool 1) ∧ bytesOf abi .bool = 1 := by
    intro abi; cases abi <;> decide
  have := h d.abi
  by_cases hp : p
  · simp only [hp, if_true]
    exact ⟨by decide, this.1.1, this.2.symm, by rw [this.2]; decide⟩
  · simp only [hp, if_false]
    exact ⟨by decide, this.1.2, this.2.symm, by rw [this.2]; decide⟩

theorem int_to_bool {d : Decls} {s : ST} {c c' : Bool} {n : Int} {v : V} (hr : Rep d (.simple s c) (.int n) v) :
    Rep d (.simple .bool c') (.int (if n = 0 then 0 else 1)) (boolCast v) := by
  obtain ⟨h, hr, hs, hb⟩ := hr
  obtain ⟨r1, r2⟩ := range_bytes h hr
  obtain ⟨-, -, -, -, hB, -⟩ := isInt_bytes (abi := d.abi) h
  have key : v.bits = 0 ↔ n = 0 := by
    generalize bytesOf d.abi s = B at *
    cases hsg : signed s with
    | true =>
      have := r1 hsg
      rcases hB with rfl | rfl | rfl | rfl <;> simp at hb this <;> omega
    | false =>
      have := r2 hsg
      rcases hB with rfl | rfl | rfl | rfl <;> simp at hb this <;> omega
  have := bool_rep d c' (n = 0)
  unfold boolCast
  simpa only [key] using this

/-! ### Floating types -/

theorem cmp_zero {s : ST} {f : Float.Fmt} {k b : Nat} (hf : fmtOf s = some (f, k)) (hb : b < 2 ^ (8 * k)) (hz : b ≠ 2 ^ (8 * k - 1)) :
    Float.cmp f b 0 = .eq ↔ b = 0 := by
  have h6 : 8 * k = f.mb + f.eb + 1 := by
    cases s <;> simp only [fmtOf, reduceCtorEq, Option.some.injEq, Prod.mk.injEq] at hf <;> obtain ⟨rfl, rfl⟩ := hf <;> rfl
  rw [h6] at hb
  rw [show 8 * k - 1 = f.mb + f.eb by omega] at hz
  have hp : 0 < 2 ^ (f.mb + f.eb) := Nat.pow_pos (by decide)
  rw [Nat.pow_succ] at hb
  have hk0 : Float.key f 0 = 0 := by simp [Float.key]
  have hn0 : Float.isNaN f 0 = false := by simp [Float.isNaN, Float.man]
  constructor
  · intro h
    unfold Float.cmp at h
    split at h
    · cases h
    split at h
    · cases h
    split at h
    · rename_i hk
      rw [hk0] at hk
      have hm : b % 2 ^ (f.mb + f.eb) = 0 := by
        unfold Float.key at hk
        split at hk <;> omega
      have hd := Nat.div_add_mod b (2 ^ (f.mb + f.eb))
      have hq : b / 2 ^ (f.mb + f.eb) < 2 := Nat.div_lt_of_lt_mul (by omega)
      generalize 2 ^ (f.mb + f.eb) = P at *
      generalize b / P = q at *
      have : q = 0 ∨ q = 1 := by omega
      rcases this with rfl | rfl
      · omega
      · exfalso; apply hz; omega
    · cases h
  · rintro rfl
    simp [Float.cmp, hn0]

/-- A floating type is `float` or `double`. -/
theorem rep_flt {d : Decls} {s : ST} {c : Bool} {b : Nat} {v : V} (h : Rep d (.simple s c) (.flt b) v) :
    ∃ f k, fmtOf s = some (f, k) ∧ v = ⟨k, b⟩ ∧ b < 2 ^ (8 * k) ∧ sizeOf d.abi s = k ∧ isFloating s = true ∧ isInteger s = false ∧
      s ≠ .bool ∧ format k = .ok f := by
  have hs : ∀ abi : Abi, sizeOf abi .float = 4 ∧ sizeOf abi .double = 8 := by intro abi; cases abi <;> decide
  rcases h with ⟨rfl, rfl, hb⟩ | ⟨rfl, rfl, hb⟩
  · exact ⟨_, _, rfl, rfl, hb, (hs d.abi).1, rfl, rfl, by decide, rfl⟩
  · exact ⟨_, _, rfl, rfl, hb, (hs d.abi).2, rfl, rfl, by decide, rfl⟩

theorem flt_rep (d : Decls) {s : ST} {f : Float.Fmt} {k b : Nat} (c : Bool) (h : fmtOf s = some (f, k)) (hb : b < 2 ^ (8 * k)) :
    Rep d (.simple s c) (.flt b) ⟨k, b⟩ := by
  cases s <;> simp only [fmtOf, reduceCtorEq, Option.some.injEq, Prod.mk.injEq] at h <;> obtain ⟨-, rfl⟩ := h
  · exact .inl ⟨rfl, rfl, hb⟩
  · exact .inr ⟨rfl, rfl, hb⟩

theorem fmt_facts {s : ST} {f : Float.Fmt} {k : Nat} (abi : Abi) (h : fmtOf s = some (f, k)) :
    sizeOf abi s = k ∧ isFloating s = true ∧ isInteger s = false ∧ s ≠ .bool ∧ format k = .ok f ∧ ¬ IsInt s ∧
    ((f = Float.f32 ∧ k = 4) ∨ (f = Float.f64 ∧ k = 8)) := by
  cases s <;> simp only [fmtOf, reduceCtorEq, Option.some.injEq, Prod.mk.injEq] at h <;> obtain ⟨rfl, rfl⟩ := h <;> cases abi <;>
    exact ⟨rfl, rfl, rfl, by decide, rfl, by decide, by decide⟩

theorem inRax_of {d : Decls} {s : ST} {c : Bool} {n : Int} {v : V} (h : Rep d (.simple s c) (.int n) v)
    (h1 : 4 ≤ bytesOf d.abi s ∨ 0 ≤ n) (h2 : n < 2 ^ 63) : inRax (signed s) v = n := by
  obtain ⟨h, hr, hs, hb⟩ := h
  obtain ⟨r1, r2⟩ := range_bytes h hr
  obtain ⟨-, -, -, -, hB, -⟩ := isInt_bytes (abi := d.abi) h
  unfold inRax
  generalize bytesOf d.abi s = B at *
  cases hsg : signed s with
  | true =>
    have r := r1 hsg
    rw [if_pos rfl, sval_of hB hs hb r, hs]
    split
    · rcases hB with rfl | rfl | rfl | rfl <;> simp at r h1 ⊢ <;> omega
    · rfl
  | false =>
    have r := r2 hsg
    simp only [Bool.false_eq_true, if_false]
    rcases hB with rfl | rfl | rfl | rfl <;> simp at r hb ⊢ <;> split <;> omega

/-! ### Conversions -/

theorem int_int {F : X86.FP} {d : Decls} {s s' : ST} {c : Bool} {n : Int} {v : V} (h' : IsInt s')
    (hr : Rep d (.simple s false) (.int n) v) (hne : Ty.simple s false ≠ .simple s' c) :
    ∃ w n', variableCast F d v (.simple s false) (.simple s' c) = .ok w ∧
      IsConversion d.abi s' n n' ∧ Rep d (.simple s' false) (.int n') w := by
  unfold variableCast
  rw [if_neg hne]
  obtain ⟨i1, i2, i3, i4, i5, i6⟩ := isInt_bytes (abi := d.abi) hr.1
  obtain ⟨j1, j2, j3, j4, j5, j6⟩ := isInt_bytes (abi := d.abi) h'
  by_cases hb : s' = .bool
  · subst hb
    refine ⟨boolCast v, _, by simp [Ty.isSimple], ?_, int_to_bool hr⟩
    unfold IsConversion
    rw [if_pos rfl]
  · rw [if_neg (by simp [Ty.isSimple, hb])]
    rw [if_pos (by simp [Ty.isInt, i1, j1])]
    simp only [Ty.size, i4, j4]
    have r := range_bytes hr.1 hr.2.1
    by_cases he : bytesOf d.abi s' = bytesOf d.abi s
    · rw [if_neg (by simpa using he)]
      obtain ⟨n', h1, h2⟩ := converted (c := false) h' hb (n := n) (v := v) (by rw [he]; exact hr.2.2.1) (by rw [he]; exact hr.2.2.2)
      exact ⟨v, n', rfl, h1, h2⟩
    · rw [if_pos he]
      simp only [Ty.signed, i3, bind, Res.bind]
      obtain ⟨n', h1, h2⟩ := converted (c := false) h' hb (n := n) (v := castInt (bytesOf d.abi s') (signed s) v) rfl
        (castInt_bits i5 j5 hr.2.2.1 hr.2.2.2 r.1 r.2)
      exact ⟨_, n', rfl, h1, h2⟩

theorem arith_arith {F : X86.FP} {d : Decls} {s s' : ST} {c : Bool} {x : CV} {v : V} (hs : Arith s) (h' : Arith s')
    (hr : Rep d (.simple s false) x v) (hne : Ty.simple s false ≠ .simple s' c)
    (hl : ConversionLim d x (.simple s false) (.simple s' false)) :
    ∃ w y, variableCast F d v (.simple s false) (.simple s' c) = .ok w ∧
      Converts F d (.simple s false) x (.simple s' false) y ∧ Rep d (.simple s' false) y w := by
  have hfm : ∀ u : ST, u = .float ∨ u = .double → ∃ f k, fmtOf u = some (f, k) := by
    rintro u (rfl | rfl)
    · exact ⟨_, _, rfl⟩
    · exact ⟨_, _, rfl⟩
  cases x with
  | addr a => exact hr.elim
  | data b => exact hr.elim
  | int n =>
    by_cases hi : IsInt s'
    · obtain ⟨w, n', h1, h2, h3⟩ := int_int (F := F) hi hr hne
      exact ⟨w, _, h1, .int hr.1 hi h2, h3⟩
    · obtain ⟨f, k, hf⟩ := hfm s' (h'.resolve_left hi)
      obtain ⟨i1, i2, i3, -, -, -⟩ := isInt_bytes (abi := d.abi) hr.1
      obtain ⟨g1, g2, g3, g4, g5, -, g7⟩ := fmt_facts d.abi hf
      obtain ⟨l1, l2⟩ := hl hr.1 hi
      have hx := inRax_of hr l1 l2
      refine ⟨⟨k, Float.ofInt f n⟩, _, ?_, .intFlt hr.1 hf, flt_rep d false hf ?_⟩
      · unfold variableCast
        rw [if_neg hne]
        simp [Ty.isSimple, g4, Ty.isInt, Ty.isPtr, Ty.isFlt, g3, g2, i1, i2, Ty.signed, i3, Ty.size, g1, bind, Res.bind,
          castIntFloat, g5, hx]
      · have hn : n.natAbs < 2 ^ 64 := by
          have r := range_bytes hr.1 hr.2.1
          obtain ⟨-, -, -, -, hB, -⟩ := isInt_bytes (abi := d.abi) hr.1
          generalize bytesOf d.abi s = B at *
          cases hsg : signed s with
          | true => have r := r.1 hsg; rcases hB with rfl | rfl | rfl | rfl <;> simp at r <;> omega
          | false => have r := r.2 hsg; rcases hB with rfl | rfl | rfl | rfl <;> simp at r <;> omega
        rcases g7 with ⟨rfl, rfl⟩ | ⟨rfl, rfl⟩
        · exact Cast.ofInt_lt32 n hn
        · exact Cast.ofInt_lt64 n hn
  | flt b =>
    obtain ⟨f, k, hf, rfl, hb, f1, f2, f3, f4, f5⟩ := rep_flt hr
    obtain ⟨l1, l2⟩ := hl
    unfold variableCast
    rw [if_neg hne]
    by_cases hbo : s' = .bool
    · subst hbo
      refine ⟨boolCast ⟨k, b⟩, _, by simp [Ty.isSimple], .fltBool hf, ?_⟩
      have := bool_rep d false (Float.cmp f b 0 = .eq)
      unfold boolCast
      simpa only [cmp_zero hf hb (l1 rfl f k hf)] using this
    rw [if_neg (by simp [Ty.isSimple, hbo])]
    by_cases hi : IsInt s'
    · obtain ⟨j1, j2, j3, j4, j5, j6⟩ := isInt_bytes (abi := d.abi) hi
      obtain ⟨n, t1, t2, t3⟩ := l2 hi hbo f k hf
      have r := range_bytes hi t2
      have hlow : -2 ^ 63 ≤ n := by
        generalize bytesOf d.abi s' = B at *
        cases hsg : signed s' with
        | true => have r := r.1 hsg; rcases j5 with rfl | rfl | rfl | rfl <;> simp at r <;> omega
        | false => have r := r.2 hsg; omega
      refine ⟨⟨bytesOf d.abi s', (n % 2 ^ (8 * bytesOf d.abi s')).toNat⟩, .int n, ?_, .fltInt hf hi hbo t1 t2, hi, t2, rfl, ?_⟩
      · simp only [Ty.isInt, Ty.isPtr, Ty.isFlt, f2, f3, j1, j2, Ty.size, j4, Bool.or_false, Bool.and_false, Bool.false_and,
          Bool.false_eq_true, if_false, Bool.and_self, if_true, castFloatInt, f5, bind, Res.bind, t1, if_pos (And.intro hlow t3)]
      · rcases j5 with h | h | h | h <;> rw [h] <;> simp <;> omega
    · obtain ⟨g, m, hg⟩ := hfm s' (h'.resolve_left hi)
      obtain ⟨g1, g2, g3, -, -, -, -⟩ := fmt_facts d.abi hg
      simp only [Ty.isInt, Ty.isPtr, Ty.isFlt, f2, f3, g2, g3, Bool.or_false, Bool.false_and, Bool.false_eq_true, if_false,
        Bool.and_self, if_true, Ty.size, g1]
      cases s <;> simp only [fmtOf, reduceCtorEq, Option.some.injEq, Prod.mk.injEq] at hf <;> obtain ⟨rfl, rfl⟩ := hf <;>
        cases s' <;> simp only [fmtOf, reduceCtorEq, Option.some.injEq, Prod.mk.injEq] at hg <;> obtain ⟨rfl, rfl⟩ := hg
      · exact ⟨_, _, by simp [castFloat], .same, hr⟩
      · exact ⟨_, _, by simp [castFloat], .widen, .inr ⟨rfl, rfl, (F.widen _).isLt⟩⟩
      · exact ⟨_, _, by simp [castFloat], .narrow, .inl ⟨rfl, rfl, (F.narrow _).isLt⟩⟩
      · exact ⟨_, _, by simp [castFloat], .same, hr⟩

theorem assignable_value {null : Prop} {t u : Ty} (h : Assignable null t u) : valueType t = t := by
  cases h <;> rfl

/-- An argument is converted to the type of its parameter. -/
theorem cast_ok {F : X86.FP} {d : Decls} {null : Prop} {t p : Ty} {x : CV} {v : V} (hp : Adjusted p)
    (ha : Assignable null t (valueType p)) (hr : Rep d t x v) (hn : null → x = .int 0)
    (hl : ConversionLim d x t (valueType p)) :
    ∃ w y, EE.cast F d ⟨t, some v⟩ p = .ok ⟨p, some w⟩ ∧ Converts F d t x (valueType p) y ∧ Rep d (valueType p) y w := by
  by_cases he : t = p
  · subst he
    have this := assignable_value ha
    rw [this]
    exact ⟨v, x, by simp [EE.cast], .same, hr⟩
  have enter : ∀ {w}, Ty.isSimple .void p = false → variableCast F d v t p = .ok w → EE.cast F d ⟨t, some v⟩ p = .ok ⟨p, some w⟩ := by
    intro w h1 h2
    simp [EE.cast, he, h1, EE.var, bind, Res.bind, h2]
  generalize hu : valueType p = u at *
  cases ha with
  | @arith s s' hs hs' =>
    cases p <;> simp only [valueType, reduceCtorEq, Ty.simple.injEq, and_true] at hu
    subst hu
    obtain ⟨w, y, h1, h2, h3⟩ := arith_arith (F := F) hs hs' hr he hl
    refine ⟨w, y, enter ?_ h1, h2, h3⟩
    rcases hs' with h | rfl | rfl
    · have : ∀ s, IsInt s → s ≠ .void := by intro s; cases s <;> decide
      simp [Ty.isSimple, this _ h]
    · rfl
    · rfl
  | @record k =>
    cases p <;> simp only [valueType, reduceCtorEq, Ty.record.injEq, and_true] at hu
    subst hu
    exact ⟨v, x, enter rfl (by simp [variableCast, Ty.isSimple, Ty.isInt, Ty.isPtr, Ty.isFlt]), .same, hr⟩
  | @ptr t u hpo =>
    cases p <;> simp only [valueType, reduceCtorEq, Ty.ptr.injEq, and_true] at hu <;> first | exact hp.elim | skip
    subst hu
    cases x <;> first | exact hr.elim | skip
    exact ⟨v, _, enter rfl (by simp [variableCast, Ty.isSimple, Ty.isInt, Ty.isPtr, Ty.size]), .ptr, hr⟩
  | @null s u h hs =>
    cases p <;> simp only [valueType, reduceCtorEq, Ty.ptr.injEq, and_true] at hu <;> first | exact hp.elim | skip
    subst hu
    rw [hn h] at hr ⊢
    obtain ⟨i1, i2, i3, i4, i5, i6⟩ := isInt_bytes (abi := d.abi) hs
    have r := range_bytes hs hr.2.1
    by_cases h8 : bytesOf d.abi s = 8
    · refine ⟨v, _, enter rfl (by simp [variableCast, Ty.isSimple, Ty.isInt, Ty.isPtr, i1, Ty.size, i4, h8]), .null hs, ?_⟩
      obtain ⟨_, _, h1, h2⟩ := hr
      rw [h8] at h1 h2
      cases v
      dsimp only at h1 h2
      subst h1
      exact ⟨by simp at h2 ⊢; omega, by decide⟩
    · refine ⟨castInt 8 (signed s) v, _, enter rfl ?_, .null hs, ?_⟩
      · have : ¬ 8 = bytesOf d.abi s := fun h => h8 h.symm
        simp [variableCast, Ty.isSimple, Ty.isInt, Ty.isPtr, i1, Ty.size, i4, this, Ty.signed, i3, bind, Res.bind]
      · have := castInt_bits i5 (B' := 8) (by decide) hr.2.2.1 hr.2.2.2 r.1 r.2
        refine ⟨?_, by decide⟩
        have hsz : (castInt 8 (signed s) v).size = 8 := rfl
        generalize castInt 8 (signed s) v = w at *
        cases w
        dsimp only at hsz this
        subst hsz
        simp at this ⊢
        omega
  | @ptrBool t =>
    cases p <;> simp only [valueType, reduceCtorEq, Ty.simple.injEq, and_true] at hu
    subst hu
    cases x <;> first | exact hr.elim | skip
    rename_i a
    refine ⟨boolCast v, _, enter rfl (by simp [variableCast, Ty.isSimple]), .ptrBool, ?_⟩
    rw [hr.1]
    exact bool_rep d false (a = 0)

/-! ### Promotions -/

theorem promote_any {abi : Abi} {s : ST} (h : Arith s) (hl : abi = .ms → s ≠ .long) :
    ∃ s', promote abi s (-1) = .ok (s', -1) ∧ IsPromotion abi s (width abi s) s' := by
  cases abi with
  | sysv => exact promote_plain s (h.elim .inl fun h => .inr (h.elim .inl fun h => .inr (.inl h)))
  | ms =>
    have := hl rfl
    revert h this
    cases s <;> first
      | (intro _ h; exact absurd rfl h)
      | (intro h; exact absurd h (by unfold Arith; decide))
      | (intro _ _; exact ⟨_, rfl, by decide⟩)

/-- What the integer promotion does, in terms of `promote` (C18). -/
theorem integerPromotion_eq {abi : Abi} {e : Ex} {s s' : ST} {b : Int} (ht : e.ty = .simple s false)
    (hp : promote abi s e.bitfield = .ok (s', b)) :
    (integerPromotion abi e = .ok e ∧ s' = s) ∨
    (integerPromotion abi e = .ok (e.castTo (.simple .int false)) ∧ s' = .int ∧ IsInt s) := by
  unfold integerPromotion
  unfold promote at hp
  rw [ht]
  dsimp only
  by_cases hi : isInteger s = true
  · rw [if_pos hi] at hp ⊢
    cases hc : isContainedIn abi .int (-1) s e.bitfield with
    | ok x =>
      rw [hc] at hp
      simp only [bind, Res.bind] at hp ⊢
      cases x with
      | true =>
        cases hp
        exact .inr ⟨rfl, rfl, by revert hi; cases s <;> decide⟩
      | false =>
        cases hp
        exact .inl ⟨rfl, rfl⟩
    | fail => rw [hc] at hp; cases hp
    | ub => rw [hc] at hp; cases hp
  · rw [if_neg hi] at hp ⊢
    cases hp
    exact .inl ⟨rfl, rfl⟩

/-- An argument without a parameter. -/
theorem promote_ok {F : X86.FP} {d : Decls} {env : Nat → Option V} {a : Arg} (ha : a.Ok d env) (hl : PromotionLim d a) :
    ∃ e w, defaultPromotion d.abi a.e.decay = .ok e ∧ e.eval F d env = .ok ⟨e.ty, some w⟩ ∧ Unnamed F d a (e.ty, w) := by
  obtain ⟨he, ⟨v, hv, hr⟩, -, hw, har⟩ := ha
  obtain ⟨l1, l2⟩ := hl
  obtain ⟨bf, hbf, he⟩ : ∃ bf : Int, (match a.w with | none => (-1 : Int) | some w => w) = bf ∧ a.e = .leaf a.i a.t bf :=
    ⟨_, rfl, he⟩
  rw [he]
  obtain ⟨d1, d2, d3, d4⟩ := decay_leaf F d env a.i a.t bf
  have hbit : ∀ s, valueType a.t = .simple s false → ∃ bf', (Ex.leaf a.i a.t bf).decay.bitfield = bf' ∧
      ∃ s' b, promote d.abi s bf' = .ok (s', b) ∧ IsPromotion d.abi s (a.w.getD (width d.abi s)) s' := by
    intro s hs
    have hts : ∃ c, a.t = .simple s c := by
      cases ht : a.t <;> rw [ht] at hs <;> simp only [valueType, reduceCtorEq, Ty.simple.injEq, and_true] at hs
      subst hs; exact ⟨_, rfl⟩
    obtain ⟨c, hts⟩ := hts
    cases hw' : a.w with
    | none =>
      rw [hw'] at hbf
      dsimp only at hbf
      subst hbf
      have hb : (Ex.leaf a.i a.t (-1)).decay.bitfield = -1 := by
        cases hc : a.t.isConst with
        | true => exact d4 hc
        | false => rw [d3 hc (by rw [hts] at hc ⊢; cases c <;> first | rfl | cases hc)]; rfl
      obtain ⟨s', p1, p2⟩ := promote_any (abi := d.abi) (har s c hts) (fun hm he => l2 hm (by rw [hs, he]))
      exact ⟨_, hb, s', -1, p1, p2⟩
    | some w =>
      rw [hw'] at hbf
      dsimp only at hbf
      subst hbf
      obtain ⟨s0, c0, q1, q2, q3, q4, -⟩ := hw w hw'
      rw [hts] at q1
      cases q1
      have hc := l1 w hw'
      have hb : (Ex.leaf a.i a.t w).decay.bitfield = w := by
        rw [d3 hc (by rw [hts] at hc ⊢; cases c <;> first | rfl | cases hc)]; rfl
      refine ⟨_, hb, ?_⟩
      rcases promote_bitfield d.abi s q2 w ⟨q3, q4⟩ with ⟨p1, p2⟩ | ⟨rfl, rfl, p1, p2⟩
      · exact ⟨_, _, p1, p2⟩
      · exact ⟨_, _, p1, p2⟩
  generalize (Ex.leaf a.i a.t bf).decay = e at *
  rw [hv] at d2
  have hvt : valueType e.ty = e.ty := by rw [d1, valueType_idem]
  have d2' : e.eval F d env = .ok ⟨e.ty, some v⟩ := by rw [d2, d1]
  unfold Holds at hr
  unfold Unnamed Promoted
  cases ht : valueType a.t with
  | array t => have := valueType_idem a.t; rw [ht] at this; cases this
  | func t => have := valueType_idem a.t; rw [ht] at this; cases this
  | ptr t c =>
    refine ⟨e, v, ?_, d2', ?_⟩
    · have hip : integerPromotion d.abi e = .ok e := by unfold integerPromotion; rw [d1, ht]
      simp only [defaultPromotion, hip, bind, Res.bind, d1, ht]
      rfl
    · rw [d1, ht]; rw [ht] at hr; exact ⟨rfl, a.c, .same, hr⟩
  | record k c =>
    refine ⟨e, v, ?_, d2', ?_⟩
    · have hip : integerPromotion d.abi e = .ok e := by unfold integerPromotion; rw [d1, ht]
      simp only [defaultPromotion, hip, bind, Res.bind, d1, ht]
      rfl
    · rw [d1, ht]; rw [ht] at hr; exact ⟨rfl, a.c, .same, hr⟩
  | simple s c =>
    have hc : c = false := by have := valueType_unconst a.t; rw [ht] at this; exact this
    subst hc
    rw [ht] at hr
    have har' : Arith s := by
      cases ht' : a.t <;> rw [ht'] at ht <;> simp only [valueType, reduceCtorEq, Ty.simple.injEq, and_true] at ht
      subst ht; exact har _ _ ht'
    obtain ⟨bf', hb, s', b, p1, p2⟩ := hbit s ht
    rw [← hb] at p1
    have hty : e.ty = .simple s false := d1.trans ht
    by_cases hf : s = .float
    · subst hf
      have hip : integerPromotion d.abi e = .ok e := by simp [integerPromotion, hty, isInteger]
      obtain ⟨c1, c2⟩ := castTo_eval (u := .simple .double false) hvt d2'
      obtain ⟨w, y, w1, w2, w3⟩ := cast_ok (F := F) (d := d) (null := False) (t := .simple .float false) (p := .simple .double false)
        (x := a.c) (v := v) trivial (.arith (.inr (.inl rfl)) (.inr (.inr rfl))) hr (fun h => h.elim)
        (by
          revert hr
          cases a.c with
          | int n => exact fun hr => absurd hr.1 (by decide)
          | flt b => exact fun _ => ⟨fun h => (nomatch h), fun h => absurd h (by decide)⟩
          | addr => exact fun _ => trivial
          | data => exact fun _ => trivial)
      refine ⟨e.castTo (.simple .double false), w, ?_, ?_, ?_, y, ?_, ?_⟩
      · simp [defaultPromotion, hip, hty, Ty.isSimple, bind, Res.bind]
      · rw [c2, hty, w1, c1]
      · exact ⟨.double, c1, fun _ => rfl, fun h => absurd rfl h⟩
      · dsimp only; rw [c1]; exact w2
      · dsimp only; rw [c1]; exact w3
    · rcases integerPromotion_eq hty p1 with ⟨h1, rfl⟩ | ⟨h1, rfl, hi⟩
      · refine ⟨e, v, ?_, d2', ⟨s', hty, fun h => absurd h hf, fun _ => p2⟩, a.c, ?_, ?_⟩
        · simp [defaultPromotion, h1, hty, Ty.isSimple, hf, bind, Res.bind]
        · dsimp only; rw [hty]; exact .same
        · dsimp only; rw [hty]; exact hr
      · obtain ⟨c1, c2⟩ := castTo_eval (u := .simple .int false) hvt d2'
        obtain ⟨w, y, w1, w2, w3⟩ := cast_ok (F := F) (d := d) (null := False) (t := .simple s false) (p := .simple .int false)
          (x := a.c) (v := v) trivial (.arith (.inl hi) (.inl (by decide))) hr (fun h => h.elim)
          (by
            cases hac : a.c with
            | int n => exact fun _ h => absurd (by decide) h
            | flt b =>
              rw [hac] at hr
              rcases hr with ⟨rfl, -⟩ | ⟨rfl, -⟩ <;> exact absurd hi (by decide)
            | addr => trivial
            | data => trivial)
        refine ⟨e.castTo (.simple .int false), w, ?_, ?_, ⟨.int, c1, fun h => absurd h hf, fun _ => p2⟩, y, ?_, ?_⟩
        · simp [defaultPromotion, h1, c1, Ty.isSimple, bind, Res.bind]
        · rw [c2, hty, w1, c1]
        · dsimp only; rw [c1]; exact w2
        · dsimp only; rw [c1]; exact w3

/-! ### All arguments -/

theorem named_ok {F : X86.FP} {d : Decls} {env : Nat → Option V} {a : Arg} {p : Ty} (ha : a.Ok d env) (hp : Adjusted p)
    (hf : a.Fits p) (hl : ConversionLim d a.c (valueType a.t) (valueType p)) :
    ∃ r w, a.e.decay.eval F d env = .ok r ∧ r.cast F d p = .ok ⟨p, some w⟩ ∧ Named F d a p (p, w) := by
  obtain ⟨he, ⟨v, hv, hr⟩, hn, -, -⟩ := ha
  obtain ⟨bf, he⟩ : ∃ bf : Int, a.e = .leaf a.i a.t bf := ⟨_, he⟩
  obtain ⟨-, d2, -, -⟩ := decay_leaf F d env a.i a.t bf
  rw [← he, hv] at d2
  obtain ⟨w, y, h1, h2, h3⟩ := cast_ok (F := F) hp hf hr hn hl
  exact ⟨_, w, d2, h1, rfl, y, h2, h3⟩

theorem unnamed_all {F : X86.FP} {d : Decls} {env : Nat → Option V} : ∀ {as : List Arg}, (∀ a ∈ as, a.Ok d env) →
    (∀ a ∈ as, PromotionLim d a) →
    ∃ es ees rs, defaultPromotions d.abi (as.map fun a => a.e.decay) = .ok es ∧ evalArgs F d env es [] = .ok ees ∧
      takeArgs ees = .ok rs ∧ Arrive F d as [] rs
  | [], _, _ => ⟨[], [], [], rfl, rfl, rfl, .nil⟩
  | a :: as, h1, h2 => by
    obtain ⟨e, w, q1, q2, q3⟩ := promote_ok (F := F) (h1 a (.head _)) (h2 a (.head _))
    obtain ⟨es, ees, rs, r1, r2, r3, r4⟩ := unnamed_all (F := F) (fun b hb => h1 b (.tail _ hb)) (fun b hb => h2 b (.tail _ hb))
    refine ⟨e :: es, ⟨e.ty, some w⟩ :: ees, (e.ty, w) :: rs, ?_, ?_, ?_, .unnamed q3 r4⟩
    · simp [defaultPromotions, q1, r1, bind, Res.bind]
    · simp [evalArgs, q2, r2, bind, Res.bind]
    · simp [takeArgs, EE.var, r3, bind, Res.bind]

theorem arrive_all {F : X86.FP} {d : Decls} {env : Nat → Option V} : ∀ {ps : List Ty} {as : List Arg},
    ps.length ≤ as.length → (∀ a ∈ as, a.Ok d env) → (∀ p ∈ ps, Adjusted p) →
    (∀ (j : Nat) (a : Arg) (p : Ty), as[j]? = some a → ps[j]? = some p → a.Fits p ∧ ConversionLim d a.c (valueType a.t) (valueType p)) →
    (∀ (j : Nat) (a : Arg), as[j]? = some a → ps.length ≤ j → PromotionLim d a) →
    ∃ rest ees rs, defaultPromotions d.abi ((as.map fun a => a.e.decay).drop ps.length) = .ok rest ∧
      evalArgs F d env ((as.map fun a => a.e.decay).take ps.length ++ rest) ps = .ok ees ∧
      takeArgs ees = .ok rs ∧ Arrive F d as ps rs
  | [], as, _, h1, _, _, h4 => by
    obtain ⟨es, ees, rs, r⟩ := unnamed_all (F := F) h1 (fun a ha => by
      obtain ⟨j, hj⟩ := List.getElem?_of_mem ha
      exact h4 j a hj (Nat.zero_le _))
    exact ⟨es, ees, rs, r⟩
  | p :: ps, [], h, _, _, _, _ => absurd h (by simp)
  | p :: ps, a :: as, h, h1, h2, h3, h4 => by
    obtain ⟨rest, ees, rs, r1, r2, r3, r4⟩ := arrive_all (F := F) (ps := ps) (as := as) (by simpa using h)
      (fun b hb => h1 b (.tail _ hb)) (fun q hq => h2 q (.tail _ hq))
      (fun j b q hb hq => h3 (j + 1) b q (by simpa using hb) (by simpa using hq))
      (fun j b hb hj => h4 (j + 1) b (by simpa using hb) (by simpa using hj))
    obtain ⟨f1, f2⟩ := h3 0 a p rfl rfl
    obtain ⟨r, w, q1, q2, q3⟩ := named_ok (F := F) (h1 a (.head _)) (h2 p (.head _)) f1 f2
    refine ⟨rest, ⟨p, some w⟩ :: ees, (p, w) :: rs, ?_, ?_, ?_, .named q3 r4⟩
    · simpa using r1
    · simp [evalArgs, q1, q2, r2, bind, Res.bind]
    · simp [takeArgs, EE.var, r3, bind, Res.bind]

end Verif.Args
