import Verif.ExprIrNum
/-!
Lemmas for C92: the trees that are built have the types of C, and what they look like.
-/
namespace Verif.ExprIr
open Verif.SimpleSpec Verif.ExprIrSpec
open Verif.Simple hiding Promoted
open Verif.CodegenSpec (bytes Promoted IsRel)

/-- The width of a bit-field as the compiler has it. -/
def wOf : Option Nat → Int
  | none => -1
  | some n => n

/-- An integer operand, maybe a bit-field. -/
def Good (s : ST) (w : Option Nat) : Prop :=
  IsInt s ∧ ∀ n, w = some n → (s = .bool ∨ s = .int ∨ s = .uint) ∧ 1 ≤ n ∧ n ≤ width .sysv s

theorem promotion_exists (s : ST) (k : Nat) : ∃ s', IsPromotion .sysv s k s' := by
  unfold IsPromotion
  by_cases hi : IsInt s
  · by_cases hr : rank s ≤ rank .int
    · by_cases h : Represents .sysv .int (signed s) k
      · exact ⟨.int, fun _ => by rw [if_pos hr]; exact ⟨fun _ => rfl, fun h' => absurd h h'⟩, fun h' => absurd hi h'⟩
      · exact ⟨.uint, fun _ => by rw [if_pos hr]; exact ⟨fun h' => absurd h' h, fun _ => rfl⟩, fun h' => absurd hi h'⟩
    · exact ⟨s, fun _ => by rw [if_neg hr], fun h' => absurd hi h'⟩
  · exact ⟨s, fun h => absurd h hi, fun _ => rfl⟩

theorem promotion_unique {s : ST} {k : Nat} {a b : ST} (h : IsPromotion .sysv s k a) (h' : IsPromotion .sysv s k b) :
    a = b := by
  unfold IsPromotion at h h'
  by_cases hi : IsInt s
  · have h1 := h.1 hi
    have h2 := h'.1 hi
    split at h1
    · rename_i hr
      rw [if_pos hr] at h2
      by_cases hR : Represents .sysv .int (signed s) k
      · rw [h1.1 hR, h2.1 hR]
      · rw [h1.2 hR, h2.2 hR]
    · rename_i hr
      rw [if_neg hr] at h2
      rw [h1, h2]
  · rw [h.2 hi, h'.2 hi]

theorem common_unique {a b t t' : ST} (h : IsCommon .sysv a b t) (h' : IsCommon .sysv a b t') : t = t' := by
  unfold IsCommon at h h'
  by_cases c1 : a = .ldouble ∨ b = .ldouble
  · rw [if_pos c1] at h h'; exact h.trans h'.symm
  rw [if_neg c1] at h h'
  by_cases c2 : a = .double ∨ b = .double
  · rw [if_pos c2] at h h'; exact h.trans h'.symm
  rw [if_neg c2] at h h'
  by_cases c3 : a = .float ∨ b = .float
  · rw [if_pos c3] at h h'; exact h.trans h'.symm
  rw [if_neg c3] at h h'
  by_cases c4 : a = b
  · rw [if_pos c4] at h h'; exact h.trans h'.symm
  rw [if_neg c4] at h h'
  by_cases c5 : signed a = signed b
  · rw [if_pos c5] at h h'; exact h.trans h'.symm
  rw [if_neg c5] at h h'
  dsimp only at h h'
  generalize (if signed a = true then b else a) = u at h h'
  generalize (if signed a = true then a else b) = s at h h'
  by_cases c6 : rank u ≥ rank s
  · rw [if_pos c6] at h h'; exact h.trans h'.symm
  rw [if_neg c6] at h h'
  by_cases hR : Represents .sysv s false (width .sysv u)
  · rw [h.1 hR, h'.1 hR]
  · rw [h.2 hR, h'.2 hR]

theorem contained_total {s : ST} (hi : IsInt s) (w : Int) : ∃ c, isContainedIn .sysv .int (-1) s w = .ok c := by
  revert hi
  cases s <;> first
    | (intro hi; exact absurd hi (by decide))
    | (intro _; exact ⟨_, rfl⟩)

/-- What the compiler promotes to, for operands as `Good` has them. -/
theorem contained_promotion {s : ST} {w : Option Nat} (hg : Good s w) {s' : ST} (hp : IsPromotion .sysv s (bitsOf s w) s') :
    ∃ c, isContainedIn .sysv .int (-1) s (wOf w) = .ok c ∧ s' = (if c then .int else s) := by
  obtain ⟨hi, hw⟩ := hg
  obtain ⟨c, hc⟩ := contained_total hi (wOf w)
  refine ⟨c, hc, ?_⟩
  have hpr : Simple.promote .sysv s (wOf w) = .ok (if c then (.int, -1) else (s, wOf w)) := by
    unfold Simple.promote
    rw [if_pos ((isInteger_iff s).mpr hi), hc]
    cases c <;> rfl
  have hfst : ∀ r, Simple.promote .sysv s (wOf w) = .ok r → r.1 = (if c then .int else s) := by
    intro r hr
    rw [hpr] at hr
    cases hr
    cases c <;> rfl
  cases w with
  | none =>
    obtain ⟨s2, h1, h2⟩ := Simple.promote_plain s (.inl hi)
    rw [promotion_unique hp h2]
    exact hfst _ h1
  | some n =>
    obtain ⟨hs, h1, h2⟩ := hw n rfl
    have hb : bitsOf s (some n) = n := rfl
    rw [hb] at hp
    rcases Simple.promote_bitfield .sysv s hs n ⟨h1, h2⟩ with ⟨h3, h4⟩ | ⟨h3, h4, h5, h6⟩
    · rw [promotion_unique hp h4]
      exact hfst _ h3
    · rw [promotion_unique hp h6]
      exact hfst _ h5

/-- What is left of a bit-field after promotion. -/
def Left (s : ST) (bf : Int) : Prop := Promoted s ∧ (bf = -1 ∨ s = .int ∨ s = .uint ∧ bf = 32)

theorem promotion_promoted {s : ST} {w : Option Nat} (hg : Good s w) {s' : ST} (hp : IsPromotion .sysv s (bitsOf s w) s') :
    Promoted s' ∧ (s = s' → Left s (wOf w)) := by
  obtain ⟨hi, hw⟩ := hg
  cases w with
  | none =>
    obtain ⟨s2, h1, h2⟩ := Simple.promote_plain s (.inl hi)
    have he := promotion_unique hp h2
    subst he
    have : Promoted s' := by
      revert hp hi
      clear h1 h2 hw
      cases s <;> cases s' <;> decide
    exact ⟨this, fun e => ⟨e ▸ this, .inl rfl⟩⟩
  | some n =>
    obtain ⟨hs, h1, h2⟩ := hw n rfl
    have hb : bitsOf s (some n) = n := rfl
    rw [hb] at hp
    rcases Simple.promote_bitfield .sysv s hs n ⟨h1, h2⟩ with ⟨h3, h4⟩ | ⟨h3, h4, h5, h6⟩
    · have he := promotion_unique hp h4
      subst he
      exact ⟨by decide, fun e => ⟨e ▸ by decide, .inr (.inl e)⟩⟩
    · have he := promotion_unique hp h6
      subst he h3
      exact ⟨by decide, fun e => ⟨e ▸ by decide, .inr (.inr ⟨e, rfl⟩)⟩⟩

theorem arithType_left {a b : ST} {bfa bfb : Int} (ha : Left a bfa) (hb : Left b bfb) :
    arithType .sysv a bfa b bfb = arithType .sysv a (-1) b (-1) := by
  obtain ⟨pa, wa⟩ := ha
  obtain ⟨pb, wb⟩ := hb
  rcases wa with rfl | rfl | ⟨rfl, rfl⟩ <;> rcases wb with rfl | rfl | ⟨rfl, rfl⟩ <;>
    first
    | rfl
    | (revert pb; cases b <;> first | (intro h; exact absurd h (by decide)) | (intro _; rfl))
    | (revert pa; cases a <;> first | (intro h; exact absurd h (by decide)) | (intro _; rfl))

theorem common_exists {a b : ST} (ha : Promoted a) (hb : Promoted b) :
    ∃ t, arithType .sysv a (-1) b (-1) = .ok t ∧ IsCommon .sysv a b t := by
  have key : ∀ {a}, Promoted a → Arithmetic a ∧ (rank a ≥ 3 ∨ ¬ IsInt a) := by
    intro a h; revert h; cases a <;> decide
  exact Simple.common_table a b (key ha) (key hb) _ _ (.inl rfl) (.inl rfl)

theorem common_promoted {a b t : ST} (ha : Promoted a) (hb : Promoted b) (h : IsCommon .sysv a b t) : Promoted t := by
  obtain ⟨t', h1, h2⟩ := common_exists ha hb
  rw [common_unique h h2]
  clear h h2
  revert ha hb h1
  cases a <;> first
    | (intro h; exact absurd h (by decide))
    | (cases b <;> first
        | (intro _ h; exact absurd h (by decide))
        | (intro _ _ h1; cases h1; decide))

/-! ### Shapes -/

theorem tyOf_decay (d : Decls) (e : TE) : d.tyOf (d.decay e) = decayed (d.tyOf e) := by
  unfold Decls.decay
  cases ht : d.tyOf e <;> simp only [Decls.tyOf, ht, Ty.element, decayed]

theorem decay_id {d : Decls} {e : TE} (h : decayed (d.tyOf e) = d.tyOf e) : d.decay e = e := by
  unfold Decls.decay
  cases ht : d.tyOf e <;> rw [ht] at h <;> first | rfl | exact absurd h (by simp [decayed])

theorem decayed_decayed (t : Ty) : decayed (decayed t) = decayed t := by cases t <;> rfl

theorem decayed_scalar {t : Ty} (h : IsScalar t) : decayed t = t := by
  cases t with
  | arr t n => exact h.elim
  | func s => exact h.elim
  | _ => rfl

theorem decayed_value {t : Ty} (h : IsValue t) : decayed t = t := by
  cases t with
  | arr t n => exact h.elim
  | func s => exact h.elim
  | _ => rfl

theorem decay_decay (d : Decls) (e : TE) : d.decay (d.decay e) = d.decay e :=
  decay_id (by rw [tyOf_decay, decayed_decayed])

theorem tyOf_castTo (d : Decls) (e : TE) (t : Ty) : d.tyOf (d.castTo e t) = t := by
  unfold Decls.castTo
  split
  · assumption
  · rfl

theorem castTo_decay (d : Decls) (e : TE) (t : Ty) : d.castTo (d.decay e) t = d.castTo e t := by
  unfold Decls.castTo
  rw [decay_decay]

theorem castTo_same {d : Decls} {e : TE} {t : Ty} (h : decayed (d.tyOf e) = t) : d.castTo e t = d.decay e := by
  unfold Decls.castTo
  rw [if_pos (by rw [tyOf_decay, h])]

theorem castTo_id {d : Decls} {e : TE} {t : Ty} (h : d.tyOf e = t) (h' : decayed t = t) : d.castTo e t = e := by
  rw [castTo_same (by rw [h, h']), decay_id (by rw [h, h'])]

theorem castTo_ne {d : Decls} {e : TE} {t : Ty} (h : decayed (d.tyOf e) ≠ t) : d.castTo e t = .cast t (d.decay e) := by
  unfold Decls.castTo
  rw [if_neg (by rw [tyOf_decay]; exact h)]

/-- What an operand becomes by promotion: the type, and the bit-field that is left. -/
theorem promote_int {d : Decls} {e : TE} {s : ST} {w : Option Nat} {s' : ST} (ht : d.tyOf e = .simple s)
    (hb : d.bitfield e = wOf w) (hg : Good s w) (hp : IsPromotion .sysv s (bitsOf s w) s') :
    d.promote (d.decay e) = .ok (d.castTo e (.simple s')) ∧ d.promote e = .ok (d.castTo e (.simple s')) ∧
      Left s' (d.bitfield (d.castTo e (.simple s'))) := by
  have hd : d.decay e = e := decay_id (by rw [ht]; rfl)
  obtain ⟨c, h1, h2⟩ := contained_promotion hg hp
  have key : d.promote e = .ok (d.castTo e (.simple s')) := by
    unfold Decls.promote
    rw [ht]
    simp only []
    rw [if_pos ((isInteger_iff s).mpr hg.1), hb, h1]
    subst h2
    cases c
    · show Res.ok e = _
      rw [castTo_id (by exact ht) rfl]
    · rfl
  refine ⟨by rw [hd]; exact key, key, ?_⟩
  obtain ⟨h3, h4⟩ := promotion_promoted hg hp
  by_cases hs : s = s'
  · rw [castTo_id (by rw [ht, hs]) rfl, hb, ← hs]
    exact h4 hs
  · rw [castTo_ne (by rw [ht]; intro e; exact hs (by injection e))]
    exact ⟨h3, .inl rfl⟩

theorem promote_other {d : Decls} {e : TE} (h : ∀ s, d.tyOf e = .simple s → ¬ IsInt s) : d.promote e = .ok e := by
  unfold Decls.promote
  cases ht : d.tyOf e with
  | simple s =>
    simp only []
    rw [if_neg (fun hi => h s ht ((isInteger_iff s).mp hi))]
  | _ => rfl

theorem convert_int {d : Decls} {a b : TE} {sa sb t : ST} (ha : d.tyOf a = .simple sa) (hb : d.tyOf b = .simple sb)
    (la : Left sa (d.bitfield a)) (lb : Left sb (d.bitfield b)) (hc : IsCommon .sysv sa sb t) :
    d.convert a b = .ok (d.castTo a (.simple t), d.castTo b (.simple t)) := by
  obtain ⟨t', h1, h2⟩ := common_exists la.1 lb.1
  rw [common_unique hc h2]
  unfold Decls.convert
  rw [ha, hb]
  simp only []
  rw [arithType_left la lb, h1]
  rfl

theorem convert_ptrL {d : Decls} {a b : TE} {t : Ty} (ha : d.tyOf a = .ptr t) : d.convert a b = .ok (a, b) := by
  unfold Decls.convert; rw [ha]

theorem convert_ptrR {d : Decls} {a b : TE} {t : Ty} (hb : d.tyOf b = .ptr t) : d.convert a b = .ok (a, b) := by
  unfold Decls.convert
  rw [hb]
  cases d.tyOf a <;> rfl

/-- The operand `e` promoted and converted to `t`. -/
def Decls.conv2 (d : Decls) (e : TE) (s t : ST) : TE := d.castTo (d.castTo e (.simple s)) (.simple t)

theorem tyOf_conv2 (d : Decls) (e : TE) (s t : ST) : d.tyOf (d.conv2 e s t) = .simple t := tyOf_castTo _ _ _

theorem mkBin_arith {d : Decls} {op : Op} {a b : TE} {sa sb sa' sb' t : ST} {wa wb : Option Nat}
    (hop : ¬ (op = .lshift ∨ op = .rshift)) (ha : d.tyOf a = .simple sa) (hb : d.tyOf b = .simple sb)
    (ba : d.bitfield a = wOf wa) (bb : d.bitfield b = wOf wb) (ga : Good sa wa) (gb : Good sb wb)
    (pa : IsPromotion .sysv sa (bitsOf sa wa) sa') (pb : IsPromotion .sysv sb (bitsOf sb wb) sb')
    (hc : IsCommon .sysv sa' sb' t) : d.mkBin op a b = .ok (.bin op (d.conv2 a sa' t) (d.conv2 b sb' t)) := by
  obtain ⟨a1, _, a2⟩ := promote_int ha ba ga pa
  obtain ⟨b1, _, b2⟩ := promote_int hb bb gb pb
  unfold Decls.mkBin Decls.fixBinary Decls.fixBinary.finish
  rw [a1, b1]
  simp only [Res.bind_ok]
  rw [if_neg hop, convert_int (tyOf_castTo _ _ _) (tyOf_castTo _ _ _) a2 b2 hc]
  simp only [Res.bind_ok, tyOf_castTo, Ty.isPtr]
  simp [Decls.conv2]

theorem mkBin_shift {d : Decls} {op : Op} {a b : TE} {sa sb sa' sb' : ST} {wa wb : Option Nat}
    (hop : op = .lshift ∨ op = .rshift) (ha : d.tyOf a = .simple sa) (hb : d.tyOf b = .simple sb)
    (ba : d.bitfield a = wOf wa) (bb : d.bitfield b = wOf wb) (ga : Good sa wa) (gb : Good sb wb)
    (pa : IsPromotion .sysv sa (bitsOf sa wa) sa') (pb : IsPromotion .sysv sb (bitsOf sb wb) sb') :
    d.mkBin op a b = .ok (.bin op (d.castTo a (.simple sa')) (d.conv2 b sb' sa')) := by
  obtain ⟨a1, _, a2⟩ := promote_int ha ba ga pa
  obtain ⟨b1, _, b2⟩ := promote_int hb bb gb pb
  unfold Decls.mkBin Decls.fixBinary Decls.fixBinary.finish
  rw [a1, b1]
  simp only [Res.bind_ok]
  rw [if_pos hop]
  simp only [Res.bind_ok, tyOf_castTo, Ty.isPtr]
  simp [Decls.conv2]

theorem mkBin_ptrInt {d : Decls} {op : Op} {a b : TE} {t : Ty} {sb sb' : ST} {wb : Option Nat}
    (hop : op = .add ∨ op = .sub) (ha : decayed (d.tyOf a) = .ptr t) (hb : d.tyOf b = .simple sb)
    (bb : d.bitfield b = wOf wb) (gb : Good sb wb) (pb : IsPromotion .sysv sb (bitsOf sb wb) sb') :
    d.mkBin op a b = .ok (.ptrArith (op = .sub) (d.decay a) (d.castTo b (.simple sb'))) := by
  have hta : d.tyOf (d.decay a) = .ptr t := by rw [tyOf_decay, ha]
  obtain ⟨b1, _, b2⟩ := promote_int hb bb gb pb
  unfold Decls.mkBin Decls.fixBinary
  rw [promote_other (by rw [hta]; intro s h; cases h), b1]
  simp only [Res.bind_ok]
  rw [if_neg (by rcases hop with rfl | rfl <;> decide), convert_ptrL hta]
  simp only [Res.bind_ok, tyOf_castTo, hta, Ty.isPtr]
  rcases hop with rfl | rfl <;> simp

theorem mkBin_intPtr {d : Decls} {a b : TE} {t : Ty} {sa sa' : ST} {wa : Option Nat}
    (ha : d.tyOf a = .simple sa) (ba : d.bitfield a = wOf wa) (ga : Good sa wa)
    (pa : IsPromotion .sysv sa (bitsOf sa wa) sa') (hb : decayed (d.tyOf b) = .ptr t) :
    d.mkBin .add a b = .ok (.ptrArith false (d.decay b) (d.castTo a (.simple sa'))) := by
  have htb : d.tyOf (d.decay b) = .ptr t := by rw [tyOf_decay, hb]
  obtain ⟨a1, _, a2⟩ := promote_int ha ba ga pa
  unfold Decls.mkBin Decls.fixBinary
  rw [promote_other (e := d.decay b) (by rw [htb]; intro s h; cases h), a1]
  simp only [Res.bind_ok]
  rw [if_neg (by decide), convert_ptrR htb]
  simp only [Res.bind_ok, tyOf_castTo, htb, Ty.isPtr]
  simp

theorem mkBin_ptrDiff {d : Decls} {a b : TE} {t t' : Ty} (ha : decayed (d.tyOf a) = .ptr t) (hb : decayed (d.tyOf b) = .ptr t') :
    d.mkBin .sub a b = .ok (.ptrDiff (d.decay a) (d.decay b)) := by
  have hta : d.tyOf (d.decay a) = .ptr t := by rw [tyOf_decay, ha]
  have htb : d.tyOf (d.decay b) = .ptr t' := by rw [tyOf_decay, hb]
  unfold Decls.mkBin Decls.fixBinary
  rw [promote_other (by rw [hta]; intro s h; cases h), promote_other (e := d.decay b) (by rw [htb]; intro s h; cases h)]
  simp only [Res.bind_ok]
  rw [if_neg (by decide), convert_ptrL hta]
  simp only [Res.bind_ok, hta, htb, Ty.isPtr]
  simp

theorem returnsInt_iff (op : Op) : returnsInt op = true ↔ IsRel op := by
  cases op <;> decide

theorem mkBin_ptrCmp {d : Decls} {op : Op} {a b : TE} {t t' : Ty} (hop : IsRel op) (ha : decayed (d.tyOf a) = .ptr t)
    (hb : decayed (d.tyOf b) = .ptr t') : d.mkBin op a b = .ok (.bin op (d.decay a) (d.decay b)) := by
  have hta : d.tyOf (d.decay a) = .ptr t := by rw [tyOf_decay, ha]
  have htb : d.tyOf (d.decay b) = .ptr t' := by rw [tyOf_decay, hb]
  unfold Decls.mkBin Decls.fixBinary Decls.fixBinary.finish
  rw [promote_other (by rw [hta]; intro s h; cases h), promote_other (e := d.decay b) (by rw [htb]; intro s h; cases h)]
  simp only [Res.bind_ok]
  have h1 : op ≠ .sub := by rintro rfl; exact absurd hop (by decide)
  have h2 : op ≠ .add := by rintro rfl; exact absurd hop (by decide)
  have h3 : ¬ (op = .lshift ∨ op = .rshift) := by rintro (rfl | rfl) <;> exact absurd hop (by decide)
  rw [if_neg h3, convert_ptrL hta]
  simp only [Res.bind_ok, hta, htb, Ty.isPtr]
  simp [h1, h2, (returnsInt_iff op).mpr hop]

theorem promote_const {d : Decls} {s : ST} {x : Nat} (h : Promoted s) :
    d.promote (d.decay (.const s x)) = .ok (.const s x) := by
  have hg : Good s none := ⟨promoted_scalar h, fun n e => by cases e⟩
  obtain ⟨s', hp⟩ := promotion_exists s (bitsOf s none)
  have hs : s' = s := by
    obtain ⟨t', h1, h2⟩ := Simple.promote_plain s (.inl hg.1)
    rw [promotion_unique hp h2]
    revert h h1
    cases s <;> first | (intro h; exact absurd h (by decide)) | (intro _ h1; cases h1; rfl)
  have h1 := (promote_int (d := d) (e := .const s x) (w := none) rfl rfl hg hp).1
  rw [h1, castTo_id (by rw [hs]; rfl) rfl]

theorem mkBin_ptrNull {d : Decls} {op : Op} {a : TE} {t : Ty} {s : ST} (hop : op = .equal ∨ op = .notEqual)
    (ha : decayed (d.tyOf a) = .ptr t) (hs : Promoted s) :
    d.mkBin op a (.const s 0) = .ok (.bin op (d.decay a) (.cast (.ptr .void) (.const s 0))) := by
  have hta : d.tyOf (d.decay a) = .ptr t := by rw [tyOf_decay, ha]
  unfold Decls.mkBin Decls.fixBinary
  rw [promote_other (by rw [hta]; intro s h; cases h), promote_const hs]
  simp only [Res.bind_ok]
  rw [if_neg (by rcases hop with rfl | rfl <;> decide), convert_ptrL hta]
  have hc : d.castTo (.const s 0) (.ptr .void) = .cast (.ptr .void) (.const s 0) := castTo_ne (by intro h; cases h)
  have htc : d.tyOf (.const s 0) = .simple s := rfl
  simp only [Res.bind_ok, hta, htc, Ty.isPtr, hc]
  rcases hop with rfl | rfl <;> simp [isNull]

theorem mkBin_nullPtr {d : Decls} {op : Op} {b : TE} {t : Ty} {s : ST} (hop : op = .equal ∨ op = .notEqual)
    (hb : decayed (d.tyOf b) = .ptr t) (hs : Promoted s) :
    d.mkBin op (.const s 0) b = .ok (.bin op (.cast (.ptr .void) (.const s 0)) (d.decay b)) := by
  have htb : d.tyOf (d.decay b) = .ptr t := by rw [tyOf_decay, hb]
  unfold Decls.mkBin Decls.fixBinary
  rw [promote_other (e := d.decay b) (by rw [htb]; intro s h; cases h), promote_const hs]
  simp only [Res.bind_ok]
  rw [if_neg (by rcases hop with rfl | rfl <;> decide), convert_ptrR htb]
  have hc : d.castTo (.const s 0) (.ptr .void) = .cast (.ptr .void) (.const s 0) := castTo_ne (by intro h; cases h)
  have htc : d.tyOf (.const s 0) = .simple s := rfl
  simp only [Res.bind_ok, htb, htc, Ty.isPtr, hc]
  rcases hop with rfl | rfl <;> simp [isNull]

/-! ### Conditions, arms and assignments -/

/-- What the promotion of an operand makes of its type. -/
def PromTo (T : Ty) (w : Option Nat) (T' : Ty) : Prop :=
  (∃ s s', T = .simple s ∧ Good s w ∧ IsPromotion .sysv s (bitsOf s w) s' ∧ T' = .simple s') ∨
  ((∀ s, T = .simple s → ¬ IsInt s) ∧ T' = decayed T)

/-- A bit-field is of one of the types of 6.7.2.1p5. -/
def GoodTy (T : Ty) (w : Option Nat) : Prop := ∀ n, w = some n → ∃ s, T = .simple s ∧ Good s w

theorem decayed_simple {T : Ty} {s : ST} (h : decayed T = .simple s) : T = .simple s := by
  cases T <;> first | exact h | cases h

theorem GoodTy.good {s : ST} {w : Option Nat} (h : GoodTy (.simple s) w) (hi : IsInt s) : Good s w := by
  cases w with
  | none => exact ⟨hi, fun n e => by cases e⟩
  | some n =>
    obtain ⟨s', h1, h2⟩ := h n rfl
    cases h1
    exact h2

theorem prom_exists {d : Decls} {e : TE} {T : Ty} {w : Option Nat} (ht : d.tyOf e = T) (hb : d.bitfield e = wOf w)
    (hg : GoodTy T w) : ∃ T', d.promote (d.decay e) = .ok (d.castTo e T') ∧ PromTo T w T' := by
  by_cases hi : ∃ s, T = .simple s ∧ IsInt s
  · obtain ⟨s, rfl, hi⟩ := hi
    obtain ⟨s', hp⟩ := promotion_exists s (bitsOf s w)
    exact ⟨.simple s', (promote_int ht hb (hg.good hi) hp).1, .inl ⟨s, s', rfl, hg.good hi, hp, rfl⟩⟩
  · have hn : ∀ s, T = .simple s → ¬ IsInt s := fun s h h' => hi ⟨s, h, h'⟩
    refine ⟨decayed T, ?_, .inr ⟨hn, rfl⟩⟩
    rw [castTo_same (by rw [ht])]
    refine promote_other ?_
    rw [tyOf_decay, ht]
    intro s h
    exact hn s (decayed_simple h)

theorem mkCond_eq {d : Decls} {c a b c' pa pb a' b' : TE} (hc : d.promote (d.decay c) = .ok c')
    (ha : d.promote (d.decay a) = .ok pa) (hb : d.promote (d.decay b) = .ok pb) (h : d.castArms pa pb = .ok (a', b')) :
    d.mkCond c a b = .ok (.cond c' a' b') := by
  unfold Decls.mkCond
  rw [hc, ha, hb]
  simp only [Res.bind_ok]
  rw [h]
  rfl

theorem castArms_same {d : Decls} {a b : TE} (h : d.tyOf a = d.tyOf b) : d.castArms a b = .ok (a, b) := by
  unfold Decls.castArms
  simp only []
  rw [if_pos h]

theorem castArms_int {d : Decls} {a b : TE} {sa sb t : ST} (ha : d.tyOf a = .simple sa) (hb : d.tyOf b = .simple sb)
    (ia : IsInt sa) (ib : IsInt sb)
    (la : Left sa (d.bitfield a)) (lb : Left sb (d.bitfield b)) (hc : IsCommon .sysv sa sb t) :
    d.castArms a b = .ok (d.castTo a (.simple t), d.castTo b (.simple t)) := by
  by_cases hs : sa = sb
  · subst hs
    have ht : t = sa := by
      refine common_unique hc ?_
      have := la.1
      revert this
      unfold IsCommon
      cases sa <;> first | (intro h; exact absurd h (by decide)) | (intro _; decide)
    subst ht
    rw [castArms_same (by rw [ha, hb]), castTo_id ha rfl, castTo_id hb rfl]
  · unfold Decls.castArms
    simp only [ha, hb, Ty.isPtr, Ty.isInt, (isInteger_iff _).mpr ia, (isInteger_iff _).mpr ib]
    rw [if_neg (fun e => hs (by injection e))]
    simp [convert_int ha hb la lb hc]

theorem castArms_nullR {d : Decls} {a : TE} {t : Ty} {s : ST} (ha : d.tyOf a = .ptr t) :
    d.castArms a (.const s 0) = .ok (a, .cast (.ptr t) (.const s 0)) := by
  have hc : d.castTo (.const s 0) (.ptr t) = .cast (.ptr t) (.const s 0) := castTo_ne (by intro h; cases h)
  have htc : d.tyOf (.const s 0) = .simple s := rfl
  unfold Decls.castArms
  simp only [ha, htc, Ty.isPtr, hc]
  simp [isNull]

theorem castArms_nullL {d : Decls} {b : TE} {t : Ty} {s : ST} (hb : d.tyOf b = .ptr t) :
    d.castArms (.const s 0) b = .ok (.cast (.ptr t) (.const s 0), b) := by
  have hc : d.castTo (.const s 0) (.ptr t) = .cast (.ptr t) (.const s 0) := castTo_ne (by intro h; cases h)
  have htc : d.tyOf (.const s 0) = .simple s := rfl
  unfold Decls.castArms
  simp only [hb, htc, Ty.isPtr, hc]
  simp [isNull]

theorem promote_isInt {d : Decls} {e : TE} (ht : d.tyOf e = .int) (hb : d.bitfield e = -1) :
    d.promote (d.decay e) = .ok e := by
  have hg : Good .int none := ⟨by decide, fun n e => by cases e⟩
  obtain ⟨s', hp⟩ := promotion_exists .int (bitsOf .int none)
  have hs : s' = .int := by
    obtain ⟨t', h1, h2⟩ := Simple.promote_plain .int (by decide)
    rw [promotion_unique hp h2]
    cases h1
    rfl
  have h1 := (promote_int (w := none) ht hb hg hp).1
  rw [h1, castTo_id (by rw [hs]; exact ht) rfl]

theorem mkCond_int {d : Decls} {c a b c' : TE} (hc : d.promote (d.decay c) = .ok c') (ha : d.tyOf a = .int)
    (hb : d.tyOf b = .int) (ba : d.bitfield a = -1) (bb : d.bitfield b = -1) :
    d.mkCond c a b = .ok (.cond c' a b) :=
  mkCond_eq hc (promote_isInt ha ba) (promote_isInt hb bb) (castArms_same (ha.trans hb.symm))

/-- No cast. -/
def NoCast (e : TE) : Prop := ∀ t x, e ≠ .cast t x

theorem lvalue_noCast {d : Decls} {e : SE} (h : IsLvalue e) {te : TE} (hb : d.build e = .ok te) : NoCast te := by
  intro t x he
  subst he
  cases e with
  | var x => simp [Decls.build] at hb
  | deref e => simp only [Decls.build, Res.bind_eq_ok] at hb; obtain ⟨_, _, hb⟩ := hb; cases hb
  | index a b =>
    simp only [Decls.build, Res.bind_eq_ok] at hb
    obtain ⟨_, _, _, _, _, _, hb⟩ := hb
    cases hb
  | member e i => simp only [Decls.build, Res.bind_eq_ok] at hb; obtain ⟨_, _, hb⟩ := hb; cases hb
  | arrow e i => simp only [Decls.build, Res.bind_eq_ok] at hb; obtain ⟨_, _, hb⟩ := hb; cases hb
  | _ => exact h.elim

theorem strip_castTo {d : Decls} {e : TE} (hn : NoCast e) {s : ST} (ht : d.tyOf e = .simple s) (s' t : ST) :
    strip (d.castTo (d.castTo e (.simple s')) (.simple t)) = e := by
  have hstrip : strip e = e := by
    cases e <;> first | rfl | exact absurd rfl (hn _ _)
  have hstrip1 : ∀ t, strip (.cast t e) = e := by
    intro t
    cases e <;> first | rfl | exact absurd rfl (hn _ _)
  have hde : d.decay e = e := decay_id (by rw [ht]; rfl)
  by_cases h1 : s = s'
  · subst h1
    rw [castTo_id ht rfl]
    by_cases h2 : s = t
    · subst h2
      rw [castTo_id ht rfl, hstrip]
    · rw [castTo_ne (by rw [ht]; intro e; exact h2 (by injection e)), hde, hstrip1]
  · rw [castTo_ne (e := e) (by rw [ht]; intro e; exact h1 (by injection e)), hde]
    by_cases h2 : s' = t
    · subst h2
      rw [castTo_id (d := d) (e := .cast (.simple s') e) (t := .simple s') rfl rfl, hstrip1]
    · rw [castTo_ne (by intro e; exact h2 (by injection e)), decay_id rfl]
      rfl

theorem mkAssignOp_arith {d : Decls} {op : Op} {post : Bool} {a b : TE} {sa sb sa' sb' t : ST} {wa wb : Option Nat}
    (hn : NoCast a) (ha : d.tyOf a = .simple sa) (hb : d.tyOf b = .simple sb)
    (ba : d.bitfield a = wOf wa) (bb : d.bitfield b = wOf wb) (ga : Good sa wa) (gb : Good sb wb)
    (pa : IsPromotion .sysv sa (bitsOf sa wa) sa') (pb : IsPromotion .sysv sb (bitsOf sb wb) sb')
    (hc : IsCommon .sysv sa' sb' t) : d.mkAssignOp op post a b = .ok (.assignOp op post a (d.conv2 b sb' t)) := by
  obtain ⟨_, a1, a2⟩ := promote_int ha ba ga pa
  obtain ⟨b1, _, b2⟩ := promote_int hb bb gb pb
  unfold Decls.mkAssignOp
  rw [a1, b1]
  simp only [Res.bind_ok]
  rw [convert_int (tyOf_castTo _ _ _) (tyOf_castTo _ _ _) a2 b2 hc]
  simp only [Res.bind_ok]
  rw [strip_castTo hn ha]
  simp only [ha, Ty.isPtr]
  simp [Decls.conv2]

theorem mkAssignOp_ptr {d : Decls} {op : Op} {post : Bool} {a b : TE} {t : Ty} {sb sb' : ST} {wb : Option Nat}
    (hop : op = .add ∨ op = .sub) (hn : NoCast a) (ha : d.tyOf a = .ptr t) (hb : d.tyOf b = .simple sb)
    (bb : d.bitfield b = wOf wb) (gb : Good sb wb) (pb : IsPromotion .sysv sb (bitsOf sb wb) sb') :
    d.mkAssignOp op post a b = .ok (.assignPtr (op = .sub) post a (d.castTo b (.simple sb'))) := by
  obtain ⟨b1, _, b2⟩ := promote_int hb bb gb pb
  have hstrip : strip a = a := by
    cases a <;> first | rfl | exact absurd rfl (hn _ _)
  unfold Decls.mkAssignOp
  rw [promote_other (by rw [ha]; intro s h; cases h), b1]
  simp only [Res.bind_ok]
  rw [convert_ptrL ha]
  simp only [Res.bind_ok, hstrip, ha, Ty.isPtr]
  rcases hop with rfl | rfl <;> simp

/-! ### Types -/

theorem hasType_good {d : Decls} (hw : WellFormed d) {e : SE} {k : Kind} (h : HasType d True e k) :
    ∀ T w, k = .expr T w → GoodTy T w := by
  induction h with
  | @member e s i f h1 h2 ih =>
    intro T w hk n hn
    cases hk
    have hf := List.mem_of_getElem? h2
    cases hb : f.bits with
    | none => rw [hb] at hn; cases hn
    | some p =>
      obtain ⟨o, n'⟩ := p
      obtain ⟨t, e1, e2, e3, e4, e5⟩ := ((hw s).2 f hf).2 o n' hb
      refine ⟨t, e1, ?_, ?_⟩
      · rcases e2 with rfl | rfl | rfl <;> decide
      · intro n2 hn2
        rw [show Option.map (fun x => x.2) (some (o, n')) = some n' from rfl] at hn2
        cases hn2
        exact ⟨e2, e3, e4⟩
  | index _ ih => intro T w hk; exact ih T w hk
  | arrow _ ih => intro T w hk; exact ih T w hk
  | _ => intro T w hk; cases hk <;> (intro n hn; cases hn)

/-- What is built for a typed expression. -/
def Built (d : Decls) (e : SE) : Kind → Prop
  | .expr T w => ∃ te, d.build e = .ok te ∧ d.tyOf te = T ∧ d.bitfield te = wOf w
  | .args ps => ∃ te, d.build e = .ok te ∧ Decls.build.count te = ps.length

theorem bitfield_decay (d : Decls) (e : TE) (h : d.bitfield e = -1) : d.bitfield (d.decay e) = -1 := by
  unfold Decls.decay
  split
  · rfl
  · rfl
  · exact h

theorem isNull_const {b : SE} (h : IsNull b) : ∃ s, b = .const s 0 := by
  cases b with
  | const s x => exact ⟨s, by rw [show x = 0 from h]⟩
  | _ => exact h.elim

theorem bitfield_castTo {d : Decls} {e : TE} {t : Ty} (h : d.tyOf e ≠ t ∨ d.bitfield e = -1) :
    d.bitfield (d.castTo e t) = -1 := by
  unfold Decls.castTo
  split
  · rename_i ht
    rw [tyOf_decay] at ht
    rcases h with h | h
    · unfold Decls.decay
      cases hty : d.tyOf e with
      | arr t' n => rfl
      | func s => rfl
      | _ => rw [hty] at ht h; exact absurd ht h
    · exact bitfield_decay d e h
  · rfl

theorem compound_build {d : Decls} {E : SE} {op : Op} {a b : SE} {post : Bool} (h : Compound E op a b post) {ta tb : TE}
    (ha : d.build a = .ok ta) (hb : d.build b = .ok tb) : d.build E = d.mkAssignOp op post ta tb := by
  cases h with
  | op => simp only [Decls.build, ha, hb, Res.bind_ok]
  | incr =>
    simp only [Decls.build, Res.ok.injEq] at hb
    subst hb
    simp only [Decls.build, ha, Res.bind_ok]
    rfl

/-- The arms of a conditional expression get its type. -/
def Arms (d : Decls) (ta tb : TE) (T : Ty) : Prop :=
  ∀ T2 T3, d.promote (d.decay ta) = .ok (d.castTo ta T2) → d.promote (d.decay tb) = .ok (d.castTo tb T3) →
    d.castArms (d.castTo ta T2) (d.castTo tb T3) = .ok (d.castTo (d.castTo ta T2) T, d.castTo (d.castTo tb T3) T)

theorem arms_arith {d : Decls} {ta tb : TE} {sa sb sa' sb' t : ST} {wa wb : Option Nat}
    (ha : d.tyOf ta = .simple sa) (hb : d.tyOf tb = .simple sb)
    (ba : d.bitfield ta = wOf wa) (bb : d.bitfield tb = wOf wb) (ga : Good sa wa) (gb : Good sb wb)
    (pa : IsPromotion .sysv sa (bitsOf sa wa) sa') (pb : IsPromotion .sysv sb (bitsOf sb wb) sb')
    (hc : IsCommon .sysv sa' sb' t) : Arms d ta tb (.simple t) := by
  intro T2 T3 a1 b1
  obtain ⟨p1, _, p2⟩ := promote_int ha ba ga pa
  obtain ⟨p3, _, p4⟩ := promote_int hb bb gb pb
  have hT2 : d.castTo ta T2 = d.castTo ta (.simple sa') := by
    have := a1.symm.trans p1; injection this
  have hT3 : d.castTo tb T3 = d.castTo tb (.simple sb') := by
    have := b1.symm.trans p3; injection this
  rw [hT2, hT3]
  exact castArms_int (tyOf_castTo _ _ _) (tyOf_castTo _ _ _) (promoted_scalar p2.1) (promoted_scalar p4.1) p2 p4 hc

theorem arms_same {d : Decls} {ta tb : TE} {T : Ty} (ha : decayed (d.tyOf ta) = T) (hb : decayed (d.tyOf tb) = T)
    (hn : ∀ s, T = .simple s → ¬ IsInt s) : Arms d ta tb T := by
  intro T2 T3 a1 b1
  have q1 := promote_other (d := d) (e := d.decay ta) (by rw [tyOf_decay, ha]; exact hn)
  have q2 := promote_other (d := d) (e := d.decay tb) (by rw [tyOf_decay, hb]; exact hn)
  have hT2 : d.castTo ta T2 = d.decay ta := by
    have := a1.symm.trans q1; injection this
  have hT3 : d.castTo tb T3 = d.decay tb := by
    have := b1.symm.trans q2; injection this
  rw [hT2, hT3, castArms_same (by rw [tyOf_decay, tyOf_decay, ha, hb])]
  rw [castTo_decay, castTo_decay, castTo_same ha, castTo_same hb]

theorem arms_nullR {d : Decls} {ta : TE} {s : ST} {t : Ty} (ha : decayed (d.tyOf ta) = .ptr t) (hs : Promoted s) :
    Arms d ta (.const s 0) (.ptr t) := by
  intro T2 T3 a1 b1
  have q1 := promote_other (d := d) (e := d.decay ta) (by rw [tyOf_decay, ha]; intro s h; cases h)
  have hT2 : d.castTo ta T2 = d.decay ta := by
    have := a1.symm.trans q1; injection this
  have hT3 : d.castTo (.const s 0) T3 = .const s 0 := by
    have := b1.symm.trans (promote_const hs); injection this
  have hc : d.castTo (.const s 0) (.ptr t) = .cast (.ptr t) (.const s 0) := castTo_ne (by intro h; cases h)
  rw [hT2, hT3, castArms_nullR (t := t) (by rw [tyOf_decay, ha]), castTo_decay, castTo_same ha, hc]

theorem arms_nullL {d : Decls} {tb : TE} {s : ST} {t : Ty} (hb : decayed (d.tyOf tb) = .ptr t) (hs : Promoted s) :
    Arms d (.const s 0) tb (.ptr t) := by
  intro T2 T3 a1 b1
  have q1 := promote_other (d := d) (e := d.decay tb) (by rw [tyOf_decay, hb]; intro s h; cases h)
  have hT3 : d.castTo tb T3 = d.decay tb := by
    have := b1.symm.trans q1; injection this
  have hT2 : d.castTo (.const s 0) T2 = .const s 0 := by
    have := a1.symm.trans (promote_const hs); injection this
  have hc : d.castTo (.const s 0) (.ptr t) = .cast (.ptr t) (.const s 0) := castTo_ne (by intro h; cases h)
  rw [hT2, hT3, castArms_nullL (t := t) (by rw [tyOf_decay, hb]), hc, castTo_decay, castTo_same hb]

/-- The shape of a conditional expression. -/
theorem cond_shape {d : Decls} {c a b : SE} {T : Ty} {tc ta tb : TE} {Tc Ta Tb : Ty} {wc wa wb : Option Nat}
    (hc : d.build c = .ok tc ∧ d.tyOf tc = Tc ∧ d.bitfield tc = wOf wc) (gc : GoodTy Tc wc)
    (ha : d.build a = .ok ta ∧ d.tyOf ta = Ta ∧ d.bitfield ta = wOf wa) (ga : GoodTy Ta wa)
    (hb : d.build b = .ok tb ∧ d.tyOf tb = Tb ∧ d.bitfield tb = wOf wb) (gb : GoodTy Tb wb)
    (h : Arms d ta tb T) :
    ∃ T1 T2 T3, d.build (.cond c a b) = .ok (.cond (d.castTo tc T1) (d.castTo (d.castTo ta T2) T) (d.castTo (d.castTo tb T3) T)) ∧
      PromTo Tc wc T1 ∧ PromTo Ta wa T2 ∧ PromTo Tb wb T3 := by
  obtain ⟨hc1, hc2, hc3⟩ := hc
  obtain ⟨ha1, ha2, ha3⟩ := ha
  obtain ⟨hb1, hb2, hb3⟩ := hb
  obtain ⟨T1, c1, c2⟩ := prom_exists hc2 hc3 gc
  obtain ⟨T2, a1, a2⟩ := prom_exists ha2 ha3 ga
  obtain ⟨T3, b1, b2⟩ := prom_exists hb2 hb3 gb
  refine ⟨T1, T2, T3, ?_, c2, a2, b2⟩
  simp only [Decls.build, hc1, ha1, hb1, Res.bind_ok]
  exact mkCond_eq c1 a1 b1 (h T2 T3 a1 b1)

theorem not_built {d : Decls} {e : SE} {te : TE} {T : Ty} {w : Option Nat}
    (h : d.build e = .ok te ∧ d.tyOf te = T ∧ d.bitfield te = wOf w) (g : GoodTy T w) :
    ∃ T1, d.build (.not e) = .ok (.cond (d.castTo te T1) (int 0) (int 1)) ∧ PromTo T w T1 := by
  obtain ⟨h1, h2, h3⟩ := h
  obtain ⟨T1, c1, c2⟩ := prom_exists h2 h3 g
  refine ⟨T1, ?_, c2⟩
  simp only [Decls.build, h1, Res.bind_ok]
  exact mkCond_int c1 rfl rfl rfl rfl

theorem land_built {d : Decls} {a b : SE} {ta tb : TE} {Ta Tb : Ty} {wa wb : Option Nat}
    (ha : d.build a = .ok ta ∧ d.tyOf ta = Ta ∧ d.bitfield ta = wOf wa) (ga : GoodTy Ta wa)
    (hb : d.build b = .ok tb ∧ d.tyOf tb = Tb ∧ d.bitfield tb = wOf wb) (gb : GoodTy Tb wb) :
    ∃ T1 T2, d.build (.land a b) = .ok (.cond (d.castTo ta T1) (.cond (d.castTo tb T2) (int 1) (int 0)) (int 0)) ∧
      PromTo Ta wa T1 ∧ PromTo Tb wb T2 := by
  obtain ⟨ha1, ha2, ha3⟩ := ha
  obtain ⟨hb1, hb2, hb3⟩ := hb
  obtain ⟨T1, a1, a2⟩ := prom_exists ha2 ha3 ga
  obtain ⟨T2, b1, b2⟩ := prom_exists hb2 hb3 gb
  refine ⟨T1, T2, ?_, a2, b2⟩
  simp only [Decls.build, ha1, hb1, Res.bind_ok]
  rw [mkCond_int b1 rfl rfl rfl rfl]
  simp only [Res.bind_ok]
  exact mkCond_int a1 rfl rfl rfl rfl

theorem lor_built {d : Decls} {a b : SE} {ta tb : TE} {Ta Tb : Ty} {wa wb : Option Nat}
    (ha : d.build a = .ok ta ∧ d.tyOf ta = Ta ∧ d.bitfield ta = wOf wa) (ga : GoodTy Ta wa)
    (hb : d.build b = .ok tb ∧ d.tyOf tb = Tb ∧ d.bitfield tb = wOf wb) (gb : GoodTy Tb wb) :
    ∃ T1 T2, d.build (.lor a b) = .ok (.cond (d.castTo ta T1) (int 1) (.cond (d.castTo tb T2) (int 1) (int 0))) ∧
      PromTo Ta wa T1 ∧ PromTo Tb wb T2 := by
  obtain ⟨ha1, ha2, ha3⟩ := ha
  obtain ⟨hb1, hb2, hb3⟩ := hb
  obtain ⟨T1, a1, a2⟩ := prom_exists ha2 ha3 ga
  obtain ⟨T2, b1, b2⟩ := prom_exists hb2 hb3 gb
  refine ⟨T1, T2, ?_, a2, b2⟩
  simp only [Decls.build, ha1, hb1, Res.bind_ok]
  rw [mkCond_int b1 rfl rfl rfl rfl]
  simp only [Res.bind_ok]
  exact mkCond_int a1 rfl rfl rfl rfl

theorem built_cond {d : Decls} {c a b : SE} {T : Ty} (hT : decayed T = T) {tc ta tb : TE} {Tc Ta Tb : Ty} {wc wa wb : Option Nat}
    (hc : d.build c = .ok tc ∧ d.tyOf tc = Tc ∧ d.bitfield tc = wOf wc) (gc : GoodTy Tc wc)
    (ha : d.build a = .ok ta ∧ d.tyOf ta = Ta ∧ d.bitfield ta = wOf wa) (ga : GoodTy Ta wa)
    (hb : d.build b = .ok tb ∧ d.tyOf tb = Tb ∧ d.bitfield tb = wOf wb) (gb : GoodTy Tb wb)
    (h : Arms d ta tb T) : Built d (.cond c a b) (.expr T none) := by
  obtain ⟨T1, T2, T3, h1, _⟩ := cond_shape hc gc ha ga hb gb h
  exact ⟨_, h1, tyOf_castTo _ _ _, rfl⟩

theorem hasType_built {d : Decls} (hw : WellFormed d) {e : SE} {k : Kind} (h : HasType d True e k) : Built d e k := by
  induction h with
  | const hs hx => exact ⟨_, rfl, rfl, rfl⟩
  | var hx => exact ⟨_, rfl, rfl, rfl⟩
  | un h hi hp ih =>
    obtain ⟨te, h1, h2, h3⟩ := ih
    have g := (hasType_good hw h _ _ rfl).good hi
    exact ⟨.un _ _, by simp only [Decls.build, Decls.mkUn, h1, Res.bind_ok, (promote_int h2 h3 g hp).1]; rfl, tyOf_castTo _ _ _, rfl⟩
  | not h hs ih =>
    obtain ⟨te, hb⟩ := ih
    obtain ⟨T1, h1, _⟩ := not_built hb (hasType_good hw h _ _ rfl)
    exact ⟨_, h1, rfl, rfl⟩
  | @bin op a b sa wa sb wb sa' sb' t hop ha ia hb ib pa pb hc iha ihb =>
    obtain ⟨ta, a1, a2, a3⟩ := iha
    obtain ⟨tb, b1, b2, b3⟩ := ihb
    have ga := (hasType_good hw ha _ _ rfl).good ia
    have gb := (hasType_good hw hb _ _ rfl).good ib
    refine ⟨_, by simp only [Decls.build, a1, b1, Res.bind_ok]; exact mkBin_arith hop a2 b2 a3 b3 ga gb pa pb hc, ?_, rfl⟩
    simp only [Decls.tyOf, tyOf_conv2, opType]
    by_cases hr : IsRel op
    · rw [(returnsInt_iff op).mpr hr, if_pos rfl]
      unfold CodegenSpec.IsRel at hr
      rw [if_pos hr]
    · have : returnsInt op = false := by
        cases hri : returnsInt op with
        | false => rfl
        | true => exact absurd ((returnsInt_iff op).mp hri) hr
      rw [this]
      simp only [Bool.false_eq_true, if_false]
      unfold CodegenSpec.IsRel at hr
      rw [if_neg hr]
  | shift hop ha ia hb ib pa iha ihb =>
    obtain ⟨ta, a1, a2, a3⟩ := iha
    obtain ⟨tb, b1, b2, b3⟩ := ihb
    have ga := (hasType_good hw ha _ _ rfl).good ia
    have gb := (hasType_good hw hb _ _ rfl).good ib
    obtain ⟨sb', pb⟩ := promotion_exists _ _
    refine ⟨_, by simp only [Decls.build, a1, b1, Res.bind_ok]; exact mkBin_shift hop a2 b2 a3 b3 ga gb pa pb, ?_, rfl⟩
    simp only [Decls.tyOf, tyOf_castTo]
    rcases hop with rfl | rfl <;> rfl
  | ptrInt hop ha hpa ho hb ib iha ihb =>
    obtain ⟨ta, a1, a2, a3⟩ := iha
    obtain ⟨tb, b1, b2, b3⟩ := ihb
    have gb := (hasType_good hw hb _ _ rfl).good ib
    obtain ⟨sb', pb⟩ := promotion_exists _ _
    refine ⟨_, by simp only [Decls.build, a1, b1, Res.bind_ok]; exact mkBin_ptrInt hop (by rw [a2]; exact hpa) b2 b3 gb pb, ?_, rfl⟩
    simp only [Decls.tyOf, tyOf_decay, a2, hpa]
  | intPtr ha ia hb hpb ho iha ihb =>
    obtain ⟨ta, a1, a2, a3⟩ := iha
    obtain ⟨tb, b1, b2, b3⟩ := ihb
    have ga := (hasType_good hw ha _ _ rfl).good ia
    obtain ⟨sa', pa⟩ := promotion_exists _ _
    refine ⟨_, by simp only [Decls.build, a1, b1, Res.bind_ok]; exact mkBin_intPtr a2 a3 ga pa (by rw [b2]; exact hpb), ?_, rfl⟩
    simp only [Decls.tyOf, tyOf_decay, b2, hpb]
  | ptrDiff ha hpa hb hpb ho iha ihb =>
    obtain ⟨ta, a1, a2, a3⟩ := iha
    obtain ⟨tb, b1, b2, b3⟩ := ihb
    exact ⟨_, by simp only [Decls.build, a1, b1, Res.bind_ok]; exact mkBin_ptrDiff (by rw [a2]; exact hpa) (by rw [b2]; exact hpb), rfl, rfl⟩
  | ptrCmp hop ha hpa hb hpb iha ihb =>
    obtain ⟨ta, a1, a2, a3⟩ := iha
    obtain ⟨tb, b1, b2, b3⟩ := ihb
    refine ⟨_, by simp only [Decls.build, a1, b1, Res.bind_ok]; exact mkBin_ptrCmp hop (by rw [a2]; exact hpa) (by rw [b2]; exact hpb), ?_, rfl⟩
    simp only [Decls.tyOf, (returnsInt_iff _).mpr hop, if_true]
  | ptrNull hop ha hpa hb hn iha ihb =>
    obtain ⟨ta, a1, a2, a3⟩ := iha
    obtain ⟨s, rfl⟩ := isNull_const hn
    cases hb with
    | const hs hx =>
      refine ⟨_, by simp only [Decls.build, a1, Res.bind_ok]; exact mkBin_ptrNull hop (by rw [a2]; exact hpa) hs, ?_, rfl⟩
      rcases hop with rfl | rfl <;> rfl
    | compArith hC => cases hC
    | compPtr hC => cases hC
  | nullPtr hop ha hn hb hpb iha ihb =>
    obtain ⟨tb, b1, b2, b3⟩ := ihb
    obtain ⟨s, rfl⟩ := isNull_const hn
    cases ha with
    | const hs hx =>
      refine ⟨_, by simp only [Decls.build, b1, Res.bind_ok]; exact mkBin_nullPtr hop (by rw [b2]; exact hpb) hs, ?_, rfl⟩
      rcases hop with rfl | rfl <;> rfl
    | compArith hC => cases hC
    | compPtr hC => cases hC
  | land ha _ hb _ iha ihb =>
    obtain ⟨ta, ha'⟩ := iha
    obtain ⟨tb, hb'⟩ := ihb
    obtain ⟨T1, T2, h1, _⟩ := land_built ha' (hasType_good hw ha _ _ rfl) hb' (hasType_good hw hb _ _ rfl)
    exact ⟨_, h1, rfl, rfl⟩
  | lor ha _ hb _ iha ihb =>
    obtain ⟨ta, ha'⟩ := iha
    obtain ⟨tb, hb'⟩ := ihb
    obtain ⟨T1, T2, h1, _⟩ := lor_built ha' (hasType_good hw ha _ _ rfl) hb' (hasType_good hw hb _ _ rfl)
    exact ⟨_, h1, rfl, rfl⟩
  | condArith hc _ ha ia hb ib pa pb hcm ihc iha ihb =>
    obtain ⟨tc, hc'⟩ := ihc
    obtain ⟨ta, ha'⟩ := iha
    obtain ⟨tb, hb'⟩ := ihb
    have ga := hasType_good hw ha _ _ rfl
    have gb := hasType_good hw hb _ _ rfl
    exact built_cond rfl hc' (hasType_good hw hc _ _ rfl) ha' ga hb' gb
      (arms_arith ha'.2.1 hb'.2.1 ha'.2.2 hb'.2.2 (ga.good ia) (gb.good ib) pa pb hcm)
  | condSame hc _ ha hb hsame hcl ihc iha ihb =>
    obtain ⟨tc, hc'⟩ := ihc
    obtain ⟨ta, ha'⟩ := iha
    obtain ⟨tb, hb'⟩ := ihb
    refine built_cond (decayed_decayed _) hc' (hasType_good hw hc _ _ rfl) ha' (hasType_good hw ha _ _ rfl)
      hb' (hasType_good hw hb _ _ rfl) (arms_same (by rw [ha'.2.1]) (by rw [hb'.2.1, hsame]) ?_)
    intro s hs
    rcases hcl with h | ⟨_, h⟩ | ⟨_, h⟩
    · rw [h] at hs; injection hs with hs; subst hs; decide
    · rw [h] at hs; cases hs
    · rw [h] at hs; cases hs
  | condNullR hc _ ha hpa hb hn ihc iha ihb =>
    obtain ⟨tc, hc'⟩ := ihc
    obtain ⟨ta, ha'⟩ := iha
    obtain ⟨tb, hb'⟩ := ihb
    obtain ⟨s, rfl⟩ := isNull_const hn
    have gb := hasType_good hw hb _ _ rfl
    cases hb with
    | const hs hx =>
      obtain ⟨hb1, hb2, hb3⟩ := hb'
      simp only [Decls.build, Res.ok.injEq] at hb1
      subst hb1
      exact built_cond rfl hc' (hasType_good hw hc _ _ rfl) ha' (hasType_good hw ha _ _ rfl) ⟨rfl, hb2, hb3⟩ gb
        (arms_nullR (by rw [ha'.2.1]; exact hpa) hs)
    | compArith hC => cases hC
    | compPtr hC => cases hC
  | condNullL hc _ ha hn hb hpb ihc iha ihb =>
    obtain ⟨tc, hc'⟩ := ihc
    obtain ⟨ta, ha'⟩ := iha
    obtain ⟨tb, hb'⟩ := ihb
    obtain ⟨s, rfl⟩ := isNull_const hn
    have ga := hasType_good hw ha _ _ rfl
    cases ha with
    | const hs hx =>
      obtain ⟨ha1, ha2, ha3⟩ := ha'
      simp only [Decls.build, Res.ok.injEq] at ha1
      subst ha1
      exact built_cond rfl hc' (hasType_good hw hc _ _ rfl) ⟨rfl, ha2, ha3⟩ ga hb' (hasType_good hw hb _ _ rfl)
        (arms_nullL (by rw [hb'.2.1]; exact hpb) hs)
    | compArith hC => cases hC
    | compPtr hC => cases hC
  | comma ha hb iha ihb =>
    obtain ⟨ta, a1, a2, a3⟩ := iha
    obtain ⟨tb, b1, b2, b3⟩ := ihb
    refine ⟨_, by simp only [Decls.build, a1, b1, Res.bind_ok]; rfl, ?_, rfl⟩
    simp only [Decls.tyOf, tyOf_decay, b2]
  | @cast t e T w h hs hl ih =>
    obtain ⟨te, h1, h2, h3⟩ := ih
    refine ⟨_, by simp only [Decls.build, h1, Res.bind_ok]; rfl, tyOf_castTo _ _ _, ?_⟩
    refine bitfield_castTo ?_
    rw [h2, h3]
    by_cases ht : T = t
    · exact .inr (by rw [hl trivial ht]; rfl)
    · exact .inl ht
  | addr h hl ih =>
    obtain ⟨te, h1, h2, h3⟩ := ih
    exact ⟨_, by simp only [Decls.build, h1, Res.bind_ok]; rfl, by simp only [Decls.tyOf, h2], rfl⟩
  | deref h hp hv ih =>
    obtain ⟨te, h1, h2, h3⟩ := ih
    refine ⟨_, by simp only [Decls.build, h1, Res.bind_ok]; rfl, ?_, rfl⟩
    simp only [Decls.tyOf, tyOf_decay, h2, hp, Ty.target]
  | @index a b o h ih =>
    cases o with
    | expr T w =>
      obtain ⟨te, h1, h2⟩ := ih
      refine ⟨te, ?_, h2⟩
      simp only [Decls.build, Res.bind_eq_ok] at h1 ⊢
      obtain ⟨s, ⟨ta, a1, tb, b1, hs⟩, he⟩ := h1
      exact ⟨ta, a1, tb, b1, s, hs, he⟩
    | args ps => cases h
  | @member e s i f h hf ih =>
    obtain ⟨te, h1, h2, h3⟩ := ih
    refine ⟨_, by simp only [Decls.build, h1, Res.bind_ok]; rfl, ?_, ?_⟩
    · simp only [Decls.tyOf, h2, Decls.field, hf]
    · simp only [Decls.bitfield, h2, Decls.field, hf]
      cases f.bits <;> rfl
  | @arrow e i o h ih =>
    cases o with
    | expr T w =>
      obtain ⟨te, h1, h2⟩ := ih
      refine ⟨te, ?_, h2⟩
      simp only [Decls.build, Res.bind_eq_ok] at h1 ⊢
      obtain ⟨s, ⟨ta, a1, hs⟩, he⟩ := h1
      cases hs
      exact ⟨ta, a1, he⟩
    | args ps => cases h
  | assign ha hl hb has iha ihb =>
    obtain ⟨ta, a1, a2, a3⟩ := iha
    obtain ⟨tb, b1, b2, b3⟩ := ihb
    refine ⟨_, by simp only [Decls.build, a1, b1, Res.bind_ok]; rfl, ?_, rfl⟩
    simp only [Decls.tyOf, a2]
  | compArith hC hop ha ia hl hb ib iha ihb =>
    obtain ⟨ta, a1, a2, a3⟩ := iha
    obtain ⟨tb, b1, b2, b3⟩ := ihb
    have ga := (hasType_good hw ha _ _ rfl).good ia
    have gb := (hasType_good hw hb _ _ rfl).good ib
    obtain ⟨sa', pa⟩ := promotion_exists _ _
    obtain ⟨sb', pb⟩ := promotion_exists _ _
    obtain ⟨t, _, hc⟩ := common_exists (promotion_promoted ga pa).1 (promotion_promoted gb pb).1
    refine ⟨_, (compound_build hC a1 b1).trans (mkAssignOp_arith (lvalue_noCast hl a1) a2 b2 a3 b3 ga gb pa pb hc), ?_, rfl⟩
    simp only [Decls.tyOf, a2]
  | compPtr hC hop ha hl ho hb ib iha ihb =>
    obtain ⟨ta, a1, a2, a3⟩ := iha
    obtain ⟨tb, b1, b2, b3⟩ := ihb
    have gb := (hasType_good hw hb _ _ rfl).good ib
    obtain ⟨sb', pb⟩ := promotion_exists _ _
    refine ⟨_, (compound_build hC a1 b1).trans (mkAssignOp_ptr hop (lvalue_noCast hl a1) a2 b2 b3 gb pb), ?_, rfl⟩
    simp only [Decls.tyOf, a2]
  | @call f args T w s hf hp ha hr ihf iha =>
    obtain ⟨tf, f1, f2, f3⟩ := ihf
    obtain ⟨ta, a1, a2⟩ := iha
    have ht : d.tyOf (d.decay tf) = .ptr (.func s) := by rw [tyOf_decay, f2, hp]
    refine ⟨_, by simp only [Decls.build, f1, a1, Res.bind_ok, ht]; rw [if_pos a2], ?_, rfl⟩
    simp only [Decls.tyOf, ht, Ty.target]
  | anil => exact ⟨_, rfl, rfl⟩
  | acons ha hs hr iha ihr =>
    obtain ⟨ta, a1, a2, a3⟩ := iha
    obtain ⟨tr, r1, r2⟩ := ihr
    refine ⟨_, by simp only [Decls.build, a1, r1, Res.bind_ok]; rfl, ?_⟩
    simp only [Decls.build.count, r2, List.length_cons]

/-- A typed expression is built in one way. -/
theorem built_type {d : Decls} (hw : WellFormed d) {e : SE} {T : Ty} {w : Option Nat} {te : TE}
    (h : HasType d True e (.expr T w)) (hb : d.build e = .ok te) : d.tyOf te = T ∧ d.bitfield te = wOf w := by
  obtain ⟨te', h1, h2, h3⟩ := hasType_built hw h
  rw [hb] at h1
  injection h1 with h1
  subst h1
  exact ⟨h2, h3⟩

theorem wOf_inj {a b : Option Nat} (h : wOf a = wOf b) : a = b := by
  cases a <;> cases b <;> simp only [wOf] at h
  · rfl
  · omega
  · omega
  · congr 1; omega

/-- An expression has one type. -/
theorem type_unique {d : Decls} (hw : WellFormed d) {e : SE} {T T' : Ty} {w w' : Option Nat}
    (h : HasType d True e (.expr T w)) (h' : HasType d True e (.expr T' w')) : T = T' ∧ w = w' := by
  obtain ⟨te, h1, h2, h3⟩ := hasType_built hw h
  obtain ⟨h4, h5⟩ := built_type hw h' h1
  exact ⟨h2.symm.trans h4, wOf_inj (h3.symm.trans h5)⟩

/-- The shape of a conditional expression, from its type. -/
theorem promTo_scalar {T T' : Ty} {w : Option Nat} (h : PromTo T w T') (hs : IsScalar (decayed T)) : IsScalar T' := by
  rcases h with ⟨s, s', rfl, hg, hp, rfl⟩ | ⟨_, rfl⟩
  · exact promoted_scalar (promotion_promoted hg hp).1
  · exact hs

theorem promTo_other {T T' : Ty} {w : Option Nat} (h : PromTo T w T') (hs : (decayed T).isInt = false) : T' = decayed T := by
  rcases h with ⟨s, s', rfl, hg, hp, rfl⟩ | ⟨_, rfl⟩
  · have : isInteger s = false := hs
    rw [(isInteger_iff s).mpr hg.1] at this
    cases this
  · rfl

theorem null_scalar {d : Decls} {e : SE} {T : Ty} {w : Option Nat} (h : HasType d True e (.expr T w)) (hn : IsNull e) :
    IsScalar (decayed T) := by
  obtain ⟨s, rfl⟩ := isNull_const hn
  cases h with
  | const hs hx => exact promoted_scalar hs
  | compArith hC => cases hC
  | compPtr hC => cases hC

theorem cond_built {d : Decls} (hw : WellFormed d) {c a b : SE} {T : Ty} {w : Option Nat}
    (h : HasType d True (.cond c a b) (.expr T w)) :
    ∃ tc ta tb Tc Ta Tb wc wa wb T1 T2 T3, HasType d True c (.expr Tc wc) ∧ HasType d True a (.expr Ta wa) ∧
      HasType d True b (.expr Tb wb) ∧ d.build c = .ok tc ∧ d.build a = .ok ta ∧ d.build b = .ok tb ∧
      d.build (.cond c a b) = .ok (.cond (d.castTo tc T1) (d.castTo (d.castTo ta T2) T) (d.castTo (d.castTo tb T3) T)) ∧
      PromTo Tc wc T1 ∧ PromTo Ta wa T2 ∧ PromTo Tb wb T3 ∧ IsScalar (decayed Tc) ∧ (T = .void ∨ IsValue T) ∧
      (T2 = T ∨ IsScalar T2 ∧ IsScalar T) ∧ (T3 = T ∨ IsScalar T3 ∧ IsScalar T) := by
  have fin : ∀ {Tc Ta Tb : Ty} {wc wa wb : Option Nat}, HasType d True c (.expr Tc wc) → IsScalar (decayed Tc) →
      HasType d True a (.expr Ta wa) → HasType d True b (.expr Tb wb) →
      (∀ ta tb, d.build a = .ok ta → d.build b = .ok tb → d.tyOf ta = Ta → d.bitfield ta = wOf wa → d.tyOf tb = Tb →
        d.bitfield tb = wOf wb → Arms d ta tb T) → (T = .void ∨ IsValue T) →
      (∀ T', PromTo Ta wa T' → T' = T ∨ IsScalar T' ∧ IsScalar T) → (∀ T', PromTo Tb wb T' → T' = T ∨ IsScalar T' ∧ IsScalar T) →
    ∃ tc ta tb Tc Ta Tb wc wa wb T1 T2 T3, HasType d True c (.expr Tc wc) ∧ HasType d True a (.expr Ta wa) ∧
      HasType d True b (.expr Tb wb) ∧ d.build c = .ok tc ∧ d.build a = .ok ta ∧ d.build b = .ok tb ∧
      d.build (.cond c a b) = .ok (.cond (d.castTo tc T1) (d.castTo (d.castTo ta T2) T) (d.castTo (d.castTo tb T3) T)) ∧
      PromTo Tc wc T1 ∧ PromTo Ta wa T2 ∧ PromTo Tb wb T3 ∧ IsScalar (decayed Tc) ∧ (T = .void ∨ IsValue T) ∧
      (T2 = T ∨ IsScalar T2 ∧ IsScalar T) ∧ (T3 = T ∨ IsScalar T3 ∧ IsScalar T) := by
    intro Tc Ta Tb wc wa wb hc hs ha hb harm hT qa qb
    obtain ⟨tc, c1⟩ := hasType_built hw hc
    obtain ⟨ta, a1⟩ := hasType_built hw ha
    obtain ⟨tb, b1⟩ := hasType_built hw hb
    obtain ⟨T1, T2, T3, h1, h2, h3, h4⟩ := cond_shape c1 (hasType_good hw hc _ _ rfl) a1 (hasType_good hw ha _ _ rfl)
      b1 (hasType_good hw hb _ _ rfl) (harm ta tb a1.1 b1.1 a1.2.1 a1.2.2 b1.2.1 b1.2.2)
    exact ⟨tc, ta, tb, Tc, Ta, Tb, wc, wa, wb, T1, T2, T3, hc, ha, hb, c1.1, a1.1, b1.1, h1, h2, h3, h4, hs, hT, qa _ h3, qb _ h4⟩
  cases h with
  | condArith hc hs ha ia hb ib pa pb hcm =>
    have ga := (hasType_good hw ha _ _ rfl).good ia
    have gb := (hasType_good hw hb _ _ rfl).good ib
    exact fin hc hs ha hb (fun ta tb _ _ a2 a3 b2 b3 => arms_arith a2 b2 a3 b3 ga gb pa pb hcm)
      (.inr (promoted_scalar (common_promoted (promotion_promoted ga pa).1 (promotion_promoted gb pb).1 hcm)))
      (fun T' h => .inr ⟨promTo_scalar h ia, promoted_scalar (common_promoted (promotion_promoted ga pa).1 (promotion_promoted gb pb).1 hcm)⟩)
      (fun T' h => .inr ⟨promTo_scalar h ib, promoted_scalar (common_promoted (promotion_promoted ga pa).1 (promotion_promoted gb pb).1 hcm)⟩)
  | condSame hc hs ha hb hsame hcl =>
    refine fin hc hs ha hb (fun ta tb _ _ a2 a3 b2 b3 => arms_same (by rw [a2]) (by rw [b2, hsame]) ?_) ?_
      (fun T' h => .inl (promTo_other h (by rcases hcl with h | ⟨_, h⟩ | ⟨_, h⟩ <;> rw [h] <;> rfl)))
      (fun T' h => .inl ((promTo_other h (by rw [← hsame]; rcases hcl with h | ⟨_, h⟩ | ⟨_, h⟩ <;> rw [h] <;> rfl)).trans hsame.symm))
    · intro s hs
      rcases hcl with h | ⟨_, h⟩ | ⟨_, h⟩
      · rw [h] at hs; injection hs with hs; subst hs; decide
      · rw [h] at hs; cases hs
      · rw [h] at hs; cases hs
    · rcases hcl with h | ⟨_, h⟩ | ⟨_, h⟩
      · exact .inl h
      · rw [h]; exact .inr trivial
      · rw [h]; exact .inr trivial
  | condNullR hc hs ha hpa hb hn =>
    refine fin hc hs ha hb (fun ta tb _ hb1 a2 a3 b2 b3 => ?_) (.inr trivial)
      (fun T' h => .inl ((promTo_other h (by rw [hpa]; rfl)).trans hpa))
      (fun T' h => .inr ⟨promTo_scalar h (null_scalar hb hn), trivial⟩)
    obtain ⟨s, rfl⟩ := isNull_const hn
    cases hb with
    | const hs hx =>
      simp only [Decls.build, Res.ok.injEq] at hb1
      subst hb1
      exact arms_nullR (by rw [a2]; exact hpa) hs
    | compArith hC => cases hC
    | compPtr hC => cases hC
  | condNullL hc hs ha hn hb hpb =>
    refine fin hc hs ha hb (fun ta tb ha1 _ a2 a3 b2 b3 => ?_) (.inr trivial)
      (fun T' h => .inr ⟨promTo_scalar h (null_scalar ha hn), trivial⟩)
      (fun T' h => .inl ((promTo_other h (by rw [hpb]; rfl)).trans hpb))
    obtain ⟨s, rfl⟩ := isNull_const hn
    cases ha with
    | const hs hx =>
      simp only [Decls.build, Res.ok.injEq] at ha1
      subst ha1
      exact arms_nullL (by rw [b2]; exact hpb) hs
    | compArith hC => cases hC
    | compPtr hC => cases hC
  | compArith hC => cases hC
  | compPtr hC => cases hC

end Verif.ExprIr
