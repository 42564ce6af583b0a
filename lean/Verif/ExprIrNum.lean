import Verif.ExprIrSpec
import Verif.SimpleProps
/-!
Lemmas for C92: representations, conversions and operators on them.
-/
namespace Verif.ExprIr
open Verif.SimpleSpec Verif.ExprIrSpec
open Verif.Simple hiding Promoted
open Verif.CodegenSpec (bytes Promoted IsRel)
open Verif.Codegen (bvOp irFromTypeAndOp irBinaryOp IsTruth)

theorem size_eq (d : Decls) (t : Ty) : d.size t = osize d t := by
  induction t with
  | simple s => cases s <;> rfl
  | ptr t ih => rfl
  | arr t n ih => simp only [Decls.size, osize, ih]
  | struct i => rfl
  | func i => rfl

theorem sizeOf_bytes {s : ST} (h : IsInt s) : Simple.sizeOf .sysv s = bytes .sysv s := by
  revert h; cases s <;> decide

theorem osize_scalar (d : Decls) {t : Ty} (h : IsScalar t) : osize d t = bytes .sysv (asInt t) := by
  cases t with
  | simple s => revert h; cases s <;> first | (intro h; rfl) | (intro h; exact absurd h (by simp [IsScalar, IsInt]))
  | ptr t => show 8 = bytes .sysv .ulong; decide
  | arr t n => exact h.elim
  | struct i => exact h.elim
  | func i => exact h.elim

theorem asInt_int {t : Ty} (h : IsScalar t) : IsInt (asInt t) := by
  cases t with
  | simple s => exact h
  | ptr t => show IsInt .ulong; decide
  | arr t n => exact h.elim
  | struct i => exact h.elim
  | func i => exact h.elim

theorem bytes_cases {s : ST} (h : IsInt s) : bytes .sysv s = 1 ∨ bytes .sysv s = 2 ∨ bytes .sysv s = 4 ∨ bytes .sysv s = 8 := by
  revert h; cases s <;> decide

theorem width_bytes {s : ST} (h : IsInt s) (hb : s ≠ .bool) : width .sysv s = 8 * bytes .sysv s := by
  revert h hb; cases s <;> decide

theorem pow256 (n : Nat) : 256 ^ n = 2 ^ (8 * n) := by
  rw [Nat.pow_mul]

/-- A value differs from the number that represents it by a multiple of the range. -/
theorem valueOf_dvd {t : Ty} {x : Nat} (hx : x < 256 ^ bytes .sysv (asInt t)) :
    (2 ^ (8 * bytes .sysv (asInt t)) : Int) ∣ valueOf t x - x := by
  rw [pow256] at hx
  unfold valueOf bitsVal
  split
  · rw [BitVec.toInt_eq_toNat_cond, BitVec.toNat_ofNat, Nat.mod_eq_of_lt hx]
    split
    · simp
    · refine ⟨-1, ?_⟩
      rw [show ((2 ^ (8 * bytes .sysv (asInt t)) : Nat) : Int) = 2 ^ (8 * bytes .sysv (asInt t)) by simp]
      omega
  · rw [BitVec.toNat_ofNat, Nat.mod_eq_of_lt hx]
    simp

theorem valueOf_unsigned {t : Ty} (hs : signed (asInt t) = false) {x : Nat} (hx : x < 256 ^ bytes .sysv (asInt t)) :
    valueOf t x = x := by
  rw [pow256] at hx
  unfold valueOf bitsVal
  rw [hs]
  simp [Nat.mod_eq_of_lt hx]

theorem valueOf_small {t : Ty} (h : IsScalar t) {x : Nat} (hx : x ≤ 1) : valueOf t x = x := by
  unfold valueOf bitsVal
  have hb := bytes_cases (asInt_int h)
  have hx' : x = 0 ∨ x = 1 := by omega
  rcases hb with hb | hb | hb | hb <;> rw [hb] <;> rcases hx' with rfl | rfl <;> split <;> rfl

theorem valueOf_inBits {t : Ty} (h : IsScalar t) (x : Nat) :
    inBits (signed (asInt t)) (8 * bytes .sysv (asInt t)) (valueOf t x) := by
  have hb := bytes_cases (asInt_int h)
  unfold valueOf bitsVal inBits
  split
  · have := X86.toInt_bounds (BitVec.ofNat (8 * bytes .sysv (asInt t)) x) (by omega)
    exact ⟨by omega, by omega⟩
  · have := (BitVec.ofNat (8 * bytes .sysv (asInt t)) x).isLt
    refine ⟨by omega, ?_⟩
    exact_mod_cast this

/-- Two numbers of the range that differ by a multiple of it are equal. -/
theorem eq_of_dvd {W : Nat} {x y : Nat} (hx : x < 2 ^ W) (hy : y < 2 ^ W) (h : (2 ^ W : Int) ∣ (x : Int) - y) : x = y := by
  obtain ⟨k, hk⟩ := h
  have hW : ((2 ^ W : Nat) : Int) = 2 ^ W := by simp
  rw [← hW] at hk
  have h1 : ((2 ^ W : Nat) : Int) > 0 := by
    have := Nat.two_pow_pos W
    omega
  generalize ((2 ^ W : Nat)) = w at *
  have hk0 : k = 0 := by
    have hx' : (x : Int) < w := by exact_mod_cast hx
    have hy' : (y : Int) < w := by exact_mod_cast hy
    rcases Int.lt_trichotomy k 0 with hn | h0 | hp
    · exfalso
      have : (w : Int) * k ≤ w * (-1) := Int.mul_le_mul_of_nonneg_left (by omega) (by omega)
      omega
    · exact h0
    · exfalso
      have : (w : Int) * 1 ≤ w * k := Int.mul_le_mul_of_nonneg_left (by omega) (by omega)
      omega
  subst hk0
  omega

theorem dvd_sub_trans {m a b c : Int} (h1 : m ∣ a - b) (h2 : m ∣ b - c) : m ∣ a - c := by
  have := Int.dvd_add h1 h2
  rwa [show a - b + (b - c) = a - c by omega] at this

theorem dvd_sub_symm {m a b : Int} (h : m ∣ a - b) : m ∣ b - a := by
  have := Int.dvd_neg.mpr h
  rwa [show -(a - b) = b - a by omega] at this

theorem valueOf_inj {t : Ty} {x y : Nat} (hx : x < 256 ^ bytes .sysv (asInt t)) (hy : y < 256 ^ bytes .sysv (asInt t))
    (h : valueOf t x = valueOf t y) : x = y := by
  have h1 := valueOf_dvd hx
  have h2 := valueOf_dvd hy
  rw [pow256] at hx hy
  refine eq_of_dvd hx hy ?_
  rw [h] at h1
  exact dvd_sub_trans (dvd_sub_symm h1) h2

theorem valueOf_zero {t : Ty} (h : IsScalar t) {x : Nat} (hx : x < 256 ^ bytes .sysv (asInt t)) :
    valueOf t x = 0 ↔ x = 0 := by
  constructor
  · intro hv
    refine valueOf_inj hx (Nat.pow_pos (by decide)) ?_
    rw [hv, valueOf_small h (by omega)]
    rfl
  · rintro rfl
    rw [valueOf_small h (by omega)]
    rfl

theorem inRange_iff {s : ST} (h : IsInt s) (hb : s ≠ .bool) (v : Int) :
    InRange .sysv s v ↔ inBits (signed s) (8 * bytes .sysv s) v := by
  unfold InRange
  rw [width_bytes h hb]

/-- Values of a type are represented by exactly one number. -/
theorem rep_of {t : Ty} (h : IsScalar t) {v : Int} (hv : inBits (signed (asInt t)) (8 * bytes .sysv (asInt t)) v) :
    ∃ x, Rep t v x := by
  have hp : (0 : Int) < 2 ^ (8 * bytes .sysv (asInt t)) := Int.pow_pos (by decide)
  have hlt : (v % 2 ^ (8 * bytes .sysv (asInt t))).toNat < 256 ^ bytes .sysv (asInt t) := by
    rw [pow256]
    have h1 := Int.emod_nonneg v (Int.ne_of_gt hp)
    have h2 := Int.emod_lt_of_pos v hp
    have : ((2 ^ (8 * bytes .sysv (asInt t)) : Nat) : Int) = 2 ^ (8 * bytes .sysv (asInt t)) := by simp
    omega
  refine ⟨(v % 2 ^ (8 * bytes .sysv (asInt t))).toNat, hlt, ?_⟩
  have h1 := valueOf_dvd hlt
  have hnn := Int.emod_nonneg v (Int.ne_of_gt hp)
  rw [Int.toNat_of_nonneg hnn] at h1
  have h2 := valueOf_inBits h (v % 2 ^ (8 * bytes .sysv (asInt t))).toNat
  have h3 : (2 ^ (8 * bytes .sysv (asInt t)) : Int) ∣ v % 2 ^ (8 * bytes .sysv (asInt t)) - v := by
    refine dvd_sub_symm ?_
    exact ⟨v / 2 ^ (8 * bytes .sysv (asInt t)), by have := Int.mul_ediv_add_emod v (2 ^ (8 * bytes .sysv (asInt t))); omega⟩
  obtain ⟨k, hk⟩ := dvd_sub_trans h1 h3
  generalize valueOf t _ = a at *
  have hb := bytes_cases (asInt_int h)
  unfold inBits at hv h2
  have hk0 : k = 0 := by
    generalize signed (asInt t) = sg at *
    rcases hb with hb | hb | hb | hb <;> rw [hb] at hk hv h2 <;> cases sg <;> simp at hk hv h2 <;> omega
  subst hk0
  omega

theorem rep_unique {t : Ty} {v : Int} {x y : Nat} (hx : Rep t v x) (hy : Rep t v y) : x = y :=
  valueOf_inj hx.1 hy.1 (hx.2.trans hy.2.symm)

/-- Conversion to a type that is not `_Bool` is reduction modulo the range. -/
theorem conv_iff {T t : Ty} (hT : IsScalar T) (ht : IsScalar t) (hne : T ≠ t) (hb : asInt t ≠ .bool) {x y : Nat} :
    Conv T t x y ↔ y < 256 ^ bytes .sysv (asInt t) ∧ (2 ^ (8 * bytes .sysv (asInt t)) : Int) ∣ y - valueOf T x := by
  unfold Conv
  rw [if_neg hne]
  have hW := width_bytes (asInt_int ht) hb
  constructor
  · rintro ⟨v, _, _, hc, hr⟩
    unfold IsConversion at hc
    rw [if_neg hb, hW] at hc
    refine ⟨hr.1, ?_⟩
    have h1 := valueOf_dvd hr.1
    rw [hr.2] at h1
    exact dvd_sub_trans (dvd_sub_symm h1) hc.2
  · rintro ⟨hy, hd⟩
    refine ⟨valueOf t y, hT, ht, ?_, hy, rfl⟩
    unfold IsConversion
    rw [if_neg hb, inRange_iff (asInt_int ht) hb, hW]
    exact ⟨valueOf_inBits ht y, dvd_sub_trans (valueOf_dvd hy) hd⟩

theorem conv_bool {T t : Ty} (hT : IsScalar T) (ht : IsScalar t) (hne : T ≠ t) (hb : asInt t = .bool) {x y : Nat}
    (hx : x < 256 ^ bytes .sysv (asInt T)) : Conv T t x y ↔ y = if x = 0 then 0 else 1 := by
  unfold Conv
  rw [if_neg hne]
  have hv : ∀ y, Rep t (if x = 0 then 0 else 1) y ↔ y = if x = 0 then 0 else 1 := by
    intro y
    have h1 : Rep t (if x = 0 then 0 else 1) (if x = 0 then 0 else 1) := by
      refine ⟨?_, ?_⟩
      · rw [hb]; split <;> decide
      · split <;> rw [valueOf_small ht (by omega)] <;> rfl
    constructor
    · intro h; exact rep_unique h h1
    · rintro rfl; exact h1
  constructor
  · rintro ⟨v, _, _, hc, hr⟩
    unfold IsConversion at hc
    rw [if_pos hb] at hc
    subst hc
    by_cases h0 : x = 0
    · rw [if_pos ((valueOf_zero hT hx).mpr h0)] at hr
      have := (hv y).mp (by rw [if_pos h0]; exact hr)
      exact this
    · rw [if_neg (fun e => h0 ((valueOf_zero hT hx).mp e))] at hr
      exact (hv y).mp (by rw [if_neg h0]; exact hr)
  · intro h
    refine ⟨if x = 0 then 0 else 1, hT, ht, ?_, (hv y).mpr h⟩
    unfold IsConversion
    rw [if_pos hb]
    by_cases h0 : x = 0
    · rw [if_pos h0, if_pos ((valueOf_zero hT hx).mpr h0)]
    · rw [if_neg h0, if_neg (fun e => h0 ((valueOf_zero hT hx).mp e))]

theorem conv_lt {T t : Ty} {x y : Nat} (h : Conv T t x y) (hx : x < 256 ^ bytes .sysv (asInt T)) :
    y < 256 ^ bytes .sysv (asInt t) := by
  unfold Conv at h
  split at h
  · rename_i e; subst e; subst h; exact hx
  · obtain ⟨_, _, _, _, hr⟩ := h; exact hr.1

theorem conv_same_size {T t : Ty} (hT : IsScalar T) (ht : IsScalar t) (hne : T ≠ t) (hb : asInt t ≠ .bool) {x y : Nat}
    (hx : x < 256 ^ bytes .sysv (asInt T)) (hsz : bytes .sysv (asInt t) = bytes .sysv (asInt T)) (h : Conv T t x y) :
    y = x := by
  obtain ⟨hy, hd⟩ := (conv_iff hT ht hne hb).mp h
  have h1 := valueOf_dvd hx
  rw [hsz] at hd hy
  rw [pow256] at hx hy
  exact eq_of_dvd hy hx (dvd_sub_trans hd h1)

theorem conv_sext {T t : Ty} (hT : IsScalar T) (ht : IsScalar t) (hne : T ≠ t) (hb : asInt t ≠ .bool) {x y : Nat}
    (hs : signed (asInt T) = true) (h : Conv T t x y) :
    ((BitVec.ofNat (8 * bytes .sysv (asInt T)) x).signExtend (8 * bytes .sysv (asInt t))).toNat = y := by
  obtain ⟨hy, hd⟩ := (conv_iff hT ht hne hb).mp h
  have hv : valueOf T x = (BitVec.ofNat (8 * bytes .sysv (asInt T)) x).toInt := by
    unfold valueOf bitsVal; rw [if_pos hs]
  unfold BitVec.signExtend
  rw [← hv]
  refine eq_of_dvd (BitVec.isLt _) (by rw [← pow256]; exact hy) ?_
  refine dvd_sub_symm (dvd_sub_trans hd ?_)
  rw [BitVec.toNat_ofInt]
  have hp : (0 : Int) < 2 ^ (8 * bytes .sysv (asInt t)) := Int.pow_pos (by decide)
  have hc : ((2 ^ (8 * bytes .sysv (asInt t)) : Nat) : Int) = 2 ^ (8 * bytes .sysv (asInt t)) := by simp
  rw [hc, Int.toNat_of_nonneg (Int.emod_nonneg _ (Int.ne_of_gt hp))]
  exact ⟨valueOf T x / 2 ^ (8 * bytes .sysv (asInt t)),
    by have := Int.mul_ediv_add_emod (valueOf T x) (2 ^ (8 * bytes .sysv (asInt t))); omega⟩

theorem conv_zext {T t : Ty} (hT : IsScalar T) (ht : IsScalar t) (hne : T ≠ t) (hb : asInt t ≠ .bool) {x y : Nat}
    (hx : x < 256 ^ bytes .sysv (asInt T)) (hs : signed (asInt T) = false) (h : Conv T t x y) :
    (BitVec.ofNat (8 * bytes .sysv (asInt t)) x).toNat = y := by
  obtain ⟨hy, hd⟩ := (conv_iff hT ht hne hb).mp h
  rw [valueOf_unsigned hs hx] at hd
  refine eq_of_dvd (BitVec.isLt _) (by rw [← pow256]; exact hy) (dvd_sub_symm (dvd_sub_trans hd ?_))
  rw [BitVec.toNat_ofNat]
  have hc : ((2 ^ (8 * bytes .sysv (asInt t)) : Nat) : Int) = 2 ^ (8 * bytes .sysv (asInt t)) := by simp
  rw [← hc]
  refine ⟨((x / 2 ^ (8 * bytes .sysv (asInt t)) : Nat) : Int), ?_⟩
  have := Nat.mod_add_div x (2 ^ (8 * bytes .sysv (asInt t)))
  have h2 : ((x % 2 ^ (8 * bytes .sysv (asInt t)) + 2 ^ (8 * bytes .sysv (asInt t)) * (x / 2 ^ (8 * bytes .sysv (asInt t))) : Nat) : Int) = x := by
    rw [this]
  rw [Int.natCast_add, Int.natCast_mul] at h2
  omega

theorem conv_small {T t : Ty} (hT : IsScalar T) (ht : IsScalar t) {x y : Nat} (hx : x ≤ 1) (h : Conv T t x y) : y = x := by
  by_cases hne : T = t
  · unfold Conv at h; rw [if_pos hne] at h; exact h
  have hxl : ∀ n : Nat, 1 ≤ n → x < 256 ^ n := by
    intro n hn
    exact Nat.lt_of_lt_of_le (by omega : x < 256 ^ 1) (Nat.pow_le_pow_right (by decide) hn)
  have hb := bytes_cases (asInt_int ht)
  have hB := bytes_cases (asInt_int hT)
  by_cases hbool : asInt t = .bool
  · rw [(conv_bool hT ht hne hbool (hxl _ (by omega))).mp h]
    have : x = 0 ∨ x = 1 := by omega
    rcases this with rfl | rfl <;> rfl
  · obtain ⟨hy, hd⟩ := (conv_iff hT ht hne hbool).mp h
    rw [valueOf_small hT hx] at hd
    refine eq_of_dvd (by rw [← pow256]; exact hy) (by rw [← pow256]; exact hxl _ (by omega)) hd

/-! ### Operators -/

theorem promoted_scalar {t : ST} (h : Promoted t) : IsScalar (.simple t) := by
  show IsInt t
  revert h; cases t <;> decide

theorem promoted_not_bool {t : ST} (h : Promoted t) : t ≠ .bool := by
  revert h; cases t <;> decide

theorem promoted_bytes {t : ST} (h : Promoted t) : bytes .sysv t = 4 ∨ bytes .sysv t = 8 := by
  revert h; cases t <;> decide

theorem promoted_width8 {t : ST} (h : Promoted t) : width .sysv t = 8 * bytes .sysv t := by
  revert h; cases t <;> decide

theorem ir_op_type {t : ST} (h : Promoted t) (op : Op) :
    irFromTypeAndOp (some t) op = irFromTypeAndOp.intOp (signed t) op := by
  revert h; cases t <;> first | (intro h; exact absurd h (by decide)) | (intro _; cases op <;> rfl)

theorem not_rel_of_div {op : Op} (h : op = .div) : ¬ IsRel op := by subst h; decide

theorem valueOf_width {t : ST} (hW : width .sysv t = 8 * bytes .sysv t) (z : BitVec (width .sysv t)) :
    valueOf (.simple t) z.toNat = bitsVal t z := by
  show bitsVal t (BitVec.ofNat (8 * bytes .sysv t) z.toNat) = _
  rw [← hW, BitVec.ofNat_toNat, BitVec.setWidth_eq]

theorem toInt_half {n : Nat} (hn : 0 < n) (z : BitVec n) (h : (z.toNat : Int) < 2 ^ (n - 1)) : z.toInt = z.toNat := by
  obtain ⟨k, rfl⟩ : ∃ k, n = k + 1 := ⟨n - 1, by omega⟩
  rw [BitVec.toInt_eq_toNat_cond, if_pos]
  simp only [Nat.add_sub_cancel] at h
  have : ((2 ^ k : Nat) : Int) = 2 ^ k := by simp
  rw [Nat.pow_succ]
  omega

/-- The node of an operator computes its value. -/
theorem op_node {t : ST} (ht : Promoted t) (op : Op) {x y : Nat} {va vb v : Int}
    (hx : Rep (.simple t) va x) (hy : Rep (.simple t) vb y)
    (hv : opVal .sysv t op va vb = some v) (hd : DivOk op t va vb) :
    ∃ o, irFromTypeAndOp (some t) op = .ok o ∧
      ∃ z : BitVec (8 * bytes .sysv t), bvOp (irBinaryOp o) (BitVec.ofNat (8 * bytes .sysv t) x)
        (BitVec.ofNat (8 * bytes .sysv t) y) = some z ∧
        Rep (.simple (opType t op)) v z.toNat ∧ (IsRel op → z.toNat ≤ 1) := by
  have hW := promoted_width8 ht
  have hb := promoted_bytes ht
  have hrel : ∀ n : Nat, IsRel op → IsTruth v n → Rep (.simple (opType t op)) v n ∧ n ≤ 1 := by
    intro n hr hT
    have hot : opType t op = .int := by
      unfold opType; unfold CodegenSpec.IsRel at hr; rw [if_pos hr]
    rw [hot]
    rcases hT with ⟨rfl, rfl⟩ | ⟨rfl, rfl⟩
    · exact ⟨⟨by decide, by decide⟩, by decide⟩
    · exact ⟨⟨by decide, by decide⟩, by decide⟩
  have hnrel : ¬ IsRel op → opType t op = t := by
    intro hr
    unfold opType; unfold CodegenSpec.IsRel at hr; rw [if_neg hr]
  rw [ir_op_type ht]
  rw [← hx.2, ← hy.2] at hv hd
  unfold valueOf at hv hd
  simp only [asInt] at hv hd
  rw [← hW] at hv hd ⊢
  generalize BitVec.ofNat (width .sysv t) x = X at *
  generalize BitVec.ofNat (width .sysv t) y = Y at *
  cases hs : signed t with
  | true =>
    rw [Codegen.bitsVal_signed hs, Codegen.bitsVal_signed hs] at hv
    obtain ⟨o, z, h1, h2, h3, h4⟩ := Codegen.bv_signed ht hs op X Y v hv
    refine ⟨o, h1, z, by rw [h2]; exact h3, ?_⟩
    by_cases hr : IsRel op
    · rw [if_pos hr] at h4
      exact ⟨(hrel _ hr h4).1, fun _ => (hrel _ hr h4).2⟩
    · rw [if_neg hr] at h4
      refine ⟨?_, fun h => absurd h hr⟩
      rw [hnrel hr]
      refine ⟨by rw [pow256]; simp only [asInt]; rw [← hW]; exact z.isLt, ?_⟩
      rw [valueOf_width hW, Codegen.bitsVal_signed hs]
      exact h4
  | false =>
    rw [Codegen.bitsVal_unsigned hs, Codegen.bitsVal_unsigned hs] at hv
    obtain ⟨o, z, h1, h2, h2', h3, h4⟩ := Codegen.bv_unsigned ht hs op X Y v hv
    have hfin : ∀ z : BitVec (width .sysv t), ¬ IsRel op → (z.toNat : Int) = v → Rep (.simple (opType t op)) v z.toNat := by
      intro z hr hz
      rw [hnrel hr]
      refine ⟨by rw [pow256]; simp only [asInt]; rw [← hW]; exact z.isLt, ?_⟩
      rw [valueOf_width hW, Codegen.bitsVal_unsigned hs]
      exact hz
    by_cases hdiv : op = .div
    · have ho := h2' hdiv
      subst ho
      have hnr := not_rel_of_div hdiv
      rw [if_neg hnr] at h4
      obtain ⟨d1, d2⟩ := hd hdiv hs
      rw [Codegen.bitsVal_unsigned hs] at d1 d2
      have e1 := toInt_half (by omega) X d1
      have e2 := toInt_half (by omega) Y d2
      simp only [bvOp] at h3
      split at h3
      · cases h3
      rename_i hY0
      cases h3
      have hq : (X.toNat : Int).tdiv Y.toNat = ((X.toNat / Y.toNat : Nat) : Int) := by
        exact (Int.ofNat_tdiv _ _).symm
      have hqle : X.toNat / Y.toNat ≤ X.toNat := Nat.div_le_self _ _
      refine ⟨.div, h1, BitVec.ofNat _ (X.toNat / Y.toNat), ?_, hfin _ hnr h4, fun h => absurd h hnr⟩
      show bvOp .idiv X Y = _
      simp only [bvOp]
      have hp : (0 : Int) < 2 ^ (width .sysv t - 1) := Int.pow_pos (by decide)
      rw [e1, e2, hq, if_neg (by omega)]
      generalize X.toNat / Y.toNat = q at *
      rw [if_pos ⟨by omega, by omega⟩]
      rfl
    · refine ⟨o, h1, z, by rw [h2 hdiv]; exact h3, ?_⟩
      by_cases hr : IsRel op
      · rw [if_pos hr] at h4
        exact ⟨(hrel _ hr h4).1, fun _ => (hrel _ hr h4).2⟩
      · rw [if_neg hr] at h4
        exact ⟨hfin z hr h4, fun h => absurd h hr⟩

end Verif.ExprIr
