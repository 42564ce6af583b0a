import Verif.X86Exec
/-!
Lemmas about the machine model: memory reads and writes, partial registers, flags.
-/
namespace Verif.X86
open Verif Asm

/-! ### Sequencing -/

@[simp] theorem Out.bind_ok {α β : Type} (a : α) (f : α → Out β) : (Out.ok a).bind f = f a := rfl
@[simp] theorem Out.bind_trap {α β : Type} (f : α → Out β) : (Out.trap : Out α).bind f = .trap := rfl
@[simp] theorem Out.bind_bad {α β : Type} (f : α → Out β) : (Out.bad : Out α).bind f = .bad := rfl
@[simp] theorem Out.of_some {α : Type} (a : α) : Out.of (some a) = .ok a := rfl

@[simp] theorem run_nil (F : FP) (s : State) : run F [] s = .ok s := rfl
theorem run_cons (F : FP) (i : Ins) (is : List Ins) (s : State) :
    run F (i :: is) s = (exec F i s).bind (run F is) := rfl

theorem run_append (F : FP) (a b : List Ins) (s : State) :
    run F (a ++ b) s = (run F a s).bind (run F b) := by
  induction a generalizing s with
  | nil => rfl
  | cons i is ih =>
    simp only [List.cons_append, run_cons]
    cases exec F i s with
    | ok s' => simpa using ih s'
    | trap => rfl
    | bad => rfl

theorem run_append_ok {F : FP} {a b : List Ins} {s s' : State} (h : run F a s = .ok s') :
    run F (a ++ b) s = run F b s' := by rw [run_append, h]; rfl

/-! ### Memory -/

theorem add_ofNat_succ (a : BitVec 64) (i : Nat) :
    a + BitVec.ofNat 64 (i + 1) = (a + 1) + BitVec.ofNat 64 i := by
  apply BitVec.eq_of_toNat_eq; simp [BitVec.toNat_add]; omega

theorem add_ofNat_eq_self (a : BitVec 64) (i : Nat) (h : i < 2 ^ 64) :
    a + BitVec.ofNat 64 i = a ↔ i = 0 := by
  constructor
  · intro e
    have := congrArg BitVec.toNat e
    simp [BitVec.toNat_add] at this
    have := a.isLt
    omega
  · rintro rfl; simp

theorem eq_add_ofNat (a x : BitVec 64) : ∃ i, i < 2 ^ 64 ∧ x = a + BitVec.ofNat 64 i := by
  refine ⟨(x - a).toNat, (x - a).isLt, ?_⟩
  rw [BitVec.ofNat_toNat, BitVec.setWidth_eq, BitVec.add_comm, BitVec.sub_add_cancel]

/-- What `wr` does to each byte. -/
theorem wr_at (m : BitVec 64 → BitVec 8) (a : BitVec 64) (n v i : Nat) (hi : i < 2 ^ 64) :
    wr m a n v (a + BitVec.ofNat 64 i)
      = if i < n then BitVec.ofNat 8 (v / 256 ^ i) else m (a + BitVec.ofNat 64 i) := by
  induction n generalizing a v i with
  | zero => simp [wr]
  | succ n ih =>
    rw [wr]
    by_cases h0 : i = 0
    · subst h0; simp
    · have : ¬ (a + BitVec.ofNat 64 i = a) := by rw [add_ofNat_eq_self a i hi]; exact h0
      simp only [this, if_false]
      obtain ⟨j, rfl⟩ : ∃ j, i = j + 1 := ⟨i - 1, by omega⟩
      rw [add_ofNat_succ, ih (a + 1) (v / 256) j (by omega), Nat.div_div_eq_div_mul, Nat.pow_succ,
        Nat.mul_comm (256 ^ j)]
      by_cases hj : j < n
      · simp [hj]
      · simp [hj]

/-- The ranges `[a, a+n)` and `[b, b+k)` (modulo 2^64) have no byte in common. -/
def Disj (a : BitVec 64) (n : Nat) (b : BitVec 64) (k : Nat) : Prop :=
  ∀ i, i < n → ∀ j, j < k → a + BitVec.ofNat 64 i ≠ b + BitVec.ofNat 64 j

theorem Disj.symm {a b : BitVec 64} {n k : Nat} (h : Disj a n b k) : Disj b k a n :=
  fun j hj i hi e => h i hi j hj e.symm

theorem Disj.mono {a b : BitVec 64} {n k n' k' : Nat} (h : Disj a n b k) (h1 : n' ≤ n) (h2 : k' ≤ k) :
    Disj a n' b k' := fun i hi j hj => h i (by omega) j (by omega)

theorem wr_out (m : BitVec 64 → BitVec 8) (a : BitVec 64) (n v : Nat) (x : BitVec 64)
    (h : ∀ i, i < n → x ≠ a + BitVec.ofNat 64 i) : wr m a n v x = m x := by
  obtain ⟨i, hi, rfl⟩ := eq_add_ofNat a x
  rw [wr_at m a n v i hi]
  by_cases hn : i < n
  · exact absurd rfl (h i hn)
  · simp [hn]

theorem rd_congr {m m' : BitVec 64 → BitVec 8} {a : BitVec 64} {n : Nat}
    (h : ∀ i, i < n → m (a + BitVec.ofNat 64 i) = m' (a + BitVec.ofNat 64 i)) :
    rd m a n = rd m' a n := by
  induction n generalizing a with
  | zero => rfl
  | succ n ih =>
    rw [rd, rd, ih (a := a + 1)]
    · have := h 0 (by omega)
      simp at this
      rw [this]
    · intro i hi
      have := h (i + 1) (by omega)
      rwa [add_ofNat_succ] at this

theorem rd_lt (m : BitVec 64 → BitVec 8) (a : BitVec 64) (n : Nat) : rd m a n < 256 ^ n := by
  induction n generalizing a with
  | zero => simp [rd]
  | succ n ih =>
    have h1 := ih (a + 1)
    have h2 := (m a).isLt
    rw [rd, Nat.pow_succ]
    omega

theorem rd_wr_disj {m : BitVec 64 → BitVec 8} {a b : BitVec 64} {n k v : Nat} (h : Disj a n b k) :
    rd (wr m b k v) a n = rd m a n := by
  apply rd_congr
  intro i hi
  exact wr_out m b k v _ fun j hj => h i hi j hj

theorem rd_wr_prefix (m : BitVec 64 → BitVec 8) (a : BitVec 64) (n k v : Nat) (hk : k ≤ n)
    (hn : n ≤ 2 ^ 64) : rd (wr m a n v) a k = v % 256 ^ k := by
  have key : ∀ (k : Nat) (m : BitVec 64 → BitVec 8) (a : BitVec 64) (v : Nat),
      (∀ i, i < k → m (a + BitVec.ofNat 64 i) = BitVec.ofNat 8 (v / 256 ^ i)) →
      rd m a k = v % 256 ^ k := by
    intro k
    induction k with
    | zero => intro m a v _; simp [rd]; omega
    | succ k ih =>
      intro m a v h
      have h0 := h 0 (by omega)
      simp at h0
      have h1 := ih m (a + 1) (v / 256) (by
        intro i hi
        have := h (i + 1) (by omega)
        rw [add_ofNat_succ, Nat.pow_succ, Nat.mul_comm, ← Nat.div_div_eq_div_mul] at this
        exact this)
      rw [rd, h0, h1, Nat.pow_succ, Nat.mul_comm (256 ^ k), Nat.mod_mul]
      simp
  apply key
  intro i hi
  rw [wr_at m a n v i (by omega)]
  simp [show i < n by omega]

theorem rd_wr_same (m : BitVec 64 → BitVec 8) (a : BitVec 64) (n v : Nat) (hn : n ≤ 2 ^ 64) :
    rd (wr m a n v) a n = v % 256 ^ n := rd_wr_prefix m a n n v (Nat.le_refl _) hn

/-- A longer write as two writes. -/
theorem wr_split (m : BitVec 64 → BitVec 8) (a : BitVec 64) (n k v : Nat) (h : n + k ≤ 2 ^ 64) :
    wr m a (n + k) v = wr (wr m a n v) (a + BitVec.ofNat 64 n) k (v / 256 ^ n) := by
  funext x
  obtain ⟨i, hi, rfl⟩ := eq_add_ofNat a x
  rw [wr_at m a _ v i hi]
  by_cases h1 : i < n
  · rw [wr_out, wr_at m a n v i hi]
    · simp [h1, show i < n + k by omega]
    · intro j hj e
      have := congrArg BitVec.toNat e
      simp [BitVec.toNat_add] at this
      have := a.isLt
      omega
  · obtain ⟨j, rfl⟩ : ∃ j, i = n + j := ⟨i - n, by omega⟩
    have e : a + BitVec.ofNat 64 (n + j) = (a + BitVec.ofNat 64 n) + BitVec.ofNat 64 j := by
      apply BitVec.eq_of_toNat_eq; simp [BitVec.toNat_add]; omega
    rw [e, wr_at _ (a + BitVec.ofNat 64 n) k _ j (by omega), ← e, wr_at m a n v (n + j) hi]
    simp only [h1, if_false, Nat.add_lt_add_iff_left, Nat.div_div_eq_div_mul, Nat.pow_add]

theorem wr_mod (m : BitVec 64 → BitVec 8) (a : BitVec 64) (n v : Nat) :
    wr m a n (v % 256 ^ n) = wr m a n v := by
  induction n generalizing a v with
  | zero => rfl
  | succ n ih =>
    funext x
    rw [wr, wr]
    have e1 : v % 256 ^ (n + 1) % 256 = v % 256 := Nat.mod_mod_of_dvd _ ⟨256 ^ n, by rw [Nat.pow_succ, Nat.mul_comm]⟩
    have e2 : v % 256 ^ (n + 1) / 256 = v / 256 % 256 ^ n := by
      rw [Nat.pow_succ, Nat.mul_comm, Nat.mod_mul_right_div_self]
    by_cases hx : x = a
    · simp only [hx, if_true]
      apply BitVec.eq_of_toNat_eq
      simpa using e1
    · simp only [hx, if_false, e2, ih]

/-! ### Registers -/

@[simp] theorem set_reg (s : State) (r r' : Reg) (v : BitVec 64) :
    (s.set r v).reg r' = if r' = r then v else s.reg r' := rfl
@[simp] theorem set_mem (s : State) (r : Reg) (v : BitVec 64) : (s.set r v).mem = s.mem := rfl
@[simp] theorem set_xmm (s : State) (r : Reg) (v : BitVec 64) : (s.set r v).xmm = s.xmm := rfl
@[simp] theorem set_fl (s : State) (r : Reg) (v : BitVec 64) : (s.set r v).fl = s.fl := rfl
@[simp] theorem setX_reg (s : State) (i : Nat) (v : BitVec 64) : (s.setX i v).reg = s.reg := rfl
@[simp] theorem setX_mem (s : State) (i : Nat) (v : BitVec 64) : (s.setX i v).mem = s.mem := rfl
@[simp] theorem setX_xmm (s : State) (i j : Nat) (v : BitVec 64) :
    (s.setX i v).xmm j = if j = i then v else s.xmm j := rfl
@[simp] theorem setX_fl (s : State) (i : Nat) (v : BitVec 64) : (s.setX i v).fl = s.fl := rfl
@[simp] theorem store_reg (s : State) (a : BitVec 64) (n v : Nat) : (s.store a n v).reg = s.reg := rfl
@[simp] theorem store_mem (s : State) (a : BitVec 64) (n v : Nat) :
    (s.store a n v).mem = wr s.mem a n v := rfl
@[simp] theorem store_xmm (s : State) (a : BitVec 64) (n v : Nat) : (s.store a n v).xmm = s.xmm := rfl
@[simp] theorem store_fl (s : State) (a : BitVec 64) (n v : Nat) : (s.store a n v).fl = s.fl := rfl

theorem merge64 (old v : BitVec 64) : merge old 64 v = v := by simp [merge]
theorem merge32 (old : BitVec 64) (v : BitVec 32) : merge old 32 v = v.setWidth 64 := by simp [merge]

theorem merge8_low (old : BitVec 64) (v : BitVec 8) : (merge old 8 v).setWidth 8 = v := by
  have h : ¬ ((8 : Nat) = 64 ∨ (8 : Nat) = 32) := by decide
  simp only [merge, h, if_false]
  ext i hi
  simp

theorem merge16_low (old : BitVec 64) (v : BitVec 16) : (merge old 16 v).setWidth 16 = v := by
  have h : ¬ ((16 : Nat) = 64 ∨ (16 : Nat) = 32) := by decide
  simp only [merge, h, if_false]
  ext i hi
  simp

/-! ### Flags -/

theorem bmod_sub_cases (a b : Int) (k : Nat) (hk : 0 < k) (ha : -(2 ^ (k - 1)) ≤ a) (ha' : a < 2 ^ (k - 1))
    (hb : -(2 ^ (k - 1)) ≤ b) (hb' : b < 2 ^ (k - 1)) :
    (a - b).bmod (2 ^ k) = a - b ∨ (a - b).bmod (2 ^ k) = a - b - 2 ^ k ∧ 2 ^ (k - 1) ≤ a - b ∨
      (a - b).bmod (2 ^ k) = a - b + 2 ^ k ∧ a - b < -(2 ^ (k - 1)) := by
  obtain ⟨j, rfl⟩ : ∃ j, k = j + 1 := ⟨k - 1, by omega⟩
  simp only [Nat.add_sub_cancel] at *
  have h1 : (2 : Int) ^ (j + 1) = 2 * 2 ^ j := by rw [Int.pow_succ, Int.mul_comm]
  have hp : (0 : Int) < 2 ^ j := Int.pow_pos (by decide)
  have hn : ((2 ^ (j + 1) : Nat) : Int) = 2 * 2 ^ j := by rw [← h1]; simp
  generalize (2 : Int) ^ j = p at *
  generalize (2 : Nat) ^ (j + 1) = N at *
  rw [h1, Int.bmod_def, hn]
  have : (2 * p + 1) / 2 = p := by omega
  rw [this]
  by_cases c1 : a - b < 0
  · by_cases c2 : a - b < -p
    · have e : (a - b) % (2 * p) = a - b + 2 * p := by
        rw [← Int.add_emod_right, Int.emod_eq_of_lt] <;> omega
      rw [e]; split <;> omega
    · have e : (a - b) % (2 * p) = a - b + 2 * p := by
        rw [← Int.add_emod_right, Int.emod_eq_of_lt] <;> omega
      rw [e]; split <;> omega
  · have e : (a - b) % (2 * p) = a - b := Int.emod_eq_of_lt (by omega) (by omega)
    rw [e]; split <;> omega

theorem toInt_bounds {w : Nat} (a : BitVec w) (hw : 0 < w) :
    -(2 ^ (w - 1)) ≤ a.toInt ∧ a.toInt < 2 ^ (w - 1) := by
  obtain ⟨k, rfl⟩ : ∃ k, w = k + 1 := ⟨w - 1, by omega⟩
  have h := a.isLt
  have e : (2 : Nat) ^ (k + 1) = 2 * 2 ^ k := by rw [Nat.pow_succ, Nat.mul_comm]
  rw [BitVec.toInt_eq_toNat_cond]
  have hp : 0 < 2 ^ k := Nat.pow_pos (by decide)
  have hc : ((2 ^ k : Nat) : Int) = (2 : Int) ^ k := by simp
  simp only [Nat.add_sub_cancel]
  rw [← hc, e]
  rw [e] at h
  generalize (2 : Nat) ^ k = p at *
  split <;> omega

/-- Signed `<` is `SF ≠ OF` after `cmp`. -/
theorem cmp_lt {w : Nat} (hw : 0 < w) (a b : BitVec w) :
    ((cmpFlags a b).sf != (cmpFlags a b).of) = decide (a.toInt < b.toInt) := by
  have ha := toInt_bounds a hw
  have hb := toInt_bounds b hw
  have hs : (a - b).toInt = (a.toInt - b.toInt).bmod (2 ^ w) := BitVec.toInt_sub
  have hm : (a - b).msb = decide ((a - b).toInt < 0) := BitVec.msb_eq_toInt
  have hp : (0 : Int) < 2 ^ (w - 1) := Int.pow_pos (by decide)
  have hw2 : (2 : Int) ^ w = 2 * 2 ^ (w - 1) := by
    obtain ⟨k, rfl⟩ : ∃ k, w = k + 1 := ⟨w - 1, by omega⟩
    rw [Int.pow_succ, Int.mul_comm]; rfl
  simp only [cmpFlags]
  rw [hm, hs]
  rcases bmod_sub_cases a.toInt b.toInt w hw ha.1 ha.2 hb.1 hb.2 with h | ⟨h, h'⟩ | ⟨h, h'⟩
  · rw [h]; by_cases c : a.toInt < b.toInt
    · simp [c]; omega
    · simp [c]; omega
  · rw [h, hw2]
    have c : ¬ a.toInt < b.toInt := by omega
    have c1 : a.toInt - b.toInt - 2 * 2 ^ (w - 1) < 0 := by omega
    have c2 : a.toInt - b.toInt - 2 * 2 ^ (w - 1) ≠ a.toInt - b.toInt := by omega
    simp [c, c1, c2]
  · rw [h, hw2]
    have c : a.toInt < b.toInt := by omega
    have c1 : ¬ (a.toInt - b.toInt + 2 * 2 ^ (w - 1) < 0) := by omega
    have c2 : a.toInt - b.toInt + 2 * 2 ^ (w - 1) ≠ a.toInt - b.toInt := by omega
    simp [c, c1, c2]

theorem cmp_ge {w : Nat} (hw : 0 < w) (a b : BitVec w) :
    ((cmpFlags a b).sf == (cmpFlags a b).of) = decide (b.toInt ≤ a.toInt) := by
  have := cmp_lt hw a b
  have h2 : decide (b.toInt ≤ a.toInt) = !decide (a.toInt < b.toInt) := by
    by_cases c : a.toInt < b.toInt <;> simp [c] <;> omega
  rw [h2, ← this, bne, Bool.not_not]

theorem cmp_zf {w : Nat} (a b : BitVec w) : (cmpFlags a b).zf = decide (a = b) := rfl
theorem cmp_cf {w : Nat} (a b : BitVec w) : (cmpFlags a b).cf = decide (a.toNat < b.toNat) := by
  simp [cmpFlags, BitVec.ult]

theorem cc_a {w : Nat} (a b : BitVec w) :
    (!(cmpFlags a b).cf && !(cmpFlags a b).zf) = decide (b.toNat < a.toNat) := by
  rw [Bool.eq_iff_iff]
  simp only [cmp_cf, cmp_zf, Bool.and_eq_true, Bool.not_eq_true', decide_eq_false_iff_not,
    decide_eq_true_eq, ← BitVec.toNat_inj]
  omega

theorem cc_be {w : Nat} (a b : BitVec w) :
    ((cmpFlags a b).cf || (cmpFlags a b).zf) = decide (a.toNat ≤ b.toNat) := by
  rw [Bool.eq_iff_iff]
  simp only [cmp_cf, cmp_zf, Bool.or_eq_true, decide_eq_true_eq, ← BitVec.toNat_inj]
  omega

theorem cc_nb {w : Nat} (a b : BitVec w) :
    (!(cmpFlags a b).cf) = decide (b.toNat ≤ a.toNat) := by
  rw [Bool.eq_iff_iff]
  simp only [cmp_cf, Bool.not_eq_true', decide_eq_false_iff_not, decide_eq_true_eq]
  omega

theorem cc_g {w : Nat} (hw : 0 < w) (a b : BitVec w) :
    (!(cmpFlags a b).zf && (cmpFlags a b).sf == (cmpFlags a b).of) = decide (b.toInt < a.toInt) := by
  rw [Bool.eq_iff_iff]
  simp only [cmp_zf, cmp_ge hw, Bool.and_eq_true, Bool.not_eq_true', decide_eq_false_iff_not,
    decide_eq_true_eq, ← BitVec.toInt_inj]
  omega

theorem cc_le {w : Nat} (hw : 0 < w) (a b : BitVec w) :
    ((cmpFlags a b).zf || (cmpFlags a b).sf != (cmpFlags a b).of) = decide (a.toInt ≤ b.toInt) := by
  rw [Bool.eq_iff_iff]
  simp only [cmp_zf, cmp_lt hw, Bool.or_eq_true, decide_eq_true_eq, ← BitVec.toInt_inj]
  omega

theorem cc_ne {w : Nat} (a b : BitVec w) : (!(cmpFlags a b).zf) = decide (a ≠ b) := by
  simp [cmp_zf]

end Verif.X86
