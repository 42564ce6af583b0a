import Verif.CodegenLemmas
import Verif.MemoryProps
/-!
# C85: floating arithmetic; C36: parts of objects
-/
namespace Verif.Codegen
open Verif Asm X86 Simple SimpleSpec CodegenSpec Memory MemorySpec

/-- The machine's (IEEE 754) operation on encodings of type `t` for a C operator. -/
def arith (F : FP) : ST → Op → Option (Nat → Nat → Nat)
  | .float, .add => some fun x y => (F.add32 (BitVec.ofNat 32 x) (BitVec.ofNat 32 y)).toNat
  | .float, .sub => some fun x y => (F.sub32 (BitVec.ofNat 32 x) (BitVec.ofNat 32 y)).toNat
  | .float, .mul => some fun x y => (F.mul32 (BitVec.ofNat 32 x) (BitVec.ofNat 32 y)).toNat
  | .float, .div => some fun x y => (F.div32 (BitVec.ofNat 32 x) (BitVec.ofNat 32 y)).toNat
  | .double, .add => some fun x y => (F.add64 (BitVec.ofNat 64 x) (BitVec.ofNat 64 y)).toNat
  | .double, .sub => some fun x y => (F.sub64 (BitVec.ofNat 64 x) (BitVec.ofNat 64 y)).toNat
  | .double, .mul => some fun x y => (F.mul64 (BitVec.ofNat 64 x) (BitVec.ofNat 64 y)).toNat
  | .double, .div => some fun x y => (F.div64 (BitVec.ofNat 64 x) (BitVec.ofNat 64 y)).toNat
  | _, _ => none

theorem run_arith64 (F : FP) (m m' : Mn) (g : BitVec 64 → BitVec 64 → BitVec 64) (s : State)
    (hm : ∀ s : State, exec F ⟨m, [XMM 1, XMM 0]⟩ s = .ok (s.setX 0 (g (s.xmm 0) (s.xmm 1)))) :
    ∃ s', run F (binaryInsFlt true m' m) s = .ok s' ∧ s'.reg .rax = g (s.reg .rax) (s.reg .rcx) ∧ Kept s s' := by
  refine ⟨_, by rw [binaryInsFlt, if_pos rfl, run_cons, exec_movq, Out.bind_ok, run_cons, exec_movq, Out.bind_ok,
    run_cons, hm, Out.bind_ok, run_cons]; rfl, ?_, ?_⟩
  · simp [State.set, State.setX]
  · simp [Kept, State.set, State.setX]

theorem run_arith32 (F : FP) (m m' : Mn) (g : BitVec 32 → BitVec 32 → BitVec 32) (s : State)
    (hm : ∀ s : State, exec F ⟨m, [XMM 1, XMM 0]⟩ s = .ok (s.setX32 0 (g (s.x32 0) (s.x32 1)))) :
    ∃ s', run F (binaryInsFlt false m m') s = .ok s' ∧
      s'.reg .rax = (g ((s.reg .rax).setWidth 32) ((s.reg .rcx).setWidth 32)).setWidth 64 ∧ Kept s s' := by
  have h1 : ∀ (s : State), exec F ⟨.movd, [R4 .rax, XMM 0]⟩ s
      = .ok (s.setX 0 (((s.reg .rax).setWidth 32).setWidth 64)) := fun _ => rfl
  have h2 : ∀ (s : State), exec F ⟨.movd, [R4 .rcx, XMM 1]⟩ s
      = .ok (s.setX 1 (((s.reg .rcx).setWidth 32).setWidth 64)) := fun _ => rfl
  have h3 : ∀ (s : State), exec F ⟨.movd, [XMM 0, R4 .rax]⟩ s = .ok (s.set .rax ((s.x32 0).setWidth 64)) :=
    fun _ => rfl
  refine ⟨_, by rw [binaryInsFlt, if_neg (by decide), run_cons, h1, Out.bind_ok, run_cons, h2, Out.bind_ok, run_cons,
    hm, Out.bind_ok, run_cons, h3, Out.bind_ok, run_nil], ?_, ?_⟩
  · have low : ∀ (x : BitVec 64) (y : BitVec 32), (x >>> 32 <<< 32 ||| y.setWidth 64).setWidth 32 = y := by
      intro x y
      apply BitVec.eq_of_getLsbD_eq
      intro i hi
      simp [hi]
    have wide : ∀ x : BitVec 64, ((x.setWidth 32).setWidth 64).setWidth 32 = x.setWidth 32 := by
      intro x
      apply BitVec.eq_of_getLsbD_eq
      intro i hi
      simp [hi, show i < 64 by omega]
    simp [State.set, State.setX, State.setX32, State.x32, low, wide]
  · simp [Kept, State.set, State.setX, State.setX32]

/-- **C85.**  `a + b`, `a - b`, `a * b`, `a / b` for `float` and `double` operands: the code
applies the operation to the two values in that order, stores the result in the slot of
the node and changes nothing else. -/
theorem float_arithmetic_code (F : FP) (t : ST) (f : Float.Fmt) (n : Nat) (op : Op) (g : Nat → Nat → Nat)
    (a b : Slot) (loc : Nat) (s : State) (ht : fmtOf t = some (f, n)) (hop : arith F t op = some g)
    (ha : a.size = n) (hb : b.size = n) :
    ∃ c s', binaryExpr (some t) op a b loc = .ok c ∧ run F c s = .ok s' ∧ Frame s s' ⟨n, loc⟩ ∧
      rd s'.mem (slotAddr s ⟨n, loc⟩) n = g (rd s.mem (slotAddr s a) n) (rd s.mem (slotAddr s b) n) := by
  have hn : n = 4 ∨ n = 8 := by
    cases t <;> simp only [fmtOf, reduceCtorEq, Option.some.injEq, Prod.mk.injEq] at ht
    · exact Or.inl ht.2.symm
    · exact Or.inr ht.2.symm
  have hs : ScalarSize n := by rcases hn with h | h <;> simp [ScalarSize, h]
  obtain ⟨c1, e1, l1⟩ := run_load F a .rax (by rw [ha]; exact hs)
  obtain ⟨c2, e2, l2⟩ := run_load F b .rcx (by rw [hb]; exact hs)
  let s1 := (s.set .rax (BitVec.ofNat 64 (rd s.mem (slotAddr s a) n))).set .rcx
        (BitVec.ofNat 64 (rd s.mem (slotAddr s b) n))
  have hrun : run F (c1 ++ c2) s = .ok s1 := by
    rw [run_append_ok (l1 s), l2]; simp [s1, ha, hb]
  have hla := rd_lt s.mem (slotAddr s a) n
  have hlb := rd_lt s.mem (slotAddr s b) n
  have key : ∃ o, irFromTypeAndOp (some t) op = .ok o ∧ irBinaryOp o = o ∧
      ∃ s2, run F (asmTable (n == 8) o) s1 = .ok s2 ∧
        (s2.reg .rax).toNat % 256 ^ n = g (rd s.mem (slotAddr s a) n) (rd s.mem (slotAddr s b) n) ∧ Kept s s2 := by
    have fin64 : ∀ (m m' : Mn) (h : BitVec 64 → BitVec 64 → BitVec 64), n = 8 →
        (∀ s : State, exec F ⟨m, [XMM 1, XMM 0]⟩ s = .ok (s.setX 0 (h (s.xmm 0) (s.xmm 1)))) →
        (∀ x y, g x y = (h (BitVec.ofNat 64 x) (BitVec.ofNat 64 y)).toNat) →
        ∃ s2, run F (binaryInsFlt (n == 8) m' m) s1 = .ok s2 ∧
          (s2.reg .rax).toNat % 256 ^ n = g (rd s.mem (slotAddr s a) n) (rd s.mem (slotAddr s b) n) ∧ Kept s s2 := by
      intro m m' h hn8 hm hg
      obtain ⟨s2, r1, r2, r3⟩ := run_arith64 F m m' h s1 hm
      refine ⟨s2, by rw [hn8]; exact r1, ?_, ⟨by rw [r3.1]; rfl, by rw [r3.2.1]; rfl, by rw [r3.2.2]; rfl⟩⟩
      rw [r2, hg, hn8]
      have ea : s1.reg .rax = BitVec.ofNat 64 (rd s.mem (slotAddr s a) n) := by simp [s1]
      have eb : s1.reg .rcx = BitVec.ofNat 64 (rd s.mem (slotAddr s b) n) := by simp [s1]
      rw [ea, eb, hn8]
      exact Nat.mod_eq_of_lt (BitVec.isLt _)
    have fin32 : ∀ (m m' : Mn) (h : BitVec 32 → BitVec 32 → BitVec 32), n = 4 →
        (∀ s : State, exec F ⟨m, [XMM 1, XMM 0]⟩ s = .ok (s.setX32 0 (h (s.x32 0) (s.x32 1)))) →
        (∀ x y, g x y = (h (BitVec.ofNat 32 x) (BitVec.ofNat 32 y)).toNat) →
        ∃ s2, run F (binaryInsFlt (n == 8) m m') s1 = .ok s2 ∧
          (s2.reg .rax).toNat % 256 ^ n = g (rd s.mem (slotAddr s a) n) (rd s.mem (slotAddr s b) n) ∧ Kept s s2 := by
      intro m m' h hn4 hm hg
      obtain ⟨s2, r1, r2, r3⟩ := run_arith32 F m m' h s1 hm
      refine ⟨s2, by rw [hn4]; exact r1, ?_, ⟨by rw [r3.1]; rfl, by rw [r3.2.1]; rfl, by rw [r3.2.2]; rfl⟩⟩
      rw [r2, hg, hn4]
      have ea : (s1.reg .rax).setWidth 32 = BitVec.ofNat 32 (rd s.mem (slotAddr s a) n) := by
        apply BitVec.eq_of_toNat_eq; simp [s1]
      have eb : (s1.reg .rcx).setWidth 32 = BitVec.ofNat 32 (rd s.mem (slotAddr s b) n) := by
        apply BitVec.eq_of_toNat_eq; simp [s1]
      rw [ea, eb, hn4]
      have := (h (BitVec.ofNat 32 (rd s.mem (slotAddr s a) 4)) (BitVec.ofNat 32 (rd s.mem (slotAddr s b) 4))).isLt
      rw [BitVec.toNat_setWidth]
      omega
    cases t <;> simp only [fmtOf, reduceCtorEq, Option.some.injEq, Prod.mk.injEq] at ht
    all_goals
      cases op <;> simp only [arith, reduceCtorEq, Option.some.injEq] at hop
    all_goals
      refine ⟨_, rfl, rfl, ?_⟩
      subst hop
      first
        | exact fin32 _ _ _ ht.2.symm (fun _ => rfl) (fun _ _ => rfl)
        | exact fin64 _ _ _ ht.2.symm (fun _ => rfl) (fun _ _ => rfl)
  obtain ⟨o, ho, ho2, s2, hr2, hz, hk⟩ := key
  refine ⟨c1 ++ c2 ++ asmTable (n == 8) o ++ regToScalar .rax ⟨n, loc⟩,
    s2.store (slotAddr s2 ⟨n, loc⟩) n (s2.reg .rax).toNat, ?_, ?_, kept_store hk _ _ _ rfl, ?_⟩
  · unfold binaryExpr codegenBinary
    rw [ho, e1, e2]
    show (if a.size = 4 ∨ a.size = 8 then _ else _) = _
    rw [if_pos (by rw [ha]; exact hn), irBinarySize, ha, ho2]; rfl
  · rw [List.append_assoc, run_append_ok hrun, run_append_ok hr2, run_store F _ .rax hs]
  · have e : slotAddr s2 ⟨n, loc⟩ = slotAddr s ⟨n, loc⟩ := by simp [slotAddr, hk.2.1]
    rw [store_mem, e, rd_wr_same _ _ _ _ (by omega), hz]

/-- `7.0f - 2.0f` and `1.0 / 3.0`. -/
example (F : FP) : fmtOf .float = some (Float.f32, 4) ∧ fmtOf .double = some (Float.f64, 8) ∧
    (arith F .float .sub).isSome ∧ (arith F .double .div).isSome := ⟨rfl, rfl, rfl, rfl⟩

theorem exec_leal (F : FP) (off : Int) (b r : Reg) (s : State) :
    exec F ⟨.leal, [MEM off b, R4 r]⟩ s = .ok (s.set r (((s.addr off b).setWidth 32).setWidth 64)) := rfl

theorem exec_btcq (F : FP) (v : Int) (r : Reg) (s : State) :
    exec F ⟨.btcq, [IMM v, R8 r]⟩ s
      = .ok { s.set r (s.reg r ^^^ (1#64 <<< ((BitVec.ofInt 64 v).toNat % 64))) with fl := none } := rfl

theorem flip32 (x : Nat) : (((BitVec.ofNat 64 x + BitVec.ofInt 64 (-2147483648)).setWidth 32).setWidth 64).toNat % 256 ^ 4
    = (x + 2 ^ (8 * 4 - 1)) % 256 ^ 4 := by
  have h : BitVec.ofInt 64 (-2147483648) = 0xFFFFFFFF80000000#64 := by decide
  rw [h, BitVec.toNat_setWidth, BitVec.toNat_setWidth, BitVec.toNat_add, BitVec.toNat_ofNat, BitVec.toNat_ofNat]
  omega

theorem flip64 (x : Nat) : (BitVec.ofNat 64 x ^^^ (1#64 <<< ((BitVec.ofInt 64 63).toNat % 64))).toNat % 256 ^ 8
    = (x + 2 ^ (8 * 8 - 1)) % 256 ^ 8 := by
  have h : 1#64 <<< ((BitVec.ofInt 64 63).toNat % 64) = BitVec.intMin 64 := by decide
  have h2 : (BitVec.intMin 64).toNat = 2 ^ 63 := by decide
  have hx := (BitVec.ofNat 64 x).isLt
  rw [h, BitVec.toNat_xor, h2]
  have hd : ((BitVec.ofNat 64 x).toNat ^^^ 2 ^ 63) / 2 ^ 63 = (BitVec.ofNat 64 x).toNat / 2 ^ 63 ^^^ 1 := by
    rw [Nat.xor_div_two_pow]
  have hm : ((BitVec.ofNat 64 x).toNat ^^^ 2 ^ 63) % 2 ^ 63 = (BitVec.ofNat 64 x).toNat % 2 ^ 63 := by
    rw [Nat.xor_mod_two_pow, Nat.mod_self, Nat.xor_zero]
  have hc := Nat.div_add_mod ((BitVec.ofNat 64 x).toNat ^^^ 2 ^ 63) (2 ^ 63)
  rw [hd, hm] at hc
  rw [← hc]
  rw [BitVec.toNat_ofNat] at hx ⊢
  have h01 : x % 2 ^ 64 / 2 ^ 63 = 0 ∨ x % 2 ^ 64 / 2 ^ 63 = 1 := by omega
  rcases h01 with h0 | h0
  · rw [h0, show (0 ^^^ 1 : Nat) = 1 from rfl]; omega
  · rw [h0, show (1 ^^^ 1 : Nat) = 0 from rfl]; omega

theorem flipBool {p q : Prop} [Decidable p] [Decidable q] (h : p ↔ ¬ q) : decide p = !decide q := by
  by_cases hq : q <;> simp [h, hq]

/-- **C85, negation.**  `-a` for `float` and `double`: the result has the opposite sign and
the same magnitude bits, whatever `a` is (zero, infinity, NaN included). -/
theorem float_negation_code (F : FP) (t : ST) (f : Float.Fmt) (n : Nat) (a : Slot) (loc : Nat) (s : State)
    (ht : fmtOf t = some (f, n)) (ha : a.size = n) :
    ∃ c s', unaryExpr t .neg a loc = .ok (some c) ∧ run F c s = .ok s' ∧ Frame s s' ⟨n, loc⟩ ∧
      Float.neg f (rd s'.mem (slotAddr s ⟨n, loc⟩) n) = !Float.neg f (rd s.mem (slotAddr s a) n) ∧
      rd s'.mem (slotAddr s ⟨n, loc⟩) n % 2 ^ (f.mb + f.eb) = rd s.mem (slotAddr s a) n % 2 ^ (f.mb + f.eb) := by
  have hn : n = 4 ∨ n = 8 := by
    cases t <;> simp only [fmtOf, reduceCtorEq, Option.some.injEq, Prod.mk.injEq] at ht
    · exact Or.inl ht.2.symm
    · exact Or.inr ht.2.symm
  have hs : ScalarSize n := by rcases hn with h | h <;> simp [ScalarSize, h]
  obtain ⟨c1, e1, l1⟩ := run_load F a .rax (by rw [ha]; exact hs)
  have hla := rd_lt s.mem (slotAddr s a) n
  let s1 := s.set .rax (BitVec.ofNat 64 (rd s.mem (slotAddr s a) n))
  have hrun : run F c1 s = .ok s1 := by rw [l1]; simp [s1, ha]
  have hfn : (f = Float.f32 ∧ n = 4) ∨ (f = Float.f64 ∧ n = 8) := by
    cases t <;> simp only [fmtOf, reduceCtorEq, Option.some.injEq, Prod.mk.injEq] at ht
    · exact .inl ⟨ht.1.symm, ht.2.symm⟩
    · exact .inr ⟨ht.1.symm, ht.2.symm⟩
  have hflt : isInteger t = false ∧ isFloating t = true := by
    cases t <;> simp only [fmtOf, reduceCtorEq] at ht <;> exact ⟨rfl, rfl⟩
  -- the instruction in the middle
  have key : ∃ i s2, codegenNegFloat a ⟨a.size, loc⟩ = .ok (c1 ++ [i] ++ regToScalar .rax ⟨n, loc⟩) ∧
      exec F i s1 = .ok s2 ∧ (s2.reg .rax).toNat % 256 ^ n = (rd s.mem (slotAddr s a) n + 2 ^ (8 * n - 1)) % 256 ^ n ∧
      Kept s s2 := by
    rcases hfn with ⟨-, h4⟩ | ⟨-, h8⟩
    · subst h4
      refine ⟨⟨.leal, [MEM (-2147483648) .rax, R4 .rax]⟩,
        _, ?_, exec_leal F _ _ _ _, ?_, by simp [Kept, s1, State.set]⟩
      · unfold codegenNegFloat; rw [e1]; simp [ha]
      · have : s1.reg .rax = BitVec.ofNat 64 (rd s.mem (slotAddr s a) 4) := by simp [s1]
        rw [← flip32, ← this]
        simp only [State.set, State.addr, if_true]
    · subst h8
      refine ⟨⟨.btcq, [IMM 63, R8 .rax]⟩,
        _, ?_, exec_btcq F _ _ _, ?_, by simp [Kept, s1, State.set]⟩
      · unfold codegenNegFloat; rw [e1]; simp [ha]
      · have : s1.reg .rax = BitVec.ofNat 64 (rd s.mem (slotAddr s a) 8) := by simp [s1]
        rw [← flip64, ← this]
        simp only [State.set, if_true]
  obtain ⟨i, s2, hc, hx, hz, hk⟩ := key
  have hmem : rd (s2.store (slotAddr s2 ⟨n, loc⟩) n (s2.reg .rax).toNat).mem (slotAddr s ⟨n, loc⟩) n
      = (rd s.mem (slotAddr s a) n + 2 ^ (8 * n - 1)) % 256 ^ n := by
    have e : slotAddr s2 ⟨n, loc⟩ = slotAddr s ⟨n, loc⟩ := by simp [slotAddr, hk.2.1]
    rw [store_mem, e, rd_wr_same _ _ _ _ (by omega), hz]
  refine ⟨c1 ++ [i] ++ regToScalar .rax ⟨n, loc⟩, s2.store (slotAddr s2 ⟨n, loc⟩) n (s2.reg .rax).toNat, ?_, ?_,
    kept_store hk _ _ _ rfl, ?_⟩
  · unfold unaryExpr
    simp only [hflt.1, hflt.2, if_true, Bool.false_eq_true, if_false]
    rw [hc]; rfl
  · rw [List.append_assoc, run_append_ok hrun, List.singleton_append, run_cons, hx, Out.bind_ok, run_store F _ .rax hs]
  · rw [hmem]
    rcases hfn with ⟨rfl, rfl⟩ | ⟨rfl, rfl⟩
    · constructor
      · simp only [Float.neg, Float.f32]
        apply flipBool
        omega
      · simp only [Float.f32]; omega
    · constructor
      · simp only [Float.neg, Float.f64]
        apply flipBool
        omega
      · simp only [Float.f64]; omega

/-- `-1.0f` is `0xbf800000`, `-0.0` the other zero. -/
example : Float.neg Float.f32 0xbf800000 = true ∧ Float.neg Float.f32 0x3f800000 = false ∧
    Float.neg Float.f64 0x8000000000000000 = true := by decide

/-! ### Parts of objects -/

/-- **C36** for `IR_LOAD_PART_ADDRESS`: the slot receives the bytes of the object from the
offset on. -/
theorem load_part_code (F : FP) (p v : Slot) (off : Nat) (hp : p.size = 8) (hv : v.size ≤ 2 ^ 63) (s : State)
    (ho : NoPartialOverlap (target s p + BitVec.ofNat 64 off) (slotAddr s v) v.size) :
    ∃ c s', loadPart p v off = .ok c ∧ run F c s = .ok s' ∧
      s'.mem = copied s.mem (target s p + BitVec.ofNat 64 off) (slotAddr s v) v.size ∧ Scratch s s' := by
  obtain ⟨c, e, l⟩ := run_load F p .rdi (by rw [hp]; simp [ScalarSize])
  let s1 := (s.set .rdi (target s p + BitVec.ofNat 64 off)).set .rsi (slotAddr s v)
  have h1 : run F (c ++ [⟨.leaq, [MEM off .rdi, R8 .rdi]⟩, leaSlot v .rsi]) s = .ok s1 := by
    rw [run_append_ok (l s), hp, leaSlot, run_cons, exec_leaq, Out.bind_ok, run_cons, Slot.mem, exec_leaq, Out.bind_ok,
      run_nil]
    congr 1
    show State.set _ _ (_ + _) = _
    rw [show ∀ x y, ((s.set .rdi x).set .rdi y).reg .rbp = s.reg .rbp by intros; simp, slot_addr0]
    simp only [s1, State.set, State.addr, target, if_true, BitVec.ofInt_natCast]
    congr 1
    funext r
    by_cases h : r = .rsi
    · simp [h]
    · by_cases h' : r = .rdi <;> simp [h, h']
  obtain ⟨w, hw⟩ := memcpy_copies F v.size hv s1 (by simpa [s1] using ho)
  refine ⟨_, _, by rw [loadPart, e]; rfl, by rw [run_append_ok h1, hw], ?_, ?_⟩
  · simp [s1]
  · refine ⟨?_, rfl⟩
    intro r h1 h2 h3
    simp [s1, h1, h2, h3]

/-- **C36** for `IR_STORE_PART_ADDRESS`: the bytes of the value's slot are written at the
offset in the object, nothing else changes. -/
theorem store_part_code (F : FP) (p v : Slot) (off : Nat) (hp : p.size = 8) (hv : v.size ≤ 2 ^ 63) (s : State)
    (ho : NoPartialOverlap (slotAddr s v) (target s p + BitVec.ofNat 64 off) v.size) :
    ∃ c s', storePart p v off = .ok c ∧ run F c s = .ok s' ∧
      s'.mem = copied s.mem (slotAddr s v) (target s p + BitVec.ofNat 64 off) v.size ∧ Scratch s s' := by
  obtain ⟨c, e, l⟩ := run_load F p .rsi (by rw [hp]; simp [ScalarSize])
  let s1 := (s.set .rsi (target s p + BitVec.ofNat 64 off)).set .rdi (slotAddr s v)
  have h1 : run F (c ++ [⟨.leaq, [MEM off .rsi, R8 .rsi]⟩, leaSlot v .rdi]) s = .ok s1 := by
    rw [run_append_ok (l s), hp, leaSlot, run_cons, exec_leaq, Out.bind_ok, run_cons, Slot.mem, exec_leaq, Out.bind_ok,
      run_nil]
    congr 1
    show State.set _ _ (_ + _) = _
    rw [show ∀ x y, ((s.set .rsi x).set .rsi y).reg .rbp = s.reg .rbp by intros; simp, slot_addr0]
    simp only [s1, State.set, State.addr, target, if_true, BitVec.ofInt_natCast]
    congr 1
    funext r
    by_cases h : r = .rdi
    · simp [h]
    · by_cases h' : r = .rsi <;> simp [h, h']
  obtain ⟨w, hw⟩ := memcpy_copies F v.size hv s1 (by simpa [s1] using ho)
  refine ⟨_, _, by rw [storePart, e]; rfl, by rw [run_append_ok h1, hw], ?_, ?_⟩
  · simp [s1]
  · refine ⟨?_, rfl⟩
    intro r h1 h2 h3
    simp [s1, h1, h2, h3]

/-- The second half of a 16-byte object at 0x2000 and an 8-byte slot do not overlap. -/
example : NoPartialOverlap (target (twoSlots 0x2000 0) ⟨8, 8⟩ + BitVec.ofNat 64 8)
    (slotAddr (twoSlots 0x2000 0) ⟨8, 100⟩) 8 := by
  have h1 : target (twoSlots 0x2000 0) ⟨8, 8⟩ + BitVec.ofNat 64 8 = 0x2008 := by decide +kernel
  have h2 : slotAddr (twoSlots 0x2000 0) ⟨8, 100⟩ = 0xf9c := by decide +kernel
  rw [h1, h2]
  right
  intro i hi j hj
  rw [ne_eq, ← BitVec.toNat_inj]
  simp [BitVec.toNat_add]
  omega

end Verif.Codegen
