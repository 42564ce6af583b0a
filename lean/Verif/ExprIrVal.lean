import Verif.ExprIrBuild
import Verif.ExprIrGraph
import Verif.BitfieldProps
/-!
Lemmas for C92: what an evaluated expression stands for, and the conversions between its kinds.
-/
namespace Verif.ExprIr
open Verif.SimpleSpec Verif.ExprIrSpec
open Verif.Simple hiding Promoted
open Verif.CodegenSpec (bytes Promoted IsRel)
open Verif.X86 (rd wr)

/-- The node has the value `x` of type `T`; a wide one may be longer than the type. -/
def NodeVal (d : Decls) (st : St) (m : M) (T : Ty) (x : Nat) (wd : Prop) (n : Nat) : Prop :=
  n < st.next ∧ m.vals n = some (.word x) ∧
    (st.size n = osize d T ∨ wd ∧ st.size n = 8 ∧ osize d T = 4 ∧ x ≤ 1)

/-- Where the address of an evaluated expression points. -/
def Points (d : Decls) (st : St) (T : Ty) (src : Option Src) : Val → Prop
  | .word a => a < 2 ^ 64 ∧ src = some ⟨BitVec.ofNat 64 a, osize d T, false⟩
  | .slot k _ => k < st.next

/-- The evaluated expression stands for the value `x` of type `T`. -/
def EEVal (d : Decls) (st : St) (m : M) (T : Ty) (x : Nat) (src : Option Src) (wd : Prop) : EE → Prop
  | .void => T = .void
  | .const n y => (∃ s, T = .simple s ∧ IsInt s) ∧ n = osize d T ∧ y = x
  | .var n => IsScalar T ∧ NodeVal d st m T x wd n
  | .ptr p => IsValue T ∧ p < st.next ∧ st.size p = 8 ∧
      ∃ v, m.vals p = some v ∧ m.read (osize d T) v = some x ∧ Points d st T src v
  | .bits p o n sgn => ∃ s a, T = .simple s ∧ IsInt s ∧ sgn = signed s ∧ 1 ≤ n ∧ o + n ≤ 8 * bytes .sysv s ∧
      p < st.next ∧ st.size p = 8 ∧ m.vals p = some (.word a) ∧ a < 2 ^ 64 ∧
      src = some ⟨BitVec.ofNat 64 a, osize d T, true⟩ ∧
      Rep (.simple s) (fieldVal s (rd m.mem (BitVec.ofNat 64 a) (bytes .sysv s)) o n) x

structure Holds (d : Decls) (st : St) (m : M) (T : Ty) (x : Nat) (src : Option Src) (wd : Prop) (v : EV) : Prop where
  ty : v.ty = T
  val : EEVal d st m T x src wd v.ee
  lt : IsValue T → x < 256 ^ osize d T

/-! ### Stability -/

theorem NodeVal.mono {d : Decls} {W : World} {st st' : St} {m m' : M} {T : Ty} {x : Nat} {wd : Prop} {n : Nat}
    (h : NodeVal d st m T x wd n) (g : Gen W st st' m m') : NodeVal d st' m' T x wd n := by
  obtain ⟨h1, h2, h3⟩ := h
  refine ⟨Nat.lt_of_lt_of_le h1 g.grow.next, by rw [(g.keep n h1).1]; exact h2, ?_⟩
  rw [g.grow.size n h1]
  exact h3

theorem read_mono {W : World} {st st' : St} {m m' : M} (g : Gen W st st' m m') {n : Nat} {v : Val} {x : Nat}
    (h : m.read n v = some x)
    (hv : match v with
      | .word a => rd m'.mem (BitVec.ofNat 64 a) n = rd m.mem (BitVec.ofNat 64 a) n
      | .slot k _ => k < st.next) : m'.read n v = some x := by
  cases v with
  | word a => simp only [M.read] at h ⊢; rw [hv]; exact h
  | slot k o => simp only [M.read] at h ⊢; rw [(g.keep k hv).2]; exact h

theorem EEVal.mono {d : Decls} {W : World} {st st' : St} {m m' : M} {T : Ty} {x : Nat} {src : Option Src} {wd : Prop} {ee : EE}
    (h : EEVal d st m T x src wd ee) (g : Gen W st st' m m') (hk : Kept src m.mem m'.mem) :
    EEVal d st' m' T x src wd ee := by
  cases ee with
  | void => exact h
  | const n y => exact h
  | var n => exact ⟨h.1, h.2.mono g⟩
  | ptr p =>
    obtain ⟨h0, h1, h2, v, h3, h4, h5⟩ := h
    refine ⟨h0, Nat.lt_of_lt_of_le h1 g.grow.next, by rw [g.grow.size p h1]; exact h2, v, by rw [(g.keep p h1).1]; exact h3, ?_, ?_⟩
    · refine read_mono g h4 ?_
      cases v with
      | word a => exact hk _ h5.2
      | slot k o => exact h5
    · cases v with
      | word a => exact h5
      | slot k o => exact Nat.lt_of_lt_of_le h5 g.grow.next
  | bits p o n sgn =>
    obtain ⟨s, a, h1, h2, h3, h4, h5, h6, h7, h8, h9, h10, h11⟩ := h
    refine ⟨s, a, h1, h2, h3, h4, h5, Nat.lt_of_lt_of_le h6 g.grow.next, by rw [g.grow.size p h6]; exact h7,
      by rw [(g.keep p h6).1]; exact h8, h9, h10, ?_⟩
    have := hk _ h10
    simp only [] at this
    subst h1
    rw [osize_scalar d (t := .simple s) h2] at this
    rw [show bytes .sysv s = bytes .sysv (asInt (.simple s)) from rfl, this]
    exact h11

theorem Holds.mono {d : Decls} {W : World} {st st' : St} {m m' : M} {T : Ty} {x : Nat} {src : Option Src} {wd : Prop} {v : EV}
    (h : Holds d st m T x src wd v) (g : Gen W st st' m m') (hk : Kept src m.mem m'.mem) :
    Holds d st' m' T x src wd v := ⟨h.ty, h.val.mono g hk, h.lt⟩

theorem kept_eq {src : Option Src} {m m' : Mem} (h : m' = m) : Kept src m m' := by
  intro s _; rw [h]

theorem EEVal.wd_mono {d : Decls} {st : St} {m : M} {T : Ty} {x : Nat} {src : Option Src} {wd wd' : Prop} {ee : EE}
    (h : EEVal d st m T x src wd ee) (hw : wd → osize d T = 4 → wd') : EEVal d st m T x src wd' ee := by
  cases ee with
  | var n =>
    obtain ⟨h0, h1, h2, h3⟩ := h
    refine ⟨h0, h1, h2, ?_⟩
    rcases h3 with h3 | ⟨h3, h4, h5, h6⟩
    · exact .inl h3
    · exact .inr ⟨hw h3 h5, h4, h5, h6⟩
  | _ => exact h

theorem Holds.wd_mono {d : Decls} {st : St} {m : M} {T : Ty} {x : Nat} {src : Option Src} {wd wd' : Prop} {v : EV}
    (h : Holds d st m T x src wd v) (hw : wd → osize d T = 4 → wd') : Holds d st m T x src wd' v :=
  ⟨h.ty, h.val.wd_mono hw, h.lt⟩

theorem HasVars.mono {d : Decls} {W : World} {st st' : St} {m m' : M} (h : HasVars d W st m) (g : Gen W st st' m m') :
    HasVars d W st' m' := by
  refine ⟨Nat.le_trans h.1 g.grow.next, fun x hx => ?_⟩
  obtain ⟨h1, h2⟩ := h.2 x hx
  have hlt := Nat.lt_of_lt_of_le hx h.1
  exact ⟨by rw [(g.keep x hlt).1]; exact h1, by rw [g.grow.size x hlt]; exact h2⟩

/-! ### One node -/

theorem gen_put {W : World} {st : St} {m : M} (ho : Open st) (s : Nat) (i : Nat → Ins) (v : Val)
    (hx : ∀ e, exec W e (i st.next) m = some (m.put st.next v)) : Gen W st (emit st s i).2 m (m.put st.next v) :=
  gen_emit ho s i hx (keeps_put m st.next v)

theorem nodeVal_put {d : Decls} {st : St} {m : M} {T : Ty} {x s : Nat} (i : Nat → Ins) (hs : s = osize d T) (wd : Prop) :
    NodeVal d (emit st s i).2 (m.put st.next (.word x)) T x wd (emit st s i).1 :=
  ⟨Nat.lt_succ_self _, put_vals _ _ _, .inl (by rw [emit_fst, emit_size, hs])⟩

theorem fieldVal_getBits {s : ST} (hi : IsInt s) {u o n : Nat} (hn : 1 ≤ n) (ho : o + n ≤ 8 * bytes .sysv s) :
    Rep (.simple s) (fieldVal s u o n)
      (Bitfield.getBits (BitVec.ofNat (8 * bytes .sysv s) u) o n (signed s)).toNat := by
  have hb := bytes_cases hi
  rw [Bitfield.get_bits_spec (by omega) _ _ _ hn ho]
  refine ⟨by rw [pow256]; exact BitVec.isLt _, ?_⟩
  unfold fieldVal
  generalize (BitVec.ofNat (8 * bytes .sysv s) u) = U
  show bitsVal s (BitVec.ofNat (8 * bytes .sysv s) _) = _
  rw [BitVec.ofNat_toNat, BitVec.setWidth_eq]
  unfold bitsVal
  cases hs : signed s
  · simp only [Bool.false_eq_true, if_false]
    rw [BitVec.toNat_setWidth, Nat.mod_eq_of_lt]
    exact Nat.lt_of_lt_of_le (BitVec.isLt _) (Nat.pow_le_pow_right (by decide) (by omega))
  · simp only [if_true]
    rw [BitVec.toInt_signExtend_of_le (by omega)]

theorem toVar_ok {d : Decls} {W : World} {st : St} {m : M} {T : Ty} {x : Nat} {src : Option Src} {wd : Prop} {v : EV}
    (ho : Open st) (h : Holds d st m T x src wd v) (hT : T ≠ .void) :
    ∃ n st' m', d.toVar v st = .ok (n, st') ∧ Gen W st st' m m' ∧ m'.mem = m.mem ∧ NodeVal d st' m' T x wd n := by
  obtain ⟨ty, lv, ee⟩ := v
  obtain ⟨hty, hv, hlt⟩ := h
  simp only at hty hv
  subst hty
  cases ee with
  | void => exact absurd hv hT
  | const n y =>
    obtain ⟨h1, h2, h3⟩ := hv
    subst h3
    exact ⟨_, _, _, rfl, gen_put ho n (fun k => .const k y) (.word y) (fun _ => rfl), rfl,
      nodeVal_put (fun k => .const k y) h2 wd⟩
  | var n => exact ⟨n, st, m, rfl, Gen.refl W ho m, rfl, hv.2⟩
  | ptr p =>
    obtain ⟨h1, h2, h3, v, h4, h5, h6⟩ := hv
    refine ⟨_, _, _, rfl, gen_put ho (d.size ty) (fun k => .load k p (d.size ty)) (.word x) (fun _ => ?_), rfl,
      nodeVal_put (fun k => .load k p (d.size ty)) (size_eq d ty) wd⟩
    simp only [exec, h4]
    show (m.read (d.size ty) v).bind _ = _
    rw [size_eq, h5]
    rfl
  | bits p o n sgn =>
    obtain ⟨s, a, h1, h2, h3, h4, h5, h6, h7, h8, h9, h10, h11⟩ := hv
    subst h1
    have hsz : d.size (.simple s) = bytes .sysv s := by rw [size_eq]; exact osize_scalar d (t := .simple s) h2
    have g1 : Gen W st (emit st (d.size (.simple s)) (fun k => .load k p (d.size (.simple s)))).2 m
        (m.put st.next (.word (rd m.mem (BitVec.ofNat 64 a) (bytes .sysv s)))) := by
      refine gen_put ho _ _ _ (fun _ => ?_)
      simp only [exec, h8, hsz]
      rfl
    have g2 := gen_put (W := W) g1.opened (d.size (.simple s))
      (fun k => .getBits k st.next o n sgn (d.size (.simple s))) (.word x) (fun _ => by
        have he := rep_unique (fieldVal_getBits h2 (u := rd m.mem (BitVec.ofNat 64 a) (bytes .sysv s)) h4 h5) h11
        have hw := put_word m st.next (rd m.mem (BitVec.ofNat 64 a) (bytes .sysv s))
        simp only [exec]
        rw [hw, hsz, h3]
        show some (M.put _ _ (Val.word (BitVec.toNat _))) = _
        rw [he])
    exact ⟨_, _, _, rfl, g1.trans ho g2, rfl,
      nodeVal_put (fun k => .getBits k st.next o n sgn (d.size (.simple s))) (size_eq d _) wd⟩

/-- Two instructions of which the second fills what the first has made. -/
theorem gen_emit2 {W : World} {st : St} {m m1 m' : M} (ho : Open st) (s s' : Nat) (i i' : Nat → Ins)
    (hx : ∀ e, exec W e (i st.next) m = some m1) (hx' : ∀ e, exec W e (i' (st.next + 1)) m1 = some m')
    (hk : Keeps st.next m m') : Gen W st (emit (emit st s i).2 s' i').2 m m' := by
  have o1 := emit_open ho s i
  refine ⟨emit_open o1 _ _, (emit_grow s i).trans ho (emit_grow s' i'), hk, fun G hG e => ⟨e, ?_⟩⟩
  have hc : (emit (emit st s i).2 s' i').2.code st.cur = st.code st.cur ++ [i st.next] ++ [i' (st.next + 1)] := by
    have := emit_code (emit st s i).2 s' i'
    rw [emit_cur, emit_code, emit_next] at this
    exact this
  show Steps W G _ ⟨st.cur, ((emit (emit st s i).2 s' i').2.code st.cur).length, e, m'⟩
  rw [hc]
  have h1 : Step W G ⟨st.cur, (st.code st.cur).length, e, m⟩ ⟨st.cur, (st.code st.cur).length + 1, e, m1⟩ := by
    refine .ins (contains_at hG ?_) (hx e)
    rw [hc]; simp
  have h2 : Step W G ⟨st.cur, (st.code st.cur).length + 1, e, m1⟩ ⟨st.cur, (st.code st.cur).length + 1 + 1, e, m'⟩ := by
    refine .ins (contains_at hG ?_) (hx' e)
    rw [hc, List.getElem?_append_right (by simp)]
    simp
  have := steps_trans (steps_one h1) (steps_one h2)
  simpa using this

theorem gen_emit3 {W : World} {st : St} {m m1 m2 m' : M} (ho : Open st) (s s' s'' : Nat) (i i' i'' : Nat → Ins)
    (hx : ∀ e, exec W e (i st.next) m = some m1) (hx' : ∀ e, exec W e (i' (st.next + 1)) m1 = some m2)
    (hx'' : ∀ e, exec W e (i'' (st.next + 2)) m2 = some m')
    (hk : Keeps st.next m m') : Gen W st (emit (emit (emit st s i).2 s' i').2 s'' i'').2 m m' := by
  have o1 := emit_open ho s i
  have o2 := emit_open o1 s' i'
  refine ⟨emit_open o2 _ _, ((emit_grow s i).trans ho (emit_grow s' i')).trans ho (emit_grow _ _), hk, fun G hG e => ⟨e, ?_⟩⟩
  have hc : (emit (emit (emit st s i).2 s' i').2 s'' i'').2.code st.cur =
      st.code st.cur ++ [i st.next] ++ [i' (st.next + 1)] ++ [i'' (st.next + 2)] := by
    have := emit_code (emit (emit st s i).2 s' i').2 s'' i''
    rw [emit_cur, emit_code, emit_next, emit_cur, emit_code, emit_next] at this
    exact this
  show Steps W G _ ⟨st.cur, ((emit (emit (emit st s i).2 s' i').2 s'' i'').2.code st.cur).length, e, m'⟩
  rw [hc]
  have h1 : Step W G ⟨st.cur, (st.code st.cur).length, e, m⟩ ⟨st.cur, (st.code st.cur).length + 1, e, m1⟩ := by
    refine .ins (contains_at hG ?_) (hx e)
    rw [hc]; simp
  have h2 : Step W G ⟨st.cur, (st.code st.cur).length + 1, e, m1⟩ ⟨st.cur, (st.code st.cur).length + 1 + 1, e, m2⟩ := by
    refine .ins (contains_at hG ?_) (hx' e)
    rw [hc]; simp
  have h3 : Step W G ⟨st.cur, (st.code st.cur).length + 1 + 1, e, m2⟩ ⟨st.cur, (st.code st.cur).length + 1 + 1 + 1, e, m'⟩ := by
    refine .ins (contains_at hG ?_) (hx'' e)
    rw [hc, List.getElem?_append_right (by simp)]
    simp
  have := steps_trans (steps_one h1) (steps_trans (steps_one h2) (steps_one h3))
  simpa using this

/-- The machine after a slot `k` of the size has been filled with `x`. -/
def filled (m : M) (k size x : Nat) : M :=
  { m.put k (.slot k 0) with slots := set m.slots k (some (size, some x)) }

theorem set_set {α : Type} (f : Nat → α) (n : Nat) (x y : α) : set (set f n x) n y = set f n y := by
  funext k; unfold set; split <;> rfl

theorem set_comm {α : Type} (f : Nat → α) {n k : Nat} (h : n ≠ k) (x y : α) :
    set (set f n x) k y = set (set f k y) n x := by
  funext i; unfold set
  by_cases h1 : i = k <;> by_cases h2 : i = n <;> simp [h1, h2]
  · exact absurd (h2.symm.trans h1) h
  · subst h1; exact fun h' => absurd h'.symm h
  · subst h2; exact fun h' => absurd h' h

theorem spill_ok {d : Decls} {W : World} {st : St} {m : M} {T : Ty} {x : Nat} {n : Nat} {wd : Prop}
    (ho : Open st) (h : NodeVal d st m T x wd n) (hw : ¬ wd) :
    ∃ st', spill st (d.size T) n = (st.next, st') ∧ Gen W st st' m (filled m st.next (osize d T) x) ∧ st.next < st'.next ∧
      st'.size st.next = 8 := by
  obtain ⟨h1, h2, h3⟩ := h
  have h3 : st.size n = osize d T := by
    rcases h3 with h3 | ⟨h3, _⟩
    · exact h3
    · exact absurd h3 hw
  have hsz : (emit st 8 (fun k => .alloc k (d.size T))).2.size n = osize d T := by
    rw [← h3]; exact set_other _ _ (by omega)
  refine ⟨_, rfl, gen_emit2 (m1 := { m.put st.next (.slot st.next 0) with slots := set m.slots st.next (some (d.size T, none)) })
    ho 8 0 (fun k => .alloc k (d.size T))
    (fun _ => .store st.next n ((emit st 8 (fun k => .alloc k (d.size T))).2.size n)) (fun _ => rfl) (fun _ => ?_) ?_, ?_, ?_⟩
  · rw [hsz]
    have hv : set m.vals st.next (some (Val.slot st.next 0)) n = some (.word x) := by
      rw [set_other _ _ (by omega)]; exact h2
    simp only [exec, M.put, M.word, set_same, hv]
    show M.write _ (osize d T) x (.slot st.next 0) = _
    simp only [M.write, set_same, size_eq]
    simp only [true_and, if_true, filled, M.put, set_set]
  · intro k hk
    exact ⟨set_other _ _ (by omega), set_other _ _ (by omega)⟩
  · show st.next < st.next + 1 + 1; omega
  · show set (set st.size st.next 8) (st.next + 1) 0 st.next = 8
    rw [set_other _ _ (by omega), set_same]

/-- The node is an address at which the value is. -/
def AddrVal (d : Decls) (st : St) (m : M) (T : Ty) (x : Nat) (src : Option Src) (p : Nat) : Prop :=
  p < st.next ∧ st.size p = 8 ∧ ∃ v, m.vals p = some v ∧ m.read (osize d T) v = some x ∧ Points d st T src v

theorem AddrVal.mono {d : Decls} {W : World} {st st' : St} {m m' : M} {T : Ty} {x : Nat} {src : Option Src} {p : Nat}
    (h : AddrVal d st m T x src p) (g : Gen W st st' m m') (hk : Kept src m.mem m'.mem) :
    AddrVal d st' m' T x src p := by
  obtain ⟨h1, h2, v, h3, h4, h5⟩ := h
  refine ⟨Nat.lt_of_lt_of_le h1 g.grow.next, by rw [g.grow.size p h1]; exact h2, v, by rw [(g.keep p h1).1]; exact h3, ?_, ?_⟩
  · refine read_mono g h4 ?_
    cases v with
    | word a => exact hk _ h5.2
    | slot k o => exact h5
  · cases v with
    | word a => exact h5
    | slot k o => exact Nat.lt_of_lt_of_le h5 g.grow.next

theorem addr_slot {d : Decls} {st' : St} {m : M} {T : Ty} {x k : Nat} {src : Option Src} (hlt : x < 256 ^ osize d T)
    (h : k < st'.next) (hs : st'.size k = 8) : AddrVal d st' (filled m k (osize d T) x) T x src k := by
  refine ⟨h, hs, .slot k 0, set_same _ _ _, ?_, h⟩
  simp [M.read, filled, set_same, Nat.mod_eq_of_lt hlt]

theorem isValue_scalar {T : Ty} (h : IsScalar T) : IsValue T := by
  cases T with
  | struct i => trivial
  | _ => exact h

theorem toAddress_ok {d : Decls} {W : World} {st : St} {m : M} {T : Ty} {x : Nat} {src : Option Src} {wd : Prop} {v : EV}
    (ho : Open st) (h : Holds d st m T x src wd v) (hT : T ≠ .void) (hw : osize d T = 4 → ¬ wd) :
    ∃ p st' m', d.toAddress v st = .ok (p, st') ∧ Gen W st st' m m' ∧ m'.mem = m.mem ∧ AddrVal d st' m' T x src p := by
  obtain ⟨ty, lv, ee⟩ := v
  have hH := h
  obtain ⟨hty, hv, hlt⟩ := h
  simp only at hty hv
  subst hty
  cases ee with
  | void => exact absurd hv hT
  | const n y =>
    obtain ⟨⟨s, h1, h1'⟩, h2, h3⟩ := hv
    subst h3 h2
    have hlt := hlt (by rw [h1]; exact h1')
    refine ⟨_, _, (filled m st.next (osize d ty) y).put (st.next + 1) (.word y), rfl, gen_emit3
      (m1 := { m.put st.next (.slot st.next 0) with slots := set m.slots st.next (some (d.size ty, none)) })
      (m2 := M.put { m.put st.next (.slot st.next 0) with slots := set m.slots st.next (some (d.size ty, none)) } (st.next + 1) (.word y))
      ho _ _ _ (fun k => .alloc k (d.size ty)) (fun k => .const k y)
      (fun _ => .store st.next (st.next + 1) _) (fun _ => rfl) (fun _ => rfl) (fun _ => ?_) ?_, rfl, ?_⟩
    · have hs : (emit (emit st 8 fun k => .alloc k (d.size ty)).2 (osize d ty) fun k => .const k y).2.size (st.next + 1)
          = osize d ty := emit_size (emit st 8 fun k => .alloc k (d.size ty)).2 _ _
      show exec W _ (.store st.next (st.next + 1) ((emit (emit st 8 fun k => .alloc k (d.size ty)).2 (osize d ty) fun k => .const k y).2.size (st.next + 1))) _ = _
      rw [hs]
      have hv : set (set m.vals st.next (some (Val.slot st.next 0))) (st.next + 1) (some (.word y)) st.next = some (.slot st.next 0) := by
        rw [set_other _ _ (by omega), set_same]
      simp only [exec, M.put, M.word, set_same, hv]
      show M.write _ (osize d ty) y (.slot st.next 0) = _
      simp only [M.write, set_same, size_eq]
      simp only [true_and, if_true, filled, M.put, set_set]
    · intro k hk
      refine ⟨?_, set_other _ _ (by omega)⟩
      show set (set m.vals _ _) _ _ k = _
      rw [set_other _ _ (by omega), set_other _ _ (by omega)]
    · refine ⟨?_, ?_, .slot st.next 0, ?_, ?_, ?_⟩
      · show st.next < st.next + 1 + 1 + 1; omega
      · show set (set (set st.size st.next 8) (st.next + 1) _) (st.next + 2) 0 st.next = 8
        rw [set_other _ _ (by omega), set_other _ _ (by omega), set_same]
      · show set (set m.vals _ _) _ _ st.next = _
        rw [set_other _ _ (by omega), set_same]
      · simp [M.read, filled, M.put, set_same, Nat.mod_eq_of_lt hlt]
      · show st.next < st.next + 1 + 1 + 1; omega
  | var n =>
    obtain ⟨h1, h2⟩ := hv
    have hnw : NodeVal d st m ty x (wd ∧ osize d ty = 4) n := by
      obtain ⟨a, b, c⟩ := h2
      exact ⟨a, b, c.imp id (fun ⟨c1, c2, c3, c4⟩ => ⟨⟨c1, c3⟩, c2, c3, c4⟩)⟩
    obtain ⟨st', e1, g, h3, h4⟩ := spill_ok (W := W) ho hnw (fun h => hw h.2 h.1)
    refine ⟨_, _, _, ?_, g, rfl, addr_slot (hlt (isValue_scalar h1)) h3 h4⟩
    show Res.ok (spill st (d.size ty) n) = _
    rw [e1]
  | ptr p => exact ⟨p, st, m, rfl, Gen.refl W ho m, rfl, hv.2⟩
  | bits p o n sgn =>
    have hv' := hv
    obtain ⟨s, a, h1, h2, h3, h4, h5, h6, h7, h8, h9, h10, h11⟩ := hv'
    have hval : IsValue ty := by rw [h1]; exact h2
    obtain ⟨k, st1, m1, e1, g1, hm1, hn⟩ := toVar_ok (W := W) (wd := False) (v := ⟨ty, lv, .bits p o n sgn⟩) ho ⟨rfl, hv, hlt⟩ hT
    obtain ⟨st', e2, g2, h3, h4⟩ := spill_ok (W := W) g1.opened hn id
    refine ⟨st1.next, st', _, ?_, g1.trans ho g2, hm1, addr_slot (hlt hval) h3 h4⟩
    simp only [Decls.toAddress, e1, Res.bind_ok, e2]

theorem scalar_isInt_or_ptr {T : Ty} (h : IsScalar T) : (T.isInt || T.isPtr) = true := by
  cases T with
  | simple s => simp only [Ty.isInt, Bool.or_eq_true]; exact .inl ((isInteger_iff s).mpr h)
  | ptr t => rfl
  | arr t n => exact h.elim
  | struct i => exact h.elim
  | func i => exact h.elim

theorem signExtend_small {n : Nat} (hn : n = 1 ∨ n = 2 ∨ n = 4 ∨ n = 8) {x : Nat} (hx : x ≤ 1) :
    ((BitVec.ofNat (8 * 8) x).signExtend (8 * n)).toNat = x := by
  have : x = 0 ∨ x = 1 := by omega
  rcases hn with rfl | rfl | rfl | rfl <;> rcases this with rfl | rfl <;> decide

theorem castVar_ok {d : Decls} {W : World} {st : St} {m : M} {T t : Ty} {x y : Nat} {wd : Prop} {n : Nat}
    (ho : Open st) (h : NodeVal d st m T x wd n) (hT : IsScalar T) (ht : IsScalar t) (hx : x < 256 ^ osize d T)
    (hc : Conv T t x y) :
    ∃ n' st' m', d.castVar n T t st = (n', st') ∧ Gen W st st' m m' ∧ m'.mem = m.mem ∧
      NodeVal d st' m' t y (wd ∧ osize d t = 4) n' := by
  obtain ⟨h1, h2, h3⟩ := h
  have hw := word_eq h2
  have hkeep : ∀ {u : Ty}, osize d u = osize d T → NodeVal d st m u x (wd ∧ osize d u = 4) n := by
    intro u hu
    rw [← hu] at h3
    exact ⟨h1, h2, h3.imp id (fun ⟨a, b, c, e⟩ => ⟨⟨a, c⟩, b, c, e⟩)⟩
  unfold Decls.castVar
  by_cases hne : T = t
  · rw [if_pos hne]
    unfold Conv at hc
    rw [if_pos hne] at hc
    subst hne hc
    exact ⟨n, st, m, rfl, Gen.refl W ho m, rfl, hkeep rfl⟩
  rw [if_neg hne]
  rw [osize_scalar d hT] at hx
  have hot := osize_scalar d ht
  by_cases hb : t = .simple .bool
  · rw [if_pos hb]
    have hy := (conv_bool hT ht hne (by rw [hb]; rfl) hx).mp hc
    refine ⟨_, _, _, rfl, gen_put ho 1 (fun k => .bool k n) (.word y) (fun _ => ?_), rfl,
      nodeVal_put (fun k => .bool k n) ?_ _⟩
    · simp only [exec, hw, hy]; rfl
    · rw [hot, hb]; decide
  have hb' : asInt t ≠ .bool := by
    cases t with
    | simple s => exact fun h => hb (by rw [show s = .bool from h])
    | ptr t => exact fun h => by cases h
    | arr t n => exact ht.elim
    | struct i => exact ht.elim
    | func i => exact ht.elim
  rw [if_neg hb, if_pos (by rw [scalar_isInt_or_ptr hT, scalar_isInt_or_ptr ht]; rfl)]
  rw [size_eq, size_eq]
  by_cases hsz : osize d t = osize d T
  · rw [if_neg (fun h => h hsz)]
    have := conv_same_size hT ht hne hb' hx (by rw [← hot, hsz, osize_scalar d hT]) hc
    subst this
    exact ⟨n, st, m, rfl, Gen.refl W ho m, rfl, hkeep hsz⟩
  rw [if_pos hsz]
  have hz : signed (asInt T) = false → ∃ n' st' m', emit st (osize d t) (fun k => .zext k n (osize d t)) = (n', st') ∧
      Gen W st st' m m' ∧ m'.mem = m.mem ∧ NodeVal d st' m' t y (wd ∧ osize d t = 4) n' := by
    intro hs
    refine ⟨_, _, _, rfl, gen_put ho _ (fun k => .zext k n (osize d t)) (.word y) (fun _ => ?_), rfl,
      nodeVal_put (fun k => .zext k n (osize d t)) rfl _⟩
    simp only [exec, hw]
    show some (M.put _ _ (Val.word (BitVec.toNat _))) = _
    rw [hot, conv_zext hT ht hne hb' hx hs hc]
  cases T with
  | simple s =>
    show ∃ n' st' m', (if isSigned s = .ok true then _ else _) = _ ∧ _
    have hs := isSigned_int s (show IsInt s from hT)
    cases hsg : signed s
    · rw [if_neg (by rw [hs, hsg]; intro h; cases h)]
      exact hz hsg
    · rw [if_pos (by rw [hs, hsg])]
      refine ⟨_, _, _, rfl, gen_put ho _ (fun k => .sext k n (st.size n) (osize d t)) (.word y) (fun _ => ?_), rfl,
        nodeVal_put (fun k => .sext k n (st.size n) (osize d t)) rfl _⟩
      simp only [exec, hw]
      show some (M.put _ _ (Val.word (BitVec.toNat _))) = _
      rcases h3 with h3 | ⟨_, h3, _, hx1⟩
      · have := conv_sext hT ht hne hb' hsg hc
        rw [← hot, ← osize_scalar d hT, ← h3] at this
        rw [this]
      · rw [h3, hot, signExtend_small (bytes_cases (asInt_int ht)) hx1, conv_small hT ht hx1 hc]
  | ptr t' => exact hz rfl
  | arr t n => exact hT.elim
  | struct i => exact hT.elim
  | func i => exact hT.elim

theorem castEV_ok {d : Decls} {W : World} {st : St} {m : M} {T t : Ty} {x y : Nat} {src src' : Option Src} {wd : Prop} {v : EV}
    (ho : Open st) (h : Holds d st m T x src wd v) (ht : t ≠ .void ∨ T = t) (hc : Conv T t x y) (hs : T = t → src' = src) :
    ∃ v' st' m', d.castEV v t st = .ok (v', st') ∧ Gen W st st' m m' ∧ m'.mem = m.mem ∧
      Holds d st' m' t y src' (wd ∧ osize d t = 4) v' := by
  unfold Decls.castEV
  rw [h.ty]
  by_cases hne : T = t
  · rw [if_pos hne]
    have hc' := hc
    unfold Conv at hc'
    rw [if_pos hne] at hc'
    rw [hs hne]
    subst hne hc'
    exact ⟨v, st, m, rfl, Gen.refl W ho m, rfl, h.wd_mono (fun a b => ⟨a, b⟩)⟩
  · have hc' := hc
    unfold Conv at hc'
    rw [if_neg hne] at hc'
    obtain ⟨_, hT, ht', _, _⟩ := hc'
    have htv : t ≠ .void := ht.resolve_right hne
    have hTv : T ≠ .void := by rintro rfl; exact absurd hT (by simp [IsScalar, IsInt])
    rw [if_neg hne, if_neg htv]
    obtain ⟨n, st1, m1, e1, g1, hm1, hn⟩ := toVar_ok (W := W) ho h hTv
    obtain ⟨n', st2, m2, e2, g2, hm2, hn'⟩ := castVar_ok (W := W) g1.opened hn hT ht' (h.lt (isValue_scalar hT)) hc
    refine ⟨⟨t, false, .var n'⟩, st2, m2, ?_, g1.trans ho g2, hm2.trans hm1, rfl, ⟨ht', hn'⟩, fun _ => ?_⟩
    · rw [e1]
      show Res.ok (EV.mk t false (.var (d.castVar n T t st1).1), (d.castVar n T t st1).2) = _
      rw [e2]
    · rw [osize_scalar d ht']
      refine conv_lt hc ?_
      rw [← osize_scalar d hT]
      exact h.lt (isValue_scalar hT)

end Verif.ExprIr
