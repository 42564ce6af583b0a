import Verif.ExprIrDet
/-!
C92: the nodes an expression is translated to compute the value C gives it.
-/
namespace Verif.ExprIr
open Verif Simple SimpleSpec
open Verif.CodegenSpec (bytes Promoted IsRel)
open Verif.ExprIrSpec

/-- From the end of the current block of `st` the machine gets with the state `m` to the end of
the current block of `st'` with the state `m'`, whatever is added to the graph later. -/
def Reaches (W : World) (st st' : St) (m m' : M) : Prop :=
  ∀ G, Contains G st' → ∀ entry, ∃ entry', Steps W G ⟨st.cur, (st.code st.cur).length, entry, m⟩
    ⟨st'.cur, (st'.code st'.cur).length, entry', m'⟩

/-- C92, values: wherever the expression is translated, the nodes compute the value that C gives
it, in a node of the size of its type, and leave memory as C says.  The claim is
`ValuesComputed False`; with `True` the restrictions are those listed at `Eval`. -/
def ValuesComputed (lim : Prop) : Prop :=
  ∀ (d : Decls) (W : World) (e : SE) (T : Ty) (w : Option Nat) (mem mem' : Mem) (x : Nat) (src : Option Src),
    WellFormed d → HasType d lim e (.expr T w) → IsScalar (decayed T) → Eval d W lim e mem (.val x src) mem' →
    ∃ te, d.build e = .ok te ∧ ∀ st m, Open st → HasVars d W st m → m.mem = mem →
      ∃ n st' m', d.expressionToIr (d.decay te) st = .ok (n, st') ∧ Reaches W st st' m m' ∧
        m'.vals n = some (.word x) ∧ m'.mem = mem' ∧ ((lim → ¬ Wide d lim e) → st'.size n = osize d (decayed T)) ∧
        Open st' ∧ HasVars d W st' m'

/-- C92, effects: the same for expressions evaluated for their effects, of any type. -/
def EffectsComputed (lim : Prop) : Prop :=
  ∀ (d : Decls) (W : World) (e : SE) (T : Ty) (w : Option Nat) (mem mem' : Mem) (x : Nat) (src : Option Src),
    WellFormed d → HasType d lim e (.expr T w) → Eval d W lim e mem (.val x src) mem' →
    ∃ te, d.build e = .ok te ∧ ∀ st m, Open st → HasVars d W st m → m.mem = mem →
      ∃ v st' m', d.evaluate (d.decay te) st = .ok (v, st') ∧ Reaches W st st' m m' ∧ m'.mem = mem' ∧
        Open st' ∧ HasVars d W st' m'

/-- C92, objects: an lvalue is translated to the address of the object it designates. -/
def ObjectsFound (lim : Prop) : Prop :=
  ∀ (d : Decls) (W : World) (e : SE) (T : Ty) (mem mem' : Mem) (a : BitVec 64),
    WellFormed d → HasType d lim e (.expr T none) → Eval d W lim e mem (.place a none) mem' →
    ∃ te, d.build e = .ok te ∧ ∀ st m, Open st → HasVars d W st m → m.mem = mem →
      ∃ v n st' m', d.evaluate te st = .ok (v, st') ∧ v.ee = .ptr n ∧ Reaches W st st' m m' ∧
        m'.vals n = some (.word a.toNat) ∧ st'.size n = 8 ∧ m'.mem = mem' ∧ Open st' ∧ HasVars d W st' m'

/-- C92, types: an expression that is valid in C is accepted, has the type that C gives it, and is
translated. -/
def TypesComputed (lim : Prop) : Prop :=
  ∀ (d : Decls) (e : SE) (T : Ty) (w : Option Nat), WellFormed d → HasType d lim e (.expr T w) →
    ∃ te, d.build e = .ok te ∧ d.tyOf te = T ∧ d.bitfield te = (match w with | some n => (n : Int) | none => -1) ∧
      ∀ st, Open st → d.nvars ≤ st.next → (∀ x, x < d.nvars → st.size x = 8) → ∃ v st', d.evaluate te st = .ok (v, st') ∧ v.ty = T ∧ Open st'

theorem values_computed_partial : ValuesComputed True := by
  intro d W e T w mem mem' x src hw ht hs h
  obtain ⟨te, hb, _, _⟩ := hasType_built hw ht
  refine ⟨te, hb, fun st m ho hv hm => ?_⟩
  obtain ⟨hr, _⟩ := eval_correct hw h T w te ht hb
  obtain ⟨n, st', m', h1, h2, h3, h4, h5, h6⟩ := Runs.toIr hr (scalar_ne_void hs) ho hv hm
  exact ⟨n, st', m', h1, h2, h3, h4, fun hn => h5 (hn trivial), h6⟩

theorem effects_computed_partial : EffectsComputed True := by
  intro d W e T w mem mem' x src hw ht h
  obtain ⟨te, hb, _, _⟩ := hasType_built hw ht
  refine ⟨te, hb, fun st m ho hv hm => ?_⟩
  obtain ⟨v, st', m', h1, h2, h3, _⟩ := (eval_correct hw h T w te ht hb).1 st m ho hv hm
  exact ⟨v, st', m', h1, h2.run, h3, h2.opened, HasVars.mono hv h2⟩

theorem objects_found_partial : ObjectsFound True := by
  intro d W e T mem mem' a hw ht h
  obtain ⟨te, hb, _, _⟩ := hasType_built hw ht
  refine ⟨te, hb, fun st m ho hv hm => ?_⟩
  obtain ⟨v, st', m', h1, h2, h3, _, _, p, p1, p2, p3, p4⟩ := (eval_correct hw h T none te ht hb).2 st m ho hv hm
  rcases p4 with ⟨_, p4⟩ | ⟨_, _, _, h, _⟩
  · exact ⟨v, p, st', m', h1, p4, h2.run, p3, p2, h3, h2.opened, HasVars.mono hv h2⟩
  · cases h

theorem types_computed_partial : TypesComputed True := by
  intro d e T w hw ht
  obtain ⟨te, hb, h1, h2⟩ := hasType_built hw ht
  refine ⟨te, hb, h1, by rw [h2]; cases w <;> rfl, fun st ho hn hv => ?_⟩
  obtain ⟨v, st', e1, x1, ty1, _⟩ := hasType_total hw ht te hb st ⟨ho, fun x hx => ⟨Nat.lt_of_lt_of_le hx hn, hv x hx⟩⟩
  exact ⟨v, st', e1, by rw [ty1, h1], x1.opened⟩

/-! ### A program -/

/-- `int x, y; int g(void); struct { unsigned f : 3; } s;` -/
def sample : Decls where
  nvars := 4
  structs := fun _ => ⟨4, [⟨.simple .uint, 0, some (0, 3)⟩]⟩
  sigs := fun _ => ⟨.int, []⟩
  vars := fun | 0 => .int | 1 => .int | 2 => .func 0 | _ => .struct 0

/-- `x` is at 0x100, `y` at 0x200; `g` sets `y` to 7 and returns 1. -/
def sampleWorld : World where
  addr := fun x => BitVec.ofNat 64 (0x100 * (x + 1))
  call := fun p l m => if p = 0x300 ∧ l = [] then some (1, wr m 0x200 4 7) else none
where
  wr := X86.wr

theorem sample_wf : WellFormed sample := by
  intro s
  refine ⟨show 4 < 2 ^ 63 by decide, ?_⟩
  intro f hf
  have : f = ⟨.simple .uint, 0, some (0, 3)⟩ := by simpa [sample] using hf
  subst this
  refine ⟨show 0 + 4 ≤ 4 by decide, ?_⟩
  intro o n h
  injection h with h
  injection h with h1 h2
  subst h1
  subst h2
  exact ⟨.uint, rfl, .inr (.inr rfl), by decide, by decide, by decide⟩

instance (abi : Abi) (t : ST) (v w : Int) : Decidable (IsConversion abi t v w) := by unfold IsConversion InRange; infer_instance
instance (t : Ty) (v : Int) (x : Nat) : Decidable (Rep t v x) := by unfold Rep; infer_instance

theorem scalar_int : IsScalar .int := show IsInt .int by decide

theorem scalar_uint : IsScalar (.simple .uint) := show IsInt .uint by decide

theorem sample_x {lim : Prop} : HasType sample lim (.var 0) (.expr .int none) := .var (x := 0) (by decide)
theorem sample_y {lim : Prop} : HasType sample lim (.var 1) (.expr .int none) := .var (x := 1) (by decide)
theorem sample_g {lim : Prop} : HasType sample lim (.call (.var 2) .anil) (.expr .int none) :=
  .call (s := 0) (T := .func 0) (w := none) (.var (x := 2) (by decide)) rfl .anil (.inr scalar_int)

/-- Nothing is in memory. -/
def zeros : Mem := fun _ => 0

theorem sample_call {lim : Prop} (m : Mem) : Eval sample sampleWorld lim (.call (.var 2) .anil) m (.val 1 none) (X86.wr m 0x200 4 7) :=
  .call (s := 0) (T := .func 0) (w := none) (l := []) (p := 0x300) (m1 := m) (m2 := m) (srcF := none) (.var (x := 2) (by decide)) rfl
    (.decay (T := .func 0) (w := none) (a := 0x300) (.var (x := 2) (by decide)) (by decide) rfl .var) .anil
    (fun _ h => by cases h) rfl rfl (by decide)

/-- `x = g() + y` sets `x` to 8. -/
example : ∃ e T w x src mem', WellFormed sample ∧ HasType sample True e (.expr T w) ∧ IsScalar (decayed T) ∧
    Eval sample sampleWorld True e zeros (.val x src) mem' ∧ x = 8 ∧ X86.rd mem' 0x100 4 = 8 ∧ X86.rd mem' 0x200 4 = 7 := by
  have hp : IsPromotion .sysv .int (bitsOf .int none) .int := by decide
  have hc : IsCommon .sysv .int .int .int := by decide
  refine ⟨.assign (.var 0) (.bin .add (.call (.var 2) .anil) (.var 1)), .int, none, 8, none, X86.wr (X86.wr zeros 0x200 4 7) 0x100 4 8,
    sample_wf, ?_, scalar_int, ?_, rfl, by decide, by decide⟩
  · exact .assign sample_x trivial (.bin (sa := .int) (sb := .int) (t := .int) (by decide) sample_g (by decide) sample_y (by decide) hp hp hc) ⟨scalar_int, .inl rfl⟩
  · have h := Eval.bin (lim := True) (W := sampleWorld) (d := sample) (op := .add) (z := 8) (v := 8) (va := 1) (vb := 7) (by decide) sample_g (by decide) sample_y (by decide) hp hp hc (sample_call zeros)
      (.read sample_y .var (.plain (T := .int) scalar_int)) (fun _ h => by cases h) (by decide) (by decide) (by decide) (by decide) ?_
    refine .assign sample_x (.bin (sa := .int) (sb := .int) (t := .int) (by decide) sample_g (by decide) sample_y (by decide) hp hp hc) .var
      h rfl (fun _ h => by cases h) .plain (fun h => absurd trivial h) (fun _ => ⟨rfl, rfl, fun _ hw => ?_⟩)
    · cases hw <;> contradiction
    · exact fun _ => ⟨(fun h => by cases h), fun hw => by cases hw⟩

/-- `*&x` is the object `x`. -/
example : ∃ e T a, WellFormed sample ∧ HasType sample True e (.expr T none) ∧ Eval sample sampleWorld True e zeros (.place a none) zeros ∧ a = 0x100 := by
  refine ⟨.deref (.addr (.var 0)), .int, 0x100, sample_wf, .deref (.addr sample_x trivial) rfl (by decide), ?_, rfl⟩
  exact .deref (p := 0x100) (.addr .var)

/-! ### Where the compiler is wrong -/

/-- A place to translate expressions to. -/
def sampleM (mem : Mem) : M := ⟨fun x => some (.word (sampleWorld.addr x).toNat), fun _ => none, mem⟩

theorem sample_open : Open (st0 sample) := ⟨by decide, rfl, fun _ _ => ⟨rfl, rfl, rfl⟩⟩
theorem sample_vars (mem : Mem) : HasVars sample sampleWorld (st0 sample) (sampleM mem) := ⟨by decide, fun _ _ => ⟨rfl, rfl⟩⟩

/-- The nodes compute another value. -/
theorem wrong_value {e : SE} {te : TE} {T : Ty} {w : Option Nat} {mem mem1 mem2 : Mem} {x y : Nat} {src src' : Option Src} {wd : Prop}
    (h : ValuesComputed False) (ht : HasType sample False e (.expr T w)) (hs : IsScalar (decayed T)) (hv : Eval sample sampleWorld False e mem (.val x src) mem1)
    (hb : sample.build e = .ok te) (hr : Runs sample sampleWorld (sample.decay te) mem (decayed T) y src' wd mem2) : x = y := by
  obtain ⟨te', hb', h'⟩ := h sample sampleWorld e T w mem mem1 x src sample_wf ht hs hv
  rw [hb] at hb'
  injection hb' with hb'
  subst hb'
  obtain ⟨n, st', m', h1, h2, h3, h4, _⟩ := h' _ _ sample_open (sample_vars mem) rfl
  exact (Runs.unique hr (scalar_ne_void hs) sample_open (sample_vars mem) rfl ⟨n, st', m', h1, h2, h3, h4⟩).1.symm

/-- `x >>= 1u` for `int x = -8`: C says -4; the shift is done in the common type `unsigned`, which
gives 0x7ffffffc. -/
theorem compound_shift_violated : ¬ ValuesComputed False := by
  intro h
  have hp : IsPromotion .sysv .int (bitsOf .int none) .int := by decide
  have hu : IsPromotion .sysv .uint (bitsOf .uint none) .uint := by decide
  let mem := X86.wr zeros 0x100 4 0xfffffff8
  have hx : Eval sample sampleWorld False (.var 0) mem (.place 0x100 none) mem := .var
  have hread : Read sample .int 0x100 none mem 0xfffffff8 := by
    have := Read.plain (d := sample) (T := .int) (a := 0x100) (m := mem) scalar_int
    rwa [show X86.rd mem 0x100 (osize sample .int) = 0xfffffff8 by decide] at this
  have hc : HasType sample False (.const .uint 1) (.expr (.simple .uint) none) := .const (by decide) (by decide)
  have hxt : HasType sample True (.var 0) (.expr .int none) := sample_x
  have hpl := (eval_correct sample_wf (W := sampleWorld) (e := .var 0) (m := mem) .var _ _ (.sym 0) hxt rfl).2
  have := wrong_value (e := .assignOp .rshift (.var 0) (.const .uint 1)) (te := .assignOp .rshift false (.sym 0) (.const .uint 1)) (T := .int) (w := none) (mem := mem)
    (x := 0xfffffffc) (y := 0x7ffffffc) (src := none) (src' := none) (wd := False) h
    (.compArith .op (by decide) sample_x (by decide) trivial hc (by decide)) scalar_int
    (.compArith .op sample_x (by decide) hc (by decide) hp hu (t := .int) rfl hx (.const (x := 1)) hread
      (va := -8) (vb := 1) (v := -4) (r := -4) (by decide) (by decide) (by decide) (by decide) (by decide) .plain (fun h => h.elim)) rfl
    (Runs.assignOp (t := .uint) (post := false) (va := 0xfffffff8) (vb := 1) (v := 0x7ffffffc) (r := 0x7ffffffc) hpl
      (Runs.const mem (by decide) (by decide) none False) rfl rfl (by decide) (by decide) (by decide) hread
      (xt := 0xfffffff8) (by unfold Conv; rw [if_neg (by decide)]; exact ⟨0xfffffff8, scalar_int, scalar_uint, by decide, by decide⟩)
      (by decide) (by decide) (by decide) (fun h => by cases h) (by decide) (by decide) .plain False)
  exact absurd this (by decide)

theorem sample_f {lim : Prop} : HasType sample lim (.member (.var 3) 0) (.expr (.simple .uint) (some 3)) :=
  .member (s := 0) (f := ⟨.simple .uint, 0, some (0, 3)⟩) (.var (x := 3) (by decide)) rfl

theorem sample_f_place {lim : Prop} (mem : Mem) : Eval sample sampleWorld lim (.member (.var 3) 0) mem (.place 0x400 (some (0, 3))) mem :=
  .member (s := 0) (f := ⟨.simple .uint, 0, some (0, 3)⟩) (a := 0x400) (.var (x := 3) (by decide)) rfl .var

/-- The value of `s.f = 9` for a field of three bits: C says 1, the nodes give 9. -/
theorem bitfield_assignment_violated : ¬ ValuesComputed False := by
  intro h
  have hc {lim : Prop} : HasType sample lim (.const .int 9) (.expr .int none) := .const (by decide) (by decide)
  have hpl := (eval_correct sample_wf (sample_f_place (lim := True) zeros) _ _ (.member (.sym 3) 0) sample_f rfl).2
  have hcv : Conv .int (.simple .uint) 9 9 := by unfold Conv; rw [if_neg (by decide)]; exact ⟨9, scalar_int, scalar_uint, by decide, by decide⟩
  have hw : Write sample (.simple .uint) 0x400 (some (0, 3)) zeros 9 1 (X86.wr zeros 0x400 4 1) := by
    refine .bits ⟨by decide, fun i => ?_⟩ (by decide)
    rw [show X86.rd zeros 0x400 (bytes .sysv .uint) = 0 by decide, Nat.zero_testBit]
    by_cases hi : i < 3
    · rw [if_pos ⟨Nat.zero_le _, by omega⟩]
      rcases (by omega : i = 0 ∨ i = 1 ∨ i = 2) with rfl | rfl | rfl <;> decide
    · rw [if_neg (by omega), Nat.testBit_lt_two_pow (Nat.lt_of_lt_of_le (by decide : 1 < 2 ^ 1) (Nat.pow_le_pow_right (by decide) (by omega)))]
  have := wrong_value (e := .assign (.member (.var 3) 0) (.const .int 9)) (te := .assign (.member (.sym 3) 0) (.const .int 9)) (T := .simple .uint) (w := none)
    (mem := zeros) (x := 1) (y := 9) (src := none) (src' := none) (wd := False) h
    (.assign sample_f trivial hc ⟨scalar_uint, .inr ⟨scalar_int, scalar_uint⟩⟩) scalar_uint
    (.assign sample_f hc (sample_f_place zeros) .const hcv (fun _ h => by cases h) hw (fun _ => rfl) (fun h => h.elim)) rfl
    (Runs.assign hpl (Runs.const zeros (by decide) (by decide) none False) rfl scalar_uint hcv (fun _ h => by cases h) hw (fun _ h => h) False)
  exact absurd this (by decide)

/-- `(x = y) + g()` where `g` changes `y`: the value of the assignment is that of `x`, 0, but `y` is
read again after the call: the sum is 8 instead of 1. -/
theorem assigned_value_violated : ¬ ValuesComputed False := by
  intro h
  have hp : IsPromotion .sysv .int (bitsOf .int none) .int := by decide
  have hc : IsCommon .sysv .int .int .int := by decide
  let m1 := X86.wr zeros 0x100 4 0
  let m2 := X86.wr m1 0x200 4 7
  have px := (eval_correct sample_wf (W := sampleWorld) (e := .var 0) (m := zeros) .var _ _ (.sym 0) sample_x rfl).2
  have py := (eval_correct sample_wf (W := sampleWorld) (e := .var 1) (m := zeros) .var _ _ (.sym 1) sample_y rfl).2
  have pg := (eval_correct sample_wf (sample_call (lim := True) m1) _ _ (.call (.addr (.sym 2)) .anil) sample_g rfl).1
  have hl := assign_late px py rfl scalar_int
  have ha {lim : Prop} : HasType sample lim (.assign (.var 0) (.var 1)) (.expr .int none) :=
    .assign sample_x trivial sample_y ⟨scalar_int, .inl rfl⟩
  have hread : Read sample .int 0x200 none zeros 0 := by
    have := Read.plain (d := sample) (T := .int) (a := 0x200) (m := zeros) scalar_int
    rwa [show X86.rd zeros 0x200 (osize sample .int) = 0 by decide] at this
  have hn : NoOverlap (some ⟨0x200, osize sample .int, false⟩) 0x100 (osize sample .int) false := by
    intro s hs
    injection hs with hs
    subst hs
    refine .inl fun i j hi hj => ?_
    have hi' : i < 4 := hi
    have hj' : j < 4 := hj
    rcases (by omega : i = 0 ∨ i = 1 ∨ i = 2 ∨ i = 3) with rfl | rfl | rfl | rfl <;>
    rcases (by omega : j = 0 ∨ j = 1 ∨ j = 2 ∨ j = 3) with rfl | rfl | rfl | rfl <;> decide
  have hv : Eval sample sampleWorld False (.bin .add (.assign (.var 0) (.var 1)) (.call (.var 2) .anil)) zeros (.val 1 none) m2 :=
    .bin (sa := .int) (sb := .int) (t := .int) (x := 0) (y := 1) (va := 0) (vb := 1) (v := 1) (by decide) ha (by decide) sample_g (by decide) hp hp hc
      (.assign (y := 0) (src := none) sample_x sample_y .var (.read sample_y .var hread) rfl hn .plain (fun _ => rfl) (fun h => h.elim))
      (sample_call m1) (fun _ h => by cases h) (by decide) (by decide) (by decide) (by decide) (fun h => h.elim)
  have := wrong_value (te := .bin .add (.assign (.sym 0) (.sym 1)) (.call (.addr (.sym 2)) .anil)) (y := 8) (T := .int) (w := none) h
    (.bin (sa := .int) (sb := .int) (t := .int) (by decide) ha (by decide) sample_g (by decide) hp hp hc) scalar_int hv rfl
    (add_late (va := 7) (vb := 1) (v := 8) hl pg rfl (by decide) (by decide) (by decide) rfl (by decide))
  exact absurd this (by decide)

/-- `-(unsigned)s.f` has type `unsigned`; the cast is forgotten, and the field is promoted to `int`. -/
theorem bitfield_cast_violated : ¬ TypesComputed False := by
  intro h
  have hp : IsPromotion .sysv .uint (bitsOf .uint none) .uint := by decide
  obtain ⟨te, hb, ht, _⟩ := h sample (.un .neg (.cast (.simple .uint) (.member (.var 3) 0))) (.simple .uint) none sample_wf
    (.un (.cast sample_f (.inr ⟨scalar_uint, scalar_uint⟩) (fun h => h.elim)) (by decide) hp)
  have hb' : sample.build (.un .neg (.cast (.simple .uint) (.member (.var 3) 0))) = .ok (.un .neg (.cast .int (.member (.sym 3) 0))) := rfl
  rw [hb'] at hb
  injection hb with hb
  subst hb
  exact absurd ht (by decide)

end Verif.ExprIr
