import Verif.EnumeratorsSpec
import Verif.ConstExprProps
/-!
Lemmas for C101.
-/
namespace Verif.Enumerators
open Verif Simple ConstExpr SimpleSpec ConstExprSpec EnumeratorsSpec

/-- The restriction of the partial theorem: the expressions have type int, and satisfy the
restrictions of C100, where they stand. -/
def IntExpressions : Names → Option Int → List Enumerator → Prop
  | _, _, [] => True
  | N, _, ⟨x, some e⟩ :: ms => HasType .sysv N e .int ∧ Plain .sysv N e ∧
      ∀ v, HasValue .sysv N e (.int v) → IntExpressions (declare N x v) (some v) ms
  | N, none, ⟨x, none⟩ :: ms => IntExpressions (declare N x 0) (some 0) ms
  | N, some p, ⟨x, none⟩ :: ms => IntExpressions (declare N x (p + 1)) (some (p + 1)) ms

/-- An int constant of value `v`. -/
def IsIntConst (c : Const) (v : Int) : Prop := c.ty = .int ∧ val c = v ∧ InRange .sysv .int v

theorem increment_int {c : Const} {p : Int} (h : IsIntConst c p) (hr : InRange .sysv .int (p + 1)) :
    ∃ c', increment c = .ok c' ∧ IsIntConst c' (p + 1) := by
  obtain ⟨h1, h2, h3⟩ := h
  have hb : c.bits.toInt = p := by rw [← h2]; unfold val; rw [h1]; rfl
  have hb2 : (BitVec.ofInt 64 (p + 1)).toInt = p + 1 := by
    refine toInt_ofInt64 _ ?_
    simp only [InRange, inBits, signed, width] at hr
    simp at hr
    omega
  refine ⟨{ c with bits := BitVec.ofInt 64 (p + 1) }, ?_, h1, ?_, hr⟩
  · unfold increment
    rw [h1, if_pos (by decide)]
    have hi : int64 (c.bits.toInt + 1) = .ok (BitVec.ofInt 64 (p + 1)) := by
      rw [hb]
      unfold int64
      rw [if_pos]
      simp only [InRange, inBits, signed, width] at hr
      simp at hr
      omega
    simp only [isSigned, Res.bind_ok, if_true, hi]
    rfl
  · unfold val
    simp only [h1]
    exact hb2

theorem agree_declare {names : Str → Option Const} {N : Names} (h : Agree names N) {x : Str}
    {c : Const} {v : Int} (hc : IsIntConst c v) :
    Agree (fun y => if y = x then some c else names y) (declare N x v) := by
  intro y
  unfold declare
  by_cases hy : y = x
  · simp [hy, hc.1, hc.2.1]
  · simp only [hy, if_false]
    exact h y

theorem declared_declare {N : Names} (h : Declared .sysv N) {x : Str} {v : Int}
    (hv : InRange .sysv .int v) : Declared .sysv (declare N x v) := by
  intro y t w hy
  unfold declare at hy
  split at hy
  · cases hy; exact ⟨by decide, hv⟩
  · exact h y t w hy

theorem enumValue_implicit (abi : Abi) (names : Str → Option Const) (prev : Option Const) (first : Bool)
    (tl : List ETok) (h : ∀ t ts, tl = t :: ts → t = .comma ∨ t = .rbrace) :
    enumValue abi names prev first tl =
      (if !first then
        match prev with
        | some p => do
          let c ← increment p
          pure (c, tl)
        | none => .ub
      else pure (simpleConst .int 0, tl)) := by
  unfold enumValue
  split
  · rename_i e ts
    rcases h _ _ rfl with h | h <;> cases h
  · rfl

/-- One enumerator and the rest. -/
theorem parse_main (ms : List Enumerator) : ∀ (s : Scope) (N N' : Names) (p : Option Int)
    (prev : Option Const) (first : Bool) (trailing : Bool) (rest : List ETok) (n : Nat),
    Agree s.names N → Declared .sysv N → Enumerates .sysv N p ms N' → Fresh s.here ms →
    IntExpressions N p ms →
    (first = true → p = none) → (first = false → ∃ v c, p = some v ∧ prev = some c ∧ IsIntConst c v) →
    (listToks trailing ms).length < n →
    ∃ s', parseEnumerators .sysv n s prev first (listToks trailing ms ++ .rbrace :: rest) =
        .ok (s', rest) ∧ Agree s'.names N' := by
  induction ms with
  | nil =>
    intro s N N' p prev first trailing rest n hA hD hE hF hI h1 h2 hn
    cases hE
    cases n with
    | zero => exact absurd hn (by simp)
    | succ n =>
      refine ⟨s, ?_, hA⟩
      unfold parseEnumerators parseEnumerator
      rfl
  | cons m ms ih =>
    intro s N N' p prev first trailing rest n hA hD hE hF hI h1 h2 hn
    obtain ⟨x, ov⟩ := m
    cases n with
    | zero => exact absurd hn (by simp)
    | succ n =>
      -- the value
      have key : ∃ v c, IsIntConst c v ∧ Enumerates .sysv (declare N x v) (some v) ms N' ∧
          IntExpressions (declare N x v) (some v) ms ∧
          ∀ tl : List ETok, (∀ t ts, tl = t :: ts → t = .comma ∨ t = .rbrace) →
            enumValue .sysv s.names prev first
              (valueToks ov ++ tl) = .ok (c, tl) := by
        cases hE with
        | explicit _ _ _ e t v _ _ ht hi hv hr h =>
          obtain ⟨i1, i2, i3⟩ := hI
          obtain ⟨c, c1, c2, c3⟩ := constant_expressions_partial s.names N hA hD e .int v i1 hv i2
          refine ⟨v, c, ⟨c2, c3, hr⟩, h, i3 v hv, ?_⟩
          intro tl _
          show enumValue .sysv s.names prev first (.eq e :: tl) = _
          unfold enumValue
          simp only [c1, Res.bind_ok, Tree.constant?]
          rfl
        | first _ _ _ _ h =>
          have hf : first = true := by
            cases first with
            | true => rfl
            | false => obtain ⟨v, c, hp, _⟩ := h2 rfl; cases hp
          obtain ⟨_, w0⟩ := lit_valid (t := .int) (v := 0) (by decide) (by decide)
          refine ⟨0, simpleConst .int 0, ⟨rfl, w0, by decide⟩, h, hI, ?_⟩
          intro tl htl
          show enumValue .sysv s.names prev first tl = _
          rw [enumValue_implicit .sysv s.names prev first tl htl, hf]
          rfl
        | next _ q _ _ _ hr h =>
          have hf : first = false := by
            cases first with
            | true => cases h1 rfl
            | false => rfl
          obtain ⟨v, c, hp, hprev, hc⟩ := h2 hf
          cases hp
          obtain ⟨c', k1, k2⟩ := increment_int hc hr
          refine ⟨q + 1, c', k2, h, hI, ?_⟩
          intro tl htl
          show enumValue .sysv s.names prev first tl = _
          rw [enumValue_implicit .sysv s.names prev first tl htl, hf, hprev]
          simp only [Bool.not_false, if_true, k1, Res.bind_ok]
          rfl
      obtain ⟨v, c, hc, hE', hI', hval⟩ := key
      -- the declaration
      have hhere : s.here x = false := hF.1 ⟨x, ov⟩ (by simp)
      have hadd : s.add x c = .ok ⟨fun y => if y = x then some c else s.names y,
          fun y => if y = x then true else s.here y⟩ := by
        unfold Scope.add
        rw [hhere]
        rfl
      have hA' := agree_declare (x := x) hA hc
      have hD' := declared_declare (x := x) hD hc.2.2
      have hF' : Fresh (fun y => if y = x then true else s.here y) ms := by
        obtain ⟨f1, f2⟩ := hF
        simp only [List.map_cons, List.nodup_cons] at f2
        refine ⟨fun m hm => ?_, f2.2⟩
        have : m.name ≠ x := by
          intro h
          exact f2.1 (List.mem_map.2 ⟨m, hm, h⟩)
        simp only [this, if_false]
        exact f1 m (by simp [hm])
      -- the tokens behind it
      have hcomma : ∀ tl, parseEnumerator .sysv s prev first (.ident x :: (valueToks ov ++ .comma :: tl)) =
          .ok (true, ⟨fun y => if y = x then some c else s.names y, fun y => if y = x then true else s.here y⟩, some c, tl) := by
        intro tl
        have := hval (.comma :: tl) (by intro t ts h; cases h; exact .inl rfl)
        unfold parseEnumerator
        simp only [this, Res.bind_ok, hadd]
        rfl
      have hbrace : ∀ tl, parseEnumerator .sysv s prev first (.ident x :: (valueToks ov ++ .rbrace :: tl)) =
          .ok (false, ⟨fun y => if y = x then some c else s.names y, fun y => if y = x then true else s.here y⟩, prev, .rbrace :: tl) := by
        intro tl
        have := hval (.rbrace :: tl) (by intro t ts h; cases h; exact .inr rfl)
        unfold parseEnumerator
        simp only [this, Res.bind_ok, hadd]
        rfl
      by_cases hms : ms = []
      · subst hms
        cases trailing with
        | false =>
          refine ⟨⟨fun y => if y = x then some c else s.names y, fun y => if y = x then true else s.here y⟩, ?_, ?_⟩
          · have e : listToks false [⟨x, ov⟩] ++ .rbrace :: rest =
                .ident x :: (valueToks ov ++ .rbrace :: rest) := by
              simp [listToks, Enumerator.toks]
            rw [e]
            unfold parseEnumerators
            rw [hbrace]
            rfl
          · cases hE'
            exact hA'
        | true =>
          cases n with
          | zero => exact absurd hn (by cases ov <;> simp [listToks, Enumerator.toks])
          | succ n =>
            refine ⟨⟨fun y => if y = x then some c else s.names y, fun y => if y = x then true else s.here y⟩, ?_, ?_⟩
            · have e : listToks true [⟨x, ov⟩] ++ .rbrace :: rest =
                  .ident x :: (valueToks ov ++ .comma :: .rbrace :: rest) := by
                simp [listToks, Enumerator.toks]
              rw [e]
              unfold parseEnumerators
              rw [hcomma]
              rfl
            · cases hE'
              exact hA'
      · have hl : listToks trailing (⟨x, ov⟩ :: ms) =
            (.ident x :: valueToks ov) ++ .comma :: listToks trailing ms := by
          cases ms with
          | nil => exact absurd rfl hms
          | cons a as => rfl
        rw [hl] at hn ⊢
        obtain ⟨s', r1, r2⟩ := ih ⟨fun y => if y = x then some c else s.names y, fun y => if y = x then true else s.here y⟩ _ N' (some v) (some c) false trailing rest n hA' hD' hE' hF' hI'
          (fun h => by cases h) (fun _ => ⟨v, c, rfl, rfl, hc⟩)
          (by simp only [List.length_append, List.length_cons] at hn; omega)
        refine ⟨s', ?_, r2⟩
        have e : .ident x :: valueToks ov ++ .comma :: listToks trailing ms ++ .rbrace :: rest =
            .ident x :: (valueToks ov ++ .comma :: (listToks trailing ms ++ .rbrace :: rest)) := by simp
        rw [e]
        unfold parseEnumerators
        rw [hcomma]
        exact r1

end Verif.Enumerators
