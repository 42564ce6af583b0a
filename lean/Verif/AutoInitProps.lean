import Verif.AutoInitLemmas
/-!
C111: the initialisation of automatic objects and of compound literals in functions (src/ir/ir.c:344-397).
-/
namespace Verif.AutoInit
open Verif

/-- The full statement has no hypotheses on the strings (`hs`) and nodes (`hz`), and asks of the expressions only
that they do not depend on the order in which values are computed and stored (`hi`).

An object of type `t` at address `a` is initialised, whatever was there before: each part that the initialiser
names gets the value of its expression (a bit-field its low bits) or the bytes of its string, all the other
bits of the object are zero, and no other memory changes but by the evaluation of the expressions, each of
which is evaluated once. -/
theorem automatic_initialised_partial {t : Ty} {n : Init} {ps : List Part} (hp : Parts t 0 none 0 n ps)
    (hd : ps.Pairwise Part.Apart) (hsz : t.size < 2 ^ 31) (a : Nat) {m m' : Mem} {vs : List (Part × List Byte)}
    (hv : Values m ps vs m') (hi : ∀ p ∈ ps, ∀ e k, p.src = .value e k → Independent a t.size e k)
    (hs : ∀ p ∈ ps, p.Short) (hz : ∀ p ∈ ps, ∀ e k, p.src = .value e k → Sized e k) :
    ∃ r, initPtr n t a m = .ok r ∧ Initialised a t.size vs m' r := by
  have h0 : Inv a t.size [] m (put m a (List.replicate t.size 0)) := by
    refine ⟨⟨?_, ?_, ?_⟩, fun v hv => (nomatch hv)⟩
    · intro x hx
      refine bit_byte fun i hi => ?_
      rw [put_bit, List.length_replicate, if_neg (by omega)]
    · intro v hv; cases hv
    · intro i hi _
      rw [put_bit, List.length_replicate, if_pos (by omega)]
      exact bitIn_zero _ _
  obtain ⟨r, h1, h2⟩ := init_ok (a := a) hsz hp (bo := -1) (bs := -1) (by omega) rfl
    (fun p hp => ⟨hs p hp, hi p hp, hz p hp⟩) hv (us := []) (by rw [List.nil_append, values_parts hv]; exact hd) h0
  exact ⟨r, h1, h2.init⟩

/-! ### Examples -/

/-- The number 5, as an `int`. -/
def five : Expr := fun m => .ok (m, .node [5, 0, 0, 0])

/-- An object of 8 bytes at address 1000. -/
def other : Expr := fun m => .ok (m, .pointer 1000)

/-- `struct { int a : 3, b : 5; char s[4]; struct { long l; } t; }` -/
def sampleType : Ty := .record [(0, 0, 3, .scalar 4), (0, 3, 5, .scalar 4), (4, 0, -1, .array (.scalar 1) 4),
  (8, 0, -1, .record [(0, 0, -1, .scalar 8)] 8)] 16

/-- `{ .b = 5, .s = "hi", .t = other }` -/
def sampleInit : Init := .brace (.entry .empty (.entry (.expr five) (.entry (.string [104, 105, 0]) (.entry (.expr other) .last))))

theorem five_evaluates (m : Mem) : Evaluates five 4 m [5, 0, 0, 0] m := ⟨rfl, .inr ⟨_, rfl, rfl⟩⟩

example (m : Mem) : ∃ r, initPtr sampleInit sampleType 0 m = .ok r ∧ bit r 3 = true ∧ bit r 4 = false ∧ bit r 5 = true ∧
    r 4 = 104 ∧ r 8 = m 1000 ∧ r 20 = m 20 ∧ r 7 = 0 := by
  have ho : ∀ m, Evaluates other 8 m (fetch m 1000 8) m := fun m => ⟨fetch_length _ _ _, .inl ⟨_, rfl, rfl⟩⟩
  have hp : Parts sampleType 0 none 0 sampleInit ([] ++ ([⟨3, 5, .value five 4⟩] ++
      ([⟨32, 24, .bytes [104, 105, 0]⟩] ++ ([⟨64, 64, .value other 8⟩] ++ [])))) := by
    refine .brace (.entry (.field (b := 0) (w := 3) (t := .scalar 4) rfl (by decide) (by decide) (by decide) (by decide)) .empty ?_)
    refine .entry (.field (b := 3) (w := 5) (t := .scalar 4) rfl (by decide) (by decide) (by decide) (by decide)) .bits ?_
    exact .entry (.member (b := 0) rfl (by decide)) .string (.entry (.member (b := 0) rfl (by decide)) .value .last)
  have hv : Values m ([] ++ ([⟨3, 5, .value five 4⟩] ++ ([⟨32, 24, .bytes [104, 105, 0]⟩] ++ ([⟨64, 64, .value other 8⟩] ++ []))))
      [(⟨3, 5, .value five 4⟩, [5, 0, 0, 0]), (⟨32, 24, .bytes [104, 105, 0]⟩, [104, 105, 0]),
        (⟨64, 64, .value other 8⟩, fetch m 1000 8)] m :=
    .value rfl (five_evaluates m) (.bytes rfl (.value rfl (ho m) .nil))
  obtain ⟨r, h1, h2⟩ := automatic_initialised_partial hp (by simp [Part.Apart]) (by decide) 0 hv
    (by
      intro p hp e k he
      simp only [List.nil_append, List.append_nil, List.cons_append, List.mem_cons, List.not_mem_nil, or_false] at hp
      rcases hp with rfl | rfl | rfl
      · cases he
        intro m1 m2 bs m1' hag hev
        obtain ⟨-, ⟨_, h, -⟩ | ⟨_, h, rfl⟩⟩ := hev
        · cases h
        · cases h; exact ⟨m2, five_evaluates m2, hag, fun _ _ _ => rfl⟩
      · cases he
      · cases he
        intro m1 m2 bs m1' hag hev
        obtain ⟨-, ⟨_, h, rfl⟩ | ⟨_, h, -⟩⟩ := hev
        · cases h
          refine ⟨m2, ?_, hag, fun _ _ _ => rfl⟩
          have : fetch m1 1000 8 = fetch m2 1000 8 := by
            simp only [fetch]
            rw [hag 1000 (by decide), hag 1001 (by decide), hag 1002 (by decide), hag 1003 (by decide), hag 1004 (by decide),
              hag 1005 (by decide), hag 1006 (by decide), hag 1007 (by decide)]
          rw [this]
          exact ho m2
        · cases h)
    (by
      intro p hp
      simp only [List.nil_append, List.append_nil, List.cons_append, List.mem_cons, List.not_mem_nil, or_false] at hp
      rcases hp with rfl | rfl | rfl <;> intro bs h <;> cases h
      rfl)
    (by
      intro p hp e k he
      simp only [List.nil_append, List.append_nil, List.cons_append, List.mem_cons, List.not_mem_nil, or_false] at hp
      rcases hp with rfl | rfl | rfl <;> cases he
      · intro m m' bs h; cases h; rfl
      · intro m m' bs h; cases h)
  refine ⟨r, h1, ?_, ?_, ?_, ?_, ?_, h2.outside 20 (by decide), ?_⟩
  · exact h2.value _ (.head _) 0 (by decide)
  · exact h2.value _ (.head _) 1 (by decide)
  · exact h2.value _ (.head _) 2 (by decide)
  · refine byte_ext fun i hi => ?_
    have := h2.value _ (.tail _ (.head _)) i (by dsimp only; omega)
    unfold bit bitIn at this
    dsimp only at this
    rw [show (8 * 0 + 32 + i) / 8 = 4 by omega, show (8 * 0 + 32 + i) % 8 = i by omega, show i / 8 = 0 by omega,
      show i % 8 = i by omega] at this
    exact this
  · refine byte_ext fun i hi => ?_
    have := h2.value _ (.tail _ (.tail _ (.head _))) i (by dsimp only; omega)
    unfold bit bitIn at this
    dsimp only at this
    rw [show (8 * 0 + 64 + i) / 8 = 8 by omega, show (8 * 0 + 64 + i) % 8 = i by omega, show i / 8 = 0 by omega,
      show i % 8 = i by omega] at this
    exact this
  · refine byte_ext fun i hi => ?_
    have := h2.zero (56 + i) (by decide +revert) (by
      intro v hv
      simp only [List.mem_cons, List.not_mem_nil, or_false] at hv
      rcases hv with rfl | rfl | rfl <;> dsimp only <;> omega)
    unfold bit at this
    rw [show (8 * 0 + (56 + i)) / 8 = 7 by omega, show (8 * 0 + (56 + i)) % 8 = i by omega] at this
    rw [this]
    simp

/-! ### Violations -/

/-- `char s[3] = "abc";` in a function writes the terminating zero behind the array. -/
theorem string_violated : ∃ (t : Ty) (n : Init) (ps : List Part) (vs : List (Part × List Byte)), Parts t 0 none 0 n ps ∧
    ps.Pairwise Part.Apart ∧ (∀ m, Values m ps vs m) ∧
    ∀ (a : Nat) (m : Mem), m (a + 3) ≠ 0 → ∃ r, initPtr n t a m = .ok r ∧ ¬ Initialised a t.size vs m r := by
  refine ⟨.array (.scalar 1) 3, .string [97, 98, 99, 0], _, [(⟨0, 24, .bytes [97, 98, 99, 0]⟩, [97, 98, 99, 0])], .string,
    List.pairwise_singleton .., fun m => .bytes rfl .nil, fun a m hm => ⟨_, rfl, ?_⟩⟩
  intro h
  apply hm
  rw [← h.outside (a + 3) (by simp only [Ty.size]; omega)]
  simp [putString, put]

/-- `int x = a < b;` with operands of eight bytes: the node of the comparison has eight bytes (C73), all of which are
stored. -/
theorem node_size_violated : ∃ (t : Ty) (n : Init) (ps : List Part) (vs : List (Part × List Byte)), Parts t 0 none 0 n ps ∧
    ps.Pairwise Part.Apart ∧ (∀ m, Values m ps vs m) ∧ (∀ a, ∀ p ∈ ps, ∀ e k, p.src = .value e k → Independent a t.size e k) ∧
    ∀ (a : Nat) (m : Mem), m (a + 4) ≠ 0 → ∃ r, initPtr n t a m = .ok r ∧ ¬ Initialised a t.size vs m r := by
  let less : Expr := fun m => .ok (m, .node [1, 0, 0, 0, 0, 0, 0, 0])
  refine ⟨.scalar 4, .expr less, _, [(⟨0, 32, .value less 4⟩, [1, 0, 0, 0])], .value,
    List.pairwise_singleton .., fun m => .value rfl ⟨rfl, .inr ⟨_, rfl, rfl⟩⟩ .nil, ?_, fun a m hm => ⟨_, rfl, ?_⟩⟩
  · intro a p hp e k he
    cases List.mem_singleton.1 hp
    cases he
    intro m1 m2 bs m1' hag hev
    obtain ⟨-, ⟨_, h, -⟩ | ⟨_, h, rfl⟩⟩ := hev
    · cases h
    · cases h; exact ⟨m2, ⟨rfl, .inr ⟨_, rfl, rfl⟩⟩, hag, fun _ _ _ => rfl⟩
  · intro h
    apply hm
    rw [← h.outside (a + 4) (by simp only [Ty.size]; omega)]
    simp [put]

/-- `again: p = &(struct s){ p->i + 1 };` reached again by `goto again`: the object of the literal is the same,
its old value is needed for the new one (6.5.2.5p16), but it has been set to zero before the expression is
evaluated.  There is one part, so that no order of evaluation is left open. -/
theorem old_value_violated : ∃ (t : Ty) (n : Init) (a : Nat) (p : Part), Parts t 0 none 0 n [p] ∧ p.Short ∧
    (∀ e k, p.src = .value e k → Sized e k) ∧ ∀ m : Mem, m a = 1 →
    ∃ vs, Values m [p] vs m ∧ ∃ r, initPtr n t a m = .ok r ∧ ¬ Initialised a t.size vs m r := by
  let next : Expr := fun m => .ok (m, .node [m 0 + 1])
  refine ⟨.record [(0, 0, -1, .scalar 1)] 1, .brace (.entry (.expr next) .last), 0, ⟨0, 8, .value next 1⟩,
    .brace (.entry (ps := [_]) (qs := []) (.member (b := 0) rfl (by decide)) .value .last), fun _ h => (nomatch h), ?_, ?_⟩
  · intro e k h
    cases h
    intro m m' bs h
    cases h
    rfl
  · intro m hm
    refine ⟨[(⟨0, 8, .value next 1⟩, [2])], .value rfl ⟨rfl, .inr ⟨_, rfl, by simp [hm]⟩⟩ .nil, _, rfl, ?_⟩
    intro h
    have := h.value _ (.head _) 1 (by decide)
    revert this
    simp [bit, bitIn, put, Ty.size]

end Verif.AutoInit
