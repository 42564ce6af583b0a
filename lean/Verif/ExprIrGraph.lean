import Verif.ExprIrSpec
/-!
Lemmas for C92: what is built only grows, and steps of the machine.
-/
namespace Verif.ExprIr
open Verif ExprIrSpec

/-- What later additions leave alone. -/
structure Grow (st st' : St) : Prop where
  next : st.next ≤ st'.next
  size : ∀ n, n < st.next → st'.size n = st.size n
  keep : ∀ b, b < st.next → b ≠ st.cur →
    st'.code b = st.code b ∧ st'.uses b = st.uses b ∧ st'.preds b = st.preds b
  cur : st.code st.cur <+: st'.code st.cur
  moved : st'.cur = st.cur ∨ st.next ≤ st'.cur

theorem Grow.refl (st : St) : Grow st st :=
  ⟨Nat.le_refl _, fun _ _ => rfl, fun _ _ _ => ⟨rfl, rfl, rfl⟩, List.prefix_refl _, .inl rfl⟩

theorem Grow.trans {a b c : St} (ha : Open a) (h : Grow a b) (h' : Grow b c) : Grow a c := by
  have hne : ∀ x, x < a.next → x ≠ a.cur → x ≠ b.cur := by
    intro x hx hxa e
    rcases h.moved with hm | hm
    · exact hxa (e.trans hm)
    · omega
  refine ⟨Nat.le_trans h.next h'.next, fun n hn => ?_, fun x hx hxa => ?_, ?_, ?_⟩
  · rw [h'.size n (Nat.lt_of_lt_of_le hn h.next), h.size n hn]
  · obtain ⟨h1, h2, h3⟩ := h.keep x hx hxa
    obtain ⟨h4, h5, h6⟩ := h'.keep x (Nat.lt_of_lt_of_le hx h.next) (hne x hx hxa)
    exact ⟨h4.trans h1, h5.trans h2, h6.trans h3⟩
  · rcases h.moved with hm | hm
    · have := h'.cur
      rw [hm] at this
      exact h.cur.trans this
    · have hlt := ha.1
      have := (h'.keep a.cur (Nat.lt_of_lt_of_le hlt h.next) (by omega)).1
      rw [this]
      exact h.cur
  · rcases h'.moved with hm | hm
    · rcases h.moved with hm' | hm'
      · exact .inl (hm.trans hm')
      · exact .inr (by rw [hm]; exact hm')
    · exact .inr (Nat.le_trans h.next hm)

theorem contains_refl (st : St) : Contains st st := fun _ => ⟨List.prefix_refl _, fun _ => ⟨rfl, rfl⟩⟩

theorem contains_trans {G a b : St} (h : Contains b a) (h' : Contains G b) : Contains G a := by
  intro x
  obtain ⟨h1, h2⟩ := h x
  obtain ⟨h3, h4⟩ := h' x
  refine ⟨h1.trans h3, fun hu => ?_⟩
  obtain ⟨e1, e2⟩ := h2 hu
  obtain ⟨e3, e4⟩ := h4 (by rw [e2]; exact hu)
  exact ⟨e3.trans e1, e4.trans e2⟩

theorem Grow.contains {st st' : St} (ho : Open st) (h : Grow st st') : Contains st' st := by
  intro b
  by_cases hb : b < st.next
  · by_cases hc : b = st.cur
    · subst hc
      exact ⟨h.cur, fun hu => absurd ho.2.1 hu⟩
    · obtain ⟨h1, h2, _⟩ := h.keep b hb hc
      exact ⟨by rw [h1]; exact List.prefix_refl _, fun _ => ⟨h1, h2⟩⟩
  · obtain ⟨h1, h2, _⟩ := ho.2.2 b (by omega)
    exact ⟨by rw [h1]; exact List.nil_prefix, fun hu => absurd h2 hu⟩

/-- The values of the nodes below `n` stay. -/
def Keeps (n : Nat) (m m' : M) : Prop := ∀ k, k < n → m'.vals k = m.vals k ∧ m'.slots k = m.slots k

theorem Keeps.refl (n : Nat) (m : M) : Keeps n m m := fun _ _ => ⟨rfl, rfl⟩

theorem Keeps.trans {n k : Nat} {a b c : M} (hk : n ≤ k) (h : Keeps n a b) (h' : Keeps k b c) : Keeps n a c := by
  intro i hi
  obtain ⟨h1, h2⟩ := h i hi
  obtain ⟨h3, h4⟩ := h' i (by omega)
  exact ⟨h3.trans h1, h4.trans h2⟩

theorem steps_trans {W : World} {G : St} {a b c : Conf} (h : Steps W G a b) (h' : Steps W G b c) :
    Steps W G a c := by
  induction h with
  | refl => exact h'
  | step s _ ih => exact .step s (ih h')

theorem steps_one {W : World} {G : St} {a b : Conf} (h : Step W G a b) : Steps W G a b := .step h .refl

/-- From the current point of `st` with `m` the machine gets to the current point of `st'` with
`m'`, in every graph that contains `st'`. -/
structure Gen (W : World) (st st' : St) (m m' : M) : Prop where
  opened : Open st'
  grow : Grow st st'
  keep : Keeps st.next m m'
  run : ∀ G, Contains G st' → ∀ e, ∃ e',
    Steps W G ⟨st.cur, (st.code st.cur).length, e, m⟩ ⟨st'.cur, (st'.code st'.cur).length, e', m'⟩

theorem Gen.refl (W : World) {st : St} (ho : Open st) (m : M) : Gen W st st m m :=
  ⟨ho, Grow.refl st, Keeps.refl _ _, fun _ _ e => ⟨e, .refl⟩⟩

theorem Gen.trans {W : World} {a b c : St} {m m' m'' : M} (ha : Open a) (h : Gen W a b m m') (h' : Gen W b c m' m'') :
    Gen W a c m m'' := by
  refine ⟨h'.opened, h.grow.trans ha h'.grow, h.keep.trans h.grow.next h'.keep, fun G hG e => ?_⟩
  obtain ⟨e1, s1⟩ := h.run G (contains_trans (h'.grow.contains h.opened) hG) e
  obtain ⟨e2, s2⟩ := h'.run G hG e1
  exact ⟨e2, steps_trans s1 s2⟩

theorem set_same {α : Type} (f : Nat → α) (n : Nat) (x : α) : set f n x n = x := by simp [set]

theorem set_other {α : Type} (f : Nat → α) {n k : Nat} (x : α) (h : k ≠ n) : set f n x k = f k := by simp [set, h]

theorem emit_next (st : St) (s : Nat) (i : Nat → Ins) : (emit st s i).2.next = st.next + 1 := rfl
theorem emit_fst (st : St) (s : Nat) (i : Nat → Ins) : (emit st s i).1 = st.next := rfl
theorem emit_cur (st : St) (s : Nat) (i : Nat → Ins) : (emit st s i).2.cur = st.cur := rfl
theorem emit_size (st : St) (s : Nat) (i : Nat → Ins) : (emit st s i).2.size st.next = s := set_same _ _ _
theorem emit_code (st : St) (s : Nat) (i : Nat → Ins) :
    (emit st s i).2.code st.cur = st.code st.cur ++ [i st.next] := set_same _ _ _

theorem emit_open {st : St} (ho : Open st) (s : Nat) (i : Nat → Ins) : Open (emit st s i).2 := by
  have h1 := ho.1
  refine ⟨Nat.lt_succ_of_lt h1, ho.2.1, fun b hb => ?_⟩
  have hb : st.next + 1 ≤ b := hb
  obtain ⟨h2, h3, h4⟩ := ho.2.2 b (by omega)
  refine ⟨?_, h3, h4⟩
  show set st.code st.cur _ b = []
  rw [set_other _ _ (by omega)]
  exact h2

theorem emit_grow {st : St} (s : Nat) (i : Nat → Ins) : Grow st (emit st s i).2 := by
  refine ⟨Nat.le_succ _, fun n hn => set_other _ _ (by omega), fun b _ hc => ⟨set_other _ _ hc, rfl, rfl⟩, ?_, .inl rfl⟩
  rw [emit_code]
  exact List.prefix_append _ _

theorem contains_at {G st : St} (h : Contains G st) {b pos : Nat} {i : Ins} (hi : (st.code b)[pos]? = some i) :
    (G.code b)[pos]? = some i := by
  obtain ⟨t, ht⟩ := (h b).1
  rw [← ht]
  have := (List.getElem?_eq_some_iff.mp hi).1
  rw [List.getElem?_append_left this]
  exact hi

theorem gen_emit {W : World} {st : St} {m m' : M} (ho : Open st) (s : Nat) (i : Nat → Ins)
    (hx : ∀ e, exec W e (i st.next) m = some m') (hk : Keeps st.next m m') :
    Gen W st (emit st s i).2 m m' := by
  refine ⟨emit_open ho s i, emit_grow s i, hk, fun G hG e => ⟨e, ?_⟩⟩
  rw [emit_cur, emit_code, List.length_append]
  refine steps_one (.ins (contains_at hG ?_) (hx e))
  rw [emit_code]
  simp

theorem keeps_put (m : M) (n : Nat) (v : Val) : Keeps n m (m.put n v) := by
  intro k hk
  exact ⟨set_other _ _ (by omega), rfl⟩

theorem put_vals (m : M) (n : Nat) (v : Val) : (m.put n v).vals n = some v := set_same _ _ _

theorem put_word (m : M) (n x : Nat) : (m.put n (.word x)).word n = some x := by simp [M.word, put_vals]

theorem word_eq {m : M} {n x : Nat} (h : m.vals n = some (.word x)) : m.word n = some x := by simp [M.word, h]

end Verif.ExprIr
