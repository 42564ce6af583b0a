import Verif.StaticInitSpec
import Verif.BytesProps
import Verif.BitfieldProps
import Verif.ObjectNameLemmas
/-!
Lemmas about static initialisers.
-/
namespace Verif.StaticInit
open Verif Verif.Object Verif.ObjectSpec Verif.StaticInitSpec

/-! ### Bits of byte lists -/

theorem bitOf_oob {bs : List Byte} {i : Nat} (h : 8 * bs.length ≤ i) : bitOf bs i = false := by
  unfold bitOf
  rw [List.getElem?_eq_none (by omega)]
  simp

theorem bitOf_patch {m bs : List Byte} {off : Nat} (h : off + bs.length ≤ m.length) (p : Nat) :
    bitOf (Bytes.patch m off bs) p =
      if 8 * off ≤ p ∧ p < 8 * off + 8 * bs.length then bitOf bs (p - 8 * off) else bitOf m p := by
  unfold bitOf
  split
  · next hp =>
    have h1 : p / 8 = off + (p - 8 * off) / 8 := by omega
    rw [h1, Bytes.patch_get_in _ _ _ _ h (by omega)]
    congr 1
    omega
  · next hp => rw [Bytes.patch_get_out _ _ _ _ h (by omega)]

theorem bitOf_leBytes {n v i : Nat} (h : i < 8 * n) : bitOf (Bytes.leBytes n v) i = v.testBit i := by
  unfold bitOf
  rw [Bytes.leBytes_get _ _ _ (by omega)]
  simp only [Option.getD_some, BitVec.getLsbD_ofNat]
  rw [show (256 : Nat) = 2 ^ 8 from rfl, ← Nat.pow_mul, Nat.testBit_div_two_pow]
  simp only [show i % 8 < 8 by omega, decide_true, Bool.true_and]
  congr 1
  omega

theorem testBit_leVal (bs : List Byte) {i : Nat} (h : i < 8 * bs.length) :
    (Bytes.leVal bs).testBit i = bitOf bs i := by
  rw [← bitOf_leBytes (n := bs.length) h, Bytes.leBytes_leVal]

theorem bitOf_take_drop {m : List Byte} {off n i : Nat} (h : i < 8 * n) :
    bitOf ((m.drop off).take n) i = bitOf m (8 * off + i) := by
  unfold bitOf
  rw [List.getElem?_take, if_pos (by omega), List.getElem?_drop, show (8 * off + i) / 8 = off + i / 8 by omega,
    show (8 * off + i) % 8 = i % 8 by omega]

/-! ### Writes -/

/-- The bits from `pos` on are replaced. -/
structure Puts (m m' : List Byte) (pos len : Nat) (f : Nat → Bool) : Prop where
  length : m'.length = m.length
  bits : ∀ p, bitOf m' p = if pos ≤ p ∧ p < pos + len then f (p - pos) else bitOf m p

theorem copyString_eq : ∀ {bs m : List Byte} {base : Nat}, base + bs.length ≤ m.length →
    copyString m base bs = .ok (Bytes.patch m base bs) := by
  intro bs
  induction bs with
  | nil => intro m base h; simp [copyString, Bytes.patch]
  | cons b bs ih =>
    intro m base h
    simp only [List.length_cons] at h
    have hl : (Bytes.patch m base [b]).length = m.length := Bytes.patch_length _ _ _ (by simp; omega)
    rw [copyString, Bytes.store_eq _ _ _ (by omega), Res.bind_ok, ih (by omega)]
    have := Bytes.patch_patch m base [b] bs (by simp; omega)
    rw [show base + 1 = base + [b].length from rfl, this]
    rfl

theorem copyString_puts {bs m : List Byte} {base : Nat} (h : base + bs.length ≤ m.length) :
    ∃ m', copyString m base bs = .ok m' ∧ Puts m m' (8 * base) (8 * bs.length) (bitOf bs) :=
  ⟨_, copyString_eq h, Bytes.patch_length _ _ _ h, fun p => bitOf_patch h p⟩

theorem save_eq {m : List Byte} {size : Nat} (hs : size = 1 ∨ size = 2 ∨ size = 4 ∨ size = 8) (hl : size ≤ m.length)
    (v : BitVec 64) : Bitfield.save m size v = .ok (Bytes.leBytes size v.toNat ++ m.drop size) := by
  have hpatch : ∀ bs : List Byte, bs.length = size → Bytes.patch m 0 bs = bs ++ m.drop size := by
    intro bs hb
    simp [Bytes.patch, hb]
  rcases hs with rfl | rfl | rfl | rfl
  · simp only [Bitfield.save, Bytes.write8_eq m 0 v (by omega), hpatch _ (Bytes.leBytes_length _ _)]
  · simp only [Bitfield.save, Bytes.write16_eq m 0 v (by omega), hpatch _ (Bytes.leBytes_length _ _)]
  · simp only [Bitfield.save, Bytes.write32_eq m 0 v (by omega), hpatch _ (Bytes.leBytes_length _ _)]
  · simp only [Bitfield.save, Bytes.write64_eq m 0 v (by omega), hpatch _ (Bytes.leBytes_length _ _)]

theorem take_drop_patch {m bs : List Byte} {base size : Nat} (hb : bs.length = size) :
    m.take base ++ (bs ++ (m.drop base).drop size) = Bytes.patch m base bs := by
  simp [Bytes.patch, List.drop_drop, hb]

theorem const_puts {m : List Byte} {base size : Nat} (hs : size = 1 ∨ size = 2 ∨ size = 4 ∨ size = 8)
    (h : base + size ≤ m.length) (v : BitVec 64) (bo : Int) :
    ∃ new, Bitfield.toBuffer (m.drop base) size v bo (-1) = .ok new ∧
      Puts m (m.take base ++ new) (8 * base) (8 * size) v.getLsbD := by
  unfold Bitfield.toBuffer Bitfield.merge
  rw [if_neg (by simp), Res.bind_ok, save_eq hs (by simp; omega)]
  refine ⟨_, rfl, ?_⟩
  have hlen : (Bytes.leBytes size v.toNat).length = size := Bytes.leBytes_length _ _
  rw [take_drop_patch hlen]
  refine ⟨Bytes.patch_length _ _ _ (by rw [hlen]; exact h), fun p => ?_⟩
  rw [bitOf_patch (by rw [hlen]; exact h), hlen]
  split
  · next hp => rw [bitOf_leBytes (by omega)]; rfl
  · rfl

theorem field_puts {m : List Byte} {base size : Nat} (hs : size = 1 ∨ size = 2 ∨ size = 4 ∨ size = 8)
    (h : base + size ≤ m.length) (v : BitVec 64) (o n : Nat) (hn : 1 ≤ n) (hw : o + n ≤ 8 * size) :
    ∃ new, Bitfield.toBuffer (m.drop base) size v o n = .ok new ∧
      Puts m (m.take base ++ new) (8 * base + o) n v.getLsbD := by
  obtain ⟨new, e, hst⟩ := Bitfield.to_buffer_spec (m.drop base) size hs (by simp; omega) v o n hn hw
  refine ⟨_, e, ?_⟩
  have hlen : (Bytes.leBytes size new.toNat).length = size := Bytes.leBytes_length _ _
  rw [take_drop_patch hlen]
  refine ⟨Bytes.patch_length _ _ _ (by rw [hlen]; exact h), fun p => ?_⟩
  rw [bitOf_patch (by rw [hlen]; exact h), hlen]
  by_cases hp : 8 * base ≤ p ∧ p < 8 * base + 8 * size
  · rw [if_pos hp, bitOf_leBytes (by omega)]
    have hb := hst (p - 8 * base) (by omega)
    rw [show (new.toNat).testBit (p - 8 * base) = new.getLsbD (p - 8 * base) from rfl, hb]
    by_cases hq : 8 * base + o ≤ p ∧ p < 8 * base + o + n
    · rw [if_pos (by omega), if_pos hq]
      congr 1
      omega
    · rw [if_neg (by omega), if_neg hq, BitVec.getLsbD_ofNat, testBit_leVal _ (by simp; omega),
        bitOf_take_drop (by omega)]
      simp only [show p - 8 * base < 8 * size by omega, decide_true, Bool.true_and]
      congr 1
      omega
  · rw [if_neg hp, if_neg (by omega)]

/-! ### The arrays -/

/-- The arrays hold the leaves. -/
structure Inv (total : Nat) (ls : List Leaf) (s : State) : Prop where
  blen : s.buffer.length = total
  llen : s.labels.length = total
  value : ∀ pos len f, Leaf.bits pos len f ∈ ls → ∀ k, k < len → bitOf s.buffer (pos + k) = f k
  zero : ∀ p, (∀ pos len f, Leaf.bits pos len f ∈ ls → ¬ (Leaf.bits pos len f).Owns p) → bitOf s.buffer p = false
  labels : ∀ (i : Nat) l o, s.labels[i]? = some (some (l, o)) ↔ Leaf.addr i l o ∈ ls

theorem inv_start (total : Nat) : Inv total [] ⟨List.replicate total 0, List.replicate total none⟩ := by
  refine ⟨by simp, by simp, ?_, ?_, ?_⟩
  · intro pos len f h; cases h
  · intro p _
    unfold bitOf
    rw [List.getElem?_replicate]
    split <;> simp
  · intro i l o
    constructor
    · intro h
      rw [List.getElem?_replicate] at h
      split at h <;> simp at h
    · intro h; cases h

theorem inv_bits {total : Nat} {ls : List Leaf} {s : State} (h : Inv total ls s) {m : List Byte} {pos len : Nat}
    {f : Nat → Bool} (hp : Puts s.buffer m pos len f) (hd : ∀ a ∈ ls, Disjoint a (.bits pos len f)) :
    Inv total (ls ++ [.bits pos len f]) { s with buffer := m } := by
  refine ⟨by rw [← h.1]; exact hp.1, h.2, ?_, ?_, ?_⟩
  · intro pos' len' f' hmem k hk
    show bitOf m _ = _
    rw [hp.2]
    rcases List.mem_append.1 hmem with hmem | hmem
    · rw [if_neg]
      · exact h.3 _ _ _ hmem k hk
      · intro ho
        exact hd _ hmem (pos' + k) ⟨⟨by omega, by omega⟩, ho⟩
    · have := List.mem_singleton.1 hmem
      injection this with e1 e2 e3
      subst e1 e2 e3
      rw [if_pos (by omega)]
      congr 1
      omega
  · intro p hno
    show bitOf m _ = _
    rw [hp.2, if_neg]
    · apply h.4
      intro pos' len' f' hmem
      exact hno pos' len' f' (List.mem_append_left _ hmem)
    · intro ho
      exact hno pos len f (by simp) ho
  · intro i l o
    rw [h.5, List.mem_append]
    constructor
    · exact .inl
    · rintro (h | h)
      · exact h
      · cases List.mem_singleton.1 h

theorem inv_addr {total : Nat} {ls : List Leaf} {s : State} (h : Inv total ls s) {pos : Nat} {l : Int} {o : BitVec 64}
    (hlt : pos < total) (hd : ∀ a ∈ ls, Disjoint a (.addr pos l o)) :
    Inv total (ls ++ [.addr pos l o]) { s with labels := s.labels.set pos (some (l, o)) } := by
  refine ⟨h.1, by rw [← h.2]; simp, ?_, ?_, ?_⟩
  · intro pos' len' f' hmem k hk
    rcases List.mem_append.1 hmem with hmem | hmem
    · exact h.3 _ _ _ hmem k hk
    · cases List.mem_singleton.1 hmem
  · intro p hno
    apply h.4
    intro pos' len' f' hmem
    exact hno pos' len' f' (List.mem_append_left _ hmem)
  · intro i l' o'
    show (s.labels.set pos (some (l, o)))[i]? = _ ↔ _
    rw [List.getElem?_set, List.mem_append]
    by_cases hi : pos = i
    · subst hi
      rw [if_pos rfl, if_pos (by rw [h.2]; exact hlt)]
      constructor
      · intro e
        injection e with e
        injection e with e
        injection e with e1 e2
        subst e1 e2
        exact .inr (by simp)
      · rintro (hm | hm)
        · exact absurd ⟨⟨Nat.le_refl _, by omega⟩, ⟨Nat.le_refl _, by omega⟩⟩ (hd _ hm (8 * pos))
        · have := List.mem_singleton.1 hm
          injection this with _ e1 e2
          subst e1 e2
          rfl
    · rw [if_neg hi, h.5]
      constructor
      · exact .inl
      · rintro (hm | hm)
        · exact hm
        · have := List.mem_singleton.1 hm
          injection this with e
          exact absurd e.symm hi

theorem fill_inv {total : Nat} (n : Node) : ∀ {base : Nat} {bs bo : Int} {ls : List Leaf} {s : State},
    Fits total base bs bo n → NoLongString n → Inv total ls s → (ls ++ leaves base bs bo n).Pairwise Disjoint →
    ∃ s', fill base bs bo s n = .ok s' ∧ Inv total (ls ++ leaves base bs bo n) s' := by
  have last : ∀ {ls : List Leaf} {l : Leaf}, (ls ++ [l]).Pairwise Disjoint → ∀ a ∈ ls, Disjoint a l :=
    fun h a ha => (List.pairwise_append.1 h).2.2 a ha _ (by simp)
  induction n with
  | empty => intro base bs bo ls s _ _ h _; exact ⟨s, rfl, by simpa [leaves] using h⟩
  | string str room =>
    intro base bs bo ls s hf hn h hd
    have hf : base + room ≤ total := hf
    have hn : str.length ≤ room := hn
    obtain ⟨m, e, hp⟩ := copyString_puts (bs := str) (m := s.buffer) (base := base) (by rw [h.1]; omega)
    rw [fill, e, Res.bind_ok]
    refine ⟨_, rfl, ?_⟩
    rw [leaves, Nat.min_eq_left hn] at hd ⊢
    exact inv_bits h hp (last hd)
  | const size v =>
    intro base bs bo ls s hf hn h hd
    obtain ⟨h1, h2, h3⟩ := hf
    rw [fill]
    by_cases hb : bs = -1
    · subst hb
      rw [leaves, if_pos rfl] at hd ⊢
      obtain ⟨m, e, hp⟩ := const_puts (m := s.buffer) (base := base) h1 (by rw [h.1]; exact h2) v bo
      rw [e, Res.bind_ok]
      exact ⟨_, rfl, inv_bits h hp (last hd)⟩
    · rw [leaves, if_neg hb] at hd ⊢
      obtain ⟨k1, k2, k3⟩ := h3.resolve_left hb
      obtain ⟨m, e, hp⟩ := field_puts (m := s.buffer) (base := base) h1 (by rw [h.1]; exact h2) v bo.toNat bs.toNat
        (by omega) (by omega)
      rw [show ((bo.toNat : Nat) : Int) = bo by omega, show ((bs.toNat : Nat) : Int) = bs by omega] at e
      rw [e, Res.bind_ok]
      exact ⟨_, rfl, inv_bits h hp (last hd)⟩
  | address l o =>
    intro base bs bo ls s hf hn h hd
    have hf : base + 8 ≤ total ∧ _ := hf
    rw [fill, if_pos (by rw [h.2]; omega)]
    exact ⟨_, rfl, inv_addr h (by omega) (last hd)⟩
  | labelConst => intro base bs bo ls s hf; exact hf.elim
  | literal n ih => intro base bs bo ls s hf hn h hd; exact ih hf hn h hd
  | other => intro base bs bo ls s hf; exact hf.elim
  | last => intro base bs bo ls s _ _ h _; exact ⟨s, rfl, by simpa [leaves] using h⟩
  | entry off cbo cbs n rest ih1 ih2 =>
    intro base bs bo ls s hf hn h hd
    rw [leaves, ← List.append_assoc] at hd ⊢
    obtain ⟨s1, e1, h1⟩ := ih1 hf.1 hn.1 h (List.pairwise_append.1 hd).1
    obtain ⟨s2, e2, h2⟩ := ih2 hf.2 hn.2 h1 hd
    rw [fill, e1, Res.bind_ok]
    exact ⟨s2, e2, h2⟩

/-! ### Emission -/

/-- Labels have eight bytes of zeros for themselves. -/
def Spaced (bytes : List Byte) (labels : List (Option (Int × BitVec 64))) : Prop :=
  bytes.length = labels.length ∧ ∀ (i : Nat) x, labels[i]? = some (some x) → i + 8 ≤ labels.length ∧
    (∀ k, 1 ≤ k → k < 8 → labels[i + k]? = some none) ∧ (∀ k, k < 8 → bytes[i + k]? = some 0)

theorem Spaced.drop {bytes : List Byte} {labels : List (Option (Int × BitVec 64))} (h : Spaced bytes labels) (n : Nat) :
    Spaced (bytes.drop n) (labels.drop n) := by
  refine ⟨by simp [h.1], ?_⟩
  intro i x hx
  rw [List.getElem?_drop] at hx
  obtain ⟨h1, h2, h3⟩ := h.2 _ x hx
  refine ⟨by simp; omega, ?_, ?_⟩
  · intro k h4 h5; rw [List.getElem?_drop, ← Nat.add_assoc]; exact h2 k h4 h5
  · intro k h4; rw [List.getElem?_drop, ← Nat.add_assoc]; exact h3 k h4

/-- The references of the labels, the first of which is at position `k`. -/
def labRefs (nm : Int → Name) : List (Option (Int × BitVec 64)) → Nat → List Ref
  | [], _ => []
  | none :: ls, k => labRefs nm ls (k + 1)
  | some (l, o) :: ls, k => ⟨.r64, nm l, k, o⟩ :: labRefs nm ls (k + 1)

theorem labRefs_append (nm : Int → Name) : ∀ (a b : List (Option (Int × BitVec 64))) (k : Nat),
    labRefs nm (a ++ b) k = labRefs nm a k ++ labRefs nm b (k + a.length) := by
  intro a
  induction a with
  | nil => intro b k; rfl
  | cons x a ih =>
    intro b k
    have e : k + (x :: a).length = k + 1 + a.length := by simp; omega
    rw [e]
    cases x with
    | none => exact ih b (k + 1)
    | some x =>
      obtain ⟨l, o⟩ := x
      show _ :: labRefs nm (a ++ b) (k + 1) = _
      rw [ih]; rfl

theorem labRefs_none (nm : Int → Name) : ∀ (a : List (Option (Int × BitVec 64))) (k : Nat), (∀ x ∈ a, x = none) →
    labRefs nm a k = [] := by
  intro a
  induction a with
  | nil => intro k _; rfl
  | cons x a ih =>
    intro k h
    rw [h x (by simp)]
    exact ih (k + 1) (fun y hy => h y (by simp [hy]))

theorem labRefs_mem (nm : Int → Name) : ∀ (a : List (Option (Int × BitVec 64))) (k : Nat) (r : Ref),
    r ∈ labRefs nm a k ↔ ∃ i l, a[i]? = some (some (l, r.add)) ∧ r.offset = k + i ∧ r.name = nm l ∧ r.type = .r64 := by
  intro a
  induction a with
  | nil => intro k r; simp [labRefs]
  | cons x a ih =>
    intro k r
    have tail : r ∈ labRefs nm a (k + 1) ↔
        ∃ i l, (x :: a)[i + 1]? = some (some (l, r.add)) ∧ r.offset = k + (i + 1) ∧ r.name = nm l ∧ r.type = .r64 := by
      rw [ih]
      constructor
      · rintro ⟨i, l, h1, h2, h3⟩; exact ⟨i, l, h1, by omega, h3⟩
      · rintro ⟨i, l, h1, h2, h3⟩; exact ⟨i, l, h1, by omega, h3⟩
    cases x with
    | none =>
      show r ∈ labRefs nm a (k + 1) ↔ _
      rw [tail]
      constructor
      · rintro ⟨i, l, h⟩; exact ⟨i + 1, l, h⟩
      · rintro ⟨i, l, h⟩
        cases i with
        | zero => simp at h
        | succ i => exact ⟨i, l, h⟩
    | some x =>
      obtain ⟨l, o⟩ := x
      show r ∈ _ :: labRefs nm a (k + 1) ↔ _
      rw [List.mem_cons, tail]
      constructor
      · rintro (rfl | ⟨i, l, h⟩)
        · exact ⟨0, l, rfl, rfl, rfl, rfl⟩
        · exact ⟨i + 1, l, h⟩
      · rintro ⟨i, l', h⟩
        cases i with
        | zero =>
          obtain ⟨h1, h2, h3, h4⟩ := h
          simp only [List.getElem?_cons_zero, Option.some.injEq, Prod.mk.injEq] at h1
          obtain ⟨rfl, rfl⟩ := h1
          left
          obtain ⟨t, n, off, add⟩ := r
          simp only at h2 h3 h4
          simp [h2, h3, h4]
        | succ i => exact .inr ⟨i, l', h⟩

theorem labRefs_sorted (nm : Int → Name) : ∀ (a : List (Option (Int × BitVec 64))) (k : Nat),
    (labRefs nm a k).Pairwise fun a b => a.offset < b.offset := by
  intro a
  induction a with
  | nil => intro k; exact List.Pairwise.nil
  | cons x a ih =>
    intro k
    cases x with
    | none => exact ih (k + 1)
    | some x =>
      obtain ⟨l, o⟩ := x
      refine List.Pairwise.cons ?_ (ih (k + 1))
      intro r hr
      obtain ⟨i, _, _, h, _⟩ := (labRefs_mem nm a (k + 1) r).1 hr
      show k < r.offset
      omega

theorem emitted_emitted (v : View) (a b : List Byte) (ra rb : List Ref) :
    emitted (emitted v a ra) b rb =
      emitted v (a ++ b) (ra ++ rb.map fun r => { r with offset := a.length + r.offset }) := by
  have hf : ∀ {α : Type} (f : Name → α) (x y : α), upd (upd f v.cur x) v.cur y = upd f v.cur y := by
    intro α f x y
    funext n
    by_cases hn : n = v.cur
    · rw [hn, upd_same, upd_same]
    · rw [upd_other _ _ hn, upd_other _ _ hn, upd_other _ _ hn]
  unfold emitted
  simp only [upd_same, hf, List.append_assoc, List.map_append, List.map_map, List.length_append]
  congr 3
  congr 1
  apply List.map_congr_left
  intro r _
  simp [Nat.add_assoc]

theorem emit_emitted (v : View) (bs : List Byte) : ObjectSpec.step v (.emit bs) = emitted v bs [] := by
  unfold emitted ObjectSpec.step
  simp only [List.map_nil, List.append_nil]
  congr 1
  funext n
  by_cases hn : n = v.cur
  · rw [hn, upd_same]
  · rw [upd_other _ _ hn]

theorem quad_of_bytes {bs : List Byte} (h : bs.length = 8) :
    quadBytes (BitVec.ofNat 64 (Bytes.leVal bs)) = bs := by
  have hlt := Bytes.leVal_lt bs
  rw [h] at hlt
  apply List.ext_getElem?
  intro i
  by_cases hi : i < 8
  · have e := Bytes.leBytes_get 8 (Bytes.leVal bs) i hi
    have e' := Bytes.leBytes_leVal bs
    rw [h] at e'
    rw [e'] at e
    rw [e]
    unfold quadBytes
    rw [List.getElem?_map, List.getElem?_range hi]
    simp only [Option.map_some, BitVec.toNat_ofNat]
    rw [Nat.mod_eq_of_lt (by omega)]
  · have hq : (quadBytes (BitVec.ofNat 64 (Bytes.leVal bs))).length = 8 := by
      unfold quadBytes; rw [List.length_map, List.length_range]
    rw [List.getElem?_eq_none (by omega), List.getElem?_eq_none (by omega)]

theorem quad_zero : quadBytes 0 = List.replicate 8 0 := by decide

theorem shift_labRefs (nm : Int → Name) : ∀ (a : List (Option (Int × BitVec 64))) (k d : Nat),
    (labRefs nm a k).map (fun r => { r with offset := d + r.offset }) = labRefs nm a (d + k) := by
  intro a
  induction a with
  | nil => intro k d; rfl
  | cons x a ih =>
    intro k d
    cases x with
    | none => show _ = labRefs nm a (d + (k + 1)); rw [← ih (k + 1) d]; rfl
    | some x =>
      obtain ⟨l, o⟩ := x
      show _ = _ :: labRefs nm a (d + (k + 1))
      rw [← ih (k + 1) d]
      rfl

theorem mem_takeWhile {α : Type} {p : α → Bool} : ∀ {l : List α} {x : α}, x ∈ l.takeWhile p → p x = true := by
  intro l
  induction l with
  | nil => intro x h; cases h
  | cons a l ih =>
    intro x h
    rw [List.takeWhile_cons] at h
    split at h
    · next ha =>
      rcases List.mem_cons.1 h with rfl | h
      · exact ha
      · exact ih h
    · cases h

theorem emit_calls {es : List Entry} {nm : Int → Name} : ∀ (n : Nat) {bytes : List Byte}
    {labels : List (Option (Int × BitVec 64))}, bytes.length = n → Spaced bytes labels →
    (∀ (i : Nat) l o, labels[i]? = some (some (l, o)) → l ≠ -1 ∧ getLabel es l = .ok (nm l)) →
    ∃ calls, CallsOf es (emit bytes labels) calls ∧
      ∀ v, calls.foldl ObjectSpec.step v = emitted v bytes (labRefs nm labels 0) := by
  intro n
  induction n using Nat.strongRecOn with
  | _ n ih =>
    intro bytes labels hlen hsp hnm
    match bytes, labels with
    | [], [] =>
      rw [emit]
      · refine ⟨[], trivial, fun v => ?_⟩
        have := emit_emitted v []
        show v = emitted v [] []
        rw [← this]
        have e : upd v.content v.cur (v.content v.cur) = v.content := by
          funext m
          by_cases hm : m = v.cur
          · rw [hm, upd_same]
          · rw [upd_other _ _ hm]
        simp only [ObjectSpec.step, List.append_nil, e]
      · intro _ _ _ _ _ h; cases h
      · intro _ _ _ h; cases h
    | [], x :: ls => exact absurd hsp.1 (by simp)
    | b :: bs, [] => exact absurd hsp.1 (by simp)
    | b :: bs, some (l, o) :: ls =>
      obtain ⟨h1, h2, h3⟩ := hsp.2 0 (l, o) rfl
      obtain ⟨hl, hg⟩ := hnm 0 l o rfl
      have hlen8 : 8 ≤ (b :: bs).length := by rw [hsp.1]; omega
      have hz : (b :: bs).take 8 = List.replicate 8 0 := by
        apply List.ext_getElem?
        intro i
        by_cases hi : i < 8
        · rw [List.getElem?_take, if_pos hi, List.getElem?_replicate, if_pos hi]
          have := h3 i hi
          rw [Nat.zero_add] at this
          exact this
        · rw [List.getElem?_eq_none (by simp; omega), List.getElem?_eq_none (by simp; omega)]
      obtain ⟨cs, hc, hv⟩ := ih (bs.drop 7).length (by simp at hlen ⊢; omega) rfl
        (show Spaced (bs.drop 7) (ls.drop 7) from hsp.drop 8)
        (fun i l o h => hnm (8 + i) l o (by rw [← h, ← List.getElem?_drop]; rfl))
      rw [emit, asmQuad, if_neg hl]
      refine ⟨.refer ⟨.r64, nm l, 0, o⟩ :: .emit (quadBytes 0) :: cs, ⟨⟨_, hg, hl, rfl⟩, rfl, hc⟩, fun v => ?_⟩
      have e1 : ObjectSpec.step (ObjectSpec.step v (.refer ⟨.r64, nm l, 0, o⟩)) (.emit (quadBytes 0)) =
          emitted v (quadBytes 0) [⟨.r64, nm l, 0, o⟩] := rfl
      show cs.foldl ObjectSpec.step (ObjectSpec.step (ObjectSpec.step v _) _) = _
      rw [e1, hv, emitted_emitted, shift_labRefs, quad_zero, List.length_replicate]
      have e2 : List.replicate 8 (0 : Byte) ++ bs.drop 7 = b :: bs := by
        rw [← hz]; exact List.take_append_drop 8 (b :: bs)
      have e3 : [⟨.r64, nm l, 0, o⟩] ++ labRefs nm (ls.drop 7) (8 + 0) = labRefs nm (some (l, o) :: ls) 0 := by
        show _ = (⟨.r64, nm l, 0, o⟩ : Ref) :: labRefs nm ls 1
        have hsplit : ls = ls.take 7 ++ ls.drop 7 := (List.take_append_drop 7 ls).symm
        have hlen7 : (ls.take 7).length = 7 := by
          have : (some (l, o) :: ls).length = ls.length + 1 := rfl
          rw [List.length_take]; omega
        rw [hsplit, labRefs_append, labRefs_none nm (ls.take 7), hlen7]
        · simp
        · intro x hx
          obtain ⟨i, hi⟩ := List.mem_iff_getElem?.1 hx
          rw [List.getElem?_take] at hi
          split at hi
          · have := h2 (i + 1) (by omega) (by omega)
            rw [Nat.zero_add] at this
            have this : ls[i]? = some none := this
            rw [this] at hi
            injection hi with hi
            exact hi.symm
          · cases hi
      rw [e2, e3]
    | b :: bs, none :: ls =>
      rw [emit]
      by_cases h8 : howLong (none :: ls) = 8
      · rw [if_pos h8]
        unfold howLong at h8
        have hle : ((List.take 8 (none :: ls)).takeWhile (·.isNone)).length ≤ (List.take 8 (none :: ls)).length :=
          (List.takeWhile_sublist _).length_le
        have htl : (List.take 8 (none :: ls)).length ≤ 8 := by rw [List.length_take]; omega
        have heq : (List.take 8 (none :: ls)).takeWhile (·.isNone) = List.take 8 (none :: ls) :=
          (List.takeWhile_sublist _).eq_of_length (by omega)
        have hall : ∀ x ∈ List.take 8 (none :: ls), x = none := by
          intro x hx
          rw [← heq] at hx
          have := mem_takeWhile hx
          simpa using this
        have hlen8 : 8 ≤ (none :: ls).length := by rw [List.length_take] at hle; omega
        have hb8 : ((b :: bs).take 8).length = 8 := by rw [List.length_take, hsp.1]; omega
        obtain ⟨cs, hc, hv⟩ := ih (bs.drop 7).length (by simp at hlen ⊢; omega) rfl
          (show Spaced (bs.drop 7) (ls.drop 7) from hsp.drop 8)
          (fun i l o h => hnm (8 + i) l o (by rw [← h, ← List.getElem?_drop]; rfl))
        refine ⟨.emit (quadBytes _) :: cs, ⟨rfl, hc⟩, fun v => ?_⟩
        show cs.foldl ObjectSpec.step (ObjectSpec.step v _) = _
        rw [quad_of_bytes hb8, hv, emit_emitted, emitted_emitted, shift_labRefs, hb8, List.nil_append]
        congr 1
        · exact List.take_append_drop 8 (b :: bs)
        · have hsplit : (none :: ls) = List.take 8 (none :: ls) ++ ls.drop 7 :=
            (List.take_append_drop 8 (none :: ls)).symm
          have hl8 : (List.take 8 (none :: ls)).length = 8 := by omega
          rw [hsplit, labRefs_append, labRefs_none nm _ _ hall, hl8]
          rfl
      · rw [if_neg h8]
        obtain ⟨cs, hc, hv⟩ := ih bs.length (by simp at hlen; omega) rfl (show Spaced bs ls from hsp.drop 1)
          (fun i l o h => hnm (i + 1) l o h)
        refine ⟨.emit [b] :: cs, ⟨rfl, hc⟩, fun v => ?_⟩
        show cs.foldl ObjectSpec.step (ObjectSpec.step v _) = _
        rw [hv, emit_emitted, emitted_emitted, shift_labRefs]
        rfl

theorem spaced_of_inv {total : Nat} {ls : List Leaf} {s : State} (h : Inv total ls s) (hd : ls.Pairwise Disjoint)
    (hfit : ∀ i l o, Leaf.addr i l o ∈ ls → i + 8 ≤ total) : Spaced s.buffer s.labels := by
  refine ⟨by rw [h.1, h.2], ?_⟩
  rintro i ⟨l, o⟩ hi
  have hm := (h.5 i l o).1 hi
  have hi8 := hfit _ _ _ hm
  have sym : ∀ a b, a ∈ ls → b ∈ ls → a ≠ b → Disjoint a b := by
    intro a b ha hb hab
    obtain ⟨x, hx⟩ := List.mem_iff_getElem?.1 ha
    obtain ⟨y, hy⟩ := List.mem_iff_getElem?.1 hb
    obtain ⟨hx', rfl⟩ := List.getElem?_eq_some_iff.1 hx
    obtain ⟨hy', rfl⟩ := List.getElem?_eq_some_iff.1 hy
    rcases Nat.lt_trichotomy x y with hlt | heq | hlt
    · exact List.pairwise_iff_getElem.1 hd x y hx' hy' hlt
    · subst heq; exact absurd rfl hab
    · have := List.pairwise_iff_getElem.1 hd y x hy' hx' hlt
      exact fun p hp => this p hp.symm
  refine ⟨by rw [h.2]; exact hi8, ?_, ?_⟩
  · intro k hk1 hk2
    have hlt : i + k < s.labels.length := by rw [h.2]; omega
    rw [List.getElem?_eq_getElem hlt]
    cases hx : s.labels[i + k] with
    | none => rfl
    | some x =>
      obtain ⟨l', o'⟩ := x
      have hm' := (h.5 (i + k) l' o').1 (by rw [List.getElem?_eq_getElem hlt, hx])
      have hne : Leaf.addr i l o ≠ Leaf.addr (i + k) l' o' := by
        intro e; injection e with e; omega
      exact absurd ⟨⟨by omega, by omega⟩, ⟨Nat.le_refl _, by omega⟩⟩ (sym _ _ hm hm' hne (8 * (i + k)))
  · intro k hk
    have hlt : i + k < s.buffer.length := by rw [h.1]; omega
    rw [List.getElem?_eq_getElem hlt]
    congr 1
    apply BitVec.eq_of_getLsbD_eq
    intro j hj
    have hz := h.4 (8 * (i + k) + j) (by
      intro pos len f hmem ho
      have hne : Leaf.addr i l o ≠ Leaf.bits pos len f := by intro e; cases e
      exact sym _ _ hm hmem hne (8 * (i + k) + j) ⟨⟨by omega, by omega⟩, ho⟩)
    unfold bitOf at hz
    rw [show (8 * (i + k) + j) / 8 = i + k by omega, show (8 * (i + k) + j) % 8 = j by omega,
      List.getElem?_eq_getElem hlt] at hz
    simpa using hz

theorem leaves_addr {total : Nat} (n : Node) : ∀ {base : Nat} {bs bo : Int} {i : Nat} {l : Int} {o : BitVec 64},
    Fits total base bs bo n → Leaf.addr i l o ∈ leaves base bs bo n → i + 8 ≤ total ∧ l ≠ -1 := by
  induction n with
  | string str room => intro base bs bo i l o _ h; cases List.mem_singleton.1 h
  | const size v =>
    intro base bs bo i l o _ h
    rw [leaves] at h
    split at h <;> cases List.mem_singleton.1 h
  | address l' o' =>
    intro base bs bo i l o hf h
    have := List.mem_singleton.1 h
    injection this with e1 e2 e3
    subst e1 e2 e3
    exact hf
  | literal n ih => intro base bs bo i l o hf h; exact ih hf h
  | entry off cbo cbs n rest ih1 ih2 =>
    intro base bs bo i l o hf h
    rcases List.mem_append.1 h with h | h
    · exact ih1 hf.1 h
    · exact ih2 hf.2 h
  | _ => intro base bs bo i l o _ h; cases h

/-! ### Whole initialisers and variables -/

/-- The addresses in an initialiser are of labels with names. -/
def Named (es : List Entry) (ls : List Leaf) : Prop :=
  ∀ i l o, Leaf.addr i l o ∈ ls → ∃ n, getLabel es l = .ok n

/-- The hypotheses of C48. -/
structure InitOk (es : List Entry) (total : Nat) (n : Node) : Prop where
  fits : Fits total 0 (-1) (-1) n
  disjoint : (leaves 0 (-1) (-1) n).Pairwise Disjoint
  named : Named es (leaves 0 (-1) (-1) n)

theorem codegenInitializer_ok {es : List Entry} {total : Nat} {n : Node} (h : InitOk es total n)
    (hl : NoLongString n) : ∃ ops calls bytes refs, codegenInitializer total n = .ok ops ∧ CallsOf es ops calls ∧
      Image es total (leaves 0 (-1) (-1) n) bytes refs ∧
      ∀ v, calls.foldl ObjectSpec.step v = emitted v bytes refs := by
  obtain ⟨s, e, hi⟩ := fill_inv n h.1 hl (inv_start total) (by rw [List.nil_append]; exact h.2)
  rw [List.nil_append] at hi
  let nm : Int → Name := fun l => match getLabel es l with
    | .ok n => n
    | _ => []
  have hnm : ∀ l m, getLabel es l = .ok m → nm l = m := by
    intro l m h
    show (match getLabel es l with | .ok n => n | _ => []) = m
    rw [h]
  have hsp := spaced_of_inv hi h.2 (fun i l o hm => (leaves_addr n h.1 hm).1)
  obtain ⟨calls, hc, hv⟩ := emit_calls (es := es) (nm := nm) _ rfl hsp (fun i l o hlab => by
    have hm := (hi.5 i l o).1 hlab
    obtain ⟨m, hg⟩ := h.3 _ _ _ hm
    exact ⟨(leaves_addr n h.1 hm).2, by rw [hnm l m hg]; exact hg⟩)
  refine ⟨emit s.buffer s.labels, calls, s.buffer, _, ?_, hc, ⟨hi.1, hi.3, hi.4, ?_, labRefs_sorted nm _ 0⟩, hv⟩
  · unfold codegenInitializer
    rw [e, Res.bind_ok]
  · intro r
    rw [labRefs_mem]
    constructor
    · rintro ⟨i, l, h1, h2, h3, h4⟩
      have hm := (hi.5 i l r.add).1 h1
      rw [show r.offset = i by omega]
      obtain ⟨m, hg⟩ := h.3 _ _ _ hm
      exact ⟨l, hm, by rw [h3, hnm l m hg]; exact hg, h4⟩
    · rintro ⟨l, h1, h2, h3⟩
      exact ⟨r.offset, l, (hi.5 _ _ _).2 h1, by omega, (hnm l _ h2).symm, h3⟩

theorem codegenPending_ok {es : List Entry} : ∀ {ps : Pending},
    (∀ p ∈ ps, p.1 ≠ -1 ∧ (∃ n, getLabel es p.1 = .ok n) ∧ InitOk es p.2.1 p.2.2 ∧ NoLongString p.2.2) →
    ∃ ops calls, codegenPending ps = .ok ops ∧ CallsOf es ops calls ∧
      ∀ v : View, (calls.foldl ObjectSpec.step v).cur = v.cur := by
  intro ps
  induction ps with
  | nil => intro _; exact ⟨[], [], rfl, trivial, fun v => rfl⟩
  | cons p ps ih =>
    intro h
    obtain ⟨l, size, n⟩ := p
    obtain ⟨h1, ⟨m, h2⟩, h3, h4⟩ := h _ (List.mem_cons_self ..)
    obtain ⟨ops, calls, bytes, refs, e1, c1, _, v1⟩ := codegenInitializer_ok h3 h4
    obtain ⟨ops', calls', e2, c2, v2⟩ := ih (fun p hp => h p (List.mem_cons_of_mem _ hp))
    refine ⟨.label false l :: ops ++ ops', .define m false :: calls ++ calls', ?_, ?_, ?_⟩
    · rw [codegenPending, e1, Res.bind_ok, e2, Res.bind_ok]
    · exact ⟨⟨m, h2, h1, rfl⟩, callsOf_append c1 c2⟩
    · intro v
      rw [List.cons_append, List.foldl_cons, List.foldl_append, v2, v1]
      rfl

end Verif.StaticInit
