import Verif.AutoInitSpec
import Verif.StaticInitLemmas
/-!
Lemmas about the initialisation of automatic objects.
-/
namespace Verif.AutoInit
open Verif

theorem bitIn_eq (bs : List Byte) (i : Nat) : bitIn bs i = StaticInitSpec.bitOf bs i := rfl

theorem byte_ext {x y : Byte} (h : ∀ i, i < 8 → x.getLsbD i = y.getLsbD i) : x = y :=
  BitVec.eq_of_getLsbD_eq h

theorem bit_byte {m m' : Mem} {x : Nat} (h : ∀ i, i < 8 → bit m (8 * x + i) = bit m' (8 * x + i)) : m x = m' x := by
  refine byte_ext fun i hi => ?_
  have := h i hi
  unfold bit at this
  rw [show (8 * x + i) / 8 = x by omega, show (8 * x + i) % 8 = i by omega] at this
  exact this

theorem fetch_length (m : Mem) : ∀ (n a : Nat), (fetch m a n).length = n
  | 0, _ => rfl
  | n + 1, a => by simp [fetch, fetch_length m n]

theorem fetch_get (m : Mem) : ∀ (n a i : Nat), i < n → (fetch m a n)[i]? = some (m (a + i))
  | 0, _, _, h => absurd h (by omega)
  | n + 1, a, 0, _ => rfl
  | n + 1, a, i + 1, h => by
    have := fetch_get m n (a + 1) i (by omega)
    simp only [fetch, List.getElem?_cons_succ]
    rw [this]
    congr 2
    omega

theorem fetch_bit {m : Mem} {n a i : Nat} (h : i < 8 * n) : bitIn (fetch m a n) i = bit m (8 * a + i) := by
  unfold bitIn bit
  rw [fetch_get m n a (i / 8) (by omega)]
  rw [show (8 * a + i) / 8 = a + i / 8 by omega, show (8 * a + i) % 8 = i % 8 by omega]
  rfl

theorem put_bit (m : Mem) (a : Nat) (bs : List Byte) (i : Nat) :
    bit (put m a bs) i = if 8 * a ≤ i ∧ i < 8 * a + 8 * bs.length then bitIn bs (i - 8 * a) else bit m i := by
  unfold bit put bitIn
  by_cases h : 8 * a ≤ i ∧ i < 8 * a + 8 * bs.length
  · rw [if_pos h, if_pos (by omega), show i / 8 - a = (i - 8 * a) / 8 by omega, show (i - 8 * a) % 8 = i % 8 by omega]
    rw [List.getElem?_eq_getElem (by omega)]
    rfl
  · rw [if_neg h]
    by_cases h' : a ≤ i / 8
    · rw [if_pos h', List.getElem?_eq_none (by omega)]
    · rw [if_neg h']

theorem putString_bit : ∀ (bs : List Byte) (m : Mem) (a : Nat) (i : Nat),
    bit (putString m a bs) i = if 8 * a ≤ i ∧ i < 8 * a + 8 * bs.length then bitIn bs (i - 8 * a) else bit m i
  | [], m, a, i => by simp [putString]; omega
  | b :: bs, m, a, i => by
    rw [putString, putString_bit bs, put_bit]
    simp only [List.length_cons, List.length_nil]
    by_cases h1 : 8 * (a + 1) ≤ i ∧ i < 8 * (a + 1) + 8 * bs.length
    · rw [if_pos h1, if_pos (by omega)]
      unfold bitIn
      rw [show (i - 8 * a) / 8 = (i - 8 * (a + 1)) / 8 + 1 by omega, show (i - 8 * a) % 8 = (i - 8 * (a + 1)) % 8 by omega,
        List.getElem?_cons_succ]
    · rw [if_neg h1]
      by_cases h2 : 8 * a ≤ i ∧ i < 8 * a + 8 * (0 + 1)
      · rw [if_pos h2, if_pos (by omega)]
        unfold bitIn
        rw [show (i - 8 * a) / 8 = 0 by omega]
        rfl
      · rw [if_neg h2, if_neg (by omega)]

/-- Some bits are replaced. -/
def Writes (m r : Mem) (pos len : Nat) (bs : List Byte) : Prop :=
  ∀ i, bit r i = if pos ≤ i ∧ i < pos + len then bitIn bs (i - pos) else bit m i

/-- One more part. -/
theorem step {a size : Nat} {vs : List (Part × List Byte)} {ms ms' m m2 r : Mem} {p : Part} {bs : List Byte}
    (h : Initialised a size vs ms m) (ho : Agree a size ms' m2) (hi : ∀ x, a ≤ x → x < a + size → m2 x = m x)
    (hw : Writes m2 r (8 * a + p.pos) p.len bs) (hin : p.pos + p.len ≤ 8 * size) (hd : ∀ v ∈ vs, v.1.Apart p)
    (hall : ∀ v ∈ vs, v.1.pos + v.1.len ≤ 8 * size) :
    Initialised a size (vs ++ [(p, bs)]) ms' r := by
  have hbit : ∀ i, 8 * a ≤ i → i < 8 * a + 8 * size → bit m2 i = bit m i := by
    intro i h1 h2
    unfold bit
    rw [hi (i / 8) (by omega) (by omega)]
  refine ⟨?_, ?_, ?_⟩
  · intro x hx
    rw [ho x hx]
    refine bit_byte fun i hi => ?_
    rw [hw, if_neg (by omega)]
  · intro v hv k hk
    rcases List.mem_append.1 hv with hv | hv
    · rw [hw, if_neg (by have := hd v hv; unfold Part.Apart at this; omega)]
      have := hall v hv
      rw [hbit _ (by omega) (by omega)]
      exact h.value v hv k hk
    · cases List.mem_singleton.1 hv
      dsimp only at hk ⊢
      rw [hw, if_pos (by omega)]
      congr 1
      omega
  · intro i hi hno
    rw [hw, if_neg, hbit _ (by omega) (by omega)]
    · exact h.zero i hi (fun v hv => hno v (List.mem_append_left _ hv))
    · have := hno (p, bs) (by simp)
      dsimp only at this
      omega

/-- A value. -/
theorem value_ok {a size : Nat} {ms ms' m : Mem} {e : Expr} {n : Nat} {bs : List Byte} (hag : Agree a size ms m)
    (he : Evaluates e n ms bs ms') (hi : Independent a size e n) (hs : Sized e n) :
    ∃ m2 r, e m = .ok (m2, r) ∧ toVar r n m2 = bs ∧ Agree a size ms' m2 ∧ ∀ x, a ≤ x → x < a + size → m2 x = m x := by
  obtain ⟨m2, ⟨hl, h⟩, h2, h3⟩ := hi ms m bs ms' hag he
  rcases h with ⟨b, h, hb⟩ | ⟨vs, h, hb⟩
  · exact ⟨m2, _, h, hb.symm, h2, h3⟩
  · refine ⟨m2, _, h, ?_, h2, h3⟩
    have := hs _ _ _ h
    rw [hb, ← this]
    simp [toVar]

theorem toAddress_ok {m m2 : Mem} {e : Expr} {n x : Nat} {r : EE} {bs : List Byte} (h : e m = .ok (m2, r)) (hb : toVar r n m2 = bs) :
    expressionToAddress e n x m = .ok (put m2 x bs) := by
  unfold expressionToAddress
  rw [h]
  cases r <;> (cases hb; rfl)

theorem setField_ok {m m2 : Mem} {e : Expr} {n x o w : Nat} {r : EE} {bs : List Byte} (h : e m = .ok (m2, r)) (hb : toVar r n m2 = bs)
    (hl : bs.length = n) (hn : n ≤ 8) (hw : 1 ≤ w) (how : o + w ≤ 8 * n) :
    ∃ q, setField e n x o w m = .ok q ∧ Writes m2 q (8 * x + o) w bs := by
  subst hl
  obtain ⟨new, h1, h2⟩ := Bitfield.set_bits_spec (w := 8 * bs.length) (k := 8 * bs.length) (by omega)
    (BitVec.ofNat _ (Bytes.leVal (fetch m2 x bs.length))) (BitVec.ofNat _ (Bytes.leVal bs)) o w hw how
  refine ⟨put m2 x (Bytes.leBytes bs.length new.toNat), ?_, ?_⟩
  · unfold setField
    rw [h]
    simp only [bind, Res.bind]
    rw [hb, h1]
  · intro i
    rw [put_bit, Bytes.leBytes_length]
    by_cases hin : 8 * x ≤ i ∧ i < 8 * x + 8 * bs.length
    · rw [if_pos hin, bitIn_eq, StaticInit.bitOf_leBytes (by omega)]
      have hb := h2 (i - 8 * x) (by omega)
      rw [show (new.toNat).testBit (i - 8 * x) = new.getLsbD (i - 8 * x) from rfl, hb]
      by_cases hp : 8 * x + o ≤ i ∧ i < 8 * x + o + w
      · rw [if_pos (by omega), if_pos hp, BitVec.getLsbD_ofNat, StaticInit.testBit_leVal _ (by omega)]
        simp only [show i - 8 * x - o < 8 * bs.length by omega, decide_true, Bool.true_and]
        rw [bitIn_eq]
        congr 1
        omega
      · rw [if_neg (by omega), if_neg hp, BitVec.getLsbD_ofNat,
          StaticInit.testBit_leVal _ (by rw [fetch_length]; omega), ← bitIn_eq, fetch_bit (by omega)]
        simp only [show i - 8 * x < 8 * bs.length by omega, decide_true, Bool.true_and]
        congr 1
        omega
    · rw [if_neg hin, if_neg (by omega)]

theorem writes_at {m r : Mem} {p q l : Nat} {bs : List Byte} (h : Writes m r p l bs) (e : p = q) : Writes m r q l bs := e ▸ h

/-- All values that are made, of two lists of parts. -/
theorem values_append {qs : List Part} : ∀ {ps : List Part} {m m' : Mem} {vs}, Values m (ps ++ qs) vs m' →
    ∃ m1 v1 v2, vs = v1 ++ v2 ∧ Values m ps v1 m1 ∧ Values m1 qs v2 m'
  | [], m, m', vs, h => ⟨m, [], vs, rfl, .nil, h⟩
  | p :: ps, m, m', vs, h => by
    cases h with
    | bytes h1 h2 =>
      obtain ⟨m1, v1, v2, rfl, q1, q2⟩ := values_append h2
      exact ⟨m1, _, v2, rfl, .bytes h1 q1, q2⟩
    | value h1 h2 h3 =>
      obtain ⟨m1, v1, v2, rfl, q1, q2⟩ := values_append h3
      exact ⟨m1, _, v2, rfl, .value h1 h2 q1, q2⟩

theorem values_parts : ∀ {ps : List Part} {m m' : Mem} {vs}, Values m ps vs m' → vs.map Prod.fst = ps := by
  intro ps m m' vs h
  induction h with
  | nil => rfl
  | bytes _ _ ih => simp [ih]
  | value _ _ _ ih => simp [ih]

/-- What is asked of the parts. -/
structure Good (a size : Nat) (p : Part) : Prop where
  short : p.Short
  indep : ∀ e n, p.src = .value e n → Independent a size e n
  sized : ∀ e n, p.src = .value e n → Sized e n

theorem field_fits {t : Ty} {i o : Nat} {b : Option (Nat × Nat)} {u : Ty} (h : Place t i o b u) : o + u.size ≤ t.size := by
  cases h with
  | element h => exact h
  | member _ h => exact h
  | field _ h _ _ => exact h

/-- What the bits of the enclosing member say. -/
def Bits (t : Ty) (bo bs : Int) : Option (Nat × Nat) → Prop
  | none => bs = -1
  | some (o, w) => bo = o ∧ bs = w ∧ 1 ≤ w ∧ o + w ≤ 8 * t.size ∧ t.size ≤ 8

theorem select_place {t : Ty} {i o : Nat} {b : Option (Nat × Nat)} {u : Ty} (h : Place t i o b u) (hs : t.size < 2 ^ 31) :
    ∃ bo bs, select t i = .ok (o, bo, bs, u) ∧ Bits u bo bs b := by
  cases h with
  | element h =>
    refine ⟨-1, -1, ?_, rfl⟩
    unfold select
    simp only [Ty.size] at hs
    dsimp only
    rw [if_pos (by omega)]
  | @member _ _ _ _ b _ h _ =>
    refine ⟨b, -1, ?_, rfl⟩
    unfold select
    dsimp only
    rw [h]
  | field h _ h1 h2 h3 =>
    refine ⟨_, _, ?_, rfl, rfl, h1, h2, h3⟩
    unfold select
    dsimp only
    rw [h]

/-- The invariant. -/
structure Inv (a size : Nat) (vs : List (Part × List Byte)) (ms m : Mem) : Prop where
  init : Initialised a size vs ms m
  inside : ∀ v ∈ vs, v.1.pos + v.1.len ≤ 8 * size

theorem Inv.step {a size : Nat} {vs : List (Part × List Byte)} {ms ms' m m2 r : Mem} {p : Part} {bs : List Byte}
    (h : Inv a size vs ms m) (ho : Agree a size ms' m2) (hi : ∀ x, a ≤ x → x < a + size → m2 x = m x)
    (hw : Writes m2 r (8 * a + p.pos) p.len bs) (hin : p.pos + p.len ≤ 8 * size) (hd : ∀ v ∈ vs, v.1.Apart p) :
    Inv a size (vs ++ [(p, bs)]) ms' r := by
  refine ⟨AutoInit.step h.init ho hi hw hin hd h.inside, ?_⟩
  intro v hv
  rcases List.mem_append.1 hv with hv | hv
  · exact h.inside v hv
  · cases List.mem_singleton.1 hv; exact hin

theorem init_ok {a size : Nat} (hsz : size < 2 ^ 31) {t : Ty} {base : Nat} {b : Option (Nat × Nat)} {i : Nat} {n : Init} {ps : List Part}
    (hp : Parts t base b i n ps) : ∀ {bo bs : Int} {ms ms' m : Mem} {us vs : List (Part × List Byte)},
    base + t.size ≤ size → Bits t bo bs b → (∀ p ∈ ps, Good a size p) → Values ms ps vs ms' →
    ((us ++ vs).map Prod.fst).Pairwise Part.Apart → Inv a size us ms m →
    ∃ r, initVar t (a + base) bo bs i n m = .ok r ∧ Inv a size (us ++ vs) ms' r := by
  have last : ∀ {us : List (Part × List Byte)} {p : Part} {bs : List Byte}, ((us ++ [(p, bs)]).map Prod.fst).Pairwise Part.Apart →
      ∀ v ∈ us, v.1.Apart p := by
    intro us p bs h v hv
    rw [List.map_append] at h
    exact (List.pairwise_append.1 h).2.2 _ (List.mem_map_of_mem hv) _ (by simp)
  induction hp with
  | empty =>
    intro bo bs ms ms' m us vs _ _ _ hv _ hi
    cases hv
    exact ⟨m, rfl, by simpa using hi⟩
  | last =>
    intro bo bs ms ms' m us vs _ _ _ hv _ hi
    cases hv
    exact ⟨m, rfl, by simpa using hi⟩
  | @string e n base b i str =>
    intro bo bs ms ms' m us vs hb _ hg hv hd hi
    cases hv with
    | value h => cases h
    | bytes h hv =>
      cases h
      cases hv
      have hsh := (hg _ (.head _)).short _ rfl
      dsimp only at hsh
      simp only [Ty.size] at hb
      refine ⟨_, rfl, hi.step (m2 := m) (fun x hx => (hi.init.outside x hx).symm) (fun _ _ _ => rfl) ?_ ?_ (last hd)⟩
      · intro j
        rw [putString_bit]
        dsimp only
        rw [← hsh, show 8 * (a + base) = 8 * a + 8 * base by omega]
      · dsimp only; omega
  | @value t base i e =>
    intro bo bs ms ms' m us vs hb hbits hg hv hd hi
    cases hv with
    | bytes h => cases h
    | @value _ _ _ _ str _ _ _ _ h he hv =>
      cases h
      cases hv
      have hbits : bs = -1 := hbits
      subst hbits
      have hgd := hg _ (.head _)
      obtain ⟨m2, r, q1, q2, q3, q4⟩ := value_ok (m := m) (fun x hx => (hi.init.outside x hx).symm) he (hgd.indep _ _ rfl) (hgd.sized _ _ rfl)
      refine ⟨put m2 (a + base) str, ?_, hi.step q3 q4 ?_ ?_ (last hd)⟩
      · unfold initVar
        rw [if_pos rfl]
        exact toAddress_ok q1 q2
      · intro j
        rw [put_bit]
        dsimp only
        rw [he.1, show 8 * (a + base) = 8 * a + 8 * base by omega]
      · dsimp only; omega
  | @bits t base o w i e =>
    intro bo bs ms ms' m us vs hb hbits hg hv hd hi
    cases hv with
    | bytes h => cases h
    | value h he hv =>
      cases h
      cases hv
      obtain ⟨rfl, rfl, k1, k2, k3⟩ := hbits
      have hgd := hg _ (.head _)
      obtain ⟨m2, r, q1, q2, q3, q4⟩ := value_ok (m := m) (fun x hx => (hi.init.outside x hx).symm) he (hgd.indep _ _ rfl) (hgd.sized _ _ rfl)
      obtain ⟨q, f1, f2⟩ := setField_ok (x := a + base) q1 q2 he.1 k3 k1 k2
      refine ⟨q, ?_, hi.step q3 q4 (writes_at f2 ?_) ?_ (last hd)⟩
      · unfold initVar
        rw [if_neg (by omega)]
        exact f1
      · dsimp only; omega
      · dsimp only; omega
  | brace _ ih =>
    intro bo bs ms ms' m us vs hb hbits hg hv hd hi
    obtain ⟨r, h1, h2⟩ := ih hb hbits hg hv hd hi
    exact ⟨r, by unfold initVar; exact h1, h2⟩
  | entry hpl _ _ ih1 ih2 =>
    intro bo bs ms ms' m us vs hb hbits hg hv hd hi
    obtain ⟨m1, v1, v2, rfl, w1, w2⟩ := values_append hv
    have hf := field_fits hpl
    obtain ⟨bo', bs', s1, s2⟩ := select_place hpl (by omega)
    rw [← List.append_assoc] at hd ⊢
    obtain ⟨r, h1, h2⟩ := ih1 (by omega) s2 (fun p hp => hg p (List.mem_append_left _ hp)) w1
      (by rw [List.map_append] at hd; exact (List.pairwise_append.1 hd).1) hi
    obtain ⟨r', h3, h4⟩ := ih2 hb hbits (fun p hp => hg p (List.mem_append_right _ hp)) w2 hd h2
    refine ⟨r', ?_, h4⟩
    unfold initVar
    rw [s1]
    simp only [bind, Res.bind]
    rw [Nat.add_assoc, h1]
    exact h3

theorem bitIn_zero (n i : Nat) : bitIn (List.replicate n 0) i = false := by
  unfold bitIn
  rw [List.getElem?_replicate]
  split <;> simp

end Verif.AutoInit
