import Verif.ObjectLemmas
/-!
Lemmas about label names and the entries of src/codegen/rodata.c.
-/
namespace Verif.Object
open Verif Verif.ObjectSpec

/-! ### Decimal numbers -/

/-- A digit. -/
def isDig (b : Byte) : Bool := decide (48 ≤ b.toNat ∧ b.toNat ≤ 57)

theorem dig_toNat {d : Nat} (h : d < 10) : (BitVec.ofNat 8 (48 + d)).toNat = 48 + d := by
  rw [BitVec.toNat_ofNat]; omega

theorem dec_ne_nil (n : Nat) : dec n ≠ [] := by
  unfold dec; split <;> simp

theorem dec_digits (n : Nat) : ∀ b ∈ dec n, isDig b = true := by
  induction n using Nat.strongRecOn with
  | _ n ih =>
    unfold dec
    split
    · next h =>
      intro b hb
      rw [List.mem_singleton.1 hb, isDig, dig_toNat h]
      simp; omega
    · next h =>
      intro b hb
      rcases List.mem_append.1 hb with hb | hb
      · exact ih (n / 10) (by omega) b hb
      · rw [List.mem_singleton.1 hb, isDig, dig_toNat (by omega)]
        simp; omega

/-- The number that decimal digits stand for. -/
def undec (l : Name) : Nat := l.foldl (fun a b => 10 * a + (b.toNat - 48)) 0

theorem undec_dec (n : Nat) : undec (dec n) = n := by
  induction n using Nat.strongRecOn with
  | _ n ih =>
    unfold dec
    split
    · next h => simp only [undec, List.foldl, dig_toNat h]; omega
    · next h =>
      unfold undec
      rw [List.foldl_append]
      have := ih (n / 10) (by omega)
      unfold undec at this
      rw [this]
      simp only [List.foldl, dig_toNat (show n % 10 < 10 by omega)]
      omega

theorem dec_inj {m n : Nat} (h : dec m = dec n) : m = n := by
  rw [← undec_dec m, h, undec_dec]

theorem dec_length {k : Nat} : ∀ {n : Nat}, n < 10 ^ (k + 1) → (dec n).length ≤ k + 1 := by
  induction k with
  | zero => intro n h; unfold dec; rw [if_pos (by omega)]; simp
  | succ k ih =>
    intro n h
    unfold dec
    split
    · simp
    · rw [List.length_append]
      have := ih (n := n / 10) (by rw [Nat.pow_succ] at h; omega)
      simp; omega

/-- Digits followed by a non-digit split in one way. -/
theorem dec_append {m n : Nat} {a b : Name} (ha : ∀ c cs, a = c :: cs → isDig c = false)
    (hb : ∀ c cs, b = c :: cs → isDig c = false) (h : dec m ++ a = dec n ++ b) : m = n ∧ a = b := by
  have key : ∀ (x y : Name), (∀ c ∈ x, isDig c = true) → (∀ c ∈ y, isDig c = true) → x ++ a = y ++ b → x = y ∧ a = b := by
    intro x
    induction x with
    | nil =>
      intro y _ hy e
      cases y with
      | nil => exact ⟨rfl, e⟩
      | cons c y =>
        have := ha c (y ++ b) e
        rw [hy c (by simp)] at this; cases this
    | cons c x ih =>
      intro y hx hy e
      cases y with
      | nil =>
        have := hb c (x ++ a) e.symm
        rw [hx c (by simp)] at this; cases this
      | cons d y =>
        injection e with e1 e2
        obtain ⟨rfl, h2⟩ := ih y (fun c hc => hx c (by simp [hc])) (fun c hc => hy c (by simp [hc])) e2
        exact ⟨by rw [e1], h2⟩
  obtain ⟨h1, h2⟩ := key _ _ (dec_digits m) (dec_digits n) h
  exact ⟨dec_inj h1, h2⟩

theorem ident_first {x : Name} (h : Ident x) : ∀ c cs, x = c :: cs → isDig c = false := by
  rintro c cs rfl
  obtain ⟨_, h2, _⟩ := h
  rw [isDig, decide_eq_false_iff_not]
  intro h
  apply h2
  rw [BitVec.le_def, BitVec.le_def]
  exact h

theorem localVarName_inj {m n : Nat} {a b : Name} (ha : Ident a) (hb : Ident b)
    (h : localVarName m a = localVarName n b) : m = n ∧ a = b := by
  unfold localVarName at h
  rw [List.append_assoc, List.append_assoc] at h
  exact dec_append (ident_first ha) (ident_first hb) (List.append_cancel_left h)

/-! ### Entries -/

theorem findEntry_some {t : EntryType} {n : Name} : ∀ {l : List Entry} {k i : Nat}, findEntry t n l k = some i →
    k ≤ i ∧ l[i - k]? = some ⟨t, n⟩ := by
  intro l
  induction l with
  | nil => intro k i h; cases h
  | cons s l ih =>
    intro k i h
    unfold findEntry at h
    split at h
    · next hs =>
      injection h with h; subst h
      obtain ⟨st, sn⟩ := s
      obtain ⟨rfl, rfl⟩ := hs
      exact ⟨Nat.le_refl _, by simp⟩
    · obtain ⟨h1, h2⟩ := ih h
      refine ⟨by omega, ?_⟩
      rw [show i - k = (i - (k + 1)) + 1 by omega]
      exact h2

theorem findEntry_none {t : EntryType} {n : Name} : ∀ {l : List Entry} {k : Nat}, findEntry t n l k = none →
    ∀ s ∈ l, s ≠ ⟨t, n⟩ := by
  intro l
  induction l with
  | nil => intro k h s hs; cases hs
  | cons s l ih =>
    intro k h u hu
    unfold findEntry at h
    split at h
    · cases h
    · next hs =>
      rcases List.mem_cons.1 hu with rfl | hu
      · rintro rfl; exact hs ⟨rfl, rfl⟩
      · exact ih h u hu

/-- No entry occurs twice. -/
def Distinct (es : List Entry) : Prop := es.Pairwise fun a b => a ≠ b

theorem labelRegister_spec {es : List Entry} (h : Distinct es) (t : EntryType) (s : Name) :
    Distinct (labelRegister es t s).1 ∧ (labelRegister es t s).1[(labelRegister es t s).2]? = some ⟨t, s⟩ ∧
    es <+: (labelRegister es t s).1 ∧ ∀ e ∈ (labelRegister es t s).1, e ∈ es ∨ e = ⟨t, s⟩ := by
  unfold labelRegister
  split
  · next i hi =>
    have := (findEntry_some hi).2
    exact ⟨h, by simpa using this, List.prefix_refl _, fun e he => .inl he⟩
  · next hi =>
    refine ⟨pairwise_snoc (f := fun x => x) h (findEntry_none hi), by simp, List.prefix_append .., ?_⟩
    intro e he
    rcases List.mem_append.1 he with he | he
    · exact .inl he
    · exact .inr (List.mem_singleton.1 he)

theorem registered_spec : ∀ (reqs : List (EntryType × Name)) {es : List Entry}, Distinct es →
    Distinct (registered es reqs) ∧ es <+: registered es reqs ∧
    ∀ e ∈ registered es reqs, e ∈ es ∨ (e.type, e.name) ∈ reqs := by
  intro reqs
  induction reqs with
  | nil => intro es h; exact ⟨h, List.prefix_refl _, fun e he => .inl he⟩
  | cons r rs ih =>
    intro es h
    obtain ⟨h1, _, h3, h4⟩ := labelRegister_spec h r.1 r.2
    obtain ⟨k1, k2, k3⟩ := ih h1
    refine ⟨k1, h3.trans k2, ?_⟩
    intro e he
    rcases k3 e he with he | he
    · rcases h4 e he with he | rfl
      · exact .inl he
      · exact .inr (by simp)
    · exact .inr (by simp [he])

theorem prefix_idx {α : Type} {a b : List α} (h : a <+: b) {i : Nat} {x : α} (hi : a[i]? = some x) :
    b[i]? = some x := by
  obtain ⟨c, rfl⟩ := h
  obtain ⟨hi', _⟩ := List.getElem?_eq_some_iff.1 hi
  rw [List.getElem?_append_left hi', hi]

/-! ### Label names -/

theorem check_ok {n m : Name} (h : (if n.length ≥ 64 then Res.fail else Res.ok n : Res Name) = .ok m) : m = n := by
  split at h
  · cases h
  · injection h with h; exact h.symm

theorem takeWhile_noNul {n : Name} (h : (0 : Byte) ∉ n) : n.takeWhile (· ≠ 0) = n := by
  induction n with
  | nil => rfl
  | cons b n ih =>
    have hb : b ≠ 0 := fun e => h (by simp [e])
    rw [List.takeWhile_cons_of_pos (by simpa using hb), ih (fun h' => h (List.mem_cons_of_mem _ h'))]

theorem ident_noNul {x : Name} (h : Ident x) : (0 : Byte) ∉ x := by
  cases x with
  | nil => exact h.elim
  | cons c cs => exact h.2.2

theorem dec_noNul (n : Nat) : (0 : Byte) ∉ dec n := fun h => absurd (dec_digits n _ h) (by decide)

theorem labelName_noNul {n : Name} (h : LabelName n) : (0 : Byte) ∉ n := by
  rcases h with h | ⟨k, x, hx, rfl⟩
  · exact ident_noNul h
  · intro h0
    unfold localVarName at h0
    rcases List.mem_append.1 h0 with h0 | h0
    · rcases List.mem_append.1 h0 with h0 | h0
      · revert h0; decide
      · exact dec_noNul _ h0
    · exact ident_noNul hx h0

/-- The four shapes of a label's name. -/
theorem getLabel_shape {es : List Entry} (hes : ∀ e ∈ es, e.type = .labelName → LabelName e.name) {id : Int} {n : Name}
    (h : getLabel es id = .ok n) :
    (id < 0 ∧ n = str ".L" ++ dec (-id).toNat) ∨
    (0 ≤ id ∧ (∃ s, es[id.toNat]? = some ⟨.str, s⟩) ∧ n = str ".Ls" ++ dec id.toNat) ∨
    (0 ≤ id ∧ es[id.toNat]? = some ⟨.labelName, n⟩ ∧ LabelName n) := by
  unfold getLabel at h
  dsimp only at h
  split at h
  · next hid => exact .inl ⟨hid, check_ok h⟩
  · next hid =>
    split at h
    · next s he => exact .inr (.inl ⟨by omega, ⟨s, he⟩, check_ok h⟩)
    · next m he =>
      have hl := hes _ (List.mem_of_getElem? he) rfl
      have := check_ok h
      rw [takeWhile_noNul (labelName_noNul hl)] at this
      subst this
      exact .inr (.inr ⟨by omega, he, hl⟩)
    · cases h

theorem labelName_ne_tmp {n : Name} (h : LabelName n) (k : Nat) : n ≠ str ".L" ++ dec k := by
  rcases h with h | ⟨j, x, hx, rfl⟩
  · rintro rfl
    exact h.1 rfl
  · intro e
    have e : ch 'V' :: (str "AR" ++ dec j ++ x) = dec k := by
      have := congrArg (List.drop 2) e
      simpa [localVarName, str] using this
    have := dec_digits k (ch 'V') (by rw [← e]; simp)
    revert this; decide

theorem labelName_ne_str {n : Name} (h : LabelName n) (k : Nat) : n ≠ str ".Ls" ++ dec k := by
  rcases h with h | ⟨j, x, hx, rfl⟩
  · rintro rfl
    exact h.1 rfl
  · intro e
    have := congrArg (fun l => l[2]?) e
    revert this
    simp [localVarName, str, ch]

theorem tmp_ne_str (k j : Nat) : str ".L" ++ dec k ≠ str ".Ls" ++ dec j := by
  intro e
  have e : dec k = ch 's' :: dec j := by
    have := congrArg (List.drop 2) e
    simpa [str] using this
  have := dec_digits k (ch 's') (by rw [e]; simp)
  revert this; decide

theorem getLabel_inj {es : List Entry} (hd : Distinct es) (hes : ∀ e ∈ es, e.type = .labelName → LabelName e.name)
    {i j : Int} {n : Name} (hi : getLabel es i = .ok n) (hj : getLabel es j = .ok n) : i = j := by
  rcases getLabel_shape hes hi with ⟨i1, i2⟩ | ⟨i1, ⟨s, i2⟩, i3⟩ | ⟨i1, i2, i3⟩
  · rcases getLabel_shape hes hj with ⟨j1, j2⟩ | ⟨j1, ⟨t, j2⟩, j3⟩ | ⟨j1, j2, j3⟩
    · rw [i2] at j2
      have := dec_inj (List.append_cancel_left j2)
      omega
    · exact absurd (i2.symm.trans j3) (tmp_ne_str _ _)
    · exact absurd i2 (labelName_ne_tmp j3 _)
  · rcases getLabel_shape hes hj with ⟨j1, j2⟩ | ⟨j1, ⟨t, j2⟩, j3⟩ | ⟨j1, j2, j3⟩
    · exact absurd (j2.symm.trans i3) (tmp_ne_str _ _)
    · rw [i3] at j3
      have := dec_inj (List.append_cancel_left j3)
      omega
    · exact absurd i3 (labelName_ne_str j3 _)
  · rcases getLabel_shape hes hj with ⟨j1, j2⟩ | ⟨j1, ⟨t, j2⟩, j3⟩ | ⟨j1, j2, j3⟩
    · exact absurd j2 (labelName_ne_tmp i3 _)
    · exact absurd j3 (labelName_ne_str i3 _)
    · have := pairwise_idx (f := fun x => x) hd i2 j2 rfl
      omega

/-! ### Stability of symbols -/

/-- The symbols of `o` keep their places and names in `o'`. -/
def Keeps (o o' : Obj) : Prop :=
  ∀ (i : Nat) s, o.symbols[i]? = some s → ∃ t, o'.symbols[i]? = some t ∧ t.name = s.name

theorem Keeps.refl (o : Obj) : Keeps o o := fun _ s h => ⟨s, h, rfl⟩

theorem Keeps.trans {a b c : Obj} (h1 : Keeps a b) (h2 : Keeps b c) : Keeps a c := by
  intro i s hs
  obtain ⟨t, ht, hn⟩ := h1 i s hs
  obtain ⟨u, hu, hm⟩ := h2 i t ht
  exact ⟨u, hu, hm.trans hn⟩

theorem keeps_of_eq {o o' : Obj} (h : o'.symbols = o.symbols) : Keeps o o' := by
  intro i s hs; exact ⟨s, by rw [h]; exact hs, rfl⟩

theorem onSection_symbols {o o' : Obj} {f : Section → Section} (h : onSection o f = .ok o') : o'.symbols = o.symbols := by
  unfold onSection at h
  split at h
  · injection h with h; subst h; rfl
  · cases h

theorem getSymbol_spec {es : List Entry} {o o' : Obj} {id : Int} {i : Nat} {n : Name}
    (hp : o.symbols.Pairwise fun a b => a.name ≠ b.name) (hid : id ≠ -1) (hl : getLabel es id = .ok n)
    (h : getSymbol es o id = .ok (o', i)) :
    Keeps o o' ∧ (o'.symbols.Pairwise fun a b => a.name ≠ b.name) ∧
    ∃ s, o'.symbols[i]? = some s ∧ s.name = some n := by
  unfold getSymbol at h
  rw [hl, Res.bind_ok] at h
  cases hf : findSymbol n o.symbols 0 with
  | some j =>
    rw [hf] at h
    injection h with h
    injection h with h1 h2
    subst h1 h2
    obtain ⟨_, s, hs, hn⟩ := findSymbol_some hf
    exact ⟨Keeps.refl _, hp, s, by simpa using hs, hn⟩
  | none =>
    rw [hf] at h
    dsimp only at h
    rw [if_pos hid] at h
    injection h with h
    injection h with h1 h2
    subst h1 h2
    refine ⟨?_, pairwise_snoc hp (findSymbol_none hf), { name := some n }, by simp, rfl⟩
    intro i s hs
    obtain ⟨hi', _⟩ := List.getElem?_eq_some_iff.1 hs
    exact ⟨s, by show (o.symbols ++ [_])[i]? = _; rw [List.getElem?_append_left hi', hs], rfl⟩

/-- A label other than the null label. -/
def OpOk : Op → Prop
  | .label _ id => id ≠ -1
  | .reloc id _ _ _ => id ≠ -1
  | _ => True

theorem keeps_step {es : List Entry} {o o' : Obj} {op : Op} (hop : OpOk op)
    (hp : o.symbols.Pairwise fun a b => a.name ≠ b.name) (h : step es o op = .ok o') :
    Keeps o o' ∧ o'.symbols.Pairwise fun a b => a.name ≠ b.name := by
  have same : ∀ {a b : Obj}, b.symbols = a.symbols → (a.symbols.Pairwise fun a b => a.name ≠ b.name) →
      Keeps a b ∧ b.symbols.Pairwise fun a b => a.name ≠ b.name :=
    fun e hp => ⟨keeps_of_eq e, by rw [e]; exact hp⟩
  have hw : ∀ {a b : Obj} {bs}, write a bs = .ok b → b.symbols = a.symbols := fun h => onSection_symbols h
  cases op with
  | sect n =>
    have h : Res.ok (setSection o n) = .ok o' := h
    injection h with h
    subst h
    refine same ?_ hp
    unfold setSection; split <;> rfl
  | write bs => exact same (hw h) hp
  | quad x =>
    have h : writeQuad o x = .ok o' := h
    unfold writeQuad at h
    obtain ⟨o1, e1, h⟩ := Res.bind_eq_ok.1 h
    obtain ⟨o2, e2, h⟩ := Res.bind_eq_ok.1 h
    obtain ⟨o3, e3, h⟩ := Res.bind_eq_ok.1 h
    obtain ⟨o4, e4, h⟩ := Res.bind_eq_ok.1 h
    obtain ⟨o5, e5, h⟩ := Res.bind_eq_ok.1 h
    obtain ⟨o6, e6, h⟩ := Res.bind_eq_ok.1 h
    obtain ⟨o7, e7, h⟩ := Res.bind_eq_ok.1 h
    refine same ?_ hp
    rw [hw h, hw e7, hw e6, hw e5, hw e4, hw e3, hw e2, hw e1]
  | zero n => exact same (hw h) hp
  | align n =>
    have h : align o n = .ok o' := h
    unfold align at h
    split at h
    · cases h
    · split at h
      · cases h
      · dsimp only at h
        split at h
        · injection h with h; subst h; exact same rfl hp
        · obtain ⟨o1, e1, h⟩ := Res.bind_eq_ok.1 h
          exact same (by rw [onSection_symbols h, hw e1]) hp
  | label g id =>
    have h : symbolSet es o id g = .ok o' := h
    unfold symbolSet at h
    split at h
    · cases h
    · obtain ⟨⟨o1, i⟩, e1, h⟩ := Res.bind_eq_ok.1 h
      dsimp only at h
      have e1' := e1
      unfold getSymbol at e1'
      obtain ⟨n, hl, _⟩ := Res.bind_eq_ok.1 e1'
      obtain ⟨k1, k2, y, k3, k4⟩ := getSymbol_spec hp hop hl e1
      rw [k3] at h
      injection h with h
      subst h
      have hlt := (List.getElem?_eq_some_iff.1 k3).1
      refine ⟨k1.trans ?_, pairwise_set k2 k3 rfl⟩
      intro j z hz
      show ∃ t, (o1.symbols.set i _)[j]? = some t ∧ _
      rw [List.getElem?_set]
      by_cases hj : i = j
      · subst hj
        rw [k3] at hz
        injection hz with hz
        subst hz
        rw [if_pos rfl, if_pos hlt]
        exact ⟨_, rfl, rfl⟩
      · rw [if_neg hj]; exact ⟨z, hz, rfl⟩
  | reloc id off add ty =>
    have h : symbolRelocate es o id off add ty = .ok o' := h
    unfold symbolRelocate at h
    obtain ⟨⟨o1, i⟩, e1, h⟩ := Res.bind_eq_ok.1 h
    have e1' := e1
    unfold getSymbol at e1'
    obtain ⟨n, hl, _⟩ := Res.bind_eq_ok.1 e1'
    obtain ⟨k1, k2, _⟩ := getSymbol_spec hp hop hl e1
    have := onSection_symbols h
    exact ⟨k1.trans (keeps_of_eq this), by rw [this]; exact k2⟩

theorem keeps_run {es : List Entry} : ∀ {ops : List Op} {o o' : Obj}, (∀ op ∈ ops, OpOk op) →
    (o.symbols.Pairwise fun a b => a.name ≠ b.name) → run es o ops = .ok o' →
    Keeps o o' ∧ o'.symbols.Pairwise fun a b => a.name ≠ b.name := by
  intro ops
  induction ops with
  | nil => intro o o' _ hp h; injection h with h; subst h; exact ⟨Keeps.refl _, hp⟩
  | cons op ops ih =>
    intro o o' hop hp h
    rw [run] at h
    obtain ⟨o1, e1, h⟩ := Res.bind_eq_ok.1 h
    obtain ⟨k1, k2⟩ := keeps_step (hop op (by simp)) hp e1
    obtain ⟨k3, k4⟩ := ih (fun op h => hop op (by simp [h])) k2 h
    exact ⟨k1.trans k3, k4⟩

/-! ### Read-only data -/

/-- The calls of `rodata_codegen` by name. -/
def rodataCalls : List Entry → Nat → List Call
  | [], _ => []
  | e :: es, i =>
    (if e.type = .str then [.define (str ".Ls" ++ dec i) false, .emit e.name, .emit [0]] else []) ++
      rodataCalls es (i + 1)

theorem callsOf_append {es : List Entry} : ∀ {a b : List Op} {c d : List Call}, CallsOf es a c → CallsOf es b d →
    CallsOf es (a ++ b) (c ++ d) := by
  intro a
  induction a with
  | nil => intro b c d h1 h2; cases c with
    | nil => exact h2
    | cons _ _ => exact h1.elim
  | cons x a ih => intro b c d h1 h2; cases c with
    | nil => exact h1.elim
    | cons y c => exact ⟨h1.1, ih h1.2 h2⟩

theorem getLabel_str {es : List Entry} {i : Nat} {s : Name} (h : es[i]? = some ⟨.str, s⟩) (hi : i < 2 ^ 31) :
    getLabel es (i : Int) = .ok (str ".Ls" ++ dec i) := by
  unfold getLabel
  dsimp only
  rw [if_neg (by omega)]
  simp only [Int.toNat_natCast, h]
  rw [if_neg]
  have := dec_length (k := 9) (n := i) (by omega)
  rw [List.length_append]
  have : (str ".Ls").length = 3 := rfl
  omega

theorem rodataEntries_calls {es : List Entry} (hlen : es.length ≤ 2 ^ 31) : ∀ (fs : List Entry) (i : Nat),
    (∀ j, fs[j]? = es[i + j]?) → CallsOf es (rodataEntries fs i) (rodataCalls fs i) := by
  intro fs
  induction fs with
  | nil => intro i _; trivial
  | cons e fs ih =>
    intro i h
    unfold rodataEntries rodataCalls
    have hrest : CallsOf es (rodataEntries fs (i + 1)) (rodataCalls fs (i + 1)) := by
      apply ih
      intro j
      have := h (j + 1)
      rw [show i + 1 + j = i + (j + 1) by omega, ← this]
      rfl
    apply callsOf_append _ hrest
    split
    · next ht =>
      have he := h 0
      simp only [List.getElem?_cons_zero, Nat.add_zero] at he
      obtain ⟨et, en⟩ := e
      have ht : et = .str := ht
      subst ht
      have hlt := (List.getElem?_eq_some_iff.1 he.symm).1
      exact ⟨⟨_, getLabel_str he.symm (by omega), by omega, rfl⟩, rfl, rfl, trivial⟩
    · trivial

theorem occurs_append {l x : List Byte} {p : Nat} (h : Occurs l x p) (m : List Byte) : Occurs (l ++ m) x p := by
  obtain ⟨a, b, rfl, hp⟩ := h
  exact ⟨a, b ++ m, by simp, hp⟩

/-- The string `s` is under the name `n` in `.rodata`. -/
def Holds (v : View) (n : Name) (s : List Byte) : Prop :=
  ∃ d, v.defs n = some d ∧ d.sect = str ".rodata" ∧ d.global = false ∧ Occurs (v.content (str ".rodata")) s d.pos

theorem holds_step {v : View} {n : Name} {s : List Byte} (h : Holds v n s) {c : Call} (hc : ∀ g, c ≠ .define n g) :
    Holds (ObjectSpec.step v c) n s := by
  obtain ⟨d, h1, h2, h3, h4⟩ := h
  have app : ∀ bs, Occurs (upd v.content v.cur (v.content v.cur ++ bs) (str ".rodata")) s d.pos := by
    intro bs
    by_cases hr : str ".rodata" = v.cur
    · rw [← hr, upd_same]; exact occurs_append h4 bs
    · rw [upd_other _ _ hr]; exact h4
  cases c with
  | sect m => exact ⟨d, h1, h2, h3, h4⟩
  | emit bs => exact ⟨d, h1, h2, h3, app bs⟩
  | align k => exact ⟨d, h1, h2, h3, app _⟩
  | define m g =>
    refine ⟨d, ?_, h2, h3, h4⟩
    show upd v.defs m _ n = _
    rw [upd_other _ _ (fun e => hc g (by rw [e]))]
    exact h1
  | refer r => exact ⟨d, h1, h2, h3, h4⟩

theorem holds_foldl {n : Name} {s : List Byte} : ∀ {cs : List Call} {v : View}, Holds v n s →
    (∀ c ∈ cs, ∀ g, c ≠ .define n g) → Holds (cs.foldl ObjectSpec.step v) n s := by
  intro cs
  induction cs with
  | nil => intro v h _; exact h
  | cons c cs ih =>
    intro v h hc
    exact ih (holds_step h (hc c (by simp))) (fun c h => hc c (by simp [h]))

theorem rodataCalls_defs : ∀ (fs : List Entry) (i : Nat) (c : Call), c ∈ rodataCalls fs i → ∀ n g, c = .define n g →
    ∃ j, i ≤ j ∧ n = str ".Ls" ++ dec j := by
  intro fs
  induction fs with
  | nil => intro i c hc; cases hc
  | cons e fs ih =>
    intro i c hc n g he
    unfold rodataCalls at hc
    rcases List.mem_append.1 hc with hc | hc
    · split at hc
      · subst he
        simp at hc
        exact ⟨i, Nat.le_refl _, hc.1⟩
      · cases hc
    · obtain ⟨j, hj, hn⟩ := ih (i + 1) c hc n g he
      exact ⟨j, by omega, hn⟩

theorem rodata_holds : ∀ (fs : List Entry) (i : Nat) {v : View}, v.cur = str ".rodata" → ∀ (k : Nat) (s : Name),
    fs[k]? = some ⟨.str, s⟩ →
    Holds ((rodataCalls fs i).foldl ObjectSpec.step v) (str ".Ls" ++ dec (i + k)) (s ++ [0]) := by
  intro fs
  induction fs with
  | nil => intro i v _ k s h; cases h
  | cons e fs ih =>
    intro i v hcur k s h
    unfold rodataCalls
    rw [List.foldl_append]
    cases k with
    | succ k =>
      have h : fs[k]? = some ⟨.str, s⟩ := h
      rw [show i + (k + 1) = i + 1 + k by omega]
      apply ih (i + 1) _ k s h
      split
      · exact hcur
      · exact hcur
    | zero =>
      simp only [List.getElem?_cons_zero, Option.some.injEq] at h
      subst h
      apply holds_foldl
      · rw [if_pos rfl]
        refine ⟨⟨v.cur, (v.content v.cur).length, false⟩, ?_, hcur, rfl, ?_⟩
        · show upd v.defs _ _ _ = _
          rw [Nat.add_zero, upd_same]
        · simp only [List.foldl, ObjectSpec.step, hcur, upd_same]
          exact ⟨v.content (str ".rodata"), [], by simp, rfl⟩
      · intro c hc g e
        obtain ⟨j, hj, hn⟩ := rodataCalls_defs fs (i + 1) c hc _ g e
        have := dec_inj (List.append_cancel_left hn)
        omega

end Verif.Object
