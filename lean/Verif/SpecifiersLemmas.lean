import Verif.SpecifiersSpec
namespace Verif.Specifiers
open Verif Simple

/-- The flags of a keyword. -/
def flagsOf (t : TType) : Option (List Flag) := (chainTable.find? (fun r => r.1 == t)).map (·.2)

/-- One keyword. -/
def absorb1 (t : TType) (s : Flags) : Option Flags :=
  match flagsOf t with
  | none => none
  | some fs => match tryFlags fs s with
    | (true, _) => none
    | (false, s') => some s'

/-- A sequence of keywords. -/
def absorb : List TType → Flags → Option Flags
  | [], s => some s
  | t :: ts, s => (absorb1 t s).bind (absorb ts)

theorem absorb_append (a b : List TType) : ∀ s, absorb (a ++ b) s = (absorb a s).bind (absorb b) := by
  induction a with
  | nil => intro s; rfl
  | cons t a ih =>
    intro s
    rw [List.cons_append, absorb, absorb]
    cases absorb1 t s with
    | none => rfl
    | some m => exact ih m

theorem flagsOf_table : ∀ r ∈ chainTable, flagsOf r.1 = some r.2 ∧ r.1 ∈ typeKeywords := by decide

theorem table_flagsOf : ∀ t ∈ typeKeywords, ∃ fs, (t, fs) ∈ chainTable := by
  intro t ht
  simp only [typeKeywords, List.mem_cons, List.not_mem_nil, or_false] at ht
  rcases ht with rfl | rfl | rfl | rfl | rfl | rfl | rfl | rfl | rfl | rfl | rfl <;> exact ⟨_, by simp [chainTable]; rfl⟩

theorem chain_spec : ∀ (tb : List (TType × List Flag)) (s : St), (∀ r ∈ tb, r ∈ chainTable) →
    ∃ pre rest, s.toks = pre ++ rest ∧ (∀ t ∈ pre, t ∈ typeKeywords) ∧
      (∀ t u, s.toks.head? = some t → (t, u) ∈ tb → pre ≠ []) ∧
      ((chain tb s = .fail ∧ absorb pre s.flags = none) ∨
       ∃ fl, absorb pre s.flags = some fl ∧ chain tb s = .ok ⟨rest, fl, s.constN⟩) := by
  intro tb
  induction tb with
  | nil =>
    intro s _
    exact ⟨[], s.toks, rfl, by simp, by simp, .inr ⟨s.flags, rfl, rfl⟩⟩
  | cons r tb ih =>
    intro s hr
    obtain ⟨t, fs⟩ := r
    obtain ⟨hfl, hkw⟩ := flagsOf_table (t, fs) (hr _ List.mem_cons_self)
    have hr' : ∀ r ∈ tb, r ∈ chainTable := fun r h => hr r (List.mem_cons_of_mem _ h)
    cases htoks : s.toks with
    | nil =>
      obtain ⟨pre, rest, h1, h2, h3, h4⟩ := ih s hr'
      rw [htoks] at h1
      refine ⟨pre, rest, h1, h2, by simp, ?_⟩
      rw [chain, htoks]; exact h4
    | cons u us =>
      rw [chain, htoks]
      simp only
      by_cases hu : u = t
      · subst hu
        rw [if_pos rfl]
        cases e : tryFlags fs s.flags with
        | mk b fl =>
        cases b with
        | true =>
          refine ⟨[u], us, rfl, by simpa using hkw, by simp, .inl ⟨rfl, ?_⟩⟩
          simp [absorb, absorb1, hfl, e]
        | false =>
          obtain ⟨pre, rest, h1, h2, h3, h4⟩ := ih { s with toks := us, flags := fl } hr'
          simp only at h1
          refine ⟨u :: pre, rest, by rw [h1]; rfl, ?_, by simp, ?_⟩
          · intro x hx
            rcases List.mem_cons.mp hx with rfl | hx
            · exact hkw
            · exact h2 x hx
          · have : absorb (u :: pre) s.flags = absorb pre fl := by
              rw [absorb, absorb1, hfl]; simp [e]
            rw [this]
            exact h4
      · rw [if_neg hu]
        obtain ⟨pre, rest, h1, h2, h3, h4⟩ := ih s hr'
        rw [htoks] at h1
        refine ⟨pre, rest, h1, h2, ?_, h4⟩
        intro x y hx hxy
        simp only [List.head?_cons, Option.some.injEq] at hx
        subst hx
        rcases List.mem_cons.mp hxy with hxy | hxy
        · exact absurd (Prod.mk.inj hxy).1 hu
        · exact h3 u y (by rw [htoks]; rfl) hxy

theorem tryFlags_grows : ∀ (fs : List Flag) (s s' : Flags), tryFlags fs s = (false, s') →
    (∃ f, s f = false ∧ s' f = true) ∧ (∀ f, s f = true → s' f = true) := by
  intro fs
  induction fs with
  | nil => intro s s' h; simp [tryFlags] at h
  | cons f fs ih =>
    intro s s' h
    rw [tryFlags, setSbit] at h
    by_cases hf : s f = true
    · rw [if_pos hf] at h; exact ih s s' h
    · rw [if_neg hf] at h
      simp only [Prod.mk.injEq, true_and] at h
      subst h
      exact ⟨⟨f, by simpa using hf, by simp⟩, fun g hg => by simp only; split <;> simp [hg]⟩

theorem absorb_mono : ∀ (l : List TType) (s s' : Flags), absorb l s = some s' → ∀ f, s f = true → s' f = true := by
  intro l
  induction l with
  | nil => intro s s' h f hf; simp [absorb] at h; rwa [← h]
  | cons t l ih =>
    intro s s' h f hf
    rw [absorb, absorb1] at h
    cases e : flagsOf t with
    | none => rw [e] at h; simp at h
    | some fs =>
      rw [e] at h
      simp only at h
      cases e2 : tryFlags fs s with
      | mk b m =>
      rw [e2] at h
      cases b with
      | true => simp at h
      | false => exact ih m s' h f ((tryFlags_grows fs s m e2).2 f hf)

theorem absorb_grows {t : TType} {l : List TType} {s s' : Flags} (h : absorb (t :: l) s = some s') :
    sameFlags s' s = false := by
  rw [absorb, absorb1] at h
  cases e : flagsOf t with
  | none => rw [e] at h; simp at h
  | some fs =>
    rw [e] at h
    simp only at h
    cases e2 : tryFlags fs s with
    | mk b m =>
    rw [e2] at h
    cases b with
    | true => simp at h
    | false =>
      obtain ⟨f, h1, h2⟩ := (tryFlags_grows fs s m e2).1
      have h3 := absorb_mono l m s' h f h2
      cases hs : sameFlags s' s with
      | false => rfl
      | true =>
        simp only [sameFlags, List.all_eq_true, beq_iff_eq] at hs
        have := hs f (by cases f <;> simp)
        rw [h1, h3] at this; simp at this

theorem sameFlags_refl (s : Flags) : sameFlags s s = true := by simp [sameFlags]

theorem counted_eq : counted = otherKeywords := rfl

theorem disjoint_keywords : ∀ t ∈ otherKeywords, t ∉ typeKeywords ∧ t ≠ .T_KATOMIC := by decide

theorem loop_spec : ∀ (n fuel : Nat) (ks rest : List TType) (fl : Flags) (c : Nat), ks.length = n → n < fuel → IsSpecifiers ks rest →
    loop fuel ⟨ks ++ rest, fl, c⟩ = match absorb (typeSpecifiers ks) fl with
      | none => .fail
      | some fl' => .ok ⟨rest, fl', c + ks.count .T_KCONST⟩ := by
  intro n
  induction n using Nat.strongRecOn with
  | _ n ih =>
    intro fuel ks rest fl c hn hf hk
    obtain ⟨fuel, rfl⟩ : ∃ f, fuel = f + 1 := ⟨fuel - 1, by omega⟩
    rw [loop, parseSpecifier]
    obtain ⟨pre, r, h1, h2, h3, h4⟩ := chain_spec chainTable ⟨ks ++ rest, fl, c⟩ (fun r hr => hr)
    simp only at h1 h4
    -- the keywords consumed belong to `ks`
    obtain ⟨ks', hks, hr⟩ : ∃ ks', ks = pre ++ ks' ∧ r = ks' ++ rest := by
      rcases List.append_eq_append_iff.mp h1 with ⟨a, h5, h6⟩ | ⟨a, h5, h6⟩
      · cases a with
        | nil => exact ⟨[], by simpa using h5.symm, by simpa using h6.symm⟩
        | cons x a =>
          exfalso
          have hx : x ∈ pre := by rw [h5]; simp
          exact (hk.stop x (by rw [h6]; rfl)).1 (h2 x hx)
      · exact ⟨a, h5, h6⟩
    subst hr
    have hts : typeSpecifiers ks = pre ++ typeSpecifiers ks' := by
      rw [hks, typeSpecifiers, List.filter_append]
      congr 1
      rw [List.filter_eq_self]
      intro t ht; simpa using h2 t ht
    have hcount : ks.count .T_KCONST = ks'.count .T_KCONST := by
      rw [hks, List.count_append]
      have : pre.count .T_KCONST = 0 := by
        rw [List.count_eq_zero]
        intro hc
        have := h2 _ hc
        revert this; decide
      omega
    have hk' : IsSpecifiers ks' rest :=
      ⟨fun t ht => hk.all t (by rw [hks]; exact List.mem_append_right _ ht), hk.stop⟩
    rcases h4 with ⟨h4, h5⟩ | ⟨fl', h5, h4⟩
    · rw [h4, hts, absorb_append, h5]; rfl
    · rw [h4]
      simp only [bind, Res.bind]
      cases hp : pre with
      | cons t pre' =>
        rw [hp] at h5
        rw [absorb_grows h5]
        simp only [if_true, pure]
        have hlt : ks'.length < n := by
          rw [hks, hp] at hn; simp at hn; omega
        rw [ih ks'.length hlt fuel ks' rest fl' c rfl (by omega) hk', hts, hp, absorb_append, h5, hcount]
        rfl
      | nil =>
        rw [hp] at h5 hks hts
        simp only [absorb, Option.some.injEq] at h5
        subst h5
        rw [sameFlags_refl]
        simp only [Bool.true_eq_false, if_false]
        simp only [List.nil_append] at hks hts
        cases hk2 : ks' with
        | nil =>
          rw [hk2] at hks
          subst hks
          simp only [List.nil_append]
          have hfin : ∀ x : Bool × St, x = (false, ⟨rest, fl, c⟩) →
              (if x.1 = true then loop fuel x.2 else pure x.2) = (.ok ⟨rest, fl, c⟩ : Res St) := by rintro _ rfl; rfl
          cases hrest : rest with
          | nil => rfl
          | cons t ts =>
            have hst := hk.stop t (by rw [hrest]; rfl)
            simp only
            rw [if_neg hst.2.2, if_neg (by rw [counted_eq]; exact hst.2.1)]
            rfl
        | cons t ts =>
          rw [hk2] at hks
          have htn : t ∉ typeKeywords := by
            intro htk
            obtain ⟨fs, hfs⟩ := table_flagsOf t htk
            exact h3 t fs (by rw [hks]; rfl) hfs hp
          have hto : t ∈ otherKeywords := by
            rcases hk.all t (by rw [hks]; exact List.mem_cons_self) with h | h
            · exact absurd h htn
            · exact h
          simp only [List.cons_append]
          rw [if_neg (disjoint_keywords t hto).2, if_pos (by rw [counted_eq]; exact hto)]
          simp only [pure, if_true]
          have hk3 : IsSpecifiers ts rest :=
            ⟨fun x hx => hk.all x (by rw [hks]; exact List.mem_cons_of_mem _ hx), hk.stop⟩
          rw [ih ts.length (by rw [hks] at hn; simp at hn; omega) fuel ts rest fl _ rfl (by rw [hks] at hn; simp at hn; omega) hk3]
          have : typeSpecifiers ks = typeSpecifiers ts := by
            rw [hks, typeSpecifiers, List.filter_cons_of_neg (by simpa using htn)]; rfl
          rw [this, hks, List.count_cons]
          cases absorb (typeSpecifiers ts) fl with
          | none => rfl
          | some m =>
            simp only
            by_cases ht : t = .T_KCONST
            · subst ht; simp; omega
            · rw [if_neg ht, if_neg (by simpa using ht)]; simp

/-! ### Counting keywords -/

/-- The keyword that sets a flag. -/
def kw : Flag → TType
  | .void => .T_KVOID | .char => .T_KCHAR | .short => .T_KSHORT | .int => .T_KINT | .long1 => .T_KLONG | .long2 => .T_KLONG
  | .float => .T_KFLOAT | .double => .T_KDOUBLE | .signed => .T_KSIGNED | .unsigned => .T_KUNSIGNED | .bool => .T_KBOOL
  | .complex => .T_KCOMPLEX

/-- How many of them must come before. -/
def idx : Flag → Nat
  | .long2 => 1
  | _ => 0

/-- How often a keyword may occur. -/
def lim : TType → Nat
  | .T_KLONG => 2
  | _ => 1

/-- The flags of a multiset of keywords. -/
def flOf (l : List TType) : Flags := fun f => decide (idx f < l.count (kw f))

/-- No keyword too often. -/
def Valid (l : List TType) : Prop := ∀ t ∈ typeKeywords, l.count t ≤ lim t

theorem absorb1_single {t : TType} {f : Flag} (h1 : flagsOf t = some [f]) (h2 : kw f = t) (h3 : idx f = 0) (h4 : lim t = 1)
    (h5 : ∀ g, g ≠ f → kw g ≠ t) (l : List TType) (hl : l.count t ≤ lim t) :
    absorb1 t (flOf l) = if l.count t < lim t then some (flOf (t :: l)) else none := by
  have hf : flOf l f = decide (0 < l.count t) := by rw [flOf, h2, h3]
  simp only [absorb1, h1, tryFlags, setSbit]
  rw [h4] at hl ⊢
  rcases (by omega : l.count t = 0 ∨ l.count t = 1) with h | h
  · rw [h] at hf
    simp only [Nat.lt_irrefl, decide_false] at hf
    rw [hf, h]
    simp only [Bool.false_eq_true, if_false, Nat.zero_lt_one, if_true, Option.some.injEq]
    funext g
    by_cases hg : g = f
    · subst hg
      simp [flOf, h2, h3]
    · simp only [hg, if_false, flOf]
      rw [List.count_cons, if_neg (by simpa using Ne.symm (h5 g hg))]
      rfl
  · rw [h] at hf
    rw [hf, h]
    simp

theorem absorb1_long (l : List TType) (hl : l.count .T_KLONG ≤ 2) :
    absorb1 .T_KLONG (flOf l) = if l.count .T_KLONG < 2 then some (flOf (.T_KLONG :: l)) else none := by
  have e : flagsOf .T_KLONG = some [.long1, .long2] := rfl
  have f1 : flOf l .long1 = decide (0 < l.count .T_KLONG) := rfl
  have f2 : flOf l .long2 = decide (1 < l.count .T_KLONG) := rfl
  have hother : ∀ g, g ≠ .long1 → g ≠ .long2 → flOf (.T_KLONG :: l) g = flOf l g := by
    intro g h1 h2
    simp only [flOf]
    rw [List.count_cons, if_neg]
    · rfl
    · cases g <;> simp [kw] <;> simp at h1 h2
  simp only [absorb1, e, tryFlags, setSbit]
  rcases (by omega : l.count .T_KLONG = 0 ∨ l.count .T_KLONG = 1 ∨ l.count .T_KLONG = 2) with h | h | h
  · rw [h] at f1 f2
    simp only [Nat.lt_irrefl, decide_false] at f1
    simp only [f1, h]
    simp only [Bool.false_eq_true, if_false, Nat.zero_lt_two, if_true, Option.some.injEq]
    funext g
    by_cases hg : g = .long1
    · subst hg; simp [flOf, kw, idx]
    · simp only [hg, if_false]
      by_cases hg2 : g = .long2
      · subst hg2; simp [flOf, kw, idx, h]
      · exact (hother g hg hg2).symm
  · rw [h] at f1 f2
    simp only [Nat.lt_irrefl, decide_false, Nat.zero_lt_one, decide_true] at f1 f2
    simp only [f1, h]
    simp only [if_true, Nat.one_lt_two]
    rw [f2]
    simp only [Bool.false_eq_true, if_false, Option.some.injEq]
    funext g
    by_cases hg : g = .long2
    · subst hg; simp [flOf, kw, idx, h]
    · simp only [hg, if_false]
      by_cases hg2 : g = .long1
      · subst hg2; simp [flOf, kw, idx, h]
      · exact (hother g hg2 hg).symm
  · rw [h] at f1 f2
    simp only [Nat.zero_lt_two, Nat.one_lt_two, decide_true] at f1 f2
    simp [f1, f2, h]

theorem absorb1_spec {t : TType} (ht : t ∈ typeKeywords) (l : List TType) (hv : Valid l) :
    absorb1 t (flOf l) = if l.count t < lim t then some (flOf (t :: l)) else none := by
  have hl := hv t ht
  simp only [typeKeywords, List.mem_cons, List.not_mem_nil, or_false] at ht
  rcases ht with rfl | rfl | rfl | rfl | rfl | rfl | rfl | rfl | rfl | rfl | rfl
  · exact absorb1_single (f := .void) rfl rfl rfl rfl (by intro g hg; cases g <;> simp_all [kw]) l hl
  · exact absorb1_single (f := .char) rfl rfl rfl rfl (by intro g hg; cases g <;> simp_all [kw]) l hl
  · exact absorb1_single (f := .short) rfl rfl rfl rfl (by intro g hg; cases g <;> simp_all [kw]) l hl
  · exact absorb1_single (f := .int) rfl rfl rfl rfl (by intro g hg; cases g <;> simp_all [kw]) l hl
  · exact absorb1_long l hl
  · exact absorb1_single (f := .float) rfl rfl rfl rfl (by intro g hg; cases g <;> simp_all [kw]) l hl
  · exact absorb1_single (f := .double) rfl rfl rfl rfl (by intro g hg; cases g <;> simp_all [kw]) l hl
  · exact absorb1_single (f := .signed) rfl rfl rfl rfl (by intro g hg; cases g <;> simp_all [kw]) l hl
  · exact absorb1_single (f := .unsigned) rfl rfl rfl rfl (by intro g hg; cases g <;> simp_all [kw]) l hl
  · exact absorb1_single (f := .bool) rfl rfl rfl rfl (by intro g hg; cases g <;> simp_all [kw]) l hl
  · exact absorb1_single (f := .complex) rfl rfl rfl rfl (by intro g hg; cases g <;> simp_all [kw]) l hl

theorem flOf_perm {a b : List TType} (h : a.Perm b) : flOf a = flOf b := by
  funext f; simp only [flOf]; rw [h.count_eq]

theorem absorb_spec : ∀ (l prev : List TType), (∀ t ∈ l, t ∈ typeKeywords) → Valid prev →
    (absorb l (flOf prev) = none ∧ ¬ Valid (l ++ prev)) ∨ (absorb l (flOf prev) = some (flOf (l ++ prev)) ∧ Valid (l ++ prev)) := by
  intro l
  induction l with
  | nil => intro prev _ hv; exact .inr ⟨rfl, hv⟩
  | cons t l ih =>
    intro prev hl hv
    have ht := hl t List.mem_cons_self
    have hperm : (t :: l ++ prev).Perm (l ++ t :: prev) := (List.perm_middle).symm
    have hvp : Valid (t :: l ++ prev) ↔ Valid (l ++ t :: prev) := by
      constructor
      · intro h x hx; rw [← hperm.count_eq]; exact h x hx
      · intro h x hx; rw [hperm.count_eq]; exact h x hx
    rw [absorb, absorb1_spec ht prev hv, flOf_perm hperm, hvp]
    by_cases hc : prev.count t < lim t
    · rw [if_pos hc]
      have hv' : Valid (t :: prev) := by
        intro x hx
        rw [List.count_cons]
        by_cases hx2 : t = x
        · subst hx2; simp; omega
        · rw [if_neg (by simpa using hx2)]; exact hv x hx
      exact ih (t :: prev) (fun x hx => hl x (List.mem_cons_of_mem _ hx)) hv'
    · rw [if_neg hc]
      refine .inl ⟨rfl, fun h => ?_⟩
      have := h t ht
      rw [List.count_append, List.count_cons] at this
      simp at this
      omega

theorem allowed_types : ∀ r ∈ allowed, specifiersToType (flOf r.2) = .ok (if r.1 = .ldouble then .double else r.1) := by
  decide +kernel

theorem allowed_valid : ∀ r ∈ allowed, (∀ t ∈ typeKeywords, r.2.count t ≤ lim t) ∧ (∀ t ∈ r.2, t ∈ typeKeywords) := by
  decide +kernel

theorem table_allowed : ∀ row ∈ specTable, ∃ r ∈ allowed, sameFlags (mask row.2) (flOf r.2) = true := by
  decide +kernel

theorem sameFlags_iff {s t : Flags} : sameFlags s t = true ↔ s = t := by
  constructor
  · intro h
    simp only [sameFlags, List.all_eq_true, beq_iff_eq] at h
    funext f
    exact h f (by cases f <;> simp)
  · rintro rfl; exact sameFlags_refl s

/-- The flags determine the multiset. -/
theorem perm_of_flOf {a b : List TType} (ha : Valid a) (hb : Valid b) (ha2 : ∀ t ∈ a, t ∈ typeKeywords) (hb2 : ∀ t ∈ b, t ∈ typeKeywords)
    (h : flOf a = flOf b) : a.Perm b := by
  rw [List.perm_iff_count]
  intro t
  by_cases ht : t ∈ typeKeywords
  · have h1 := ha t ht
    have h2 := hb t ht
    have key : ∀ f, kw f = t → (idx f < a.count t ↔ idx f < b.count t) := by
      intro f hf
      have := congrFun h f
      simp only [flOf, hf, decide_eq_decide] at this
      exact this
    simp only [typeKeywords, List.mem_cons, List.not_mem_nil, or_false] at ht
    rcases ht with rfl | rfl | rfl | rfl | rfl | rfl | rfl | rfl | rfl | rfl | rfl
    · have := key .void rfl; simp only [idx, lim] at *; omega
    · have := key .char rfl; simp only [idx, lim] at *; omega
    · have := key .short rfl; simp only [idx, lim] at *; omega
    · have := key .int rfl; simp only [idx, lim] at *; omega
    · have := key .long1 rfl; have := key .long2 rfl; simp only [idx, lim] at *; omega
    · have := key .float rfl; simp only [idx, lim] at *; omega
    · have := key .double rfl; simp only [idx, lim] at *; omega
    · have := key .signed rfl; simp only [idx, lim] at *; omega
    · have := key .unsigned rfl; simp only [idx, lim] at *; omega
    · have := key .bool rfl; simp only [idx, lim] at *; omega
    · have := key .complex rfl; simp only [idx, lim] at *; omega
  · rw [List.count_eq_zero.mpr (fun hx => ht (ha2 t hx)), List.count_eq_zero.mpr (fun hx => ht (hb2 t hx))]

theorem typeSpecifiers_kw (ks : List TType) : ∀ t ∈ typeSpecifiers ks, t ∈ typeKeywords := by
  intro t ht
  rw [typeSpecifiers, List.mem_filter] at ht
  simpa using ht.2

/-- The whole parse. -/
theorem typeOf_spec {ks rest : List TType} (h : IsSpecifiers ks rest) :
    (∀ r ∈ allowed, (typeSpecifiers ks).Perm r.2 →
      typeOf (ks ++ rest) = .ok (if r.1 = .ldouble then .double else r.1, ks.count .T_KCONST == 1)) ∧
    ((∀ r ∈ allowed, ¬ (typeSpecifiers ks).Perm r.2) → typeOf (ks ++ rest) = .fail) := by
  have hl := loop_spec ks.length ((ks ++ rest).length + 1) ks rest (fun _ => false) 0 rfl (by simp; omega) h
  have h0 : (fun _ => false : Flags) = flOf [] := by funext f; simp [flOf]
  have hv0 : Valid [] := by intro t _; simp
  rw [h0] at hl
  have hkw := typeSpecifiers_kw ks
  rcases absorb_spec (typeSpecifiers ks) [] hkw hv0 with ⟨h1, h2⟩ | ⟨h1, h2⟩
  · rw [h1] at hl
    rw [List.append_nil] at h2
    have hfail : typeOf (ks ++ rest) = .fail := by
      rw [typeOf, parseSpecifiers, h0, hl]; rfl
    refine ⟨?_, fun _ => hfail⟩
    intro r hr hp
    exfalso
    apply h2
    intro t ht
    rw [hp.count_eq]
    exact (allowed_valid r hr).1 t ht
  · rw [h1] at hl
    rw [List.append_nil] at h2 hl
    have hty : typeOf (ks ++ rest) = (specifiersToType (flOf (typeSpecifiers ks))).bind (fun t => .ok (t, ks.count .T_KCONST == 1)) := by
      rw [typeOf, parseSpecifiers, h0, hl]
      simp [bind, Res.bind, pure]
    rw [hty]
    constructor
    · intro r hr hp
      rw [flOf_perm hp, allowed_types r hr]; rfl
    · intro hno
      rw [specifiersToType]
      cases e : specTable.find? (fun r => sameFlags (flOf (typeSpecifiers ks)) (mask r.2)) with
      | none => rfl
      | some row =>
        exfalso
        have hm := List.mem_of_find?_eq_some e
        have hs := List.find?_some e
        rw [sameFlags_iff] at hs
        obtain ⟨r, hr, hs2⟩ := table_allowed row hm
        rw [sameFlags_iff] at hs2
        exact hno r hr (perm_of_flOf h2 (allowed_valid r hr).1 hkw (allowed_valid r hr).2 (hs.trans hs2))

end Verif.Specifiers
