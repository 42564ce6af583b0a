import Verif.SessionSpec
import Verif.ObjectProps
/-!
Lemmas for C106.
-/
namespace Verif.Session
open Verif Object ObjectSpec SessionSpec

/-! ### Registration -/

theorem register_spec (lv : Nat) : ∀ (ls : List Lab) {es : List Entry}, Distinct es →
    Distinct (register lv es ls) ∧ es <+: register lv es ls ∧
    (∀ e ∈ register lv es ls, e ∈ es ∨ ∃ l ∈ ls, l.req lv = some (e.type, e.name)) ∧
    (∀ l ∈ ls, ∀ t n, l.req lv = some (t, n) → (⟨t, n⟩ : Entry) ∈ register lv es ls) ∧
    (register lv es ls).length ≤ es.length + ls.length := by
  intro ls
  induction ls with
  | nil =>
    intro es h
    exact ⟨h, List.prefix_refl _, fun e he => .inl he, (fun l hl => by cases hl), Nat.le_refl _⟩
  | cons l ls ih =>
    intro es h
    unfold register
    split
    · next t n hr =>
      obtain ⟨h1, h2, h3, h4⟩ := labelRegister_spec h t n
      obtain ⟨k1, k2, k3, k4, k5⟩ := ih h1
      refine ⟨k1, h3.trans k2, ?_, ?_, ?_⟩
      · intro e he
        rcases k3 e he with he | ⟨m, hm, e'⟩
        · rcases h4 e he with he | rfl
          · exact .inl he
          · exact .inr ⟨l, List.mem_cons_self .., hr⟩
        · exact .inr ⟨m, List.mem_cons_of_mem _ hm, e'⟩
      · intro m hm t' n' hr'
        rcases List.mem_cons.1 hm with rfl | hm
        · rw [hr] at hr'
          cases hr'
          exact k2.subset (List.mem_of_getElem? h2)
        · exact k4 m hm t' n' hr'
      · have : (labelRegister es t n).1.length ≤ es.length + 1 := by
          unfold labelRegister
          split <;> simp
        simp only [List.length_cons]
        omega
    · next hr =>
      obtain ⟨k1, k2, k3, k4, k5⟩ := ih h
      refine ⟨k1, k2, ?_, ?_, ?_⟩
      · intro e he
        rcases k3 e he with he | ⟨m, hm, e'⟩
        · exact .inl he
        · exact .inr ⟨m, List.mem_cons_of_mem _ hm, e'⟩
      · intro m hm t' n' hr'
        rcases List.mem_cons.1 hm with rfl | hm
        · rw [hr] at hr'; cases hr'
        · exact k4 m hm t' n' hr'
      · simp only [List.length_cons]
        omega

theorem register_append (lv : Nat) : ∀ (ls ms : List Lab) (es : List Entry),
    register lv es (ls ++ ms) = register lv (register lv es ls) ms := by
  intro ls
  induction ls with
  | nil => intro ms es; rfl
  | cons l ls ih =>
    intro ms es
    rw [List.cons_append, register, register]
    split <;> exact ih ..

theorem req_shift (a b : Nat) (l : Lab) : (shift a b l).req 0 = l.req b := by
  cases l <;> simp [shift, Lab.req]

theorem register_shift (a b : Nat) : ∀ (ls : List Lab) (es : List Entry),
    register 0 es (ls.map (shift a b)) = register b es ls := by
  intro ls
  induction ls with
  | nil => intro es; rfl
  | cons l ls ih =>
    intro es
    rw [List.map_cons]
    unfold register
    rw [req_shift]
    split <;> exact ih _

theorem id_shift (a b : Nat) (es : List Entry) (l : Lab) : (shift a b l).id 0 0 es = l.id a b es := by
  cases l <;> simp [shift, Lab.id]
  omega

/-- A registered entry is found where it is. -/
theorem register_found {es : List Entry} (hd : Distinct es) {t : EntryType} {n : Name} (h : (⟨t, n⟩ : Entry) ∈ es) :
    (labelRegister es t n).1 = es ∧ es[(labelRegister es t n).2]? = some ⟨t, n⟩ := by
  have := (labelRegister_spec hd t n).2.1
  have e : (labelRegister es t n).1 = es := by
    unfold labelRegister
    split
    · rfl
    · next hn => exact absurd rfl (findEntry_none hn _ h)
  rw [e] at this
  exact ⟨e, this⟩

theorem distinct_idx {es : List Entry} (hd : Distinct es) {i j : Nat} {e : Entry} (hi : es[i]? = some e) (hj : es[j]? = some e) :
    i = j := pairwise_idx (f := fun x => x) hd hi hj rfl

theorem register_mono {es fs : List Entry} (hd : Distinct fs) (hp : es <+: fs) {t : EntryType} {n : Name}
    (h : (⟨t, n⟩ : Entry) ∈ es) : (labelRegister es t n).2 = (labelRegister fs t n).2 := by
  have h1 := (register_found (hd.sublist hp.sublist) h).2
  have h2 := (register_found hd (hp.subset h)).2
  exact distinct_idx hd (prefix_idx hp h1) h2

/-! ### The names -/

/-- The entries of a file on its own. -/
def entriesOf (f : File) : List Entry := register 0 [] f.regs

/-- The names of the labels of a file on its own. -/
def nameIn (es : List Entry) : Lab → Name
  | .string s => str ".Ls" ++ dec (labelRegister es .str s).2
  | .name n => n
  | .localVar k n => localVarName k n
  | .tmp k => str ".L" ++ dec (2 + k)

theorem req_mem {es : List Entry} {f : File} (hes : es = entriesOf f) {l : Lab} (hl : l ∈ f.regs) {t : EntryType} {n : Name}
    (hr : l.req 0 = some (t, n)) : (⟨t, n⟩ : Entry) ∈ es := by
  subst hes
  exact (register_spec 0 f.regs (es := []) List.Pairwise.nil).2.2.2.1 l hl t n hr

theorem distinct_of (f : File) : Distinct (entriesOf f) := (register_spec 0 f.regs (es := []) List.Pairwise.nil).1

theorem length_of {f : File} (hs : Small f) : (entriesOf f).length ≤ 2 ^ 31 := by
  have := (register_spec 0 f.regs (es := []) List.Pairwise.nil).2.2.2.2
  simp only [List.length_nil, Nat.zero_add] at this
  exact Nat.le_trans this hs.1

theorem labelNames_of {f : File} (hv : Valid f) : ∀ e ∈ entriesOf f, e.type = .labelName → LabelName e.name := by
  intro e he ht
  rcases (register_spec 0 f.regs (es := []) List.Pairwise.nil).2.2.1 e he with he | ⟨l, hl, hr⟩
  · cases he
  · rw [ht] at hr
    cases l with
    | string s => simp [Lab.req] at hr
    | name n =>
      simp only [Lab.req, Option.some.injEq, Prod.mk.injEq, true_and] at hr
      rw [← hr]
      exact .inl (hv.names n hl).1
    | localVar k n =>
      simp only [Lab.req, Option.some.injEq, Prod.mk.injEq, true_and, Nat.zero_add] at hr
      rw [← hr]
      exact .inr ⟨k, n, (hv.locals k n hl).2.1, rfl⟩
    | tmp k => simp [Lab.req] at hr

theorem getLabel_name {es : List Entry} {i : Nat} {n : Name} (h : es[i]? = some ⟨.labelName, n⟩) (hz : (0 : Byte) ∉ n)
    (hl : n.length < 64) : getLabel es (i : Int) = .ok n := by
  unfold getLabel
  dsimp only
  rw [if_neg (by omega)]
  simp only [Int.toNat_natCast, h]
  rw [takeWhile_noNul hz, if_neg (by omega)]

theorem getLabel_tmp (es : List Entry) {k : Nat} (h : k < 2 ^ 31) : getLabel es (-(k + 1 : Nat) : Int) = .ok (str ".L" ++ dec (k + 1)) := by
  unfold getLabel
  dsimp only
  rw [if_pos (by omega), if_neg]
  · rfl
  · have := dec_length (k := 9) (n := k + 1) (by omega)
    have e : (- -((k + 1 : Nat) : Int)).toNat = k + 1 := by omega
    rw [e, List.length_append]
    have : (str ".L").length = 2 := rfl
    omega

theorem known_mem {f : File} (hv : Valid f) {l : Lab} (hl : l ∈ labs f) (hn : ∀ k, l ≠ .tmp k) : l ∈ f.regs := by
  rcases hv.known l hl with ⟨k, e⟩ | h
  · exact absurd e (hn k)
  · exact h

theorem getLabel_id {f : File} (hv : Valid f) (hs : Small f) {l : Lab} (hl : l ∈ labs f) :
    getLabel (entriesOf f) (l.id 0 0 (entriesOf f)) = .ok (nameIn (entriesOf f) l) ∧ l.id 0 0 (entriesOf f) ≠ -1 := by
  have hd := distinct_of f
  have hlen := length_of hs
  cases l with
  | string s =>
    have hm := req_mem (t := .str) (n := s) rfl (known_mem hv hl (by simp)) rfl
    have h := (register_found hd hm).2
    have hlt := (List.getElem?_eq_some_iff.1 h).1
    exact ⟨getLabel_str h (by omega), by simp only [Lab.id]; omega⟩
  | name n =>
    have hr := known_mem hv hl (by simp)
    have hm := req_mem (t := .labelName) (n := n) rfl hr rfl
    have h := (register_found hd hm).2
    exact ⟨getLabel_name h (ident_noNul (hv.names n hr).1) (hv.names n hr).2, by simp only [Lab.id]; omega⟩
  | localVar k n =>
    have hr := known_mem hv hl (by simp)
    have hm := req_mem (t := .labelName) (n := localVarName k n) rfl hr (by simp [Lab.req])
    have h := (register_found hd hm).2
    obtain ⟨l1, l2, l3⟩ := hv.locals k n hr
    have hk := dec_length (k := 9) (n := k) (by have := hs.2.1; omega)
    refine ⟨?_, by simp only [Lab.id]; omega⟩
    simp only [Lab.id, Nat.zero_add]
    refine getLabel_name h (labelName_noNul (.inr ⟨k, n, l2, rfl⟩)) ?_
    unfold nameIn localVarName
    rw [List.length_append, List.length_append]
    have : (str ".LVAR").length = 5 := rfl
    omega
  | tmp k =>
    have hk := hv.tmps k (List.mem_append.2 (.inr hl))
    have := hs.2.2
    have h := getLabel_tmp (entriesOf f) (k := 1 + k) (by omega)
    refine ⟨?_, by simp only [Lab.id]; omega⟩
    simp only [Lab.id, nameIn]
    rw [show 2 + 0 + k = 1 + k + 1 by omega]
    exact h

theorem dot_not_ident (s : Name) : ¬ Ident (ch '.' :: s) := fun h => h.1 rfl

theorem req_local (k : Nat) (n : Name) : (Lab.localVar k n).req 0 = some (.labelName, localVarName k n) := by
  simp [Lab.req]

theorem naming_of {f : File} (hv : Valid f) (hs : Small f) : Naming f (nameIn (entriesOf f)) := by
  have hd := distinct_of f
  refine ⟨fun n => rfl, ?_, ?_⟩
  · intro l _ hn
    cases l with
    | string s => exact dot_not_ident _
    | name n => exact absurd rfl (hn n)
    | localVar k n => exact dot_not_ident _
    | tmp k => exact dot_not_ident _
  · intro l hl m hm e
    have h1 := (getLabel_id hv hs hl).1
    have h2 := (getLabel_id hv hs hm).1
    rw [← e] at h2
    have hid := getLabel_inj hd (labelNames_of hv) h1 h2
    have ent : ∀ {x : Lab}, x ∈ labs f → ∀ {t : EntryType} {n : Name}, x.req 0 = some (t, n) →
        (entriesOf f)[(x.id 0 0 (entriesOf f)).toNat]? = some ⟨t, n⟩ ∧ 0 ≤ x.id 0 0 (entriesOf f) := by
      intro x hx t n hr
      have hm := req_mem (f := f) rfl (known_mem hv hx (by rintro k rfl; simp [Lab.req] at hr)) hr
      have h := (register_found hd hm).2
      cases x with
      | tmp k => simp [Lab.req] at hr
      | string s => cases hr; simp only [Lab.id, Int.toNat_natCast]; exact ⟨h, by omega⟩
      | name s => cases hr; simp only [Lab.id, Int.toNat_natCast]; exact ⟨h, by omega⟩
      | localVar k s =>
        simp only [Lab.req, Option.some.injEq, Prod.mk.injEq] at hr
        obtain ⟨rfl, rfl⟩ := hr
        simp only [Lab.id, Int.toNat_natCast]
        exact ⟨h, by omega⟩
    have dotName : ∀ {n : Name} {k : Nat} {x : Name}, Lab.name n ∈ labs f → n ≠ localVarName k x := by
      intro n k x hx e
      have := (hv.names n (known_mem hv hx (by simp))).1
      rw [e] at this
      exact dot_not_ident _ this
    have neg : ∀ k : Nat, ¬ 0 ≤ (Lab.tmp k).id 0 0 (entriesOf f) := by
      intro k; simp only [Lab.id]; omega
    have both : ∀ {t u : EntryType} {a b : Name}, l.req 0 = some (t, a) → m.req 0 = some (u, b) → t = u ∧ a = b := by
      intro t u a b ha hb
      have h1 := (ent hl ha).1
      have h2 := (ent hm hb).1
      rw [hid, h2] at h1
      injection h1 with h1
      injection h1 with h1 h3
      exact ⟨h1.symm, h3.symm⟩
    cases l with
    | string s =>
      cases m with
      | string t => rw [(both rfl rfl).2]
      | name t => cases (both rfl rfl).1
      | localVar k t => cases (both rfl rfl).1
      | tmp k => exact absurd (hid ▸ (ent hl rfl).2) (neg k)
    | name s =>
      cases m with
      | string t => cases (both rfl rfl).1
      | name t => rw [(both rfl rfl).2]
      | localVar k t => exact absurd ((both rfl (req_local k t)).2) (dotName hl)
      | tmp k => exact absurd (hid ▸ (ent hl rfl).2) (neg k)
    | localVar j s =>
      cases m with
      | string t => cases (both rfl rfl).1
      | name t => exact absurd ((both (req_local j s) rfl).2.symm) (dotName hm)
      | localVar k t =>
        have h := (both (req_local j s) (req_local k t)).2
        obtain ⟨rfl, rfl⟩ := localVarName_inj (hv.locals _ _ (known_mem hv hl (by simp))).2.1
          (hv.locals _ _ (known_mem hv hm (by simp))).2.1 h
        rfl
      | tmp k => exact absurd (hid ▸ (ent hl rfl).2) (neg k)
    | tmp j =>
      cases m with
      | string t => exact absurd (hid ▸ (ent hm rfl).2) (neg j)
      | name t => exact absurd (hid ▸ (ent hm rfl).2) (neg j)
      | localVar k t => exact absurd (hid ▸ (ent hm rfl).2) (neg j)
      | tmp k =>
        simp only [Lab.id] at hid
        congr 1
        omega

/-! ### The calls -/

theorem callsOf_map {α : Type} {es : List Entry} {a : α → List Op} {b : α → List Call} : ∀ (l : List α),
    (∀ x ∈ l, CallsOf es (a x) (b x)) → CallsOf es (l.flatMap a) (l.flatMap b) := by
  intro l
  induction l with
  | nil => intro _; trivial
  | cons x l ih =>
    intro h
    rw [List.flatMap_cons, List.flatMap_cons]
    exact callsOf_append (h x (List.mem_cons_self ..)) (ih fun y hy => h y (List.mem_cons_of_mem _ hy))

/-- The strings among the entries. -/
def stringsOf (es : List Entry) : List Name := es.filterMap fun e => if e.type = .str then some e.name else Option.none

theorem mem_stringsOf {es : List Entry} {s : Name} : s ∈ stringsOf es ↔ (⟨.str, s⟩ : Entry) ∈ es := by
  unfold stringsOf
  rw [List.mem_filterMap]
  constructor
  · rintro ⟨e, he, h⟩
    split at h
    · next ht =>
      obtain ⟨t, n⟩ := e
      have ht : t = .str := ht
      subst ht
      cases h
      exact he
    · cases h
  · intro h
    exact ⟨_, h, by simp⟩

theorem rodataCalls_eq {es : List Entry} (hd : Distinct es) : ∀ (fs : List Entry) (i : Nat), (∀ j, fs[j]? = es[i + j]?) →
    rodataCalls fs i = (stringsOf fs).flatMap (stringCalls (nameIn es)) := by
  intro fs
  induction fs with
  | nil => intro i _; rfl
  | cons e fs ih =>
    intro i h
    unfold rodataCalls
    rw [ih (i + 1) (fun j => by rw [show i + 1 + j = i + (j + 1) by omega, ← h (j + 1)]; rfl)]
    unfold stringsOf
    rw [List.filterMap_cons]
    by_cases ht : e.type = .str
    · simp only [ht, if_true, List.flatMap_cons]
      congr 1
      have he := h 0
      simp only [List.getElem?_cons_zero, Nat.add_zero] at he
      obtain ⟨t, n⟩ := e
      have ht : t = .str := ht
      subst ht
      have hf := (register_found hd (List.mem_of_getElem? he.symm)).2
      have hi := distinct_idx hd he.symm hf
      dsimp only
      unfold stringCalls nameIn
      dsimp only
      rw [← hi]
    · simp only [ht, if_false, List.nil_append]

/-- The calls of the code of a file on its own. -/
def opsOf (f : File) : List Op :=
  let id := Lab.id 0 0 (entriesOf f)
  f.code.map (FOp.op id) ++ rodataCodegen (entriesOf f) ++ dataCodegen (f.vars.map (SVar.register id))

theorem mem_labs_code {f : File} {c : FOp} (hc : c ∈ f.code) {l : Lab} (hl : l ∈ opLabs c) : l ∈ labs f :=
  List.mem_append.2 (.inl (List.mem_flatMap.2 ⟨c, hc, hl⟩))

theorem mem_labs_var {f : File} {v : SVar} (hc : v ∈ f.vars) {l : Lab} (hl : l ∈ varLabs v) : l ∈ labs f :=
  List.mem_append.2 (.inr (List.mem_flatMap.2 ⟨v, hc, hl⟩))

theorem callsOf_file {f : File} (hv : Valid f) (hs : Small f) :
    CallsOf (entriesOf f) (opsOf f) (fileCalls (nameIn (entriesOf f)) (stringsOf (entriesOf f)) f) := by
  unfold opsOf fileCalls
  dsimp only
  rw [show (f.code.map (opCall (nameIn (entriesOf f))) ++
        .sect (str ".rodata") :: (stringsOf (entriesOf f)).flatMap (stringCalls (nameIn (entriesOf f))) ++
        f.vars.flatMap (varCalls (nameIn (entriesOf f)))) =
      (f.code.map (opCall (nameIn (entriesOf f))) ++
        (.sect (str ".rodata") :: (stringsOf (entriesOf f)).flatMap (stringCalls (nameIn (entriesOf f))))) ++
        f.vars.flatMap (varCalls (nameIn (entriesOf f))) from rfl]
  refine callsOf_append (callsOf_append ?_ ?_) ?_
  · have : ∀ cs : List FOp, (∀ c ∈ cs, c ∈ f.code) → CallsOf (entriesOf f)
        (cs.map (FOp.op (Lab.id 0 0 (entriesOf f)))) (cs.map (opCall (nameIn (entriesOf f)))) := by
      intro cs
      induction cs with
      | nil => intro _; trivial
      | cons c cs ih =>
        intro h
        refine ⟨?_, ih fun x hx => h x (List.mem_cons_of_mem _ hx)⟩
        have hc := h c (List.mem_cons_self ..)
        cases c with
        | code bs => exact rfl
        | refer l off add ty =>
          obtain ⟨h1, h2⟩ := getLabel_id hv hs (mem_labs_code hc (l := l) (by simp [opLabs]))
          exact ⟨_, h1, h2, rfl⟩
        | label g l =>
          obtain ⟨h1, h2⟩ := getLabel_id hv hs (mem_labs_code hc (l := l) (by simp [opLabs]))
          exact ⟨_, h1, h2, rfl⟩
    exact this f.code fun c hc => hc
  · rw [← rodataCalls_eq (distinct_of f) (entriesOf f) 0 (fun j => by rw [Nat.zero_add])]
    exact ⟨rfl, rodataEntries_calls (length_of hs) _ 0 (fun j => by rw [Nat.zero_add])⟩
  · unfold dataCodegen
    rw [List.flatMap_map]
    apply callsOf_map
    intro v hm
    unfold codegenVar varCalls SVar.register
    dsimp only
    obtain ⟨h1, h2⟩ := getLabel_id hv hs (mem_labs_var hm (l := v.label) (by simp [varLabs]))
    refine ⟨rfl, ⟨rfl, hv.aligns v hm⟩, ⟨_, h1, h2, rfl⟩, callsOf_append (callsOf_map _ ?_) ⟨rfl, trivial⟩⟩
    intro p hp
    cases p with
    | bytes bs => exact ⟨rfl, trivial⟩
    | zero n => exact ⟨rfl, trivial⟩
    | addr l add =>
      obtain ⟨h1, h2⟩ := getLabel_id hv hs (mem_labs_var hm (l := l)
        (by unfold varLabs; exact List.mem_cons_of_mem _ (List.mem_flatMap.2 ⟨_, hp, by simp [pieceLabs]⟩)))
      unfold Piece.ops StaticInit.asmQuad
      dsimp only
      rw [if_neg h2]
      exact ⟨⟨_, h1, h2, rfl⟩, (by show Call.emit (List.replicate 8 0) = .emit (quadBytes 0); rfl), trivial⟩

/-- The calls of a file make its object. -/
theorem object_of {f : File} (hv : Valid f) (hs : Small f) :
    ∃ o, run (entriesOf f) objectStart (opsOf f) = .ok o ∧ ObjectOf f (objectFinish o) := by
  obtain ⟨o, e, h⟩ := object_accumulates (callsOf_file hv hs)
  refine ⟨o, e, _, _, naming_of hv hs, ?_, ?_, ?_, h⟩
  · intro s hl
    exact mem_stringsOf.2 (req_mem rfl (known_mem hv hl (by simp)) rfl)
  · intro s t h1 h2 e
    have h1 := (register_found (distinct_of f) (mem_stringsOf.1 h1)).2
    have h2 := (register_found (distinct_of f) (mem_stringsOf.1 h2)).2
    have e := dec_inj (List.append_cancel_left e)
    rw [e, h2] at h1
    injection h1 with h1
    injection h1 with _ h1
    exact h1.symm
  · intro s _
    exact dot_not_ident _

/-! ### A file after others -/

/-- The state after the files of which `m` is the sum. -/
structure StateOf (m : File) (g : G) : Prop where
  entries : g.entries = entriesOf m
  vars : g.vars = m.vars.map (SVar.register (Lab.id 0 0 (entriesOf m)))
  tmp : g.tmp = m.tmps
  localVar : g.localVar = m.locals

theorem stateOf_start : StateOf noFiles {} := ⟨rfl, rfl, rfl, rfl⟩

theorem entries_after {m f : File} {g : G} (h : StateOf m g) :
    register g.localVar g.entries f.regs = entriesOf (after m f) := by
  unfold entriesOf after
  dsimp only
  rw [register_append, register_shift, h.entries, h.localVar]
  rfl

theorem op_map (h : Lab → Lab) (id id' : Lab → Int) (e : ∀ l, id' (h l) = id l) (c : FOp) :
    (mapOp h c).op id' = c.op id := by
  cases c <;> simp [mapOp, FOp.op, e]

theorem piece_map (h : Lab → Lab) (id id' : Lab → Int) (e : ∀ l, id' (h l) = id l) (p : Piece) :
    (mapPiece h p).ops id' = p.ops id := by
  cases p <;> simp [mapPiece, Piece.ops, e]

theorem var_map (h : Lab → Lab) (id id' : Lab → Int) (e : ∀ l, id' (h l) = id l) (v : SVar) :
    (mapVar h v).register id' = v.register id := by
  unfold mapVar SVar.register
  dsimp only
  rw [e, List.flatMap_map]
  congr 1
  exact congrArg (fun k => v.image.flatMap k) (funext fun p => piece_map h id id' e p)

theorem var_congr {id id' : Lab → Int} {v : SVar} (e : ∀ l ∈ varLabs v, id' l = id l) : v.register id' = v.register id := by
  unfold SVar.register
  rw [e v.label (by simp [varLabs])]
  congr 1
  have : ∀ ps : List Piece, (∀ l ∈ ps.flatMap pieceLabs, id' l = id l) →
      ps.flatMap (Piece.ops id') = ps.flatMap (Piece.ops id) := by
    intro ps
    induction ps with
    | nil => intro _; rfl
    | cons p ps ih =>
      intro h
      rw [List.flatMap_cons, List.flatMap_cons, ih fun l hl => h l (by rw [List.flatMap_cons]; exact List.mem_append.2 (.inr hl))]
      congr 1
      cases p with
      | bytes _ => rfl
      | zero _ => rfl
      | addr l add => simp only [Piece.ops, h l (by simp [pieceLabs])]
  exact this v.image fun l hl => e l (List.mem_cons_of_mem _ hl)

theorem id_mono {m : File} (hm : Valid m) {es : List Entry} (hd : Distinct es) (hp : entriesOf m <+: es) {l : Lab}
    (hl : l ∈ labs m) : l.id 0 0 es = l.id 0 0 (entriesOf m) := by
  cases l with
  | tmp k => rfl
  | string s =>
    simp only [Lab.id]
    rw [register_mono hd hp (req_mem rfl (known_mem hm hl (by simp)) rfl)]
  | name s =>
    simp only [Lab.id]
    rw [register_mono hd hp (req_mem rfl (known_mem hm hl (by simp)) rfl)]
  | localVar k s =>
    simp only [Lab.id, Nat.zero_add]
    rw [register_mono hd hp (req_mem rfl (known_mem hm hl (by simp)) (req_local k s))]

theorem prefix_after (m f : File) : entriesOf m <+: entriesOf (after m f) := by
  rw [show entriesOf (after m f) = register 0 (entriesOf m) (f.regs.map (shift m.tmps m.locals)) from register_append ..]
  exact (register_spec 0 _ (distinct_of m)).2.1

theorem vars_after {m f : File} {g : G} (hm : Valid m) (h : StateOf m g) :
    g.vars ++ f.vars.map (SVar.register (Lab.id g.tmp g.localVar (entriesOf (after m f)))) =
      (after m f).vars.map (SVar.register (Lab.id 0 0 (entriesOf (after m f)))) := by
  rw [show (after m f).vars = m.vars ++ f.vars.map (mapVar (shift m.tmps m.locals)) from rfl, List.map_append, List.map_map, h.vars,
    h.tmp, h.localVar]
  congr 1
  · apply List.map_congr_left
    intro v hv
    exact (var_congr fun l hl => id_mono hm (distinct_of _) (prefix_after m f) (mem_labs_var hv hl)).symm
  · apply List.map_congr_left
    intro v _
    exact (var_map _ _ _ (fun l => id_shift ..) v).symm

theorem ops_after {m f : File} {g : G} (hm : Valid m) (h : StateOf m g) :
    f.code.map (FOp.op (Lab.id g.tmp g.localVar (entriesOf (after m f)))) ++ rodataCodegen (entriesOf (after m f)) ++
      dataCodegen (g.vars ++ f.vars.map (SVar.register (Lab.id g.tmp g.localVar (entriesOf (after m f))))) =
    opsOf (after m f) := by
  rw [vars_after hm h]
  unfold opsOf
  dsimp only
  congr 2
  rw [show (after m f).code = f.code.map (mapOp (shift m.tmps m.locals)) from rfl, List.map_map, h.tmp, h.localVar]
  apply List.map_congr_left
  intro c _
  exact (op_map _ _ _ (fun l => id_shift ..) c).symm

theorem mem_opLabs_map {h : Lab → Lab} {c : FOp} {l : Lab} (hl : l ∈ opLabs (mapOp h c)) : ∃ k ∈ opLabs c, l = h k := by
  cases c <;> simp_all [mapOp, opLabs]

theorem mem_varLabs_map {h : Lab → Lab} {v : SVar} {l : Lab} (hl : l ∈ varLabs (mapVar h v)) : ∃ k ∈ varLabs v, l = h k := by
  unfold varLabs mapVar at hl
  rcases List.mem_cons.1 hl with rfl | hl
  · exact ⟨_, List.mem_cons_self .., rfl⟩
  · obtain ⟨p, hp, hl⟩ := List.mem_flatMap.1 hl
    obtain ⟨q, hq, rfl⟩ := List.mem_map.1 hp
    cases q with
    | bytes _ => cases hl
    | zero _ => cases hl
    | addr k add =>
      cases List.mem_singleton.1 hl
      exact ⟨k, List.mem_cons_of_mem _ (List.mem_flatMap.2 ⟨_, hq, List.mem_singleton.2 rfl⟩), rfl⟩

theorem labs_after {m f : File} {l : Lab} (hl : l ∈ labs (after m f)) :
    l ∈ labs m ∨ ∃ k ∈ labs f, l = shift m.tmps m.locals k := by
  rcases List.mem_append.1 hl with hl | hl
  · obtain ⟨c, hc, hl⟩ := List.mem_flatMap.1 hl
    obtain ⟨d, hd, rfl⟩ := List.mem_map.1 hc
    obtain ⟨k, hk, e⟩ := mem_opLabs_map hl
    exact .inr ⟨k, mem_labs_code hd hk, e⟩
  · obtain ⟨v, hv, hl⟩ := List.mem_flatMap.1 hl
    rcases List.mem_append.1 hv with hv | hv
    · exact .inl (mem_labs_var hv hl)
    · obtain ⟨w, hw, rfl⟩ := List.mem_map.1 hv
      obtain ⟨k, hk, e⟩ := mem_varLabs_map hl
      exact .inr ⟨k, mem_labs_var hw hk, e⟩

theorem valid_after {m f : File} (hm : Valid m) (hf : Valid f) : Valid (after m f) := by
  have regs : ∀ {l}, l ∈ (after m f).regs → l ∈ m.regs ∨ ∃ k ∈ f.regs, l = shift m.tmps m.locals k := by
    intro l hl
    rcases List.mem_append.1 hl with hl | hl
    · exact .inl hl
    · obtain ⟨k, hk, e⟩ := List.mem_map.1 hl
      exact .inr ⟨k, hk, e.symm⟩
  constructor
  · intro l hl
    rcases labs_after hl with hl | ⟨k, hk, rfl⟩
    · rcases hm.known l hl with h | h
      · exact .inl h
      · exact .inr (List.mem_append.2 (.inl h))
    · rcases hf.known k hk with ⟨j, rfl⟩ | h
      · exact .inl ⟨_, rfl⟩
      · exact .inr (List.mem_append.2 (.inr (List.mem_map.2 ⟨k, h, rfl⟩)))
  · intro k hk
    show k < m.tmps + f.tmps
    have old : Lab.tmp k ∈ m.regs ++ labs m → k < m.tmps + f.tmps := fun h => by
      have := hm.tmps k h
      omega
    have new : ∀ j ∈ f.regs ++ labs f, Lab.tmp k = shift m.tmps m.locals j → k < m.tmps + f.tmps := by
      intro j hj e
      cases j with
      | tmp i =>
        have := hf.tmps i hj
        simp only [shift, Lab.tmp.injEq] at e
        omega
      | string _ => cases e
      | name _ => cases e
      | localVar _ _ => cases e
    rcases List.mem_append.1 hk with hk | hk
    · rcases regs hk with hk | ⟨j, hj, e⟩
      · exact old (List.mem_append.2 (.inl hk))
      · exact new j (List.mem_append.2 (.inl hj)) e
    · rcases labs_after hk with hk | ⟨j, hj, e⟩
      · exact old (List.mem_append.2 (.inr hk))
      · exact new j (List.mem_append.2 (.inr hj)) e
  · intro k n hk
    show k < m.locals + f.locals ∧ _
    rcases regs hk with hk | ⟨j, hj, e⟩
    · obtain ⟨h1, h2⟩ := hm.locals k n hk
      exact ⟨by omega, h2⟩
    · cases j with
      | localVar i x =>
        simp only [shift, Lab.localVar.injEq] at e
        obtain ⟨rfl, rfl⟩ := e
        obtain ⟨h1, h2⟩ := hf.locals i n hj
        exact ⟨by omega, h2⟩
      | string _ => cases e
      | name _ => cases e
      | tmp _ => cases e
  · intro n hn
    rcases regs hn with hn | ⟨j, hj, e⟩
    · exact hm.names n hn
    · cases j with
      | name x =>
        simp only [shift, Lab.name.injEq] at e
        subst e
        exact hf.names n hj
      | string _ => cases e
      | localVar _ _ => cases e
      | tmp _ => cases e
  · intro v hv
    rcases List.mem_append.1 hv with hv | hv
    · exact hm.aligns v hv
    · obtain ⟨w, hw, rfl⟩ := List.mem_map.1 hv
      exact hf.aligns w hw

theorem valid_start : Valid noFiles :=
  ⟨fun l h => (by cases h), fun k h => (by cases h), fun k n h => (by cases h), fun n h => (by cases h), fun v h => (by cases h)⟩

/-- One file after others. -/
theorem compile_after {m f : File} {g : G} (hm : Valid m) (hf : Valid f) (hs : Small (after m f)) (h : StateOf m g)
    {p q : Ptr} (hp : push f.pushes g.packs = .ok p) (hq : free p = .ok q) :
    ∃ g' o, compile g f = .ok (g', o) ∧ StateOf (after m f) g' ∧ g'.packs = q ∧ ObjectOf (after m f) o := by
  obtain ⟨o, e, ho⟩ := object_of (valid_after hm hf) hs
  refine ⟨⟨entriesOf (after m f), _, g.tmp + f.tmps, g.localVar + f.locals, q⟩, objectFinish o, ?_,
    ⟨rfl, vars_after hm h, ?_, ?_⟩, rfl, ho⟩
  · unfold compile
    rw [hp, Res.bind_ok, entries_after h]
    dsimp only
    rw [ops_after hm h, e, Res.bind_ok, hq, Res.bind_ok]
  · show g.tmp + f.tmps = m.tmps + f.tmps
    rw [h.tmp]
  · show g.localVar + f.locals = m.locals + f.locals
    rw [h.localVar]

theorem push_null : ∀ n p, p ≠ Ptr.freed → ∃ q, push n p = .ok q ∧ q ≠ .freed ∧ (n = 0 → q = p) ∧ (0 < n → q = .live) := by
  intro n
  induction n with
  | zero => intro p hp; exact ⟨p, rfl, hp, fun _ => rfl, fun h => by omega⟩
  | succ n ih =>
    intro p hp
    obtain ⟨q, h1, h2, h3, h4⟩ := ih .live (by simp)
    refine ⟨q, ?_, h2, fun h => by omega, fun _ => ?_⟩
    · cases p with
      | null => exact h1
      | live => exact h1
      | freed => exact absurd rfl hp
    · by_cases hn : n = 0
      · exact h3 hn
      · exact h4 (by omega)

/-! ### What an object defines -/

theorem defs_foldl (n : Name) : ∀ (cs : List Call) (v : View), (cs.foldl ObjectSpec.step v).defs n ≠ Option.none ↔
    v.defs n ≠ Option.none ∨ ∃ g, Call.define n g ∈ cs := by
  intro cs
  induction cs with
  | nil => intro v; simp
  | cons c cs ih =>
    intro v
    rw [List.foldl_cons, ih]
    cases c with
    | define m g =>
      by_cases hm : n = m
      · subst hm
        simp [ObjectSpec.step, upd_same]
      · simp only [ObjectSpec.step, upd_other _ _ hm, List.mem_cons, Call.define.injEq, hm, false_and, false_or]
    | sect _ => simp [ObjectSpec.step]
    | emit _ => simp [ObjectSpec.step]
    | align _ => simp [ObjectSpec.step]
    | refer _ => simp [ObjectSpec.step]

theorem pieceCalls_define {ρ : Lab → Name} {p : Piece} {n : Name} {g : Bool} : Call.define n g ∉ pieceCalls ρ p := by
  cases p <;> simp [pieceCalls]

theorem define_iff {f : File} {ρ : Lab → Name} {strings : List Name} (hρ : Naming f ρ)
    (hst : ∀ s ∈ strings, ¬ Ident (ρ (.string s))) {n : Name} (hn : Ident n) :
    (∃ g, Call.define n g ∈ fileCalls ρ strings f) ↔ Defines f n := by
  have named : ∀ {l}, l ∈ labs f → ρ l = n → l = .name n := by
    intro l hl e
    cases l with
    | name x => rw [hρ.keeps] at e; rw [e]
    | string _ => exact absurd (e ▸ hn) (hρ.fresh _ hl (by simp))
    | localVar _ _ => exact absurd (e ▸ hn) (hρ.fresh _ hl (by simp))
    | tmp _ => exact absurd (e ▸ hn) (hρ.fresh _ hl (by simp))
  constructor
  · rintro ⟨g, hg⟩
    rcases List.mem_append.1 hg with hg | hg
    · rcases List.mem_append.1 hg with hg | hg
      · obtain ⟨c, hc, e⟩ := List.mem_map.1 hg
        cases c with
        | code _ => cases e
        | refer _ _ _ _ => cases e
        | label g' l =>
          injection e with e1 e2
          have := named (mem_labs_code hc (by simp [opLabs])) e1
          subst this
          exact .inl ⟨g', hc⟩
      · rcases List.mem_cons.1 hg with hg | hg
        · cases hg
        · obtain ⟨s, hs, hg⟩ := List.mem_flatMap.1 hg
          simp only [stringCalls, List.mem_cons, Call.define.injEq, reduceCtorEq, or_false, List.not_mem_nil] at hg
          exact absurd (hg.1 ▸ hn) (hst s hs)
    · obtain ⟨v, hv, hg⟩ := List.mem_flatMap.1 hg
      simp only [varCalls, List.mem_append, List.mem_cons, Call.define.injEq, reduceCtorEq, or_false, false_or,
        List.not_mem_nil, List.mem_flatMap] at hg
      rcases hg with hg | ⟨p, _, hg⟩
      · exact .inr ⟨v, hv, named (mem_labs_var hv (by simp [varLabs])) hg.1.symm⟩
      · exact absurd hg pieceCalls_define
  · rintro (⟨g, hg⟩ | ⟨v, hv, e⟩)
    · refine ⟨g, List.mem_append.2 (.inl (List.mem_append.2 (.inl (List.mem_map.2 ⟨_, hg, ?_⟩))))⟩
      simp [opCall, hρ.keeps]
    · refine ⟨v.global, List.mem_append.2 (.inr (List.mem_flatMap.2 ⟨v, hv, ?_⟩))⟩
      simp [varCalls, e, hρ.keeps]

theorem defined_iff {f : File} {o : Obj} (h : ObjectOf f o) {n : Name} (hn : Ident n) : Defined o n ↔ Defines f n := by
  obtain ⟨ρ, strings, hρ, _, _, hst, hs⟩ := h
  rw [← define_iff hρ hst hn]
  have hd := defs_foldl n (fileCalls ρ strings f) start
  have : start.defs n = Option.none := rfl
  simp only [this, ne_eq, not_true_eq_false, false_or] at hd
  rw [← hd]
  constructor
  · rintro ⟨s, hm, e, hsec⟩ hc
    obtain ⟨n', e', hdef⟩ := hs.symbols s hm
    rw [e] at e'
    cases e'
    unfold view at hdef
    rw [hc] at hdef
    exact hsec hdef
  · intro hc
    obtain ⟨s, hm, e⟩ := hs.noDefLost n hc
    refine ⟨s, hm, e, ?_⟩
    obtain ⟨n', e', hdef⟩ := hs.symbols s hm
    rw [e] at e'
    cases e'
    unfold view at hdef
    cases hx : ((fileCalls ρ strings f).foldl ObjectSpec.step start).defs n with
    | none => exact absurd hx hc
    | some d =>
      rw [hx] at hdef
      obtain ⟨i, t, h1, _⟩ := hdef
      rw [h1]
      simp

/-! ### Without variables in the files before -/

theorem shift_inj {a b : Nat} {l m : Lab} (h : shift a b l = shift a b m) : l = m := by
  cases l <;> cases m <;> simp_all [shift]

theorem opCall_map (ρ : Lab → Name) (h : Lab → Lab) (c : FOp) : opCall ρ (mapOp h c) = opCall (fun l => ρ (h l)) c := by
  cases c <;> rfl

theorem varCalls_map (ρ : Lab → Name) (h : Lab → Lab) (v : SVar) : varCalls ρ (mapVar h v) = varCalls (fun l => ρ (h l)) v := by
  unfold varCalls mapVar
  dsimp only
  rw [List.flatMap_map]
  congr 2
  exact congrArg (fun k => v.image.flatMap k) (funext fun p => by cases p <;> rfl)

theorem mem_labs_after {m f : File} {l : Lab} (hl : l ∈ labs f) : shift m.tmps m.locals l ∈ labs (after m f) := by
  rcases List.mem_append.1 hl with hl | hl
  · obtain ⟨c, hc, hl⟩ := List.mem_flatMap.1 hl
    refine List.mem_append.2 (.inl (List.mem_flatMap.2 ⟨_, List.mem_map.2 ⟨c, hc, rfl⟩, ?_⟩))
    cases c <;> simp_all [mapOp, opLabs]
  · obtain ⟨v, hv, hl⟩ := List.mem_flatMap.1 hl
    refine List.mem_append.2 (.inr (List.mem_flatMap.2 ⟨_, List.mem_append.2 (.inr (List.mem_map.2 ⟨v, hv, rfl⟩)), ?_⟩))
    rcases List.mem_cons.1 hl with rfl | hl
    · exact List.mem_cons_self ..
    · obtain ⟨p, hp, hl⟩ := List.mem_flatMap.1 hl
      refine List.mem_cons_of_mem _ (List.mem_flatMap.2 ⟨_, List.mem_map.2 ⟨p, hp, rfl⟩, ?_⟩)
      cases p <;> simp_all [mapPiece, pieceLabs]

theorem objectOf_after {m f : File} (hv : m.vars = []) {o : Obj} (h : ObjectOf (after m f) o) : ObjectOf f o := by
  obtain ⟨ρ, strings, hρ, h1, h2, h3, h4⟩ := h
  refine ⟨fun l => ρ (shift m.tmps m.locals l), strings, ⟨fun n => hρ.keeps n, ?_, ?_⟩, ?_, h2, h3, ?_⟩
  · intro l hl hn
    refine hρ.fresh _ (mem_labs_after hl) fun n e => ?_
    cases l with
    | name x => exact hn x rfl
    | string _ => cases e
    | localVar _ _ => cases e
    | tmp _ => cases e
  · intro l hl k hk e
    exact shift_inj (hρ.inj _ (mem_labs_after hl) _ (mem_labs_after hk) e)
  · intro s hs
    exact h1 s (mem_labs_after hs)
  · have : fileCalls ρ strings (after m f) = fileCalls (fun l => ρ (shift m.tmps m.locals l)) strings f := by
      unfold fileCalls after
      dsimp only
      rw [hv, List.nil_append, List.map_map, List.flatMap_map]
      congr 2
      · exact congrArg (fun k => f.code.map k) (funext fun c => opCall_map ..)
      · exact funext fun c => varCalls_map ..
    rw [← this]
    exact h4

end Verif.Session
