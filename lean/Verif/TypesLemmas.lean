import Verif.TypesSpec
namespace Verif.Types
open Verif Simple

mutual
theorem Ty.beq_iff : ∀ a b : Ty, a.beq b = true ↔ a = b
  | .node k c l, .node k' c' l' => by
    rw [Ty.beq]; simp only [Bool.and_eq_true, decide_eq_true_eq, Ty.node.injEq, Ty.beqs_iff l l']
theorem Ty.beqs_iff : ∀ a b : List Ty, Ty.beqs a b = true ↔ a = b
  | [], [] => by simp [Ty.beqs]
  | [], _ :: _ => by simp [Ty.beqs]
  | _ :: _, [] => by simp [Ty.beqs]
  | a :: as, b :: bs => by
    rw [Ty.beqs]; simp only [Bool.and_eq_true, List.cons.injEq, Ty.beq_iff a b, Ty.beqs_iff as bs]
end

/-- Default tree. -/
abbrev dTy : Ty := .node .pointer false []

/-- The tree of an object, given those of its components. -/
def treeOf (ts : List Ty) (o : Obj) : Ty :=
  .node o.kind o.isConst (o.children.map (fun i => ts.getD i dTy))

mutual
/-- The hash of a tree. -/
def hashT (h : BitVec 32 → BitVec 32) : Ty → BitVec 32
  | .node k c l => hashTs h l (hashOwn h ⟨k, c, []⟩)
/-- The hash of components. -/
def hashTs (h : BitVec 32 → BitVec 32) : List Ty → BitVec 32 → BitVec 32
  | [], acc => acc
  | t :: ts, acc => hashTs h ts (acc ^^^ hashT h t)
end

/-- `ts` are the trees the heap denotes. -/
structure Denotes (heap : Heap) (ts : List Ty) : Prop where
  len : heap.length = ts.length
  obj : ∀ p o, heap[p]? = some o → (∀ c ∈ o.children, c < p) ∧ ts[p]? = some (treeOf ts o)

theorem compare_spec {heap : Heap} {ts : List Ty} (D : Denotes heap ts) :
    ∀ (p : Nat) (o : Obj) (fuel : Nat), p < heap.length → p < fuel → (∀ c ∈ o.children, c < heap.length) →
      compare heap fuel o p = .ok ((treeOf ts o).beq (ts.getD p dTy)) := by
  intro p
  induction p using Nat.strongRecOn with
  | _ p ih =>
    intro o fuel hp hf hc
    obtain ⟨fuel, rfl⟩ : ∃ f, fuel = f + 1 := ⟨fuel - 1, by omega⟩
    have hob : heap[p]? = some heap[p] := List.getElem?_eq_getElem hp
    obtain ⟨hch, hts⟩ := D.obj p _ hob
    generalize heap[p] = ob at hob hch hts
    have hget : ts.getD p dTy = treeOf ts ob := by rw [List.getD_eq_getElem?_getD, hts]; rfl
    have hgo : ∀ (as bs : List Nat), (∀ c ∈ as, c < heap.length) → (∀ d ∈ bs, d < p) → as.length = bs.length →
        compare.go heap fuel as bs
          = .ok (Ty.beqs (as.map (fun i => ts.getD i dTy)) (bs.map (fun i => ts.getD i dTy))) := by
      intro as
      induction as with
      | nil => intro bs _ _ hl; cases bs with
        | nil => simp [compare.go, Ty.beqs]
        | cons _ _ => simp at hl
      | cons a as iha =>
        intro bs ha hb hl
        cases bs with
        | nil => simp at hl
        | cons b bs =>
          have hal : a < heap.length := ha a List.mem_cons_self
          have hbp : b < p := hb b List.mem_cons_self
          have hoa : heap[a]? = some heap[a] := List.getElem?_eq_getElem hal
          obtain ⟨hac, hat⟩ := D.obj a _ hoa
          generalize heap[a] = oa at hoa hac hat
          rw [compare.go, hoa]
          simp only
          rw [ih b hbp oa fuel (by omega) (by omega) (fun c hcm => Nat.lt_trans (hac c hcm) hal)]
          have e : ts.getD a dTy = treeOf ts oa := by rw [List.getD_eq_getElem?_getD, hat]; rfl
          simp only [List.map_cons, Ty.beqs, e]
          cases h : (treeOf ts oa).beq (ts.getD b dTy)
          · simp [bind, Res.bind, pure]
          · simp only [bind, Res.bind, if_true, Bool.true_and]
            exact iha bs (fun c hm => ha c (List.mem_cons_of_mem _ hm)) (fun d hm => hb d (List.mem_cons_of_mem _ hm)) (by simpa using hl)
    rw [compare, hob, hget]
    simp only
    have hbeq : (treeOf ts o).beq (treeOf ts ob) = (decide (o.kind = ob.kind) && (decide (o.isConst = ob.isConst) &&
        Ty.beqs (o.children.map (fun i => ts.getD i dTy)) (ob.children.map (fun i => ts.getD i dTy)))) := by
      rw [treeOf, treeOf, Ty.beq]
    rw [hbeq]
    by_cases h1 : o.kind = ob.kind
    · by_cases h2 : o.children.length = ob.children.length
      · by_cases h3 : o.isConst = ob.isConst
        · simp only [h1, h2, h3, ne_eq, not_true_eq_false, if_false]
          rw [hgo _ _ hc hch h2]; simp
        · simp [h1, h2, h3]
      · have : Ty.beqs (o.children.map (fun i => ts.getD i dTy)) (ob.children.map (fun i => ts.getD i dTy)) = false := by
          cases h : Ty.beqs (o.children.map (fun i => ts.getD i dTy)) (ob.children.map (fun i => ts.getD i dTy)) with
          | false => rfl
          | true =>
            have := congrArg List.length ((Ty.beqs_iff _ _).mp h)
            simp at this; exact absurd this h2
        rw [this]; simp [h1, h2]
    · simp [h1]

theorem hash_spec {h : BitVec 32 → BitVec 32} {heap : Heap} {ts : List Ty} (D : Denotes heap ts) :
    ∀ (n : Nat) (o : Obj) (fuel : Nat), n ≤ heap.length → n < fuel → (∀ c ∈ o.children, c < n) →
      hash h heap fuel o = .ok (hashT h (treeOf ts o)) := by
  intro n
  induction n using Nat.strongRecOn with
  | _ n ih =>
    intro o fuel hn hf hc
    obtain ⟨fuel, rfl⟩ : ∃ f, fuel = f + 1 := ⟨fuel - 1, by omega⟩
    have hgo : ∀ (as : List Nat) (acc : BitVec 32), (∀ c ∈ as, c < n) →
        hash.go h heap fuel as acc = .ok (hashTs h (as.map (fun i => ts.getD i dTy)) acc) := by
      intro as
      induction as with
      | nil => intro acc _; simp [hash.go, hashTs]
      | cons a as iha =>
        intro acc ha
        have han : a < n := ha a List.mem_cons_self
        have hoa : heap[a]? = some heap[a] := List.getElem?_eq_getElem (by omega)
        obtain ⟨hac, hat⟩ := D.obj a _ hoa
        generalize heap[a] = oa at hoa hac hat
        rw [hash.go, hoa]
        simp only
        rw [ih a han oa fuel (by omega) (by omega) hac]
        have e : ts.getD a dTy = treeOf ts oa := by rw [List.getD_eq_getElem?_getD, hat]; rfl
        simp only [bind, Res.bind, List.map_cons, hashTs, e]
        exact iha _ (fun c hm => ha c (List.mem_cons_of_mem _ hm))
    rw [hash, hgo _ _ hc, treeOf, hashT]
    rfl

/-- The state of the type table after any number of calls. -/
structure Inv (h : BitVec 32 → BitVec 32) (s : Store) (ts : List Ty) : Prop where
  den : Denotes s.heap ts
  nodup : ts.Nodup
  tab : ∀ i p, p ∈ s.table i ↔ (p < s.heap.length ∧ (hashT h (ts.getD p dTy)).toNat % 1024 = i)

theorem find_spec {heap : Heap} {ts : List Ty} (D : Denotes heap ts) {fuel : Nat} {o : Obj}
    (hf : heap.length ≤ fuel) (hc : ∀ c ∈ o.children, c < heap.length) :
    ∀ l : List Nat, (∀ p ∈ l, p < heap.length) →
      ∃ r, find heap fuel o l = .ok r ∧
        (∀ p, r = some p → p ∈ l ∧ ts.getD p dTy = treeOf ts o) ∧
        (r = none → ∀ p ∈ l, ts.getD p dTy ≠ treeOf ts o) := by
  intro l
  induction l with
  | nil => intro _; exact ⟨none, rfl, by simp, by simp⟩
  | cons p ps ih =>
    intro hl
    obtain ⟨r, hr, h1, h2⟩ := ih (fun q hq => hl q (List.mem_cons_of_mem _ hq))
    have hp := hl p List.mem_cons_self
    rw [find, compare_spec D p o fuel hp (by omega) hc]
    cases e : (treeOf ts o).beq (ts.getD p dTy)
    · refine ⟨r, by simpa [bind, Res.bind] using hr, fun q hq => ⟨List.mem_cons_of_mem _ (h1 q hq).1, (h1 q hq).2⟩, ?_⟩
      intro hn q hq
      rcases List.mem_cons.mp hq with rfl | hq
      · intro heq
        rw [heq] at e
        rw [(Ty.beq_iff _ _).mpr rfl] at e; simp at e
      · exact h2 hn q hq
    · refine ⟨some p, by simp [bind, Res.bind, pure], ?_, by simp⟩
      intro q hq; cases hq
      exact ⟨List.mem_cons_self, ((Ty.beq_iff _ _).mp e).symm⟩

theorem treeOf_append {ts us : List Ty} {o : Obj} (hc : ∀ c ∈ o.children, c < ts.length) :
    treeOf (ts ++ us) o = treeOf ts o := by
  rw [treeOf, treeOf]
  congr 1
  apply List.map_congr_left
  intro c hm
  rw [List.getD_eq_getElem?_getD, List.getD_eq_getElem?_getD, List.getElem?_append_left (hc c hm)]

/-- A constructor call returns a pointer to the requested tree and keeps the others. -/
theorem create_spec {h : BitVec 32 → BitVec 32} {s : Store} {ts : List Ty} (I : Inv h s ts) {o : Obj}
    (hc : ∀ c ∈ o.children, c < s.heap.length) :
    ∃ p s' us, create h (s.heap.length + 1) o s = .ok (p, s') ∧ Inv h s' (ts ++ us) ∧
      p < s'.heap.length ∧ (ts ++ us).getD p dTy = treeOf ts o := by
  have hh := hash_spec (h := h) I.den s.heap.length o (s.heap.length + 1) (Nat.le_refl _) (by omega) hc
  rw [create, hh]
  obtain ⟨r, hr, h1, h2⟩ := find_spec I.den (fuel := s.heap.length + 1) (by omega) hc
    (s.table ((hashT h (treeOf ts o)).toNat % 1024)) (fun p hp => ((I.tab _ _).mp hp).1)
  simp only [bind, Res.bind, hr]
  cases r with
  | some p =>
    obtain ⟨hm, he⟩ := h1 p rfl
    exact ⟨p, s, [], by simp [pure], by simpa using I, ((I.tab _ _).mp hm).1, by simpa using he⟩
  | none =>
    have hne := h2 rfl
    have hlen := I.den.len
    refine ⟨s.heap.length, _, [treeOf ts o], rfl, ?_, by simp, ?_⟩
    · refine ⟨⟨by simp [hlen], ?_⟩, ?_, ?_⟩
      · intro p o' hp
        simp only at hp
        by_cases hlt : p < s.heap.length
        · rw [List.getElem?_append_left hlt] at hp
          obtain ⟨a, b⟩ := I.den.obj p o' hp
          refine ⟨a, ?_⟩
          rw [List.getElem?_append_left (by omega), b, treeOf_append]
          intro c hm; have := a c hm; omega
        · have hpe : p = s.heap.length := by
            have := (List.getElem?_eq_some_iff.mp hp).1
            simp at this; omega
          subst hpe
          rw [List.getElem?_append_right (Nat.le_refl _)] at hp
          simp at hp; subst hp
          refine ⟨hc, ?_⟩
          rw [List.getElem?_append_right (by omega), treeOf_append (by rw [← hlen]; exact hc)]
          simp [hlen]
      · rw [List.nodup_append]
        refine ⟨I.nodup, by simp, ?_⟩
        intro a ha b hb
        simp only [List.mem_singleton] at hb
        subst hb
        intro heq
        subst heq
        obtain ⟨p, hp, hpe⟩ := List.mem_iff_getElem.mp ha
        have hg : ts.getD p dTy = treeOf ts o := by
          rw [List.getD_eq_getElem?_getD, List.getElem?_eq_getElem hp, ← hpe]; rfl
        refine hne p ((I.tab _ _).mpr ⟨by omega, ?_⟩) hg
        rw [hg]
      · intro i p
        simp only
        by_cases hlt : p < s.heap.length
        · have hg : (ts ++ [treeOf ts o]).getD p dTy = ts.getD p dTy := by
            rw [List.getD_eq_getElem?_getD, List.getD_eq_getElem?_getD, List.getElem?_append_left (by omega)]
          rw [hg]
          split
          · next hi =>
            subst hi
            rw [List.mem_cons, I.tab]
            simp only [List.length_append, List.length_singleton]
            constructor
            · rintro (rfl | ⟨_, h⟩)
              · omega
              · exact ⟨by omega, h⟩
            · rintro ⟨_, h⟩; exact .inr ⟨hlt, h⟩
          · rw [I.tab]
            simp only [List.length_append, List.length_singleton]
            exact ⟨fun ⟨_, b⟩ => ⟨by omega, b⟩, fun ⟨_, b⟩ => ⟨hlt, b⟩⟩
        · by_cases hpe : p = s.heap.length
          · have hg : (ts ++ [treeOf ts o]).getD p dTy = treeOf ts o := by
              rw [List.getD_eq_getElem?_getD, List.getElem?_append_right (by omega)]; simp [hpe, hlen]
            rw [hg]
            split
            · next hi => subst hi; simp [hpe]
            · next hi =>
              rw [I.tab]
              constructor
              · rintro ⟨a, _⟩; omega
              · rintro ⟨_, b⟩; exact absurd b.symm hi
          · have hno : ¬ p < (s.heap ++ [o]).length := by simp; omega
            constructor
            · intro hm
              split at hm
              · rcases List.mem_cons.mp hm with h | h
                · exact absurd h hpe
                · exact absurd ((I.tab _ _).mp h).1 hlt
              · exact absurd ((I.tab _ _).mp hm).1 hlt
            · rintro ⟨a, _⟩; exact absurd a hno
    · rw [List.getD_eq_getElem?_getD, List.getElem?_append_right (by omega)]; simp [hlen]

/-- All results point at the requested trees. -/
theorem run_spec {h : BitVec 32 → BitVec 32} : ∀ (qs : List Req) (rs : List Nat) (s : Store) (ts rt : List Ty),
    Inv h s ts → rs.length = rt.length → WellFormed qs rs.length →
    (∀ i : Nat, i < rs.length → rs.getD i 0 < s.heap.length ∧ ts.getD (rs.getD i 0) dTy = rt.getD i dTy) →
    ∃ rs' s' us, run h qs rs s = .ok (rs', s') ∧ Inv h s' (ts ++ us) ∧ rs'.length = (trees qs rt).length ∧
      rs'.length = rs.length + qs.length ∧
      (∀ i : Nat, i < rs'.length → rs'.getD i 0 < s'.heap.length ∧ (ts ++ us).getD (rs'.getD i 0) dTy = (trees qs rt).getD i dTy) := by
  intro qs
  induction qs with
  | nil =>
    intro rs s ts rt I hl _ hr
    exact ⟨rs, s, [], rfl, by simpa using I, hl, by simp, by simpa [trees] using hr⟩
  | cons q qs ih =>
    intro rs s ts rt I hl hw hr
    obtain ⟨hq, hw⟩ := hw
    have hc : ∀ c ∈ q.children.map (fun i => rs.getD i 0), c < s.heap.length := by
      intro c hm
      obtain ⟨i, hi, rfl⟩ := List.mem_map.mp hm
      exact (hr i (hq i hi)).1
    obtain ⟨p, s', us, e, I', hp, ht⟩ := create_spec I (o := ⟨q.kind, q.isConst, q.children.map (fun i => rs.getD i 0)⟩) hc
    have htree : treeOf ts ⟨q.kind, q.isConst, q.children.map (fun i => rs.getD i 0)⟩
        = .node q.kind q.isConst (q.children.map (fun i => rt.getD i dTy)) := by
      rw [treeOf]; simp only [List.map_map]
      congr 1
      apply List.map_congr_left
      intro i hi
      exact (hr i (hq i hi)).2
    have hlen' : s.heap.length ≤ s'.heap.length := by
      have := I.den.len; have := I'.den.len; simp at this; omega
    obtain ⟨rs', s'', vs, e2, I2, l2, l3, r2⟩ := ih (rs ++ [p]) s' (ts ++ us)
      (rt ++ [.node q.kind q.isConst (q.children.map (fun i => rt.getD i dTy))]) I' (by simp [hl])
      (by simpa using hw) (by
        intro i hi
        by_cases hlt : i < rs.length
        · have e1 : (rs ++ [p]).getD i 0 = rs.getD i 0 := by
            rw [List.getD_eq_getElem?_getD, List.getD_eq_getElem?_getD, List.getElem?_append_left hlt]
          have e2 : (rt ++ [Ty.node q.kind q.isConst (q.children.map (fun i => rt.getD i dTy))]).getD i dTy = rt.getD i dTy := by
            rw [List.getD_eq_getElem?_getD, List.getD_eq_getElem?_getD, List.getElem?_append_left (by omega)]
          rw [e1, e2]
          obtain ⟨a, b⟩ := hr i hlt
          refine ⟨by omega, ?_⟩
          rw [← b]
          have hx : rs.getD i 0 < ts.length := by rw [← I.den.len]; exact a
          generalize rs.getD i 0 = x at hx ⊢
          rw [List.getD_eq_getElem?_getD, List.getD_eq_getElem?_getD, List.getElem?_append_left hx]
        · have hie : i = rs.length := by simp at hi; omega
          have e1 : (rs ++ [p]).getD i 0 = p := by
            rw [List.getD_eq_getElem?_getD, List.getElem?_append_right (by omega)]; simp [hie]
          have e2 : (rt ++ [Ty.node q.kind q.isConst (q.children.map (fun i => rt.getD i dTy))]).getD i dTy
              = .node q.kind q.isConst (q.children.map (fun i => rt.getD i dTy)) := by
            rw [List.getD_eq_getElem?_getD, List.getElem?_append_right (by omega)]; simp [hie, hl]
          rw [e1, e2]
          exact ⟨hp, by rw [ht, htree]⟩)
    refine ⟨rs', s'', us ++ vs, ?_, by simpa using I2, by simpa [trees] using l2, by simp at l3 ⊢; omega, ?_⟩
    · rw [run, e]; simpa [bind, Res.bind] using e2
    · simpa [trees] using r2

/-! ### Members -/

theorem path_foldl (l : List Nat) : ∀ e : Access, (l.foldl Access.member e).path = e.path ++ l := by
  induction l with
  | nil => intro e; simp
  | cons i l ih => intro e; rw [List.foldl_cons, ih, Access.path]; simp

mutual
theorem search_sound (name : Str) : ∀ (r : Rec) (p : List Nat), search name r = some p → Leads r p.reverse name
  | .mk fs, p, h => by
    rw [search] at h
    exact searchFields_sound name fs 0 p h (.mk fs) (fun j => by simp [Rec.fields])
theorem searchFields_sound (name : Str) : ∀ (fs : List (Str × Option Rec)) (i : Nat) (p : List Nat),
    searchFields name fs i = some p → ∀ r : Rec, (∀ j, r.fields[i + j]? = fs[j]?) → Leads r p.reverse name
  | [], i, p, h, r, hr => by simp [searchFields] at h
  | f :: fs, i, p, h, r, hr => by
    rw [searchFields] at h
    have h0 := hr 0
    simp only [Nat.add_zero, List.getElem?_cons_zero] at h0
    split at h
    · next hn =>
      cases h
      exact .here (t := f.2) (by rw [h0, ← hn])
    · split at h
      · next q hq =>
        cases h
        rw [List.reverse_append]
        obtain ⟨r', e, hl⟩ := searchField_sound name f q hq
        exact .through (r' := r') (by rw [← e]; simpa using h0) hl
      · refine searchFields_sound name fs (i + 1) p h r (fun j => ?_)
        have := hr (j + 1)
        rw [List.getElem?_cons_succ] at this
        rw [← this]; congr 1; omega
theorem searchField_sound (name : Str) : ∀ (f : Str × Option Rec) (p : List Nat),
    searchField name f = some p → ∃ r', f = ([], some r') ∧ Leads r' p.reverse name
  | (n, some r), p, h => by
    rw [searchField] at h
    split at h
    · next hl => exact ⟨r, by rw [List.length_eq_zero_iff.mp hl], search_sound name r p h⟩
    · simp at h
  | (_, none), p, h => by simp [searchField] at h
end

theorem searchFields_complete (name : Str) : ∀ (fs : List (Str × Option Rec)) (i j : Nat) (f : Str × Option Rec),
    fs[j]? = some f → (f.1 = name ∨ (searchField name f).isSome) → (searchFields name fs i).isSome
  | [], i, j, f, h, _ => by simp at h
  | g :: fs, i, j, f, h, hf => by
    rw [searchFields]
    split
    · rfl
    · next hn =>
      split
      · rfl
      · next hs =>
        cases j with
        | zero =>
          simp at h; subst h
          rcases hf with hf | hf
          · exact absurd hf hn
          · rw [hs] at hf; simp at hf
        | succ j => exact searchFields_complete name fs (i + 1) j f (by simpa using h) hf

theorem search_complete {r : Rec} {path : List Nat} {name : Str} (h : Leads r path name) : (search name r).isSome := by
  induction h with
  | @here r i name t h =>
    cases r with
    | mk fs => rw [search]; exact searchFields_complete name fs 0 i _ h (.inl rfl)
  | @through r r' i path name h _ ih =>
    cases r with
    | mk fs =>
      rw [search]
      exact searchFields_complete name fs 0 i _ h (.inr (by rw [searchField]; simpa using ih))

end Verif.Types
