import Verif.Token
/-!
Model of the macro table (src/preprocessor/macro_expander.c:11-102) and of
`#pragma push_macro` / `pop_macro` (src/preprocessor/directives.c:28-34, 406-441).

The table is 1024 chains of `struct define`.  A chain is the list of its entries from
the bucket on; `struct define **it` walking a chain is recursion along the list.
Freed memory is not modelled (no entry is reachable after `free`).
-/
namespace Verif.DefineMap
open Verif

/-- src/preprocessor/macro_expander.h:7-14 `struct define` (without `next`). -/
structure Define where
  name : Str
  func : Bool := false
  vararg : Bool := false
  body : List Tok := []
  par : List Tok := []
  deriving DecidableEq, Repr, Inhabited

/-- src/string_view.c:38-46 `sv_hash`; `sv.str[i]` is a signed `char`. -/
def svHash (s : Str) : BitVec 32 :=
  s.foldl (fun h c => ((h <<< 5) + h) + c.signExtend 32) 5381#32

/-- src/preprocessor/macro_expander.c:39. -/
def bucketOf (s : Str) : Nat := (svHash s).toNat % 1024

/-- src/preprocessor/macro_expander.c:11-16, 26-33: the buckets. -/
abbrev Table := Nat → List Define

/-- src/preprocessor/macro_expander.c:26-33 `define_map_init`. -/
def init : Table := fun _ => []

/-- src/preprocessor/macro_expander.c:41-47 and 68-70: the entry the chain walk of
`define_map_find` stops at. -/
def chainGet (n : Str) : List Define → Option Define
  | [] => none
  | e :: es => if e.name = n then some e else chainGet n es

/-- src/preprocessor/macro_expander.c:58-65: overwrite the entry found (keeping its
`next`) or hang a new entry at the end of the chain. -/
def chainAdd (d : Define) : List Define → List Define
  | [] => [d]
  | e :: es => if e.name = d.name then d :: es else e :: chainAdd d es

/-- src/preprocessor/macro_expander.c:74-79: unlink the entry found. -/
def chainRemove (n : Str) : List Define → List Define
  | [] => []
  | e :: es => if e.name = n then es else e :: chainRemove n es

/-- src/preprocessor/macro_expander.c:53-56: whitespace at both ends of the body is
forgotten.  `def.list[0]` and `def.list[size-1]` may be the same token. -/
def trimBody : List Tok → List Tok
  | [] => []
  | t :: ts =>
    let l := { t with whitespace := false } :: ts
    match l.getLast? with
    | none => []
    | some z => l.dropLast ++ [{ z with whitespaceAfter := false }]

/-- Replace one bucket. -/
def setBucket (t : Table) (i : Nat) (c : List Define) : Table :=
  fun j => if j = i then c else t j

/-- src/preprocessor/macro_expander.c:50-66 `define_map_add`, for a hash `h`. -/
def add (h : Str → Nat) (t : Table) (d : Define) : Table :=
  setBucket t (h d.name) (chainAdd { d with body := trimBody d.body } (t (h d.name)))

/-- src/preprocessor/macro_expander.c:68-70 `define_map_get`. -/
def get (h : Str → Nat) (t : Table) (n : Str) : Option Define := chainGet n (t (h n))

/-- src/preprocessor/macro_expander.c:72-80 `define_map_remove`. -/
def remove (h : Str → Nat) (t : Table) (n : Str) : Table :=
  setBucket t (h n) (chainRemove n (t (h n)))

/-! ### push_macro / pop_macro -/

/-- src/preprocessor/directives.c:28-34: `macro_stacks`, each stack oldest first. -/
abbrev Stacks := List (List Define)

/-- Macro table plus saved definitions. -/
structure State where
  tab : Table
  stacks : Stacks

/-- src/preprocessor/directives.c:407-413 and 426-432: the *last* stack that is
non-empty and whose first entry has the name. -/
def findStack (n : Str) : Stacks → Option Nat
  | [] => none
  | s :: ss =>
    match findStack n ss with
    | some i => some (i + 1)
    | none => if (s.head?.map (·.name)) = some n then some 0 else none

/-- src/preprocessor/directives.c:406-423 `push_macro`. -/
def pushMacro (h : Str → Nat) (n : Str) (s : State) : State :=
  let (i, ss) := match findStack n s.stacks with
    | some i => (i, s.stacks)
    | none => (s.stacks.length, s.stacks ++ [[]])
  match get h s.tab n with
  | some d => { s with stacks := ss.modify i (fun l => l ++ [d]) }
  | none => { s with stacks := ss }

/-- src/preprocessor/directives.c:425-441 `pop_macro`. -/
def popMacro (h : Str → Nat) (n : Str) (s : State) : Res State :=
  match findStack n s.stacks with
  | none => .ok s
  | some i =>
    match s.stacks[i]? with
    | none => .ub
    | some l =>
      match l.getLast? with
      | none => .ub
      | some d =>
        let tab := add h s.tab d
        if l.dropLast.length = 0 then .ok ⟨tab, s.stacks.eraseIdx i⟩
        else .ok ⟨tab, s.stacks.set i l.dropLast⟩

/-! ### lemmas about the table -/

theorem chainGet_name {n c d} (hd : chainGet n c = some d) : d.name = n := by
  induction c with
  | nil => simp [chainGet] at hd
  | cons e es ih =>
    unfold chainGet at hd
    split at hd
    · next h => cases hd; exact h
    · exact ih hd

theorem chainGet_add (n d c) :
    chainGet n (chainAdd d c) = if d.name = n then some d else chainGet n c := by
  induction c with
  | nil => simp [chainAdd, chainGet]
  | cons e es ih =>
    unfold chainAdd
    split <;> grind [chainGet]

/-- No two entries of a chain share a name. -/
def Distinct (c : List Define) : Prop := c.Pairwise (fun a b => a.name ≠ b.name)

theorem mem_chainAdd {x d c} (h : x ∈ chainAdd d c) : x = d ∨ x ∈ c := by
  induction c with
  | nil => simpa [chainAdd] using h
  | cons e es ih => unfold chainAdd at h; split at h <;> grind

theorem mem_chainAdd_name {x d c} (h : x ∈ chainAdd d c) : x.name = d.name ∨ x ∈ c := by
  rcases mem_chainAdd h with rfl | h
  · exact Or.inl rfl
  · exact Or.inr h

theorem mem_chainRemove {x n c} (h : x ∈ chainRemove n c) : x ∈ c := by
  induction c with
  | nil => simp [chainRemove] at h
  | cons e es ih => unfold chainRemove at h; split at h <;> grind

theorem distinct_add {d c} (h : Distinct c) : Distinct (chainAdd d c) := by
  induction c with
  | nil => simp [chainAdd, Distinct]
  | cons e es ih =>
    simp only [Distinct, List.pairwise_cons] at h
    unfold chainAdd
    split
    · next he =>
      exact List.pairwise_cons.mpr ⟨fun x hx => by rw [← he]; exact h.1 x hx, h.2⟩
    · next he =>
      refine List.pairwise_cons.mpr ⟨fun x hx => ?_, ih h.2⟩
      rcases mem_chainAdd hx with rfl | hx
      · exact he
      · exact h.1 x hx

theorem distinct_remove {n c} (h : Distinct c) : Distinct (chainRemove n c) := by
  induction c with
  | nil => simpa [chainRemove] using h
  | cons e es ih =>
    simp only [Distinct, List.pairwise_cons] at h
    unfold chainRemove
    split
    · exact h.2
    · exact List.pairwise_cons.mpr ⟨fun x hx => h.1 x (mem_chainRemove hx), ih h.2⟩

theorem chainGet_none_of {n c} (h : ∀ x ∈ c, x.name ≠ n) : chainGet n c = none := by
  induction c with
  | nil => rfl
  | cons e es ih => simp [chainGet, h e (by simp), ih (fun x hx => h x (by simp [hx]))]

theorem chainGet_remove {c} (hc : Distinct c) (n m) :
    chainGet n (chainRemove m c) = if m = n then none else chainGet n c := by
  induction c with
  | nil => simp [chainRemove, chainGet]
  | cons e es ih =>
    simp only [Distinct, List.pairwise_cons] at hc
    unfold chainRemove
    split
    · next he =>
      by_cases hmn : m = n
      · subst hmn
        simp only [if_true]
        exact chainGet_none_of (fun x hx => by rw [← he]; exact (hc.1 x hx).symm)
      · simp [hmn, chainGet, he]
    · next he =>
      have := ih hc.2
      grind [chainGet]

/-- The invariant of the table. -/
def TabInv (t : Table) : Prop := ∀ i, Distinct (t i)

theorem tabInv_init : TabInv init := fun _ => by simp [init, Distinct]
theorem tabInv_add {h t d} (ht : TabInv t) : TabInv (add h t d) := by
  intro i; unfold add setBucket; split
  · exact distinct_add (ht _)
  · exact ht i
theorem tabInv_remove {h t n} (ht : TabInv t) : TabInv (remove h t n) := by
  intro i; unfold remove setBucket; split
  · exact distinct_remove (ht _)
  · exact ht i

theorem get_add (h t d n) :
    get h (add h t d) n
      = if d.name = n then some { d with body := trimBody d.body } else get h t n := by
  unfold get add setBucket
  by_cases hn : d.name = n
  · subst hn; simp [chainGet_add]
  · split
    · next he => rw [chainGet_add]; simp [hn, he]
    · simp

theorem get_remove {h t} (ht : TabInv t) (m n) :
    get h (remove h t m) n = if m = n then none else get h t n := by
  unfold get remove setBucket
  by_cases hn : m = n
  · subst hn; simp [chainGet_remove (ht _)]
  · split
    · next he => rw [chainGet_remove (ht _)]; simp [hn, he]
    · simp

theorem get_name {h t n d} (hd : get h t n = some d) : d.name = n := chainGet_name hd

theorem trimBody_one (t : Tok) :
    trimBody [t] = [{ t with whitespace := false, whitespaceAfter := false }] := rfl

theorem trimBody_two (t z : Tok) (m : List Tok) :
    trimBody (t :: (m ++ [z]))
      = { t with whitespace := false } :: (m ++ [{ z with whitespaceAfter := false }]) := by
  simp [trimBody, List.getLast?_cons, List.dropLast_cons_of_ne_nil]

theorem trimBody_trimBody (l : List Tok) : trimBody (trimBody l) = trimBody l := by
  cases l with
  | nil => rfl
  | cons t ts =>
    rcases List.eq_nil_or_concat ts with rfl | ⟨m, z, rfl⟩
    · rfl
    · rw [List.concat_eq_append, trimBody_two, trimBody_two]

end Verif.DefineMap
