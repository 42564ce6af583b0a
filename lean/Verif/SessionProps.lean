import Verif.SessionLemmas
import Verif.Linker
/-!
Property C106: a file compiled together with others.
-/
namespace Verif.Session
open Verif Object ObjectSpec SessionSpec

/-- The sum of several files. -/
def total : File → List File → File
  | m, [] => m
  | m, f :: fs => total (after m f) fs

theorem session_from : ∀ (fs : List File) (f : File) (m : File) (g : G), Valid m → StateOf m g → g.packs = .null →
    (∀ x ∈ fs ++ [f], Valid x) → (∀ x ∈ cumulative m (fs ++ [f]), Small x) → (∀ x ∈ fs, x.pushes = 0) →
    ∃ os, session g (fs ++ [f]) = .ok os ∧ Each ObjectOf (cumulative m (fs ++ [f])) os := by
  intro fs
  induction fs with
  | nil =>
    intro f m g hm hg hp hv hs _
    obtain ⟨q, h1, h2, h3, h4⟩ := push_null f.pushes g.packs (by rw [hp]; simp)
    obtain ⟨r, hr⟩ : ∃ r, free q = .ok r := by
      cases q with
      | null => exact ⟨_, rfl⟩
      | live => exact ⟨_, rfl⟩
      | freed => exact absurd rfl h2
    obtain ⟨g', o, e, _, _, ho⟩ := compile_after hm (hv f (by simp)) (hs _ (by simp [cumulative])) hg h1 hr
    refine ⟨[o], ?_, ho, trivial⟩
    show session g [f] = _
    unfold session
    rw [e, Res.bind_ok]
    rfl
  | cons f' fs ih =>
    intro f m g hm hg hp hv hs hpush
    have h0 := hpush f' (List.mem_cons_self ..)
    obtain ⟨g', o, e, hg', hp', ho⟩ := compile_after hm (hv f' (by simp)) (hs _ (by simp [cumulative])) hg
      (p := .null) (q := .null) (by rw [h0, hp]; rfl) rfl
    obtain ⟨os, h1, h2⟩ := ih f (after m f') g' (valid_after hm (hv f' (by simp))) hg' hp'
      (fun x hx => hv x (List.mem_cons_of_mem _ hx)) (fun x hx => hs x (List.mem_cons_of_mem _ hx))
      (fun x hx => hpush x (List.mem_cons_of_mem _ hx))
    refine ⟨o :: os, ?_, ho, h2⟩
    show session g (f' :: (fs ++ [f])) = _
    unfold session
    rw [e, Res.bind_ok]
    dsimp only
    rw [h1]
    rfl

/-- C106, what the compiler does: every file of a command whose files, except the last, have no
`#pragma pack(push)` gets an object with its own functions, but with the static variables of all the
files up to it. -/
theorem objects_actual (fs : List File) (f : File) (hv : ∀ x ∈ fs ++ [f], Valid x)
    (hs : ∀ x ∈ cumulative noFiles (fs ++ [f]), Small x) (hp : ∀ x ∈ fs, x.pushes = 0) :
    ∃ os, session {} (fs ++ [f]) = .ok os ∧ Each ObjectOf (cumulative noFiles (fs ++ [f])) os :=
  session_from fs f noFiles {} valid_start stateOf_start rfl hv hs hp

/-- A file with a variable `g`, and a function `f` that uses its address, a string and a static
variable of a block. -/
def fileA : File where
  regs := [.name (str "g"), .name (str "f"), .string (str "hi"), .localVar 0 (str "x")]
  code := [.label true (.name (str "f")), .refer (.name (str "g")) 0 0 .r64, .code (List.replicate 8 0),
    .label false (.tmp 0), .refer (.string (str "hi")) 0 0 .r64, .code (List.replicate 8 0)]
  vars := [⟨.name (str "g"), true, 8, [.bytes [1, 0, 0, 0], .zero 4]⟩, ⟨.localVar 0 (str "x"), false, 4, [.zero 4]⟩]
  tmps := 1
  locals := 1
  pushes := 0

/-- A file with a function that uses the address of `g`. -/
def fileB : File where
  regs := [.name (str "g"), .name (str "_start")]
  code := [.label true (.name (str "_start")), .refer (.name (str "g")) 0 0 .r64, .code (List.replicate 8 0)]
  vars := []
  tmps := 0
  locals := 0
  pushes := 0

theorem valid_fileA : Valid fileA := by
  constructor
  · intro l hl
    simp only [labs, fileA, List.flatMap_cons, List.flatMap_nil, opLabs, varLabs, pieceLabs, List.nil_append, List.append_nil,
      List.cons_append, List.mem_cons, List.not_mem_nil, or_false] at hl
    rcases hl with rfl | rfl | rfl | rfl | rfl | rfl
    · exact .inr (by decide)
    · exact .inr (by decide)
    · exact .inl ⟨0, rfl⟩
    · exact .inr (by decide)
    · exact .inr (by decide)
    · exact .inr (by decide)
  · intro k hk
    have : ∀ l ∈ fileA.regs ++ labs fileA, ∀ k, l = .tmp k → k < 1 := by
      intro l hl k e
      subst e
      simp [labs, fileA, List.flatMap_cons, opLabs, varLabs, pieceLabs] at hl
      omega
    exact this _ hk k rfl
  · intro k n hk
    simp [fileA] at hk
    obtain ⟨rfl, rfl⟩ := hk
    exact ⟨by decide, ⟨by decide, by decide, by decide⟩, by decide⟩
  · intro n hn
    simp [fileA] at hn
    rcases hn with rfl | rfl <;> exact ⟨⟨by decide, by decide, by decide⟩, by decide⟩
  · intro v hv
    simp [fileA] at hv
    rcases hv with rfl | rfl <;> decide

theorem valid_fileB : Valid fileB := by
  constructor
  · intro l hl
    simp only [labs, fileB, List.flatMap_cons, List.flatMap_nil, opLabs, varLabs, pieceLabs, List.nil_append, List.append_nil,
      List.cons_append, List.mem_cons, List.not_mem_nil, or_false] at hl
    rcases hl with rfl | rfl <;> exact .inr (by decide)
  · intro k hk
    simp [labs, fileB, List.flatMap_cons, opLabs, varLabs, pieceLabs] at hk
  · intro k n hk
    simp [fileB] at hk
  · intro n hn
    simp [fileB] at hn
    rcases hn with rfl | rfl <;> exact ⟨⟨by decide, by decide, by decide⟩, by decide⟩
  · intro v hv
    cases hv

example : (∀ x ∈ [fileA] ++ [fileB], Valid x) ∧ (∀ x ∈ cumulative noFiles ([fileA] ++ [fileB]), Small x) ∧
    ∀ x ∈ [fileA], x.pushes = 0 := by
  refine ⟨?_, ?_, by decide⟩
  · intro x hx
    simp at hx
    rcases hx with rfl | rfl
    · exact valid_fileA
    · exact valid_fileB
  · intro x hx
    simp [cumulative] at hx
    rcases hx with rfl | rfl <;> exact ⟨by decide, by decide, by decide⟩

/-- C106, one file: its object has its functions, the string constants it uses and its static
variables, and nothing else. -/
theorem one_file {f : File} (hv : Valid f) (hs : Small f) : ∃ o, session {} [f] = .ok [o] ∧ ObjectOf f o := by
  have hs' : Small (after noFiles f) :=
    ⟨by show ([] ++ f.regs.map _).length ≤ _; simpa using hs.1, by show 0 + f.locals ≤ _; have := hs.2.1; omega,
      by show 0 + f.tmps ≤ _; have := hs.2.2; omega⟩
  obtain ⟨os, h1, h2⟩ := objects_actual [] f (fun x hx => by simp at hx; exact hx ▸ hv)
    (fun x hx => by simp [cumulative] at hx; exact hx ▸ hs') (fun x hx => by cases hx)
  match os, h2 with
  | [o], h2 => exact ⟨o, h1, objectOf_after rfl h2.1⟩

example : Valid fileA ∧ Small fileA := ⟨valid_fileA, by decide, by decide, by decide⟩

theorem cumulative_each : ∀ (fs : List File) (f : File) (m : File) (os : List Obj), m.vars = [] → (∀ x ∈ fs, x.vars = []) →
    Each ObjectOf (cumulative m (fs ++ [f])) os → Each ObjectOf (fs ++ [f]) os := by
  intro fs
  induction fs with
  | nil =>
    intro f m os hm _ h
    match os, h with
    | [o], h => exact ⟨objectOf_after hm h.1, trivial⟩
  | cons f' fs ih =>
    intro f m os hm hv h
    match os, h with
    | o :: os, h =>
      refine ⟨objectOf_after hm h.1, ih f (after m f') os ?_ (fun x hx => hv x (List.mem_cons_of_mem _ hx)) h.2⟩
      show m.vars ++ f'.vars.map _ = []
      rw [hm, hv f' (List.mem_cons_self ..)]
      rfl

/-- C106, restricted: the files before the last have no static variables and no
`#pragma pack(push)`.  Then every file gets the object it should have.  The full statement has no
`hnv` and no `hp`; it is false. -/
theorem alone_partial (fs : List File) (f : File) (hv : ∀ x ∈ fs ++ [f], Valid x)
    (hs : ∀ x ∈ cumulative noFiles (fs ++ [f]), Small x) (hp : ∀ x ∈ fs, x.pushes = 0) (hnv : ∀ x ∈ fs, x.vars = []) :
    ∃ os, session {} (fs ++ [f]) = .ok os ∧ Each ObjectOf (fs ++ [f]) os := by
  obtain ⟨os, h1, h2⟩ := objects_actual fs f hv hs hp
  exact ⟨os, h1, cumulative_each fs f noFiles os rfl hnv h2⟩

example : (∀ x ∈ [fileB] ++ [fileA], Valid x) ∧ (∀ x ∈ cumulative noFiles ([fileB] ++ [fileA]), Small x) ∧
    (∀ x ∈ [fileB], x.pushes = 0) ∧ (∀ x ∈ [fileB], x.vars = []) := by
  refine ⟨?_, ?_, by decide, by simp [fileB]⟩
  · intro x hx
    simp at hx
    rcases hx with rfl | rfl
    · exact valid_fileB
    · exact valid_fileA
  · intro x hx
    simp [cumulative] at hx
    rcases hx with rfl | rfl <;> exact ⟨by decide, by decide, by decide⟩

/-- C106: the object of a file defines exactly the identifiers that the file defines. -/
theorem defines_exactly {f : File} {o : Obj} (h : ObjectOf f o) {n : Name} (hn : Ident n) : Defined o n ↔ Defines f n :=
  defined_iff h hn

example : Defines fileA (str "g") ∧ Ident (str "g") ∧ ¬ Defines fileB (str "g") := by
  refine ⟨.inr ⟨⟨.name (str "g"), true, 8, [.bytes [1, 0, 0, 0], .zero 4]⟩, by simp [fileA], rfl⟩,
    ⟨by decide, by decide, by decide⟩, ?_⟩
  rintro (⟨g, hg⟩ | ⟨v, hv, _⟩)
  · simp [fileB] at hg
    exact absurd hg.2 (by decide)
  · cases hv

/-- C106 fails: the object of the second file defines the variable of the first. -/
theorem objects_violated :
    ∃ a b os, Valid a ∧ Valid b ∧ session {} [a, b] = .ok os ∧ ¬ Each ObjectOf [a, b] os := by
  obtain ⟨os, h1, h2⟩ := objects_actual [fileA] fileB
    (by intro x hx; simp at hx; rcases hx with rfl | rfl; exact valid_fileA; exact valid_fileB)
    (by intro x hx; simp [cumulative] at hx; rcases hx with rfl | rfl <;> exact ⟨by decide, by decide, by decide⟩)
    (by decide)
  refine ⟨fileA, fileB, os, valid_fileA, valid_fileB, h1, ?_⟩
  match os, h2 with
  | [o₁, o₂], h2 =>
    intro h
    have hg : Ident (str "g") := ⟨by decide, by decide, by decide⟩
    have hd := (defines_exactly h2.2.1 hg).2 (.inr ⟨⟨.name (str "g"), true, 8, [.bytes [1, 0, 0, 0], .zero 4]⟩,
      by simp [after, noFiles, fileA, mapVar, shift, mapPiece], rfl⟩)
    rcases (defines_exactly h.2.1 hg).1 hd with ⟨g, hg⟩ | ⟨v, hv, _⟩
    · simp [fileB] at hg
      exact absurd hg.2 (by decide)
    · cases hv

/-- The eight bytes at a place of the executable. -/
def quadAt (x : Linker.Executable) (p : Nat) : List Byte := (x.data.drop p).take 8

/-- The place of the reference to `g` in the first and in the second file's function, and the
addresses there when the objects are linked. -/
def linked (r : Res (List Obj)) (p q : Nat) : Option (List Byte × List Byte) :=
  match r with
  | .ok os => match Linker.linkerLink os with
    | .ok x => some (quadAt x p, quadAt x q)
    | _ => Option.none
  | _ => Option.none

/-- The objects of the files compiled one by one. -/
def oneByOne (a b : File) : Res (List Obj) := do
  let x ← session {} [a]
  let y ← session {} [b]
  .ok (x ++ y)

/-- C106 fails, consequence: with `f` defined beside `g` in one file and `_start` in the other, the two
functions use the same `g` when the files are compiled one by one, but different objects when they
are compiled and linked by one command. -/
theorem two_copies_violated :
    (∃ x, linked (oneByOne fileA fileB) 0 31 = some (x, x)) ∧
    (∃ x y, linked (session {} [fileA, fileB]) 0 31 = some (x, y) ∧ x ≠ y) :=
  ⟨⟨[0x13, 0, 1, 0, 0, 0, 0, 0], by decide +kernel⟩,
    ⟨[0x13, 0, 1, 0, 0, 0, 0, 0], [0x2a, 0, 1, 0, 0, 0, 0, 0], by decide +kernel, by decide⟩⟩

theorem compile_packs {g g' : G} {f : File} {o : Obj} (h : compile g f = .ok (g', o)) :
    g.packs ≠ .freed ∧ (0 < f.pushes → g'.packs = .freed) := by
  unfold compile at h
  obtain ⟨p, hp, h⟩ := Res.bind_eq_ok.1 h
  dsimp only at h
  obtain ⟨o', _, h⟩ := Res.bind_eq_ok.1 h
  obtain ⟨q, hq, h⟩ := Res.bind_eq_ok.1 h
  cases h
  by_cases hf : g.packs = .freed
  · rw [hf] at hp
    cases hn : f.pushes with
    | zero => rw [hn] at hp; cases hp; cases hq
    | succ n => rw [hn] at hp; cases hp
  · refine ⟨hf, fun hn => ?_⟩
    obtain ⟨q', h1, h2, _, h4⟩ := push_null f.pushes g.packs hf
    rw [hp] at h1
    cases h1
    rw [h4 hn] at hq
    cases hq
    rfl

/-- C106, `#pragma pack(push)`: if a command succeeds, no file but the last has one.  In every other
case the freed stack is freed or enlarged again. -/
theorem pack_only_last {fs : List File} {f : File} {os : List Obj} : ∀ {g : G}, session g (fs ++ [f]) = .ok os →
    ∀ x ∈ fs, x.pushes = 0 := by
  induction fs generalizing os with
  | nil => intro g _ x hx; cases hx
  | cons f' fs ih =>
    intro g h x hx
    have h : session g (f' :: (fs ++ [f])) = .ok os := h
    unfold session at h
    obtain ⟨⟨g', o⟩, h1, h⟩ := Res.bind_eq_ok.1 h
    dsimp only at h
    obtain ⟨os', h2, h⟩ := Res.bind_eq_ok.1 h
    rcases List.mem_cons.1 hx with rfl | hx
    · have hp := (compile_packs h1).2
      have : g'.packs ≠ .freed := by
        cases fs with
        | nil =>
          have h2 : session g' [f] = .ok os' := h2
          unfold session at h2
          obtain ⟨⟨g'', o'⟩, h3, _⟩ := Res.bind_eq_ok.1 h2
          exact (compile_packs h3).1
        | cons y ys =>
          have h2 : session g' (y :: (ys ++ [f])) = .ok os' := h2
          unfold session at h2
          obtain ⟨⟨g'', o'⟩, h3, _⟩ := Res.bind_eq_ok.1 h2
          exact (compile_packs h3).1
      by_cases hz : x.pushes = 0
      · exact hz
      · exact absurd (hp (by omega)) this
    · exact ih h2 x hx

example : ∃ os, session {} ([fileB] ++ [{ fileB with pushes := 1 }]) = .ok os := ⟨_, rfl⟩

/-- C106 fails for `#pragma pack(push)`: a file with one, followed by an empty file, is undefined. -/
theorem pack_violated : Valid { noFiles with pushes := 1 } ∧ Valid noFiles ∧
    session {} [{ noFiles with pushes := 1 }, noFiles] = .ub :=
  ⟨⟨fun l h => (by cases h), fun k h => (by cases h), fun k n h => (by cases h), fun n h => (by cases h), fun v h => (by cases h)⟩,
    valid_start, rfl⟩

end Verif.Session
