import Verif.Macro
import Verif.StringSetProps
/-!
Lemmas about the macro expander: more fuel never changes a result; single steps of
`expand`.
-/
namespace Verif.Macro
open Verif DefineMap

/-! ### More fuel -/

/-- `y` is what `x` becomes with more fuel. -/
def Le {α : Type} (x y : Run α) : Prop := x = .more ∨ x = y

theorem Le.rfl' {α : Type} {x : Run α} : Le x x := .inr rfl
theorem Le.more {α : Type} {x : Run α} : Le .more x := .inl rfl
theorem Le.eq_ok {α : Type} {x y : Run α} {a : α} (h : Le x y) (e : x = .ok a) : y = .ok a := by
  rcases h with h | h
  · rw [h] at e; cases e
  · rw [← h, e]
theorem Le.eq_of {α : Type} {x y z : Run α} (h : Le x y) (e : x = z) (hz : z ≠ .more) : y = z := by
  rcases h with h | h
  · rw [h] at e; exact absurd e.symm hz
  · rw [← h, e]
theorem Le.trans {α : Type} {x y z : Run α} (h : Le x y) (g : Le y z) : Le x z := by
  rcases h with rfl | rfl
  · exact .more
  · exact g

theorem Le.bind {α β : Type} {x y : Run α} {f g : α → Run β} (h : Le x y) (hf : ∀ a, Le (f a) (g a)) :
    Le (x >>= f) (y >>= g) := by
  rcases h with rfl | rfl
  · exact .more
  · cases x with
    | ok a => exact hf a
    | fail => exact .inr rfl
    | ub => exact .inr rfl
    | more => exact .inl rfl

theorem Le.mapOk {α β : Type} {x y : Run α} (f : α → β) (h : Le x y) : Le (x.mapOk f) (y.mapOk f) := by
  rcases h with rfl | rfl
  · exact .more
  · exact .rfl'

theorem Le.ite {α : Type} {c : Prop} [Decidable c] {a b a' b' : Run α} (h1 : Le a a') (h2 : Le b b') :
    Le (if c then a else b) (if c then a' else b') := by
  split
  · exact h1
  · exact h2

theorem parseArg_mono (input ic : Bool) {n m : Nat} (h : n ≤ m) (dep : Int) (acc : List Tok) (s : St) :
    Le (parseArg input ic n dep acc s) (parseArg input ic m dep acc s) := by
  induction n generalizing m dep acc s with
  | zero => exact .more
  | succ n ih =>
    obtain ⟨m, rfl⟩ : ∃ k, m = k + 1 := ⟨m - 1, by omega⟩
    have h : n ≤ m := by omega
    unfold parseArg
    refine Le.bind .rfl' fun p => ?_
    refine Le.ite (ih h _ _ _) (Le.ite (Le.ite .rfl' (ih h _ _ _)) (Le.ite .rfl' (ih h _ _ _)))

theorem parseArgs_mono (input : Bool) {n m : Nat} (h : n ≤ m) (k : Nat) (s : St) :
    Le (parseArgs input n k s) (parseArgs input m k s) := by
  induction k generalizing s with
  | zero => exact .rfl'
  | succ k ih =>
    unfold parseArgs
    refine Le.bind (parseArg_mono _ _ h _ _ _) fun p => ?_
    exact Le.ite .rfl' (Le.bind (ih _) fun _ => .rfl')

theorem parseVararg_mono (input : Bool) {n m : Nat} (h : n ≤ m) (b : Bool) (s : St) :
    Le (parseVararg input n b s) (parseVararg input m b s) := by
  unfold parseVararg
  exact Le.ite (Le.bind (parseArg_mono _ _ h _ _ _) fun _ => .rfl') .rfl'

theorem readCall_mono (input : Bool) {n m : Nat} (h : n ≤ m) (o : Tok) (d : Define) (hs : List Str) (s : St) :
    Le (readCall input n o d hs s) (readCall input m o d hs s) := by
  unfold readCall
  refine Le.ite ?_ .rfl'
  refine Le.bind .rfl' fun p => Le.ite .rfl' ?_
  refine Le.bind (parseArgs_mono _ h _ _) fun q => ?_
  exact Le.bind (parseVararg_mono _ h _ _) fun _ => .rfl'

theorem expandArgument_mono {e e' : St → Run St} (h : ∀ s, Le (e s) (e' s)) (input : Bool) (o : Tok)
    (tl : List Tok) (a b c : Bool) (s : St) :
    Le (expandArgument e input o tl a b c s) (expandArgument e' input o tl a b c s) := by
  unfold expandArgument
  refine Le.bind .rfl' fun s => ?_
  refine Le.ite .rfl' ?_
  exact Le.bind (h _) fun _ => .rfl'

theorem substLoop_mono {e e' : St → Run St} (h : ∀ s, Le (e s) (e' s)) (input : Bool) (d : Define) (c : Call)
    (line : Int) (path : Str) (l : List Tok) : ∀ (k : Nat) (cwp : Bool) (s : St),
    Le (substLoop e input d c line path k cwp l s) (substLoop e' input d c line path k cwp l s) := by
  induction l with
  | nil => intro k cwp s; cases k <;> exact .rfl'
  | cons t rest ih =>
    intro k cwp s
    cases k with
    | succ k => exact ih _ _ _
    | zero =>
      unfold substLoop
      refine Le.ite .rfl' (Le.ite (Le.ite (ih _ _ _) (Le.ite ?_ (Le.ite ?_ (ih _ _ _)))) ?_)
      · exact Le.bind .rfl' fun _ => ih _ _ _
      · exact Le.bind (expandArgument_mono h _ _ _ _ _ _ _) fun _ => ih _ _ _
      · cases getParam d t with
        | none =>
          refine Le.ite ?_ (Le.ite .rfl' (ih _ _ _))
          exact Le.bind .rfl' fun _ => ih _ _ _
        | some i =>
          refine Le.ite ?_ ?_
          · exact Le.bind .rfl' fun _ => ih _ _ _
          · exact Le.bind (expandArgument_mono h _ _ _ _ _ _ _) fun _ => ih _ _ _

theorem subs_mono {e e' : St → Run St} (h : ∀ s, Le (e s) (e' s)) (input : Bool) {n m : Nat} (hn : n ≤ m)
    (o : Tok) (d : Define) (s : St) : Le (subs e input n o d s) (subs e' input m o d s) := by
  unfold subs
  refine Le.bind (readCall_mono _ hn _ _ _ _) fun p => ?_
  exact Le.bind (substLoop_mono h _ _ _ _ _ _ _ _ _) fun _ => .rfl'

theorem expand_mono (env : Str → Option Define) (input : Bool) {n m : Nat} (h : n ≤ m) :
    ∀ (ret : Bool) (s : St), Le (expand env input ret n s) (expand env input ret m s) := by
  induction n generalizing m with
  | zero => intro ret s; exact .more
  | succ n ih =>
    intro ret s
    obtain ⟨m, rfl⟩ : ∃ k, m = k + 1 := ⟨m - 1, by omega⟩
    have h : n ≤ m := by omega
    have emit : ∀ (t : Tok) (s : St), Le
        (if ret then .ok (some t, s) else expand env input ret n { s with out := s.out ++ [t] })
        (if ret then .ok (some t, s) else expand env input ret m { s with out := s.out ++ [t] }) :=
      fun t s => Le.ite .rfl' (ih h _ _)
    have go : ∀ (t : Tok) (d : Define) (s : St), Le
        (subs (fun s => Run.mapOk (·.2) (expand env input false n s)) input n t d s >>= expand env input ret n)
        (subs (fun s => Run.mapOk (·.2) (expand env input false m s)) input m t d s >>= expand env input ret m) :=
      fun t d s => Le.bind (subs_mono (fun s => (ih h _ _).mapOk _) _ h _ _ _) fun s => ih h _ _
    unfold expand
    refine Le.ite .rfl' (Le.bind .rfl' fun p => Le.ite .rfl' (Le.ite (emit _ _) ?_))
    cases builtin p.1 with
    | some t' => exact emit _ _
    | none =>
      cases env p.1.str with
      | none => exact emit _ _
      | some d =>
        refine Le.ite (Le.ite (emit _ _) (Le.bind .rfl' fun q => Le.ite (go _ _ _) (emit _ _))) (go _ _ _)

/-! ### Steps of `expand` -/

/-- `t` is a macro name that may be expanded. -/
def Active (env : Str → Option Define) (t : Tok) (d : Define) : Prop :=
  t.type = .T_IDENT ∧ t.str ∉ t.hs ∧ builtin t = none ∧ env t.str = some d

theorem expand_subs {env : Str → Option Define} {input ret : Bool} {n : Nat} {t : Tok} {d : Define} {s s1 : St}
    (hs : (!input && s.buf.isEmpty) = false) (ht : take input s = .ok (t, s1)) (ha : Active env t d)
    (hd : d.func = false) :
    expand env input ret (n + 1) s
      = subs (fun s => Run.mapOk (·.2) (expand env input false n s)) input n t d s1 >>= expand env input ret n := by
  obtain ⟨h1, h2, h3, h4⟩ := ha
  have h2' : StringSet.contains t.hs t.str = false := by
    cases h : StringSet.contains t.hs t.str with
    | false => rfl
    | true => exact absurd ((StringSet.contains_iff _ _).1 h) h2
  simp [expand, hs, ht, h1, h2', h3, h4, hd]

theorem expand_subs_func {env : Str → Option Define} {input ret : Bool} {n : Nat} {t p : Tok} {d : Define}
    {s s1 s2 : St} (hs : (!input && s.buf.isEmpty) = false) (ht : take input s = .ok (t, s1)) (ha : Active env t d)
    (hd : d.func = true) (hs1 : (!input && s1.buf.isEmpty) = false) (hp : top input s1 = .ok (p, s2))
    (hl : p.type = .T_LPAR) :
    expand env input ret (n + 1) s
      = subs (fun s => Run.mapOk (·.2) (expand env input false n s)) input n t d s2 >>= expand env input ret n := by
  obtain ⟨h1, h2, h3, h4⟩ := ha
  have h2' : StringSet.contains t.hs t.str = false := by
    cases h : StringSet.contains t.hs t.str with
    | false => rfl
    | true => exact absurd ((StringSet.contains_iff _ _).1 h) h2
  have hs1' : ¬ (input = false ∧ s1.buf = []) := by
    rintro ⟨rfl, e⟩; simp [e] at hs1
  simp [expand, hs, ht, h1, h2', h3, h4, hd, hp, hl]
  intro a b; exact absurd ⟨a, b⟩ hs1'

/-- A token that is not replaced. -/
def Inert (env : Str → Option Define) (t : Tok) : Prop :=
  t.type ≠ .T_EOI ∧ (t.type ≠ .T_IDENT ∨ t.str ∈ t.hs ∨ (builtin t = none ∧ env t.str = none))

theorem expand_inert {env : Str → Option Define} {input ret : Bool} {n : Nat} {t : Tok} {s s1 : St}
    (hs : (!input && s.buf.isEmpty) = false) (ht : take input s = .ok (t, s1)) (hi : Inert env t) :
    expand env input ret (n + 1) s
      = if ret then .ok (some t, s1) else expand env input ret n { s1 with out := s1.out ++ [t] } := by
  obtain ⟨h0, h1 | h2 | ⟨h3, h4⟩⟩ := hi
  · simp [expand, hs, ht, h0, h1]
  · simp [expand, hs, ht, h0, StringSet.contains_eq, h2]
  · by_cases h1 : t.type = .T_IDENT
    · by_cases h2 : StringSet.contains t.hs t.str = true
      · simp [expand, hs, ht, h0, h2]
      · simp [expand, hs, ht, h1, h2, h3, h4]
    · simp [expand, hs, ht, h0, h1]

theorem expand_builtin {env : Str → Option Define} {input ret : Bool} {n : Nat} {t t' : Tok} {s s1 : St}
    (hs : (!input && s.buf.isEmpty) = false) (ht : take input s = .ok (t, s1))
    (h1 : t.type = .T_IDENT) (h2 : t.str ∉ t.hs) (h3 : builtin t = some t') :
    expand env input ret (n + 1) s
      = if ret then .ok (some t', s1) else expand env input ret n { s1 with out := s1.out ++ [t'] } := by
  simp [expand, hs, ht, h1, StringSet.contains_eq, h2, h3]

/-- A replacement that needs no argument expansion. -/
theorem expand_reaches {env : Str → Option Define} {input ret : Bool} {n : Nat} {t : Tok} {d : Define} {s s1 s' : St}
    (hs : (!input && s.buf.isEmpty) = false) (ht : take input s = .ok (t, s1)) (ha : Active env t d)
    (hp : d.func = true → ∃ p s2, (!input && s1.buf.isEmpty) = false ∧ top input s1 = .ok (p, s2) ∧ p.type = .T_LPAR ∧ s2 = s1)
    (h : subs (fun _ => .more) input 0 t d s1 = .ok s') :
    expand env input ret (n + 1) s = expand env input ret n s' := by
  have key : subs (fun s => Run.mapOk (·.2) (expand env input false n s)) input n t d s1 = .ok s' :=
    (subs_mono (fun _ => .more) _ (Nat.zero_le _) _ _ _).eq_ok h
  cases hd : d.func with
  | false => rw [expand_subs hs ht ha hd, key]; rfl
  | true =>
    obtain ⟨p, s2, a, b, c, rfl⟩ := hp hd
    rw [expand_subs_func hs ht ha hd a b c, key]; rfl

end Verif.Macro
