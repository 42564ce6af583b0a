import Verif.Basic
/-!
Outcome of a modelled C function that may loop: as `Res`, plus `more` when the fuel
(the number of loop iterations allowed) is used up.  A run diverges when it yields
`more` for every fuel.
-/
namespace Verif

/-- Outcome of a fuelled run. -/
inductive Run (α : Type) where
  /-- normal return -/
  | ok (a : α)
  /-- the compiler stops with a diagnostic -/
  | fail
  /-- the compiler itself executes undefined behaviour -/
  | ub
  /-- fuel used up, still running -/
  | more
  deriving DecidableEq, Repr, Inhabited

namespace Run
variable {α β γ : Type}

/-- Sequencing. -/
def bind (x : Run α) (f : α → Run β) : Run β :=
  match x with
  | ok a => f a
  | fail => fail
  | ub => ub
  | more => more

instance : Monad Run where
  pure := ok
  bind := bind

/-- A loop-free function inside a fuelled one. -/
def ofRes : Res α → Run α
  | .ok a => ok a
  | .fail => fail
  | .ub => ub

/-- Apply a function to the result. -/
def mapOk (f : α → β) : Run α → Run β
  | ok a => ok (f a)
  | fail => fail
  | ub => ub
  | more => more

@[simp] theorem pure_eq (a : α) : (pure a : Run α) = ok a := rfl
@[simp] theorem bind_ok (a : α) (f : α → Run β) : (ok a >>= f) = f a := rfl
@[simp] theorem bind_fail (f : α → Run β) : ((fail : Run α) >>= f) = fail := rfl
@[simp] theorem bind_ub (f : α → Run β) : ((ub : Run α) >>= f) = ub := rfl
@[simp] theorem bind_more (f : α → Run β) : ((more : Run α) >>= f) = more := rfl
@[simp] theorem ofRes_ok (a : α) : ofRes (.ok a) = ok a := rfl
@[simp] theorem ofRes_fail : ofRes (.fail : Res α) = fail := rfl
@[simp] theorem ofRes_ub : ofRes (.ub : Res α) = ub := rfl
@[simp] theorem mapOk_ok (f : α → β) (a : α) : mapOk f (ok a) = ok (f a) := rfl
@[simp] theorem mapOk_fail (f : α → β) : mapOk f fail = fail := rfl
@[simp] theorem mapOk_ub (f : α → β) : mapOk f ub = ub := rfl
@[simp] theorem mapOk_more (f : α → β) : mapOk f more = more := rfl
theorem mapOk_mapOk (f : α → β) (g : β → γ) (x : Run α) :
    mapOk g (mapOk f x) = mapOk (fun a => g (f a)) x := by cases x <;> rfl
theorem mapOk_id (x : Run α) : mapOk (fun a => a) x = x := by cases x <;> rfl

/-- The run `f` becomes the run `g` after finitely many steps: with `k` more fuel `f`
does what `g` does (with at least the fuel it was promised). -/
def Reaches (f g : Nat → Run α) : Prop := ∃ k, ∀ n, ∃ n', n ≤ n' ∧ f (n + k) = g n'

theorem Reaches.refl (f : Nat → Run α) : Reaches f f := ⟨0, fun n => ⟨n, Nat.le_refl _, rfl⟩⟩

theorem Reaches.trans {f g h : Nat → Run α} (h1 : Reaches f g) (h2 : Reaches g h) :
    Reaches f h := by
  obtain ⟨k1, h1⟩ := h1
  obtain ⟨k2, h2⟩ := h2
  refine ⟨k2 + k1, fun n => ?_⟩
  obtain ⟨n1, hn1, e1⟩ := h1 (n + k2)
  obtain ⟨n2, hn2, e2⟩ := h2 (n1 - k2)
  refine ⟨n2, by omega, ?_⟩
  rw [← Nat.add_assoc, e1, ← e2]
  congr 1; omega

theorem Reaches.of_eq {f g : Nat → Run α} (k : Nat) (h : ∀ n, f (n + k) = g n) : Reaches f g :=
  ⟨k, fun n => ⟨n, Nat.le_refl _, h n⟩⟩

/-- One step whose inner loops need at least `m` fuel. -/
theorem Reaches.step {f g : Nat → Run α} (m : Nat) (h : ∀ n, m ≤ n → f (n + 1) = g n) :
    Reaches f g :=
  ⟨m + 1, fun n => ⟨n + m, by omega, h (n + m) (by omega)⟩⟩

theorem Reaches.mapOk {f g : Nat → Run α} (φ : α → β) (h : Reaches f g) :
    Reaches (fun n => Run.mapOk φ (f n)) (fun n => Run.mapOk φ (g n)) := by
  obtain ⟨k, h⟩ := h
  refine ⟨k, fun n => ?_⟩
  obtain ⟨n', hn, e⟩ := h n
  exact ⟨n', hn, by simp only [e]⟩

/-- A run that reaches a finished run finishes, for all sufficient fuel. -/
theorem Reaches.done {f g : Nat → Run α} {x : Run α} (h : Reaches f g) (hg : ∀ n, g n = x) :
    ∃ k, ∀ n, k ≤ n → f n = x := by
  obtain ⟨k, h⟩ := h
  refine ⟨k, fun n hn => ?_⟩
  obtain ⟨n', _, e⟩ := h (n - k)
  rw [← hg n', ← e]; congr 1; omega

/-- `f` ends with `x` for all sufficient fuel. -/
def Ends (f : Nat → Run α) (x : Run α) : Prop := ∃ M, ∀ n, M ≤ n → f n = x

theorem Ends.const (x : Run α) : Ends (fun _ => x) x := ⟨0, fun _ _ => rfl⟩

theorem Ends.succ {f : Nat → Run α} {x} (h : Ends (fun n => f (n + 1)) x) : Ends f x := by
  obtain ⟨M, h⟩ := h
  refine ⟨M + 1, fun n hn => ?_⟩
  have : f (n - 1 + 1) = x := h (n - 1) (by omega)
  rwa [Nat.sub_add_cancel (by omega)] at this

theorem Ends.bind {f : Nat → Run α} {g : Nat → α → Run β} {y : Run α} {x : Run β} (h1 : Ends f y)
    (h2 : Ends (fun n => y >>= g n) x) : Ends (fun n => f n >>= g n) x := by
  obtain ⟨M, h1⟩ := h1
  obtain ⟨N, h2⟩ := h2
  exact ⟨max M N, fun n hn => by show f n >>= g n = x; rw [h1 n (by omega)]; exact h2 n (by omega)⟩

/-- Sequencing after a run that succeeds. -/
theorem Ends.bindOk {f : Nat → Run α} {g : Nat → α → Run β} {a : α} {x : Run β} (h1 : Ends f (ok a))
    (h2 : Ends (fun n => g n a) x) : Ends (fun n => f n >>= g n) x := h1.bind h2

theorem Ends.congr {f g : Nat → Run α} {x} (h : ∀ n, f n = g n) (hg : Ends g x) : Ends f x := by
  rwa [funext h]

end Run
end Verif
