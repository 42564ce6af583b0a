import Verif.PragmaPack
/-!
C26: `#pragma pack`.
-/
namespace Verif.PragmaPack
open Verif

/-- The forms of the directive. -/
inductive Dir where
  | set (n : Int)
  | reset
  | push
  | pushSet (n : Int)
  | pop
  deriving DecidableEq, Repr

/-- Their spelling after `pack`. -/
def Dir.toks : Dir → List PTok
  | .set n => [.lpar, .num (some n), .rpar]
  | .reset => [.lpar, .rpar]
  | .push => [.lpar, .ident (str "push"), .rpar]
  | .pushSet n => [.lpar, .ident (str "push"), .comma, .num (some n), .rpar]
  | .pop => [.lpar, .ident (str "pop"), .rpar]

/-- The documented meaning: a stack of saved packings; `pop` restores the last one (and does
nothing if there is none). -/
def meaning : List Dir → List Int → Int → List Int × Int
  | [], st, c => (st, c)
  | .set n :: ds, st, _ => meaning ds st n
  | .reset :: ds, st, _ => meaning ds st 0
  | .push :: ds, st, c => meaning ds (c :: st) c
  | .pushSet n :: ds, st, c => meaning ds (c :: st) n
  | .pop :: ds, [], c => meaning ds [] c
  | .pop :: ds, p :: st, _ => meaning ds st p

/-- C26 violated: `pack(push, 1)`, `pack(pop)` leaves packing 1 in force. -/
theorem pack_pop_violated :
    ¬ (∀ ds : List Dir, ∃ s, run (ds.map Dir.toks) {} = .ok s ∧ s.current = (meaning ds [] 0).2) := by
  intro h
  obtain ⟨s, e, hs⟩ := h [.pushSet 1, .pop]
  have : run ([Dir.pushSet 1, .pop].map Dir.toks) {} = .ok ⟨[], 1⟩ := by decide
  rw [this] at e
  cases e
  revert hs; decide

/-- The packing after a directive, for a value that fits `int`. -/
theorem pack_toks (d : Dir) (s : St) (hd : ∀ n, d = .set n ∨ d = .pushSet n → -2^31 ≤ n ∧ n < 2^31) :
    pack s d.toks = .ok (match d with
      | .set n => { s with current := n }
      | .reset => { s with current := 0 }
      | .push => { s with packs := s.current :: s.packs }
      | .pushSet n => { packs := s.current :: s.packs, current := n }
      | .pop => { s with packs := s.packs.tail }, []) := by
  have key : ∀ n : Int, -2^31 ≤ n ∧ n < 2^31 → (BitVec.ofInt 32 n).toInt = n := by
    intro n hn
    rw [BitVec.toInt_ofInt]
    apply Int.bmod_eq_of_le <;> omega
  cases d with
  | set n => simp [Dir.toks, pack, expect, finish, bind, Res.bind, pure, key n (hd n (.inl rfl))]
  | reset => simp [Dir.toks, pack, expect, finish, bind, Res.bind, pure]
  | push =>
    have : str "push" ≠ str "pop" := by decide
    simp [Dir.toks, pack, expect, bind, Res.bind, pure, this]
  | pushSet n =>
    have : str "push" ≠ str "pop" := by decide
    simp [Dir.toks, pack, expect, finish, bind, Res.bind, pure, this, key n (hd n (.inr rfl))]
  | pop => simp [Dir.toks, pack, expect, bind, Res.bind, pure]

/-- C26, what holds: without `pop` (or with only unmatched ones) every history gives the
packing that is meant, for values that fit `int`. Missing: `pop` after `push`. -/
theorem pack_partial : ∀ (ds : List Dir) (s : St), (∀ d ∈ ds, d ≠ .pop) →
    (∀ d ∈ ds, ∀ n, d = .set n ∨ d = .pushSet n → -2^31 ≤ n ∧ n < 2^31) →
    ∃ s', run (ds.map Dir.toks) s = .ok s' ∧ (s'.packs, s'.current) = meaning ds s.packs s.current
  | [], s, _, _ => ⟨s, rfl, rfl⟩
  | d :: ds, s, h, hr => by
    have ih := fun s => pack_partial ds s (fun d hd => h d (List.mem_cons_of_mem _ hd)) (fun d hd => hr d (List.mem_cons_of_mem _ hd))
    rw [List.map_cons, run, pack_toks d s (hr d List.mem_cons_self)]
    simp only [bind, Res.bind]
    cases d with
    | set n => exact ih { s with current := n }
    | reset => exact ih { s with current := 0 }
    | push => exact ih { s with packs := s.current :: s.packs }
    | pushSet n => exact ih { packs := s.current :: s.packs, current := n }
    | pop => exact absurd rfl (h _ List.mem_cons_self)

example : (meaning [.set 4, .pushSet 1, .push, .reset] [] 0) = ([1, 4], 0) ∧ (meaning [.set 4, .pushSet 1, .pop] [] 0).2 = 4 := by decide

/-- C26, what `pop` does instead: the packing stays, whatever was saved. -/
theorem pop_keeps_packing (ds : List Dir) (s s' : St) (h : run (ds.map Dir.toks) s = .ok s') :
    ∃ s'', run ((ds ++ [Dir.pop]).map Dir.toks) s = .ok s'' ∧ s''.current = s'.current := by
  induction ds generalizing s with
  | nil =>
    simp only [List.map_nil, run, Res.ok.injEq] at h
    subst h
    refine ⟨{ s with packs := s.packs.tail }, ?_, rfl⟩
    simp [run, Dir.toks, pack, expect, bind, Res.bind, pure]
  | cons d ds ih =>
    rw [List.map_cons, run] at h
    simp only [bind] at h
    cases e : pack s d.toks with
    | ok r =>
      rw [e] at h
      obtain ⟨s'', h1, h2⟩ := ih r.1 h
      refine ⟨s'', ?_, h2⟩
      rw [List.cons_append, List.map_cons, run, e]
      simpa [bind, Res.bind] using h1
    | fail => rw [e] at h; simp [Res.bind] at h
    | ub => rw [e] at h; simp [Res.bind] at h

end Verif.PragmaPack
