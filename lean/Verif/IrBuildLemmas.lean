import Verif.IrLemmas
/-!
The functions that build graphs only build graphs.
-/
namespace Verif.Ir
open Verif Verif.IrSpec

/-- A run whose graph is built whenever it ends. -/
def Builds {α : Type} (r : Run α) (f : α → Graph) : Prop := ∀ x, r = .ok x → Built (f x)

theorem Builds.bind {α β : Type} {r : Run α} {k : α → Run β} {f : α → Graph} {f' : β → Graph} (h : Builds r f)
    (h' : ∀ x, Built (f x) → Builds (k x) f') : Builds (r >>= k) f' := by
  intro y hy
  cases r with
  | ok x => exact h' x (h x rfl) y hy
  | fail => cases hy
  | ub => cases hy
  | more => cases hy

theorem Builds.ok {α : Type} {x : α} {f : α → Graph} (h : Built (f x)) : Builds (.ok x) f := by
  intro y hy
  cases hy
  exact h

theorem builds_stop {α : Type} {r : Run α} {f : α → Graph} (h : ∀ x, r ≠ .ok x) : Builds r f := fun x hx => absurd hx (h x)

theorem built_same {g h : Graph} (hg : Built g) (hs : h.size = g.size) (hn : h.node = g.node) : Built h :=
  .other hg ⟨hs, fun m => by rw [hn]; exact ⟨rfl, rfl, rfl⟩⟩

theorem builds_setArg {g : Graph} (hg : Built g) (fuel n i : Nat) (a : Option Nat) : Builds (setArg fuel g n i a) id :=
  fun _ hx => .set hg hx

theorem builds_setArgs {fuel n : Nat} : ∀ {as : List (Option Nat)} {g : Graph} (i : Nat), Built g → Builds (setArgs fuel g n i as) id := by
  intro as
  induction as with
  | nil => intro g i hg; exact .ok hg
  | cons a as ih => intro g i hg; exact (builds_setArg hg fuel n i a).bind fun x hx => ih (i + 1) hx

theorem builds_newWith {g : Graph} (hg : Built g) (fuel : Nat) (k : Kind) (as : List (Option Nat)) (b : Nat) :
    Builds (newWith fuel g k as b) (·.1) :=
  (builds_setArgs 0 (.new hg)).bind fun _ hx => .ok hx

theorem built_newBlock {g : Graph} (hg : Built g) : Built (newBlock g).1 :=
  built_same (.new (k := .region) (b := 0) hg) rfl rfl

theorem built_newFunction {g : Graph} (hg : Built g) : Built (newFunction g).1 :=
  built_same (.new (k := .function) (b := 0) hg) rfl rfl

theorem builds_setState {g : Graph} (hg : Built g) (v : Nat) : Builds (Run.ofRes (setState g v)) id := by
  unfold setState
  cases g.block with
  | none => exact builds_stop (by intro x hx; cases hx)
  | some b =>
    have h3 : SameLists g (writeState g b (some v)) := by
      unfold writeState
      exact same_upd fun q => ⟨rfl, rfl, rfl⟩
    exact .ok (.other hg h3)

theorem builds_getState {g : Graph} (hg : Built g) (fuel : Nat) : Builds (getState fuel g) (·.1) := by
  unfold getState
  cases g.block with
  | none => exact builds_stop (by intro x hx; cases hx)
  | some b => exact fun x hx => .read (v := x.2) hg (hx.trans rfl)

theorem builds_project {g : Graph} (hg : Built g) (fuel n i b : Nat) : Builds (project fuel g n i b) (·.1) := by
  have h : Built ((new g .project b).1.upd (new g .project b).2 fun q => { q with projIdx := i }) :=
    .other (.new (k := .project) (b := b) hg) (same_upd fun q => ⟨rfl, rfl, rfl⟩)
  exact (builds_setArg h fuel _ 0 (some n)).bind fun _ hx => .ok hx

theorem builds_blockStart {g : Graph} (hg : Built g) (fuel b : Nat) : Builds (blockStart fuel g b) id := by
  have h : Built { g with block := some b } := built_same hg rfl rfl
  unfold blockStart
  dsimp only
  split
  · exact .ok h
  · split
    · exact builds_stop (by intro x hx; cases hx)
    · rename_i f _
      exact (builds_project h fuel f 3 0).bind fun r hr => (builds_setState hr r.2).bind fun y hy => .ok (built_same hy rfl rfl)

theorem builds_connect {g : Graph} (hg : Built g) (fuel s t : Nat) : Builds (connect fuel g s t) id := by
  unfold connect
  split
  · exact builds_setArg hg _ _ _ _
  · split
    · exact builds_setArg hg _ _ _ _
    · exact builds_stop (by intro x hx; cases hx)

theorem builds_goto {g : Graph} (hg : Built g) (fuel t : Nat) : Builds (goto fuel g t) id := by
  unfold goto
  split
  · exact builds_stop (by intro x hx; cases hx)
  · split
    · exact builds_stop (by intro x hx; cases hx)
    · split
      · exact builds_stop (by intro x hx; cases hx)
      · exact builds_connect hg _ _ _

theorem builds_ifSelection {g : Graph} (hg : Built g) (fuel c : Nat) : Builds (ifSelection fuel g c) (·.1) := by
  unfold ifSelection
  split
  · exact builds_stop (by intro x hx; cases hx)
  · exact (builds_newWith hg _ _ _ _).bind fun r hr => (builds_project hr _ _ _ _).bind fun f hf =>
      (builds_project hf _ _ _ _).bind fun t ht => .ok ht

theorem builds_ret {g : Graph} (hg : Built g) (fuel : Nat) (r : Option Nat) : Builds (ret fuel g r) id := by
  unfold ret
  split
  · exact builds_stop (by intro x hx; cases hx)
  · exact (builds_getState hg _).bind fun s hs => (builds_newWith hs _ _ _ _).bind fun t ht => .ok ht

theorem builds_sealBlocks {fuel : Nat} : ∀ {bs : List Nat} {g : Graph}, Built g → Builds (sealBlocks fuel g bs) id := by
  intro bs
  induction bs with
  | nil => intro g hg; exact .ok hg
  | cons b bs ih => intro g hg; exact Builds.bind (f := id) (fun x hx => .sealB hg hx) fun x hx => ih hx

end Verif.Ir
