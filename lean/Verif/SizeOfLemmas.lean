import Verif.SizeOfSpec
/-! Lemmas for SizeOfProps. -/
namespace Verif.SizeOf
open Verif SizeOfSpec

/-! ### The specification -/

mutual
/-- Only the variables assigned change. -/
theorem evalE_frame (m : M) (Γ : Env) (x : Nat) : ∀ (e : E) (s s' : Vars) (v : BitVec 64),
    evalE m Γ e s = some (v, s') → x ∉ writesE e → s' x = s x
  | .lit _, s, s', v, h, _ => by
    simp only [evalE, Option.some.injEq, Prod.mk.injEq] at h; rw [← h.2]
  | .var y, s, s', v, h, _ => by
    simp only [evalE] at h
    split at h
    · split at h <;> simp only [Option.some.injEq, Prod.mk.injEq] at h <;> rw [← h.2]
    · cases h
  | .assign y e, s, s', v, h, hx => by
    simp only [evalE] at h
    simp only [writesE, List.mem_cons, not_or] at hx
    split at h
    · rename_i w s1 h1
      simp only [Option.some.injEq, Prod.mk.injEq] at h
      rw [← h.2]
      simp only [Vars.set, if_neg hx.1]
      exact evalE_frame m Γ x e _ _ _ h1 hx.2
    · cases h
  | .add a b, s, s', v, h, hx => by
    simp only [evalE] at h
    simp only [writesE, List.mem_append, not_or] at hx
    split at h
    · rename_i h1
      split at h
      · rename_i h2
        simp only [Option.some.injEq, Prod.mk.injEq] at h
        rw [← h.2, evalE_frame m Γ x b _ _ _ h2 hx.2, evalE_frame m Γ x a _ _ _ h1 hx.1]
      · cases h
    · cases h
  | .mul a b, s, s', v, h, hx => by
    simp only [evalE] at h
    simp only [writesE, List.mem_append, not_or] at hx
    split at h
    · rename_i h1
      split at h
      · rename_i h2
        simp only [Option.some.injEq, Prod.mk.injEq] at h
        rw [← h.2, evalE_frame m Γ x b _ _ _ h2 hx.2, evalE_frame m Γ x a _ _ _ h1 hx.1]
      · cases h
    · cases h
  | .plus a b, s, s', v, h, hx => by
    simp only [evalE] at h
    simp only [writesE, List.mem_append, not_or] at hx
    split at h
    · rename_i h1
      split at h
      · rename_i h2
        split at h
        · split at h
          · simp only [Option.some.injEq, Prod.mk.injEq] at h
            rw [← h.2, evalE_frame m Γ x b _ _ _ h2 hx.2, evalE_frame m Γ x a _ _ _ h1 hx.1]
          · cases h
        · cases h
      · cases h
    · cases h
  | .deref a, s, s', v, h, hx => by
    simp only [evalE] at h
    simp only [writesE] at hx
    split at h
    · rename_i h1
      split at h
      · split at h <;> simp only [Option.some.injEq, Prod.mk.injEq] at h <;>
          rw [← h.2, evalE_frame m Γ x a _ _ _ h1 hx]
      · cases h
    · cases h
  | .comma a b, s, s', v, h, hx => by
    simp only [evalE] at h
    simp only [writesE, List.mem_append, not_or] at hx
    split at h
    · rename_i h1
      rw [evalE_frame m Γ x b _ _ _ h hx.2, evalE_frame m Γ x a _ _ _ h1 hx.1]
    · cases h
  | .cond c a b, s, s', v, h, hx => by
    simp only [evalE] at h
    simp only [writesE, List.mem_append, not_or] at hx
    split at h
    · rename_i h1
      split at h
      · rw [evalE_frame m Γ x b _ _ _ h hx.2.2, evalE_frame m Γ x c _ _ _ h1 hx.1]
      · rw [evalE_frame m Γ x a _ _ _ h hx.2.1, evalE_frame m Γ x c _ _ _ h1 hx.1]
    · cases h
  | .sizeofType t, s, s', v, h, hx => by
    simp only [evalE] at h
    simp only [writesE] at hx
    split at h
    · rename_i h1
      split at h
      · simp only [Option.some.injEq, Prod.mk.injEq] at h
        rw [← h.2, evalT_frame m Γ x t _ _ _ h1 hx]
      · cases h
    · cases h
  | .sizeofExpr e, s, s', v, h, hx => by
    simp only [evalE] at h
    simp only [writesE] at hx
    split at h
    · split at h
      · split at h
        · split at h
          · rename_i h1
            simp only [Option.some.injEq, Prod.mk.injEq] at h
            rw [← h.2, evalE_frame m Γ x e _ _ _ h1 hx]
          · cases h
        · simp only [Option.some.injEq, Prod.mk.injEq] at h
          rw [← h.2]
      · cases h
    · cases h

/-- The same for types. -/
theorem evalT_frame (m : M) (Γ : Env) (x : Nat) : ∀ (t : T) (s s' : Vars) (c : CT),
    evalT m Γ t s = some (c, s') → x ∉ writesT t → s' x = s x
  | .ulong, s, s', c, h, _ => by
    simp only [evalT, Option.some.injEq, Prod.mk.injEq] at h; rw [← h.2]
  | .base _, s, s', c, h, _ => by
    simp only [evalT, Option.some.injEq, Prod.mk.injEq] at h; rw [← h.2]
  | .void, s, s', c, h, _ => by
    simp only [evalT, Option.some.injEq, Prod.mk.injEq] at h; rw [← h.2]
  | .func, s, s', c, h, _ => by
    simp only [evalT, Option.some.injEq, Prod.mk.injEq] at h; rw [← h.2]
  | .pointer t, s, s', c, h, hx => by
    simp only [evalT] at h
    simp only [writesT] at hx
    split at h
    · rename_i h1
      simp only [Option.some.injEq, Prod.mk.injEq] at h
      rw [← h.2, evalT_frame m Γ x t _ _ _ h1 hx]
    · cases h
  | .unknown t, s, s', c, h, hx => by
    simp only [evalT] at h
    simp only [writesT] at hx
    split at h
    · rename_i h1
      split at h
      · simp only [Option.some.injEq, Prod.mk.injEq] at h
        rw [← h.2, evalT_frame m Γ x t _ _ _ h1 hx]
      · cases h
    · cases h
  | .array e t, s, s', c, h, hx => by
    simp only [evalT] at h
    simp only [writesT, List.mem_append, not_or] at hx
    split at h
    · rename_i h1
      split at h
      · rename_i h2
        split at h
        · simp only [Option.some.injEq, Prod.mk.injEq] at h
          rw [← h.2, evalE_frame m Γ x e _ _ _ h2 hx.1, evalT_frame m Γ x t _ _ _ h1 hx.2]
        · cases h
      · cases h
    · cases h
  | .name y, s, s', c, h, _ => by
    simp only [evalT] at h
    split at h
    · simp only [Option.some.injEq, Prod.mk.injEq] at h; rw [← h.2]
    · cases h
end

/-- What assigns nothing leaves the variables. -/
theorem evalE_pure {m : M} {Γ : Env} {e : E} {s s' : Vars} {v : BitVec 64}
    (h : evalE m Γ e s = some (v, s')) (hw : writesE e = []) : s' = s :=
  funext fun x => evalE_frame m Γ x e s s' v h (by rw [hw]; simp)

theorem evalT_pure {m : M} {Γ : Env} {t : T} {s s' : Vars} {c : CT}
    (h : evalT m Γ t s = some (c, s')) (hw : writesT t = []) : s' = s :=
  funext fun x => evalT_frame m Γ x t s s' c h (by rw [hw]; simp)

mutual
/-- What assigns nothing depends on what it reads. -/
theorem evalE_congr (m : M) (Γ : Env) : ∀ (e : E) (s s2 : Vars) (v : BitVec 64), writesE e = [] →
    (∀ x ∈ readsE e, s x = s2 x) → evalE m Γ e s = some (v, s) → evalE m Γ e s2 = some (v, s2)
  | .lit _, s, s2, v, _, _, h => by
    simp only [evalE, Option.some.injEq, Prod.mk.injEq, and_true] at h ⊢; exact h
  | .var y, s, s2, v, _, hr, h => by
    have hy := hr y (by simp [readsE])
    simp only [evalE] at h ⊢
    split at h
    · split at h <;> simp only [Option.some.injEq, Prod.mk.injEq, and_true] at h <;> simp_all
    · cases h
  | .assign y e, s, s2, v, hw, _, _ => by simp [writesE] at hw
  | .add a b, s, s2, v, hw, hr, h => by
    simp only [writesE, List.append_eq_nil_iff] at hw
    simp only [readsE, List.mem_append] at hr
    simp only [evalE] at h ⊢
    split at h
    · rename_i v1 s1 h1
      obtain rfl := evalE_pure h1 hw.1
      rw [evalE_congr m Γ a s1 s2 v1 hw.1 (fun x hx => hr x (.inl hx)) h1]
      split at h
      · rename_i v2 s3 h2
        obtain rfl := evalE_pure h2 hw.2
        rw [evalE_congr m Γ b s3 s2 v2 hw.2 (fun x hx => hr x (.inr hx)) h2]
        simp only [Option.some.injEq, Prod.mk.injEq, and_true] at h ⊢
        exact h
      · cases h
    · cases h
  | .mul a b, s, s2, v, hw, hr, h => by
    simp only [writesE, List.append_eq_nil_iff] at hw
    simp only [readsE, List.mem_append] at hr
    simp only [evalE] at h ⊢
    split at h
    · rename_i v1 s1 h1
      obtain rfl := evalE_pure h1 hw.1
      rw [evalE_congr m Γ a s1 s2 v1 hw.1 (fun x hx => hr x (.inl hx)) h1]
      split at h
      · rename_i v2 s3 h2
        obtain rfl := evalE_pure h2 hw.2
        rw [evalE_congr m Γ b s3 s2 v2 hw.2 (fun x hx => hr x (.inr hx)) h2]
        simp only [Option.some.injEq, Prod.mk.injEq, and_true] at h ⊢
        exact h
      · cases h
    · cases h
  | .plus a b, s, s2, v, hw, hr, h => by
    simp only [writesE, List.append_eq_nil_iff] at hw
    simp only [readsE, List.mem_append] at hr
    simp only [evalE] at h ⊢
    split at h
    · rename_i v1 s1 h1
      obtain rfl := evalE_pure h1 hw.1
      rw [evalE_congr m Γ a s1 s2 v1 hw.1 (fun x hx => hr x (.inl hx)) h1]
      split at h
      · rename_i v2 s3 h2
        obtain rfl := evalE_pure h2 hw.2
        rw [evalE_congr m Γ b s3 s2 v2 hw.2 (fun x hx => hr x (.inr hx)) h2]
        dsimp only
        split at h
        · split at h
          · simp only [Option.some.injEq, Prod.mk.injEq, and_true] at h
            rename_i _ _ _ hs
            simp_all
          · cases h
        · cases h
      · cases h
    · cases h
  | .deref a, s, s2, v, hw, hr, h => by
    simp only [writesE] at hw
    simp only [readsE] at hr
    simp only [evalE] at h ⊢
    split at h
    · rename_i v1 s1 h1
      obtain rfl := evalE_pure h1 hw
      rw [evalE_congr m Γ a s1 s2 v1 hw hr h1]
      dsimp only
      split at h
      · split at h <;> simp_all
      · cases h
    · cases h
  | .comma a b, s, s2, v, hw, hr, h => by
    simp only [writesE, List.append_eq_nil_iff] at hw
    simp only [readsE, List.mem_append] at hr
    simp only [evalE] at h ⊢
    split at h
    · rename_i v1 s1 h1
      obtain rfl := evalE_pure h1 hw.1
      rw [evalE_congr m Γ a s1 s2 v1 hw.1 (fun x hx => hr x (.inl hx)) h1]
      exact evalE_congr m Γ b s1 s2 v hw.2 (fun x hx => hr x (.inr hx)) h
    · cases h
  | .cond c a b, s, s2, v, hw, hr, h => by
    simp only [writesE, List.append_eq_nil_iff] at hw
    simp only [readsE, List.mem_append] at hr
    simp only [evalE] at h ⊢
    split at h
    · rename_i v1 s1 h1
      obtain rfl := evalE_pure h1 hw.1
      rw [evalE_congr m Γ c s1 s2 v1 hw.1 (fun x hx => hr x (.inl hx)) h1]
      dsimp only
      split at h
      · rename_i hv
        rw [if_pos hv]
        exact evalE_congr m Γ b s1 s2 v hw.2.2 (fun x hx => hr x (.inr (.inr hx))) h
      · rename_i hv
        rw [if_neg hv]
        exact evalE_congr m Γ a s1 s2 v hw.2.1 (fun x hx => hr x (.inr (.inl hx))) h
    · cases h
  | .sizeofType t, s, s2, v, hw, hr, h => by
    simp only [writesE] at hw
    simp only [readsE] at hr
    simp only [evalE] at h ⊢
    split at h
    · rename_i c s1 h1
      obtain rfl := evalT_pure h1 hw
      rw [evalT_congr m Γ t s1 s2 c hw hr h1]
      dsimp only
      split at h
      · simp_all
      · cases h
    · cases h
  | .sizeofExpr e, s, s2, v, hw, hr, h => by
    simp only [writesE] at hw
    simp only [readsE] at hr
    simp only [evalE] at h ⊢
    split at h
    · rename_i c hc
      split at h
      · rename_i n hn
        split at h
        · rename_i hv
          rw [if_pos hv]
          split at h
          · rename_i v1 s1 h1
            obtain rfl := evalE_pure h1 hw
            rw [evalE_congr m Γ e s1 s2 v1 hw hr h1]
            simp_all
          · cases h
        · rename_i hv
          rw [if_neg hv]
          simp_all
      · cases h
    · cases h

/-- The same for types. -/
theorem evalT_congr (m : M) (Γ : Env) : ∀ (t : T) (s s2 : Vars) (c : CT), writesT t = [] →
    (∀ x ∈ readsT t, s x = s2 x) → evalT m Γ t s = some (c, s) → evalT m Γ t s2 = some (c, s2)
  | .ulong, s, s2, c, _, _, h => by
    simp only [evalT, Option.some.injEq, Prod.mk.injEq, and_true] at h ⊢; exact h
  | .base _, s, s2, c, _, _, h => by
    simp only [evalT, Option.some.injEq, Prod.mk.injEq, and_true] at h ⊢; exact h
  | .void, s, s2, c, _, _, h => by
    simp only [evalT, Option.some.injEq, Prod.mk.injEq, and_true] at h ⊢; exact h
  | .func, s, s2, c, _, _, h => by
    simp only [evalT, Option.some.injEq, Prod.mk.injEq, and_true] at h ⊢; exact h
  | .pointer t, s, s2, c, hw, hr, h => by
    simp only [writesT] at hw
    simp only [readsT] at hr
    simp only [evalT] at h ⊢
    split at h
    · rename_i c1 s1 h1
      obtain rfl := evalT_pure h1 hw
      rw [evalT_congr m Γ t s1 s2 c1 hw hr h1]
      simp_all
    · cases h
  | .unknown t, s, s2, c, hw, hr, h => by
    simp only [writesT] at hw
    simp only [readsT] at hr
    simp only [evalT] at h ⊢
    split at h
    · rename_i c1 s1 h1
      obtain rfl := evalT_pure h1 hw
      rw [evalT_congr m Γ t s1 s2 c1 hw hr h1]
      dsimp only
      split at h
      · simp_all
      · cases h
    · cases h
  | .array e t, s, s2, c, hw, hr, h => by
    simp only [writesT, List.append_eq_nil_iff] at hw
    simp only [readsT, List.mem_append] at hr
    simp only [evalT] at h ⊢
    split at h
    · rename_i c1 s1 h1
      obtain rfl := evalT_pure h1 hw.2
      rw [evalT_congr m Γ t s1 s2 c1 hw.2 (fun x hx => hr x (.inr hx)) h1]
      split at h
      · rename_i v s3 h2
        obtain rfl := evalE_pure h2 hw.1
        dsimp only
        rw [evalE_congr m Γ e s3 s2 v hw.1 (fun x hx => hr x (.inl hx)) h2]
        dsimp only
        split at h
        · simp_all
        · cases h
      · cases h
    · cases h
  | .name y, s, s2, c, _, _, h => by
    simp only [evalT] at h ⊢
    split at h
    · simp_all
    · cases h
end

mutual
/-- Lengths are read. -/
theorem lengthsE_reads (x : Nat) : ∀ e : E, x ∈ lengthsE e → x ∈ readsE e
  | .lit _, h => by simp [lengthsE] at h
  | .var _, h => by simp [lengthsE] at h
  | .assign _ e, h => by simp only [lengthsE] at h; exact lengthsE_reads x e h
  | .deref e, h => by simp only [lengthsE] at h; exact lengthsE_reads x e h
  | .sizeofExpr e, h => by simp only [lengthsE] at h; exact lengthsE_reads x e h
  | .sizeofType t, h => by simp only [lengthsE] at h; exact h
  | .add a b, h => by
    simp only [lengthsE, readsE, List.mem_append] at h ⊢
    exact h.imp (lengthsE_reads x a) (lengthsE_reads x b)
  | .mul a b, h => by
    simp only [lengthsE, readsE, List.mem_append] at h ⊢
    exact h.imp (lengthsE_reads x a) (lengthsE_reads x b)
  | .plus a b, h => by
    simp only [lengthsE, readsE, List.mem_append] at h ⊢
    exact h.imp (lengthsE_reads x a) (lengthsE_reads x b)
  | .comma a b, h => by
    simp only [lengthsE, readsE, List.mem_append] at h ⊢
    exact h.imp (lengthsE_reads x a) (lengthsE_reads x b)
  | .cond c a b, h => by
    simp only [lengthsE, readsE, List.mem_append] at h ⊢
    exact h.imp (lengthsE_reads x c) (Or.imp (lengthsE_reads x a) (lengthsE_reads x b))

/-- The same for types. -/
theorem lengthsT_reads (x : Nat) : ∀ t : T, x ∈ lengthsT t → x ∈ readsT t
  | .array e t, h => by
    simp only [lengthsT, readsT, List.mem_append] at h ⊢
    exact h.imp (lengthsE_reads x e) (lengthsT_reads x t)
  | .pointer t, h => by simp only [lengthsT] at h; exact lengthsT_reads x t h
  | .unknown t, h => by simp only [lengthsT] at h; exact lengthsT_reads x t h
  | .ulong, h => by simp [lengthsT] at h
  | .base _, h => by simp [lengthsT] at h
  | .void, h => by simp [lengthsT] at h
  | .func, h => by simp [lengthsT] at h
  | .name _, h => by simp [lengthsT] at h
end

/-- The types of names are modest. -/
def EnvModest (Γ : Env) : Prop :=
  ∀ x, (∀ c, Γ x = some (.tdef c) → c.Modest) ∧ (∀ c, Γ x = some (.obj c) → c.Modest)

/-- So are the types that tame type names denote. -/
theorem modest_evalT {m : M} {Γ : Env} (hΓ : EnvModest Γ) : ∀ (t : T) (s s' : Vars) (c : CT),
    TameT m Γ t → evalT m Γ t s = some (c, s') → c.Modest
  | .ulong, s, s', c, _, h => by
    simp only [evalT, Option.some.injEq, Prod.mk.injEq] at h; rw [← h.1]; trivial
  | .base n, s, s', c, ht, h => by
    simp only [evalT, Option.some.injEq, Prod.mk.injEq] at h; rw [← h.1]
    simp only [TameT] at ht
    simpa [CT.Modest] using ht
  | .void, s, s', c, _, h => by
    simp only [evalT, Option.some.injEq, Prod.mk.injEq] at h; rw [← h.1]; trivial
  | .func, s, s', c, _, h => by
    simp only [evalT, Option.some.injEq, Prod.mk.injEq] at h; rw [← h.1]; trivial
  | .pointer t, s, s', c, ht, h => by
    simp only [evalT] at h
    simp only [TameT] at ht
    split at h
    · rename_i h1
      simp only [Option.some.injEq, Prod.mk.injEq] at h
      rw [← h.1, CT.Modest]
      exact modest_evalT hΓ t _ _ _ ht h1
    · cases h
  | .unknown t, s, s', c, ht, h => by
    simp only [evalT] at h
    simp only [TameT] at ht
    split at h
    · rename_i h1
      split at h
      · simp only [Option.some.injEq, Prod.mk.injEq] at h
        rw [← h.1, CT.Modest]
        exact modest_evalT hΓ t _ _ _ ht h1
      · cases h
    · cases h
  | .array e t, s, s', c, ht, h => by
    simp only [TameT] at ht
    exact ht.2.2 _ _ _ h
  | .name x, s, s', c, _, h => by
    simp only [evalT] at h
    split at h
    · rename_i c1 hc
      simp only [Option.some.injEq, Prod.mk.injEq] at h
      rw [← h.1]
      exact (hΓ x).1 _ hc
    · cases h

/-! ### Execution -/

theorem runAll_append (m : M) (a b : List Ins) (r : R) :
    runAll m (a ++ b) r = ((runAll m a r).1 ++ (runAll m b (runAll m a r).2).1, (runAll m b (runAll m a r).2).2) := by
  induction a generalizing r with
  | nil => rfl
  | cons i is ih => simp only [List.cons_append, runAll, ih, List.append_assoc]

theorem runAll_two {m : M} {a b : List Ins} {r r1 r2 : R} (h1 : runAll m a r = ([], r1)) (h2 : runAll m b r1 = ([], r2)) :
    runAll m (a ++ b) r = ([], r2) := by
  rw [runAll_append, h1, h2]; rfl

/-- The values of the instructions below a number are the same. -/
def Same (n : Nat) (a b : Nat → V) : Prop := ∀ r, r < n → b r = a r

theorem Same.refl (n : Nat) (a : Nat → V) : Same n a a := fun _ _ => rfl

theorem Same.trans {n k : Nat} {a b c : Nat → V} (h1 : Same n a b) (h2 : Same k b c) (h : n ≤ k) : Same n a c :=
  fun r hr => (h2 r (by omega)).trans (h1 r hr)

theorem Same.mono {n k : Nat} {a b : Nat → V} (h1 : Same k a b) (h : n ≤ k) : Same n a b :=
  fun r hr => h1 r (by omega)

/-! ### Types -/

/-- Every array is evaluated. -/
def Done : Ty → Prop
  | .pointer t => Done t
  | .unknown t => Done t
  | .array _ t => Done t
  | .vla (.done _) t => Done t
  | .vla (.pending _) _ => False
  | _ => True

/-- A type of the compiler stands for a type; the lengths are in instructions below `n`. -/
def Rep (regs : Nat → V) (n : Nat) : Ty → CT → Prop
  | .ulong, .ulong => True
  | .base a, .base b => a = b
  | .void, .void => True
  | .func, .func => True
  | .pointer t, .pointer c => Rep regs n t c
  | .unknown t, .unknown c => Rep regs n t c
  | .array v t, .array k b c => v.toNat = k ∧ b = false ∧ Rep regs n t c
  | .vla (.done r) t, .array k _ c => r < n ∧ regs r = ⟨8, BitVec.ofNat 64 k⟩ ∧ Rep regs n t c
  | _, _ => False

theorem Rep.mono {regs regs' : Nat → V} {n k : Nat} (hs : Same n regs regs') (hk : n ≤ k) :
    ∀ (t : Ty) (c : CT), Rep regs n t c → Rep regs' k t c := by
  intro t
  induction t with
  | vla len t ih =>
    intro c h
    cases len with
    | pending e => cases c <;> simp [Rep] at h
    | done r =>
      cases c <;> simp only [Rep] at h ⊢
      exact ⟨by omega, by rw [hs r h.1]; exact h.2.1, ih _ h.2.2⟩
  | array v t ih =>
    intro c h
    cases c <;> simp only [Rep] at h ⊢
    exact ⟨h.1, h.2.1, ih _ h.2.2⟩
  | pointer t ih =>
    intro c h
    cases c <;> simp only [Rep] at h ⊢
    exact ih _ h
  | unknown t ih =>
    intro c h
    cases c <;> simp only [Rep] at h ⊢
    exact ih _ h
  | _ => intro c h; cases c <;> simp_all [Rep]

theorem Rep.done {regs : Nat → V} {n : Nat} : ∀ (t : Ty) (c : CT), Rep regs n t c → Done t := by
  intro t
  induction t with
  | vla len t ih =>
    intro c h
    cases len with
    | pending e => cases c <;> simp [Rep] at h
    | done r =>
      cases c <;> simp only [Rep] at h
      exact ih _ h.2.2
  | array v t ih =>
    intro c h
    cases c <;> simp only [Rep] at h
    exact ih _ h.2.2
  | pointer t ih =>
    intro c h
    cases c <;> simp only [Rep] at h
    exact ih _ h
  | unknown t ih =>
    intro c h
    cases c <;> simp only [Rep] at h
    exact ih _ h
  | _ => intro c _; trivial

/-- Nothing is evaluated twice. -/
theorem evaluate_done (p : P) : ∀ t : Ty, Done t → evaluateVla t p = (t, p) := by
  intro t
  induction t with
  | vla len t ih =>
    intro h
    cases len with
    | pending e => exact h.elim
    | done r => rw [evaluateVla, ih h]
  | array v t ih => intro h; rw [evaluateVla, ih h]
  | pointer t ih => intro h; rw [evaluateVla, ih h]
  | unknown t ih => intro h; rw [evaluateVla, ih h]
  | _ => intro _; rfl

/-- What is constant for the compiler is constant. -/
theorem Rep.const {regs : Nat → V} {n : Nat} : ∀ (t : Ty) (c : CT), Rep regs n t c → hasVariableSize t = false →
    c.variable = false := by
  intro t
  induction t with
  | vla len t _ => intro c _ h2; simp [hasVariableSize] at h2
  | array v t ih =>
    intro c h h2
    cases c <;> simp only [Rep] at h
    rw [hasVariableSize] at h2
    rw [CT.variable, h.2.1, ih _ h.2.2 h2]
    rfl
  | _ => intro c h _; cases c <;> simp_all [Rep, CT.variable]

theorem setWidth_signExtend (s : BitVec 32) : (s.signExtend 64).setWidth 32 = s := by
  apply BitVec.eq_of_getElem_eq
  intro i hi
  rw [BitVec.getElem_setWidth, BitVec.getLsbD_signExtend]
  simp [hi, show i < 64 by omega]

/-- The size of a constant type, modulo 2^32. -/
theorem calculate_ok {regs : Nat → V} {n : Nat} : ∀ (t : Ty) (c : CT) (k : Nat), Rep regs n t c → hasVariableSize t = false →
    c.size = some k → calculateSize t = .ok (BitVec.ofNat 32 k) := by
  intro t
  induction t with
  | vla len t _ => intro c k _ h2; simp [hasVariableSize] at h2
  | array v t ih =>
    intro c k h h2 hk
    cases c with
    | array a b c =>
      simp only [Rep] at h
      rw [hasVariableSize] at h2
      rw [CT.size, Option.map_eq_some_iff] at hk
      obtain ⟨j, hj, rfl⟩ := hk
      rw [calculateSize, ih c j h.2.2 h2 hj, Res.bind_ok]
      congr 1
      rw [BitVec.setWidth_mul _ _ (by omega), setWidth_signExtend]
      apply BitVec.eq_of_toNat_eq
      simp only [BitVec.toNat_mul, BitVec.toNat_setWidth, BitVec.toNat_ofNat, h.1]
      simp [Nat.mul_mod]
    | _ => simp [Rep] at h
  | ulong => intro c k h _ hk; cases c <;> simp [Rep] at h; simp [CT.size] at hk; subst hk; rfl
  | base a =>
    intro c k h _ hk
    cases c <;> simp [Rep] at h
    simp [CT.size] at hk; subst hk; subst h; rfl
  | pointer t _ => intro c k h _ hk; cases c <;> simp [Rep] at h; simp [CT.size] at hk; subst hk; rfl
  | _ => intro c k h _ hk; cases c <;> simp_all [Rep, CT.size]

theorem calculate_total : ∀ t : Ty, hasVariableSize t = false → ∃ v, calculateSize t = .ok v := by
  intro t
  induction t with
  | vla len t _ => intro h; simp [hasVariableSize] at h
  | array v t ih =>
    intro h
    rw [hasVariableSize] at h
    obtain ⟨w, hw⟩ := ih h
    exact ⟨_, by rw [calculateSize, hw, Res.bind_ok]⟩
  | _ => intro _; exact ⟨_, rfl⟩

/-- The size in a constant is the size if it is modest. -/
theorem modest_size {c : CT} {k : Nat} (h : c.Modest) (hv : c.variable = false) (hk : c.size = some k) : k < 2 ^ 31 := by
  cases c with
  | ulong => simp [CT.size] at hk; omega
  | base n => simp [CT.size] at hk; simp [CT.Modest] at h; omega
  | pointer t => simp [CT.size] at hk; omega
  | array n b t => rw [CT.Modest] at h; exact h.1 hv k hk
  | _ => simp [CT.size] at hk

theorem signExtend_small {k : Nat} (h : k < 2 ^ 31) : (BitVec.ofNat 32 k).signExtend 64 = BitVec.ofNat 64 k := by
  rw [BitVec.signExtend_eq_setWidth_of_msb_false]
  · apply BitVec.eq_of_toNat_eq
    simp only [BitVec.toNat_setWidth, BitVec.toNat_ofNat]
    omega
  · rw [BitVec.msb_eq_false_iff_two_mul_lt]
    simp only [BitVec.toNat_ofNat]
    omega

theorem sizeof_const {t : Ty} (h : hasVariableSize t = false) :
    typeSizeof t = (calculateSize t >>= fun s => .ok (.const (s.signExtend 64))) := by
  rw [typeSizeof.eq_def, if_neg (by simp [h])]

theorem sizeof_vla (r : Nat) (t : Ty) :
    typeSizeof (.vla (.done r) t) = (typeSizeof t >>= fun s => .ok (.mul (.cast (.node r)) s)) := by
  rw [typeSizeof, if_pos (by rw [hasVariableSize])]; rfl

theorem sizeof_array {n : BitVec 64} {t : Ty} (h : hasVariableSize t = true) :
    typeSizeof (.array n t) = (typeSizeof t >>= fun s => .ok (.mul (.const n) s)) := by
  rw [typeSizeof, if_pos (by rw [hasVariableSize]; exact h)]; rfl

/-- `type_sizeof` of a type that is evaluated. -/
theorem sizeof_total (m : M) : ∀ t : Ty, Done t → ∃ e, typeSizeof t = .ok e ∧
    (∀ regs vars, (e.eval m regs vars).2 = vars) ∧ ((∃ v, e = .const v) → hasVariableSize t = false) := by
  intro t
  induction t with
  | vla len t ih =>
    intro h
    cases len with
    | pending e => exact h.elim
    | done r =>
      obtain ⟨e, h1, h2, _⟩ := ih h
      refine ⟨_, by rw [sizeof_vla, h1, Res.bind_ok], ?_, ?_⟩
      · intro regs vars; simp only [TE.eval, h2]
      · rintro ⟨v, hv⟩; cases hv
  | array v t ih =>
    intro h
    by_cases hv : hasVariableSize t = true
    · obtain ⟨e, h1, h2, _⟩ := ih h
      refine ⟨_, by rw [sizeof_array hv, h1, Res.bind_ok], ?_, ?_⟩
      · intro regs vars; simp only [TE.eval, h2]
      · rintro ⟨v, hv⟩; cases hv
    · have hv' : hasVariableSize (.array v t) = false := by rw [hasVariableSize]; simpa using hv
      obtain ⟨w, hw⟩ := calculate_total _ hv'
      exact ⟨_, by rw [sizeof_const hv', hw, Res.bind_ok], fun _ _ => rfl, fun _ => hv'⟩
  | _ => intro _; exact ⟨_, rfl, fun _ _ => rfl, fun _ => rfl⟩

/-- It is the size. -/
theorem sizeof_value (m : M) {regs regs' : Nat → V} {n : Nat} (hs : Same n regs regs') : ∀ (t : Ty) (c : CT) (k : Nat) (e : TE),
    Rep regs n t c → c.Modest → c.size = some k → typeSizeof t = .ok e →
    ∀ vars, e.eval m regs' vars = (⟨8, BitVec.ofNat 64 k⟩, vars) := by
  have base : ∀ (t : Ty) (c : CT) (k : Nat) (e : TE), hasVariableSize t = false →
    Rep regs n t c → c.Modest → c.size = some k → typeSizeof t = .ok e →
    ∀ vars, e.eval m regs' vars = (⟨8, BitVec.ofNat 64 k⟩, vars) := by
    intro t c k e hv h hm hk he vars
    rw [sizeof_const hv, calculate_ok t c k h hv hk, Res.bind_ok] at he
    cases he
    rw [TE.eval, signExtend_small (modest_size hm (h.const _ _ hv) hk)]
  intro t
  induction t with
  | vla len t ih =>
    intro c k e h hm hk he vars
    cases len with
    | pending e => cases c <;> simp [Rep] at h
    | done r =>
      cases c with
      | array a b c =>
        simp only [Rep] at h
        rw [CT.size, Option.map_eq_some_iff] at hk
        obtain ⟨j, hj, rfl⟩ := hk
        rw [CT.Modest] at hm
        rw [sizeof_vla] at he
        obtain ⟨e1, h1, h2⟩ := Res.bind_eq_ok.mp he
        cases h2
        simp only [TE.eval, ih c j e1 h.2.2 hm.2 hj h1, hs r h.1, h.2.1, castSign]
        simp [BitVec.ofNat_mul]
      | _ => simp [Rep] at h
  | array v t ih =>
    intro c k e h hm hk he vars
    by_cases hv : hasVariableSize t = true
    · cases c with
      | array a b c =>
        simp only [Rep] at h
        rw [CT.size, Option.map_eq_some_iff] at hk
        obtain ⟨j, hj, rfl⟩ := hk
        rw [CT.Modest] at hm
        rw [sizeof_array hv] at he
        obtain ⟨e1, h1, h2⟩ := Res.bind_eq_ok.mp he
        cases h2
        simp only [TE.eval, ih c j e1 h.2.2 hm.2 hj h1]
        rw [BitVec.ofNat_mul, ← h.1, BitVec.ofNat_toNat, BitVec.setWidth_eq]
      | _ => simp [Rep] at h
    · exact base _ c k e (by rw [hasVariableSize]; simpa using hv) h hm hk he vars
  | _ => intro c k e h hm hk he vars; exact base _ c k e rfl h hm hk he vars

end Verif.SizeOf
