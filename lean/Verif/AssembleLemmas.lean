import Verif.AssembleSpec
import Verif.EncodeProps
import Verif.ObjectProps
import Verif.LinkerProps
/-! Lemmas for C97. -/
namespace Verif.Assemble
open Verif Asm AssembleSpec EncodeSpec
open Verif.Encode (Operand Rel Parts Encoding OpEnc encodings assembleInstruction assembleEncoding pad4 loop encodeOperand encodeSib
  setImm askRex finishRex emit immRels relRels immSize)
open Verif.FuncCode (Item)
open Verif.Object (Obj Name Section)

/-! ### The relocations of an instruction -/

/-- The labels in the variables of `assemble_encoding` are those of operands. -/
def Lab (l : List Operand) (p : Parts) : Prop :=
  (∀ x, p.immLabel = some x → .imm (some x) p.imm ∈ l) ∧
  (∀ x, p.relLabel = some x → ∃ v, .abs (some x) v ∈ l)

theorem encodeSib_lab {i b : Option Reg} {off : BitVec 64} {p q : Parts} (h : encodeSib i b off p = .ok q) :
    q.immLabel = p.immLabel ∧ q.imm = p.imm ∧ q.relLabel = p.relLabel := by
  unfold encodeSib at h
  obtain ⟨d, _, h⟩ := Res.bind_eq_ok.1 h
  repeat' split at h
  all_goals first
    | (injection h with h; subst h; exact ⟨rfl, rfl, rfl⟩)
    | cases h

theorem lab_of {l : List Operand} {p q : Parts} (h : q.immLabel = p.immLabel ∧ q.imm = p.imm ∧ q.relLabel = p.relLabel)
    (hp : Lab l p) : Lab l q := by
  unfold Lab at *
  rw [h.1, h.2.1, h.2.2]
  exact hp

theorem setImm_lab {l : List Operand} {o : Operand} {p : Parts} (ho : o ∈ l) (hp : Lab l p) : Lab l (setImm o p) := by
  unfold setImm
  split
  · next lb v =>
    refine ⟨?_, hp.2⟩
    intro x hx
    have hx : lb = some x := hx
    subst hx
    exact ho
  · exact hp

theorem encodeOperand_lab {l : List Operand} {e : Encoding} {oe : Encode.OE} {o : Operand} {p q : Parts} (ho : o ∈ l)
    (hp : Lab l p) (h : encodeOperand e oe o p = .ok q) : Lab l q := by
  unfold encodeOperand at h
  split at h
  · injection h with h; subst h; exact setImm_lab ho hp
  · injection h with h; subst h; exact setImm_lab ho hp
  · injection h with h; subst h; exact setImm_lab ho hp
  · injection h with h; subst h; exact setImm_lab ho hp
  · split at h
    · injection h with h; subst h; exact hp
    · injection h with h; subst h; exact hp
    · injection h with h; subst h; exact hp
    · exact lab_of (encodeSib_lab h) hp
    · cases h
  · repeat' split at h
    all_goals first | (injection h with h; subst h; exact hp) | cases h
  · repeat' split at h
    all_goals first | (injection h with h; subst h; exact hp) | cases h
  · injection h with h; subst h; exact hp
  · injection h with h; subst h; exact hp
  · split at h
    · next lb v =>
      injection h with h; subst h
      refine ⟨hp.1, ?_⟩
      intro x hx
      have hx : lb = some x := hx
      subst hx
      exact ⟨_, ho⟩
    · injection h with h; subst h; exact hp
  · cases h

theorem askRex_lab {l : List Operand} {o : Operand} {p : Parts} (hp : Lab l p) : Lab l (askRex o p) := by
  unfold askRex
  repeat' split
  all_goals exact hp

theorem loop_lab {e : Encoding} {l : List Operand} : ∀ {oes : List OpEnc} {ops : List Operand} {p q : Parts},
    (∀ o ∈ ops, o ∈ l) → Lab l p → loop e oes ops p = .ok q → Lab l q := by
  intro oes
  induction oes with
  | nil => intro ops p q _ hp h; simp only [loop] at h; injection h with h; subst h; exact hp
  | cons x oes ih =>
    intro ops p q ho hp h
    cases ops with
    | nil => simp only [loop] at h; injection h with h; subst h; exact hp
    | cons o os =>
      simp only [loop] at h
      split at h
      · cases h
      · obtain ⟨r, h1, h2⟩ := Res.bind_eq_ok.1 h
        refine ih ?_ (encodeOperand_lab (ho o (by simp)) (askRex_lab hp) h1) h2
        split
        · exact ho
        · exact fun y hy => ho y (List.mem_cons_of_mem _ hy)

/-- What the relocations of an instruction are. -/
def RelOf (l : List Operand) (r : Rel) : Prop :=
  (r.relative = false ∧ .imm (some r.label) r.imm ∈ l) ∨ (r.relative = true ∧ r.size = 4 ∧ ∃ v, .abs (some r.label) v ∈ l)

theorem emit_lab {e : Encoding} {l : List Operand} {p : Parts} (hp : Lab l p) :
    (∀ r ∈ (emit e p).2, RelOf l r) ∧ ((emit e p).2.length ≤ 1 ∨
      ∃ x y v w, .imm (some x) v ∈ l ∧ .abs (some y) w ∈ l) := by
  unfold emit
  dsimp only
  generalize (Encode.headBytes e p).length = a
  generalize (Encode.headBytes e p ++ Encode.immBytes p).length = b
  unfold immRels relRels
  constructor
  · intro r hr
    rcases List.mem_append.1 hr with hr | hr
    · split at hr
      · cases hr
      · split at hr
        · next x hx =>
          rw [List.mem_singleton] at hr
          subst hr
          exact .inl ⟨rfl, hp.1 x hx⟩
        · cases hr
    · split at hr
      · split at hr
        · next x hx =>
          rw [List.mem_singleton] at hr
          subst hr
          exact .inr ⟨rfl, rfl, hp.2 x hx⟩
        · cases hr
      · cases hr
  · cases hx : p.immLabel with
    | none =>
      left
      repeat' split
      all_goals simp_all
    | some x =>
      cases hy : p.relLabel with
      | none =>
        left
        repeat' split
        all_goals simp_all
      | some y =>
        obtain ⟨w, hw⟩ := hp.2 y hy
        exact .inr ⟨x, y, _, w, hp.1 x hx, hw⟩

theorem relocs_of {mn : String} {l : List Operand} {bytes : List Byte} {rels : List Rel}
    (h : assembleInstruction encodings mn l = .ok (some (bytes, rels))) :
    (∀ r ∈ rels, RelOf l r ∧ r.offset + r.size ≤ bytes.length) ∧ (rels.length ≤ 1 ∨
      ∃ x y v w, .imm (some x) v ∈ l ∧ .abs (some y) w ∈ l) := by
  obtain ⟨_, _, _, h4⟩ := Encode.search_spec _ _ _ _ _ h (by simp)
  rcases h4 _ rfl with h | ⟨e, he, hmn, hM, ha⟩
  · cases h
  · rw [assembleEncoding] at ha
    obtain ⟨P, hP, hp⟩ := Res.bind_eq_ok.1 ha
    dsimp only at hp
    split at hp
    · next hl =>
      injection hp with hp
      have hP : Lab l P := loop_lab (fun _ h => h) ⟨fun x hx => by simp at hx, fun x hx => by simp at hx⟩ hP
      have hP : Lab l (finishRex P) := by
        unfold finishRex
        split <;> exact hP
      have h1 := emit_lab (e := e) hP
      have h2 := Encode.emit_rels (e := e) (p := finishRex P)
      rw [hp] at h1 h2
      exact ⟨fun r hr => ⟨h1.1 r hr, h2 r hr⟩, h1.2⟩
    · cases hp

end Verif.Assemble
