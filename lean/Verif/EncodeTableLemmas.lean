import Verif.EncodeShapeLemmas
/-!
The rows of the table (src/assembler/instructions.h) put together: every row that matches decodes,
and rows that match do not stop the encoder.
-/
namespace Verif.Encode
open Verif Verif.EncodeSpec

theorem any_disjoint {x : BitVec 64} : ∀ {accs : List Acc} {slots : List Slot} {l : List Operand}
    {as : List Arg} (n k : Nat),
    matchAll (l ++ List.replicate n .empty) (accs ++ List.replicate k .empty) = .ok true →
    slotArgs slots (l.map (resolve x)) = some as →
    ((accs.zip slots).any fun p => disjoint p.1 p.2) = false := by
  intro accs
  induction accs with
  | nil => intros; rfl
  | cons A accs ih =>
    intro slots l as n k h hs
    cases slots with
    | nil => rfl
    | cons s slots =>
      cases l with
      | nil => simp [slotArgs] at hs
      | cons o l =>
        simp only [List.cons_append, matchAll] at h
        obtain ⟨m, hm, h⟩ := Res.bind_eq_ok.1 h
        cases m with
        | false => simp at h
        | true =>
          simp only [if_true] at h
          simp only [List.map_cons, slotArgs, Option.bind_eq_bind, Option.bind_eq_some_iff] at hs
          obtain ⟨a, ha, as', has, _⟩ := hs
          simp only [List.zip_cons_cons, List.any_cons, Bool.or_eq_false_iff]
          refine ⟨?_, ih n k h has⟩
          cases hd : disjoint A s with
          | false => rfl
          | true => exact (disjoint_spec hd hm ha).elim

theorem slotArgs_length {x : BitVec 64} : ∀ {slots : List Slot} {l : List Operand} {as : List Arg},
    slotArgs slots (l.map (resolve x)) = some as → l.length = slots.length := by
  intro slots
  induction slots with
  | nil => intro l as h; cases l with
    | nil => rfl
    | cons o l => simp [slotArgs] at h
  | cons s slots ih =>
    intro l as h
    cases l with
    | nil => simp [slotArgs] at h
    | cons o l =>
      simp only [List.map_cons, slotArgs, Option.bind_eq_bind, Option.bind_eq_some_iff] at h
      obtain ⟨_, _, as', has, _⟩ := h
      simp [ih has]

theorem accepts_le : (encodings.all fun e => decide (e.operandAccepts.length ≤ 4)) = true := by
  decide +kernel

theorem slots_le : (mnemonics.all fun m => decide (m.2.2.length ≤ 4)) = true := by
  decide +kernel

/-- A row that matches the operands decodes to what the mnemonic denotes. -/
theorem row_decodes {e : Encoding} {m : String × Op × List Slot} {l : List Operand} {x : BitVec 64}
    {as : List Arg} {out : List Byte × List Rel} (he : e ∈ encodings) (hm : m ∈ mnemonics)
    (hmn : m.1 = e.mnemonic) (hM : Matches e (pad4 .empty l)) (hH : Handled m.1 l)
    (hs : slotArgs m.2.2 (l.map (resolve x)) = some as)
    (ha : assembleEncoding e (pad4 .empty l) = .ok out)
    (hfit : ∀ r ∈ out.2, r.relative = false → FitsField r.size x) (rest : List Byte) :
    decode (patchAll x out.1 out.2 ++ rest) = some (⟨m.2.1, expand m.2.1 as⟩, rest) := by
  have hok := List.all_eq_true.1 (List.all_eq_true.1 table_ok e he) m hm
  simp only [hmn, bne_self_eq_false, Bool.false_or] at hok
  have hd : ((e.operandAccepts.zip m.2.2).any fun p => disjoint p.1 p.2) = false := by
    have h1 := of_decide_eq_true (List.all_eq_true.1 accepts_le e he)
    have h2 := of_decide_eq_true (List.all_eq_true.1 slots_le m hm)
    have h3 := slotArgs_length hs
    rw [Matches, pad4_eq _ _ h1, pad4_eq _ _ (by omega)] at hM
    exact any_disjoint _ _ hM hs
  obtain ⟨_, r1, r2, r3⟩ := rowOk_spec hok hd
  have R : Row e m := ⟨r1, r2, r3⟩
  rw [assembleEncoding] at ha
  obtain ⟨P, hl, ha⟩ := Res.bind_eq_ok.1 ha
  dsimp only at ha
  split at ha
  · injection ha with ha
    subst ha
    have hsh := List.all_eq_true.1 table_shapes e he
    simp only [shapes, List.contains_iff_mem, List.mem_cons, List.not_mem_nil, or_false] at hsh
    rcases hsh with h | h | h | h | h | h | h | h | h | h | h | h | h | h | h | h
    · exact shape_nil h R hs hl rest
    · exact shape_rm h R hM hH hs hl rest
    · exact shape_ox h R hM hH hs hl rest
    · exact shape_rel h R hM hs hl rest
    · exact shape_rm_reg h R hM hH hs hl rest
    · exact shape_reg_rm h R hM hH hs hl rest
    · exact shape_rm_none h R hM hH hs hl rest
    · exact shape_rm_imm (by decide) h R hM hH hs hl hfit rest
    · exact shape_rm_imm (by decide) h R hM hH hs hl hfit rest
    · exact shape_rm_imm (by decide) h R hM hH hs hl hfit rest
    · exact shape_ox_imm (by decide) h R hM hH hs hl hfit rest
    · exact shape_ox_imm (by decide) h R hM hH hs hl hfit rest
    · exact shape_none_imm (by decide) h R hM hH hs hl hfit rest
    · exact shape_none_imm (by decide) h R hM hH hs hl hfit rest
    · exact shape_dup (by decide) h R hM hH hs hl hfit rest
    · exact shape_dup (by decide) h R hM hH hs hl hfit rest
  · cases ha

/-! ### Rows that match -/

/-- A row whose operand encodings take up exactly the operands it describes. -/
def Balanced (e : Encoding) : Prop :=
  (e.operandEncoding.filter fun x => !x.duplicate).length = e.operandAccepts.length ∧
  e.operandEncoding.length ≤ 3 ∧ (∀ x ∈ e.operandEncoding, x.type ≠ .empty) ∧
  ∀ a ∈ e.operandAccepts, a ≠ .empty

instance (e : Encoding) : Decidable (Balanced e) := by unfold Balanced; exact inferInstance

theorem table_balanced : (encodings.all fun e => decide (Balanced e)) = true := by decide +kernel

/-- The loop over the encodings stops at an operand too many. -/
theorem loop_count (e : Encoding) : ∀ (oes : List OpEnc) (l : List Operand) (n k : Nat) (p P : Parts),
    (∀ x ∈ oes, x.type ≠ .empty) → (∀ o ∈ l, o ≠ .empty) →
    loop e (oes ++ List.replicate (n + 1) ⟨.empty, false⟩) (l ++ List.replicate k .empty) p = .ok P →
    l.length ≤ (oes.filter fun x => !x.duplicate).length := by
  intro oes
  induction oes with
  | nil =>
    intro l n k p P _ hl h
    cases l with
    | nil => exact Nat.zero_le _
    | cons o l =>
      simp only [List.nil_append, List.replicate_succ, List.cons_append, loop] at h
      rw [if_pos (by simp [hl o (by simp)])] at h
      cases h
  | cons x oes ih =>
    intro l n k p P hx hl h
    cases l with
    | nil => exact Nat.zero_le _
    | cons o l =>
      simp only [List.cons_append, loop] at h
      rw [if_neg (by simp [hl o (by simp), hx x (by simp)])] at h
      obtain ⟨p1, _, h⟩ := Res.bind_eq_ok.1 h
      have hx' := fun y hy => hx y (List.mem_cons_of_mem _ hy)
      cases hd : x.duplicate with
      | true =>
        rw [hd, if_pos rfl] at h
        have := ih (o :: l) n k p1 P hx' hl h
        simpa [hd] using this
      | false =>
        rw [hd, if_neg (by simp)] at h
        have := ih l n k p1 P hx' (fun y hy => hl y (List.mem_cons_of_mem _ hy)) h
        simpa [hd] using this

theorem accepts_of_match : ∀ {accs : List Acc} {l : List Operand} (n k : Nat),
    (∀ a ∈ accs, a ≠ .empty) → l.length ≤ accs.length →
    (∀ lb v, .imm lb v ∈ l → 0 ≤ v.toInt ∨ (.imm8u ∉ accs ∧ .imm16u ∉ accs)) → accs.length ≤ l.length + n →
    matchAll (l ++ List.replicate n .empty) (accs ++ List.replicate k .empty) = .ok true →
    Accepts accs l := by
  intro accs
  induction accs with
  | nil =>
    intro l n k _ hl _ _ _
    cases l with
    | nil => trivial
    | cons o l => simp at hl
  | cons A accs ih =>
    intro l n k hne hl hu hn h
    cases l with
    | nil =>
      exfalso
      simp only [List.length_cons, List.length_nil, Nat.zero_add] at hn
      cases n with
      | zero => omega
      | succ n =>
        simp only [List.nil_append, List.replicate_succ, List.cons_append, matchAll] at h
        obtain ⟨m, hm, h⟩ := Res.bind_eq_ok.1 h
        have := hne A (by simp)
        cases A <;> simp_all [doesMatch]
    | cons o l =>
      simp only [List.cons_append, matchAll] at h
      obtain ⟨m, hm, h⟩ := Res.bind_eq_ok.1 h
      cases m with
      | false => simp at h
      | true =>
        simp only [if_true] at h
        refine ⟨accepts_of_doesMatch hm ?_ (fun h => absurd h (hne A (by simp))), ?_⟩
        · intro hA lb v ho
          rcases hu lb v (by simp [ho]) with h | ⟨h1, h2⟩
          · exact h
          · rcases hA with rfl | rfl
            · simp at h1
            · simp at h2
        · apply ih n k (fun a ha => hne a (List.mem_cons_of_mem _ ha)) (by simpa using hl) _
            (by simp at hn; omega) h
          intro lb v hv
          rcases hu lb v (List.mem_cons_of_mem _ hv) with h | ⟨h1, h2⟩
          · exact .inl h
          · exact .inr ⟨fun h => h1 (List.mem_cons_of_mem _ h), fun h => h2 (List.mem_cons_of_mem _ h)⟩

theorem filter_le (l : List OpEnc) : (l.filter fun x => !x.duplicate).length ≤ l.length :=
  List.length_filter_le ..

/-- A matching row that assembles accepts the operands. -/
theorem accepts_row {e : Encoding} {l : List Operand} {out : List Byte × List Rel} (hb : Balanced e)
    (hne : ∀ o ∈ l, o ≠ .empty) (h4 : l.length ≤ 4)
    (hu : ∀ lb v, .imm lb v ∈ l → 0 ≤ v.toInt ∨ (.imm8u ∉ e.operandAccepts ∧ .imm16u ∉ e.operandAccepts))
    (hM : Matches e (pad4 .empty l)) (ha : assembleEncoding e (pad4 .empty l) = .ok out) :
    Accepts e.operandAccepts l := by
  obtain ⟨b1, b2, b3, b4⟩ := hb
  have := filter_le e.operandEncoding
  rw [assembleEncoding] at ha
  obtain ⟨P, hl, _⟩ := Res.bind_eq_ok.1 ha
  rw [pad4_eq _ _ (by omega), pad4_eq _ _ h4,
    show 4 - e.operandEncoding.length = (3 - e.operandEncoding.length) + 1 by omega] at hl
  have hlen := loop_count e _ _ _ _ _ _ b3 hne hl
  rw [Matches, pad4_eq _ _ h4, pad4_eq _ _ (by omega)] at hM
  exact accepts_of_match _ _ b4 (by omega) hu (by omega) hM

theorem accepts_length : ∀ {accs : List Acc} {l : List Operand}, Accepts accs l → accs.length = l.length := by
  intro accs
  induction accs with
  | nil => intro l h; cases l with
    | nil => rfl
    | cons o l => exact h.elim
  | cons a accs ih => intro l h; cases l with
    | nil => exact h.elim
    | cons o l => simp [ih h.2]

theorem match_row {e : Encoding} {l : List Operand} (h4 : l.length ≤ 4)
    (hA : Accepts e.operandAccepts l) : Matches e (pad4 .empty l) := by
  have := accepts_length hA
  rw [Matches, pad4_eq _ _ h4, pad4_eq _ _ (by omega), this]
  exact matchAll_of_accepts hA

end Verif.Encode
