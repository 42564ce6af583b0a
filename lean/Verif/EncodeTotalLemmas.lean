import Verif.EncodeTableLemmas
/-!
Rows of the table that match do not stop the encoder (src/assembler/encode.c:159-442).
-/
namespace Verif.Encode
open Verif Verif.EncodeSpec

/-- The operand encoding can deal with every operand of the description. -/
def compat (e : Encoding) (oe : OE) (a : Acc) : Bool :=
  match oe, a with
  | .imm8, _ => true | .imm16, _ => true | .imm32, _ => true | .imm64, _ => true
  | .none, _ => true | .rel32, _ => true
  | .modrmRm, .rax _ => true | .modrmRm, .rcx _ => true | .modrmRm, .reg _ => true
  | .modrmRm, .regStar _ => true | .modrmRm, .modrm _ => true | .modrmRm, .xmm => true
  | .modrmRm, .xmmM32 => true | .modrmRm, .xmmM64 => true | .modrmRm, .xmmM128 => true
  | .modrmReg, .rax _ => e.slashR | .modrmReg, .rcx _ => e.slashR | .modrmReg, .reg _ => e.slashR
  | .modrmReg, .xmm => e.slashR
  | .opext, .rax _ => true | .opext, .rcx _ => true | .opext, .reg _ => true | .opext, .regStar _ => true
  | _, _ => false

/-- The same for all operands of a row. -/
def compatAll (e : Encoding) : List OpEnc → List Acc → Bool
  | [], [] => true
  | x :: xs, a :: as => compat e x.type a && compatAll e xs (if x.duplicate then a :: as else as)
  | _, _ => false

/-- A bound on the length of an encoding. -/
def lenBound (e : Encoding) : Nat :=
  (prefixBytes e).length + 1 + (if e.opcode = 0x0f then 3 else 1) +
  (if hasEnc e .modrmRm then 6 else 0) +
  (if hasEnc e .imm64 then 8 else if hasEnc e .imm32 then 4 else if hasEnc e .imm16 then 2
   else if hasEnc e .imm8 then 1 else 0) +
  (if hasEnc e .rel32 then 4 else 0)

theorem table_total : (encodings.all fun e => compatAll e e.operandEncoding e.operandAccepts &&
    !e.operandAccepts.contains .relOther && decide (lenBound e ≤ 15)) = true := by decide +kernel

/-- Which flags a row can set. -/
structure Inv (e : Encoding) (p : Parts) : Prop where
  imm8 : p.hasImm8 = true → hasEnc e .imm8 = true
  imm16 : p.hasImm16 = true → hasEnc e .imm16 = true
  imm32 : p.hasImm32 = true → hasEnc e .imm32 = true
  imm64 : p.hasImm64 = true → hasEnc e .imm64 = true
  rel : p.hasRel32 = true → hasEnc e .rel32 = true
  rm : (p.hasModrm = true ∨ p.hasSib = true ∨ p.hasDisp8 = true ∨ p.hasDisp32 = true) →
    hasEnc e .modrmRm = true

theorem inv_askRex {e : Encoding} {p : Parts} (o : Operand) (h : Inv e p) : Inv e (askRex o p) := by
  rw [askRex_eq]
  exact ⟨h.1, h.2, h.3, h.4, h.5, h.6⟩

theorem encodeSib_total {e : Encoding} {i b : Option Asm.Reg} {sc : Nat} {off : BitVec 64} {p : Parts}
    (hA : Addressable (.mem i b sc off)) (hE : hasEnc e .modrmRm = true) (h : Inv e p) :
    ∃ P, encodeSib i b off p = .ok P ∧ Inv e P := by
  obtain ⟨h1, h2, h3, h4⟩ := hA
  have hd : ∃ n, getDispSize off = .ok n ∧ (n = 0 ∨ n = 1 ∨ n = 4) ∧ (off = 0 → n = 0) := by
    unfold getDispSize
    split
    · exact ⟨0, rfl, by simp, by simp⟩
    · next hz =>
      have : off ≠ 0 := fun hh => hz (by rw [hh]; rfl)
      split
      · exact ⟨1, rfl, by simp, fun hh => absurd hh this⟩
      · rw [if_pos (by omega)]
        exact ⟨4, rfl, by simp, fun hh => absurd hh this⟩
  obtain ⟨n, hn, hn3, hn0⟩ := hd
  unfold encodeSib
  rw [hn, Res.bind_ok]
  obtain ⟨b, rfl⟩ := Option.ne_none_iff_exists'.1 h1
  cases i with
  | none =>
    dsimp only
    rcases hn3 with rfl | rfl | rfl <;> simp only [if_true, if_false, Nat.one_ne_zero, Nat.le_refl,
      Nat.succ_ne_zero, show ¬ (4 ≤ 1) by omega, show ¬ ((4:Nat) = 0) by omega] <;> repeat' split
    all_goals exact ⟨_, rfl, ⟨h.1, h.2, h.3, h.4, h.5, fun _ => hE⟩⟩
  | some i =>
    obtain ⟨h5, h6, h7, h8⟩ := h4 (by simp)
    have h0 := hn0 h5
    subst h0
    dsimp only
    rw [if_pos rfl, if_neg (fun hh => h6 (by rw [hh])), if_neg (by
      rintro (hh | hh)
      · exact h7 (by rw [hh])
      · exact h8 (by rw [hh]))]
    exact ⟨_, rfl, ⟨h.1, h.2, h.3, h.4, h.5, fun _ => hE⟩⟩

theorem encodeOperand_total {e : Encoding} {oe : OE} {a : Acc} {o : Operand} {p : Parts}
    (hc : compat e oe a = true) (hm : doesMatch o a = .ok true) (hA : Addressable o)
    (hE : hasEnc e oe = true) (h : Inv e p) : ∃ P, encodeOperand e oe o p = .ok P ∧ Inv e P := by
  cases oe with
  | imm8 => refine ⟨_, rfl, ?_⟩; cases o <;> exact ⟨fun _ => hE, h.2, h.3, h.4, h.5, h.6⟩
  | imm16 => refine ⟨_, rfl, ?_⟩; cases o <;> exact ⟨h.1, fun _ => hE, h.3, h.4, h.5, h.6⟩
  | imm32 => refine ⟨_, rfl, ?_⟩; cases o <;> exact ⟨h.1, h.2, fun _ => hE, h.4, h.5, h.6⟩
  | imm64 => refine ⟨_, rfl, ?_⟩; cases o <;> exact ⟨h.1, h.2, h.3, fun _ => hE, h.5, h.6⟩
  | none => exact ⟨_, rfl, h⟩
  | empty => exact ⟨_, rfl, h⟩
  | relOther => simp [compat] at hc
  | rel32 => cases o <;> exact ⟨_, rfl, ⟨h.1, h.2, h.3, h.4, fun _ => hE, h.6⟩⟩
  | opext =>
    cases a <;> simp only [compat, Bool.false_eq_true] at hc <;> cases o <;>
      simp only [doesMatch, Res.ok.injEq, Bool.false_eq_true] at hm <;>
      exact ⟨_, rfl, ⟨h.1, h.2, h.3, h.4, h.5, h.6⟩⟩
  | modrmReg =>
    cases a <;> simp only [compat, Bool.false_eq_true] at hc <;> cases o <;>
      simp only [doesMatch, Res.ok.injEq, Bool.false_eq_true] at hm <;>
      (simp only [encodeOperand, hc, if_true]; exact ⟨_, rfl, ⟨h.1, h.2, h.3, h.4, h.5, h.6⟩⟩)
  | modrmRm =>
    cases a <;> simp only [compat, Bool.false_eq_true] at hc <;> cases o <;>
      simp only [doesMatch, Res.ok.injEq, Bool.false_eq_true] at hm <;>
      first
        | exact ⟨_, rfl, ⟨h.1, h.2, h.3, h.4, h.5, fun _ => hE⟩⟩
        | exact encodeSib_total hA hE ⟨h.1, h.2, h.3, h.4, h.5, fun _ => hE⟩

/-- Pairwise `does_match`. -/
def MatchL : List Acc → List Operand → Prop
  | [], [] => True
  | a :: as, o :: os => doesMatch o a = .ok true ∧ MatchL as os
  | _, _ => False

theorem matchL_of : ∀ {accs : List Acc} {l : List Operand} {xs : List Operand} {ys : List Acc},
    l.length = accs.length → matchAll (l ++ xs) (accs ++ ys) = .ok true → MatchL accs l := by
  intro accs
  induction accs with
  | nil => intro l xs ys hl _; cases l with
    | nil => trivial
    | cons o l => simp at hl
  | cons a accs ih =>
    intro l xs ys hl h
    cases l with
    | nil => simp at hl
    | cons o l =>
      simp only [List.cons_append, matchAll] at h
      obtain ⟨m, hm, h⟩ := Res.bind_eq_ok.1 h
      cases m with
      | false => simp at h
      | true => exact ⟨hm, ih (by simpa using hl) (by simpa using h)⟩

theorem loop_rest (e : Encoding) : ∀ (n k : Nat) (p : Parts),
    loop e (List.replicate n ⟨.empty, false⟩) (List.replicate k .empty) p = .ok p := by
  intro n
  induction n with
  | zero => intro k p; rfl
  | succ n ih =>
    intro k p
    cases k with
    | zero => rfl
    | succ k =>
      simp only [List.replicate_succ, loop]
      rw [if_neg (by simp)]
      exact ih k p

theorem loop_total {e : Encoding} : ∀ {oes : List OpEnc} {accs : List Acc} {l : List Operand} {p : Parts}
    (n k : Nat), compatAll e oes accs = true → MatchL accs l → (∀ x ∈ oes, x.type ≠ .empty) →
    (∀ x ∈ oes, hasEnc e x.type = true) →
    (∀ o ∈ l, o ≠ .empty ∧ Addressable o) → Inv e p →
    ∃ P, loop e (oes ++ List.replicate n ⟨.empty, false⟩) (l ++ List.replicate k .empty) p = .ok P ∧
      Inv e P := by
  intro oes
  induction oes with
  | nil =>
    intro accs l p n k hc hM _ _ _ h
    cases accs with
    | cons a accs => simp [compatAll] at hc
    | nil => cases l with
      | cons o l => exact hM.elim
      | nil => exact ⟨p, loop_rest e n k p, h⟩
  | cons x oes ih =>
    intro accs l p n k hc hM hx hE hl h
    cases accs with
    | nil => simp [compatAll] at hc
    | cons a accs =>
      cases l with
      | nil => exact hM.elim
      | cons o l =>
        simp only [compatAll, Bool.and_eq_true] at hc
        obtain ⟨ho1, ho2⟩ := hl o (by simp)
        obtain ⟨p1, h1, h1'⟩ := encodeOperand_total hc.1 hM.1 ho2 (hE x (by simp)) (inv_askRex o h)
        simp only [List.cons_append, loop]
        rw [if_neg (by simp [ho1, hx x (by simp)]), h1, Res.bind_ok]
        have hx' := fun y hy => hx y (List.mem_cons_of_mem _ hy)
        have hE' := fun y hy => hE y (List.mem_cons_of_mem _ hy)
        cases hd : x.duplicate with
        | true =>
          rw [hd, if_pos rfl] at hc
          rw [if_pos rfl]
          exact ih (l := o :: l) n k hc.2 hM hx' hE' hl h1'
        | false =>
          rw [hd, if_neg (by simp)] at hc
          rw [if_neg (by simp)]
          exact ih n k hc.2 hM.2 hx' hE' (fun y hy => hl y (List.mem_cons_of_mem _ hy)) h1'

theorem le_length (n : Nat) (x : BitVec 64) : (le n x).length = n := by simp [le]

theorem emit_length {e : Encoding} {p : Parts} (h : Inv e p) :
    (emit e (finishRex p)).1.length ≤ lenBound e := by
  have h' : Inv e (finishRex p) := by
    unfold finishRex; split
    · exact ⟨h.1, h.2, h.3, h.4, h.5, h.6⟩
    · exact h
  generalize finishRex p = q at h'
  show ((prefixBytes e ++ rexBytes e q ++ opcodeBytes e q ++ modrmBytes e q ++ sibBytes q ++ dispBytes q) ++
    immBytes q ++ relBytes q).length ≤ _
  simp only [List.length_append, lenBound]
  have b1 : (rexBytes e q).length ≤ 1 := by unfold rexBytes; split <;> simp
  have b2 : (opcodeBytes e q).length ≤ if e.opcode = 0x0f then 3 else 1 := by
    unfold opcodeBytes
    split
    · split <;> simp
    · simp
  have b3 : (modrmBytes e q).length + (sibBytes q).length + (dispBytes q).length ≤
      if hasEnc e .modrmRm then 6 else 0 := by
    have c1 : (modrmBytes e q).length ≤ 1 := by unfold modrmBytes; split <;> simp
    have c2 : (sibBytes q).length ≤ 1 := by unfold sibBytes; split <;> simp
    have c3 : (dispBytes q).length ≤ 4 := by
      unfold dispBytes; split
      · simp [le_length]
      · split <;> simp [le_length]
    cases hE : hasEnc e .modrmRm with
    | true => simp; omega
    | false =>
      have := fun hh => h'.6 hh
      rw [hE] at this
      have d1 : q.hasModrm = false := by cases hq : q.hasModrm <;> simp_all
      have d2 : q.hasSib = false := by cases hq : q.hasSib <;> simp_all
      have d3 : q.hasDisp8 = false := by cases hq : q.hasDisp8 <;> simp_all
      have d4 : q.hasDisp32 = false := by cases hq : q.hasDisp32 <;> simp_all
      simp [modrmBytes, sibBytes, dispBytes, d1, d2, d3, d4]
  have b4 : (immBytes q).length ≤ (if hasEnc e .imm64 then 8 else if hasEnc e .imm32 then 4
      else if hasEnc e .imm16 then 2 else if hasEnc e .imm8 then 1 else 0) := by
    unfold immBytes immSize
    rw [le_length]
    have e1 := h'.1
    have e2 := h'.2
    have e3 := h'.3
    have e4 := h'.4
    revert e1 e2 e3 e4
    cases q.hasImm8 <;> cases q.hasImm16 <;> cases q.hasImm32 <;> cases q.hasImm64 <;>
      cases hasEnc e .imm8 <;> cases hasEnc e .imm16 <;> cases hasEnc e .imm32 <;> cases hasEnc e .imm64 <;>
      simp
  have b5 : (relBytes q).length ≤ if hasEnc e .rel32 then 4 else 0 := by
    unfold relBytes
    have := h'.5
    split
    · next hh => rw [if_pos (this hh)]; simp [le_length]
    · simp
  omega

theorem hasEnc_self (e : Encoding) : ∀ x ∈ e.operandEncoding, hasEnc e x.type = true := by
  intro x hx
  exact List.contains_iff_mem.2 (List.mem_map_of_mem hx)

/-- A matching row of the table assembles. -/
theorem row_total {e : Encoding} {l : List Operand} (he : e ∈ encodings)
    (hlen : l.length = e.operandAccepts.length) (hl : ∀ o ∈ l, o ≠ .empty ∧ Addressable o)
    (hM : Matches e (pad4 .empty l)) : ∃ out, assembleEncoding e (pad4 .empty l) = .ok out := by
  have ht := List.all_eq_true.1 table_total e he
  simp only [Bool.and_eq_true, decide_eq_true_eq] at ht
  obtain ⟨b1, b2, b3, b4⟩ := of_decide_eq_true (List.all_eq_true.1 table_balanced e he)
  have := filter_le e.operandEncoding
  rw [Matches, pad4_eq _ _ (by omega), pad4_eq _ _ (by omega)] at hM
  obtain ⟨P, hP, hI⟩ := loop_total (e := e) (p := { hasRex := e.rexw || e.rex }) (4 - e.operandEncoding.length)
    (4 - l.length) ht.1.1 (matchL_of hlen hM) b3 (hasEnc_self e) hl
    ⟨by simp, by simp, by simp, by simp, by simp, by simp⟩
  refine ⟨emit e (finishRex P), ?_⟩
  rw [assembleEncoding, pad4_eq _ e.operandEncoding (by omega), pad4_eq _ _ (by omega), hP, Res.bind_ok]
  dsimp only
  rw [if_pos (by have := emit_length hI; omega)]

theorem matchAll_total {accs : List Acc} : ∀ {ops : List Operand}, .relOther ∉ accs →
    ∃ m, matchAll ops accs = .ok m := by
  induction accs with
  | nil => intro ops _; cases ops <;> exact ⟨true, rfl⟩
  | cons a accs ih =>
    intro ops h
    cases ops with
    | nil => exact ⟨true, rfl⟩
    | cons o ops =>
      have h1 : ∃ m, doesMatch o a = .ok m := by
        cases a <;> first | exact ⟨_, rfl⟩ | simp at h
      obtain ⟨m, hm⟩ := h1
      simp only [matchAll, hm, Res.bind_ok]
      cases m with
      | false => exact ⟨false, rfl⟩
      | true => exact ih (fun hh => h (List.mem_cons_of_mem _ hh))

theorem row_match_total {e : Encoding} (he : e ∈ encodings) (ops : List Operand) :
    ∃ m, matchAll ops (pad4 .empty e.operandAccepts) = .ok m := by
  have ht := List.all_eq_true.1 table_total e he
  simp only [Bool.and_eq_true, Bool.not_eq_true', List.contains_eq_mem] at ht
  apply matchAll_total
  intro hh
  have h2 := of_decide_eq_false ht.1.2
  unfold pad4 at hh
  rcases List.mem_append.1 (List.mem_of_mem_take hh) with h | h
  · exact h2 h
  · simp at h

/-! ### Relocations -/

theorem patch_length {x : BitVec 64} {bs : List Byte} {r : Rel} (h : r.offset + r.size ≤ bs.length) :
    (patch x bs r).length = bs.length := by
  simp only [patch, List.length_append, List.length_take, List.length_drop, fieldBytes, List.length_map,
    List.length_range]
  omega

theorem patchAll_length {x : BitVec 64} : ∀ {rs : List Rel} {bs : List Byte},
    (∀ r ∈ rs, r.offset + r.size ≤ bs.length) → (patchAll x bs rs).length = bs.length := by
  intro rs
  induction rs with
  | nil => intro bs _; rfl
  | cons r rs ih =>
    intro bs h
    have h1 := patch_length (x := x) (h r (by simp))
    show (patchAll x (patch x bs r) rs).length = _
    rw [ih (by intro r' hr'; rw [h1]; exact h r' (by simp [hr'])), h1]

theorem emit_rels {e : Encoding} {p : Parts} : ∀ r ∈ (emit e p).2, r.offset + r.size ≤ (emit e p).1.length := by
  intro r hr
  have hr : r ∈ immRels p (headBytes e p).length ++ relRels p (headBytes e p ++ immBytes p).length := hr
  show _ ≤ (headBytes e p ++ immBytes p ++ relBytes p).length
  rcases List.mem_append.1 hr with h | h
  · unfold immRels at h
    split at h
    · simp at h
    · split at h
      · simp only [List.mem_singleton] at h
        subst h
        simp only [List.length_append, immBytes, le_length]
        omega
      · simp at h
  · unfold relRels at h
    split at h
    · next hh =>
      split at h
      · simp only [List.mem_singleton] at h
        subst h
        simp only [List.length_append, relBytes, hh, if_true, le_length]
        omega
      · simp at h
    · simp at h

end Verif.Encode
