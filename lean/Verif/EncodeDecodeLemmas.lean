import Verif.EncodeRowLemmas
/-!
Lemmas for the correctness of the encoder: a whole row decodes to the instruction.
-/
namespace Verif.Encode
open Verif Verif.EncodeSpec
open Verif.Asm (Reg)

/-! ### The loop over the operands -/

theorem encode_empty (e : Encoding) (p : Parts) :
    encodeOperand e .empty .empty (askRex .empty p) = .ok p := rfl

theorem loop0 {e : Encoding} {p0 P : Parts}
    (h : loop e (pad4 ⟨.empty, false⟩ []) (pad4 .empty []) p0 = .ok P) : P = p0 := by
  injection h with h
  exact h.symm

theorem loop1 {e : Encoding} {x : OE} {a : Operand} {p0 P : Parts} (hx : x ≠ .empty) (ha : a ≠ .empty)
    (h : loop e (pad4 ⟨.empty, false⟩ [⟨x, false⟩]) (pad4 .empty [a]) p0 = .ok P) :
    encodeOperand e x a (askRex a p0) = .ok P := by
  rw [show pad4 (⟨.empty, false⟩ : OpEnc) [⟨x, false⟩] =
    [⟨x, false⟩, ⟨.empty, false⟩, ⟨.empty, false⟩, ⟨.empty, false⟩] from rfl,
    show pad4 Operand.empty [a] = [a, .empty, .empty, .empty] from rfl] at h
  simp only [loop, hx, ha, ne_eq, not_true_eq_false, if_false, Bool.false_eq_true, encode_empty,
    Res.bind_ok] at h
  obtain ⟨p1, h1, h⟩ := Res.bind_eq_ok.1 h
  injection h with h
  rw [h1, h]

theorem loop2 {e : Encoding} {x y : OE} {a b : Operand} {p0 P : Parts} (hx : x ≠ .empty)
    (hy : y ≠ .empty) (ha : a ≠ .empty) (hb : b ≠ .empty)
    (h : loop e (pad4 ⟨.empty, false⟩ [⟨x, false⟩, ⟨y, false⟩]) (pad4 .empty [a, b]) p0 = .ok P) :
    ∃ p1, encodeOperand e x a (askRex a p0) = .ok p1 ∧ encodeOperand e y b (askRex b p1) = .ok P := by
  rw [show pad4 (⟨.empty, false⟩ : OpEnc) [⟨x, false⟩, ⟨y, false⟩] =
    [⟨x, false⟩, ⟨y, false⟩, ⟨.empty, false⟩, ⟨.empty, false⟩] from rfl,
    show pad4 Operand.empty [a, b] = [a, b, .empty, .empty] from rfl] at h
  simp only [loop, hx, hy, ha, hb, ne_eq, not_true_eq_false, if_false, Bool.false_eq_true, encode_empty,
    Res.bind_ok] at h
  obtain ⟨p1, h1, h⟩ := Res.bind_eq_ok.1 h
  obtain ⟨p2, h2, h⟩ := Res.bind_eq_ok.1 h
  injection h with h
  exact ⟨p1, h1, by rw [h2, h]⟩

theorem loop3 {e : Encoding} {x y z : OE} {a b : Operand} {p0 P : Parts} (hx : x ≠ .empty)
    (hy : y ≠ .empty) (hz : z ≠ .empty) (ha : a ≠ .empty) (hb : b ≠ .empty)
    (h : loop e (pad4 ⟨.empty, false⟩ [⟨x, true⟩, ⟨y, false⟩, ⟨z, false⟩]) (pad4 .empty [a, b]) p0
      = .ok P) :
    ∃ p1 p2, encodeOperand e x a (askRex a p0) = .ok p1 ∧ encodeOperand e y a (askRex a p1) = .ok p2 ∧
      encodeOperand e z b (askRex b p2) = .ok P := by
  rw [show pad4 (⟨.empty, false⟩ : OpEnc) [⟨x, true⟩, ⟨y, false⟩, ⟨z, false⟩] =
    [⟨x, true⟩, ⟨y, false⟩, ⟨z, false⟩, ⟨.empty, false⟩] from rfl,
    show pad4 Operand.empty [a, b] = [a, b, .empty, .empty] from rfl] at h
  simp only [loop, hx, hy, hz, ha, hb, ne_eq, not_true_eq_false, if_false, Bool.false_eq_true,
    encode_empty, Res.bind_ok, if_true] at h
  obtain ⟨p1, h1, h⟩ := Res.bind_eq_ok.1 h
  obtain ⟨p2, h2, h⟩ := Res.bind_eq_ok.1 h
  obtain ⟨p3, h3, h⟩ := Res.bind_eq_ok.1 h
  injection h with h
  exact ⟨p1, p2, h1, h2, by rw [h3, h]⟩

/-! ### The output -/

theorem headBytes_finish (e : Encoding) (P : Parts) (t : List Byte) :
    headBytes e (finishRex P) ++ t =
      prefixBytes e ++ (rexBytes e (finishRex P) ++ (opcodeBytes e P ++
        (modrmBytes e P ++ (sibBytes P ++ (dispBytes P ++ t))))) := by
  have h1 : opcodeBytes e (finishRex P) = opcodeBytes e P := by unfold finishRex; split <;> rfl
  have h2 : modrmBytes e (finishRex P) = modrmBytes e P := by unfold finishRex; split <;> rfl
  have h3 : sibBytes (finishRex P) = sibBytes P := by unfold finishRex; split <;> rfl
  have h4 : dispBytes (finishRex P) = dispBytes P := by unfold finishRex; split <;> rfl
  simp only [headBytes, List.append_assoc, h1, h2, h3, h4]

theorem lookup_w (p : Prefixes) (rex : Rex) (two : Bool) (b : Byte) (rf : Nat) :
    lookup p rex two b rf = lookup p { w := rex.w } two b rf := rfl

/-- The machine code decodes. -/
theorem decode_emit {e : Encoding} {P : Parts} {rm : Rm} {rf : Nat} {op : Op} {ks : List Kind}
    {as : List Arg} {t t' : List Byte} (hD : Done e P) (hplain : plainOpcode e P.opExt = true)
    (hhas : hasModRM (decide (e.opcode = 0x0f)) (opWith e P.opExt) = some P.hasModrm)
    (hrm : P.hasModrm = true → ∃ f, P = setRm P f ∧ RmGood f rm ∧
      rf = (e.modrmExtension &&& 7) ||| (P.modrmReg &&& 7))
    (hno : P.hasModrm = false → P.hasSib = false ∧ P.hasDisp8 = false ∧ P.hasDisp32 = false ∧
      rm = .reg 0 ∧ rf = 0)
    (hl : lookup (pfxOf e) { w := e.rexw } (decide (e.opcode = 0x0f)) (opWith e P.opExt) rf = some (op, ks))
    (ha : args ⟨rexOf e (finishRex P), opWith e P.opExt, rf, rm⟩ ks t = some (as, t')) :
    decode (headBytes e (finishRex P) ++ t) = some (⟨op, as⟩, t') := by
  obtain ⟨hw, hr, hx, hb, _⟩ := rexOf_finish hD
  have fB : (finishRex P).rexB = P.rexB := by unfold finishRex; split <;> rfl
  have fR : (finishRex P).rexR = P.rexR := by unfold finishRex; split <;> rfl
  have fO : (finishRex P).opExt = P.opExt := by unfold finishRex; split <;> rfl
  have hopb : opcodeBytes e P = opcodeBytes e (finishRex P) := by unfold finishRex; split <;> rfl
  rw [headBytes_finish, hopb, decode_head e (finishRex P) _ (by rw [fB]; exact hD.b) (by rw [fR]; exact hD.r)
    (by rw [fO]; exact hplain)]
  have hop : opOf e (finishRex P) = opWith e P.opExt := by unfold opOf opWith; rw [fO]
  rw [hop, decodeRest, hhas]
  have hmod : (if P.hasModrm then
      modRM (rexOf e (finishRex P)) (modrmBytes e P ++ (sibBytes P ++ (dispBytes P ++ t)))
      else some (0, .reg 0, modrmBytes e P ++ (sibBytes P ++ (dispBytes P ++ t)))) = some (rf, rm, t) := by
    cases hm : P.hasModrm with
    | true =>
      obtain ⟨f, hf, hg, hrf⟩ := hrm hm
      rw [if_pos rfl, hf]
      have := hg.2 e.modrmExtension P.modrmReg (rexOf e (finishRex P)) t hx
        (by rw [hb, hf]; rfl)
      rw [hrf]
      have hsib : sibBytes (setRm P f) = sibOf f := by
        unfold sibBytes sibOf setRm
        simp only [hD.scale]
      rw [hsib, show dispBytes (setRm P f) = dispOf f from rfl]
      have hmb : modrmBytes e (setRm P f) = [modrmByte e.modrmExtension P.modrmReg f.mod f.rm] := rfl
      rw [hmb]
      rw [← hf]
      exact this
    | false =>
      obtain ⟨h1, h2, h3, h4, h5⟩ := hno hm
      rw [if_neg (by simp), h4, h5]
      unfold modrmBytes sibBytes dispBytes
      simp only [hm, h1, h2, h3, Bool.false_eq_true, if_false, List.nil_append]
  simp only [Option.bind_eq_bind, Option.bind_some]
  rw [hmod]
  simp only [Option.bind_some]
  rw [lookup_w, hw, hl]
  simp only [Option.bind_some]
  rw [ha]
  rfl

theorem patch_at (x : BitVec 64) (a b : List Byte) (n : Nat) (rel : Bool) (l : Nat) (v : BitVec 64)
    (hb : b.length = n) :
    patch x (a ++ b) ⟨a.length, n, rel, l, v⟩ = a ++ le n x := by
  unfold patch
  simp only [List.take_left, le_eq]
  rw [List.drop_eq_nil_of_le (by rw [List.length_append]; omega), List.append_nil]

/-- The output of a row with an immediate (or no field at all) after relocation. -/
theorem patch_imm {e : Encoding} {Q : Parts} (x : BitVec 64) (hr : Q.hasRel32 = false) :
    patchAll x (emit e Q).1 (emit e Q).2 =
      headBytes e Q ++ le (immSize Q) (if Q.immLabel.isSome then x else Q.imm) := by
  have h1 : (emit e Q).1 = headBytes e Q ++ immBytes Q := by
    simp only [emit, relBytes, hr, Bool.false_eq_true, if_false, List.append_nil]
  have h2 : (emit e Q).2 = immRels Q (headBytes e Q).length := by
    simp only [emit, relRels, hr, Bool.false_eq_true, if_false, List.append_nil]
  rw [h1, h2]
  unfold immRels immBytes
  cases hl : Q.immLabel with
  | none =>
    simp only [ite_self]
    rfl
  | some l =>
    by_cases h0 : immSize Q = 0
    · rw [if_pos h0, h0]; rfl
    · rw [if_neg h0]
      show patch x _ _ = _
      rw [patch_at _ _ _ _ _ _ _ (by rw [le_eq, fieldBytes_length])]
      rfl

/-- The output of a jump after relocation. -/
theorem patch_rel {e : Encoding} {Q : Parts} (x : BitVec 64) (hr : Q.hasRel32 = true)
    (h0 : immSize Q = 0) :
    patchAll x (emit e Q).1 (emit e Q).2 =
      headBytes e Q ++ le 4 (if Q.relLabel.isSome then x else Q.rel.setWidth 64) := by
  have hi : immBytes Q = [] := by unfold immBytes; rw [h0]; rfl
  have h1 : (emit e Q).1 = headBytes e Q ++ le 4 (Q.rel.setWidth 64) := by
    simp only [emit, relBytes, hr, if_true, hi, List.append_nil]
  have h2 : (emit e Q).2 = relRels Q (headBytes e Q).length := by
    simp only [emit, immRels, h0, if_true, hi, List.append_nil, List.nil_append]
  rw [h1, h2]
  unfold relRels
  rw [if_pos hr]
  cases hl : Q.relLabel with
  | none => rfl
  | some l =>
    show patch x _ _ = _
    rw [patch_at _ _ _ _ _ _ _ (by rw [le_eq, fieldBytes_length])]
    rfl

/-! ### What the check of a row says -/

/-- The values of ModRM.reg that a row can have. -/
def RF (e : Encoding) (rf : Nat) : Prop :=
  if hasEnc e .modrmReg then rf < 8 else if hasEnc e .modrmRm then rf = e.modrmExtension &&& 7 else rf = 0

/-- The registers in the opcode that a row can have. -/
def OX (e : Encoding) (x : Nat) : Prop := if hasEnc e .opext then x < 8 else x = 0

theorem rowOk_spec {e : Encoding} {m : String × Op × List Slot} (h : rowOk e m = true)
    (hd : ((e.operandAccepts.zip m.2.2).any fun p => disjoint p.1 p.2) = false) :
    e.operandAccepts.length = m.2.2.length ∧
    (m.1 ∈ wideMnemonics → e.rexw = true ∧ hasEnc e .opext = false) ∧
    (hasEnc e .modrmReg = true → e.modrmExtension = 0) ∧
    ∀ rf x, RF e rf → OX e x → plainOpcode e x = true ∧
      (hasEnc e .opext = true → (opWith e x).extractLsb' 0 3 = BitVec.ofNat 3 x) ∧
      hasModRM (decide (e.opcode = 0x0f)) (opWith e x) = some (hasEnc e .modrmRm) ∧
      ∃ ks, lookup (pfxOf e) { w := e.rexw } (decide (e.opcode = 0x0f)) (opWith e x) rf = some (m.2.1, ks) ∧
        kindsOk e m ks = true := by
  unfold rowOk at h
  rw [hd, Bool.false_or] at h
  simp only [Bool.and_eq_true, Bool.or_eq_true, Bool.not_eq_true', beq_iff_eq] at h
  obtain ⟨⟨⟨h1, h2⟩, h3⟩, h4⟩ := h
  refine ⟨h1, ?_, ?_, ?_⟩
  · intro hw
    rcases h2 with h2 | h2
    · rw [List.contains_iff_mem.2 hw] at h2; cases h2
    · exact h2
  · intro hr
    rcases h3 with h3 | h3
    · rw [hr] at h3; cases h3
    · exact h3
  · intro rf x hrf hox
    rw [List.all_eq_true] at h4
    have h5 := h4 rf (by
      unfold RF at hrf
      split
      · next hh => rw [if_pos hh] at hrf; exact List.mem_range.2 hrf
      · next hh =>
        rw [if_neg hh] at hrf
        split
        · next h' => rw [if_pos h'] at hrf; exact List.mem_singleton.2 hrf
        · next h' => rw [if_neg h'] at hrf; exact List.mem_singleton.2 hrf)
    rw [List.all_eq_true] at h5
    have h6 := h5 x (by
      unfold OX at hox
      split
      · next hh => rw [if_pos hh] at hox; exact List.mem_range.2 hox
      · next hh => rw [if_neg hh] at hox; exact List.mem_singleton.2 hox)
    simp only [Bool.and_eq_true, Bool.or_eq_true, Bool.not_eq_true', beq_iff_eq] at h6
    obtain ⟨⟨⟨a, b⟩, c⟩, d⟩ := h6
    refine ⟨a, ?_, c, ?_⟩
    · intro ho
      rcases b with b | b
      · rw [ho] at b; cases b
      · exact b
    · cases hl : lookup (pfxOf e) { w := e.rexw } (decide (e.opcode = 0x0f)) (opWith e x) rf with
      | none => rw [hl] at d; cases d
      | some v =>
        obtain ⟨op, ks⟩ := v
        rw [hl] at d
        simp only [Bool.and_eq_true, beq_iff_eq] at d
        exact ⟨ks, by rw [d.1], d.2⟩

/-! ### A row -/

theorem slot_nonempty {s : Slot} {o : Operand} {a : Arg} {x : BitVec 64}
    (h : slotArg s (resolve x o) = some a) : o ≠ .empty := by
  intro he
  subst he
  cases s <;> cases h

theorem notMem_of_match {o : Operand} {acc : Acc} (h : doesMatch o acc = .ok true)
    (ha : (∃ s, acc = .reg s) ∨ acc = .xmm) : isMem o = false := by
  cases o <;> first | rfl | (rcases ha with ⟨s, rfl⟩ | rfl <;> simp [doesMatch] at h)

theorem agrees_reg_acc {acc : Acc} {slot : Slot} {k : Kind} (h : agrees .modrmReg acc slot k = true) :
    (∃ s, acc = .reg s) ∨ acc = .xmm := by
  unfold agrees at h
  cases k <;> simp only [Bool.false_eq_true, Bool.and_eq_true, beq_iff_eq] at h
  · exact .inl ⟨_, h.2⟩
  · exact .inr h.2

theorem agrees_notMem {oe : OE} {acc : Acc} {slot : Slot} {k : Kind} {o : Operand} {a : Arg} {x : BitVec 64}
    (h : agrees oe acc slot k = true) (hm : doesMatch o acc = .ok true)
    (hs : slotArg slot (resolve x o) = some a) (hoe : oe ≠ .modrmRm) : isMem o = false := by
  cases o with
  | mem i b sc off =>
    exfalso
    cases oe <;> first | exact hoe rfl | skip
    all_goals
      unfold agrees at h
      cases k <;> simp only [Bool.false_eq_true, Bool.and_eq_true, Bool.or_eq_true, beq_iff_eq] at h
    · obtain ⟨_, ⟨rfl, _⟩ | ⟨rfl, _⟩⟩ := h <;> simp [doesMatch] at hm
    · obtain ⟨_, rfl⟩ := h; simp [doesMatch] at hm
    · obtain ⟨_, rfl⟩ := h; simp [doesMatch] at hm
    · obtain ⟨_, ⟨rfl, _⟩ | ⟨rfl, _⟩⟩ := h <;> simp [doesMatch] at hm
    · obtain ⟨_, rfl | rfl⟩ := h <;> simp [doesMatch] at hm
    · obtain ⟨_, ⟨_, rfl | rfl⟩ | ⟨_, rfl⟩⟩ := h <;> simp [doesMatch] at hm
    · obtain ⟨_, rfl⟩ := h; simp [doesMatch] at hm
    · obtain ⟨_, rfl⟩ := h; simp [doesMatch] at hm
    · obtain ⟨⟨_, rfl⟩, _⟩ := h; simp [doesMatch] at hm
  | _ => rfl

end Verif.Encode
