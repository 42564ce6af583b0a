import Verif.EncodeDecodeLemmas
/-!
Lemmas for the correctness of the encoder: each arrangement of operands.
-/
namespace Verif.Encode
open Verif Verif.EncodeSpec
open Verif.Asm (Reg)

theorem high_le_one (i : Nat) : high i ≤ 1 := by
  unfold high
  rw [Nat.shiftRight_eq_div_pow]
  have : i &&& 8 ≤ 8 := Nat.and_le_right
  omega

theorem reg_step {e : Encoding} {o : Operand} {p p1 : Parts} (h : encodeOperand e .modrmReg o p = .ok p1) :
    p1 = { p with modrmReg := idxOf o, rexR := high (idxOf o) } := by
  unfold encodeOperand at h
  cases o <;> simp only [reduceCtorEq] at h
  · split at h
    · injection h with h; rw [← h, registerIndex_eq]; rfl
    · cases h
  · split at h
    · injection h with h; rw [← h]; rfl
    · cases h

theorem opext_step {e : Encoding} {o : Operand} {p p1 : Parts} (h : encodeOperand e .opext o p = .ok p1) :
    p1 = { p with opExt := idxOf o } := by
  unfold encodeOperand at h
  cases o <;> simp only [reduceCtorEq, Res.ok.injEq] at h
  · rw [← h, registerIndex_eq]; rfl
  · rw [← h, registerIndex_eq]; rfl

theorem imm_step {e : Encoding} {oe : OE} {l : Option Nat} {v : BitVec 64} {p p1 : Parts}
    (ho : immField oe ≠ 0) (h : encodeOperand e oe (.imm l v) p = .ok p1) :
    ∃ a b c d, p1 = { p with hasImm8 := a, hasImm16 := b, hasImm32 := c, hasImm64 := d,
                             immLabel := l, imm := v } ∧ (immSize p = 0 → immSize p1 = immField oe) := by
  have h0 : immSize p = 0 → p.hasImm8 = false ∧ p.hasImm16 = false ∧ p.hasImm32 = false ∧ p.hasImm64 = false := by
    unfold immSize
    intro h
    cases h1 : p.hasImm8 <;> cases h2 : p.hasImm16 <;> cases h3 : p.hasImm32 <;> cases h4 : p.hasImm64 <;>
      simp_all
  cases oe <;> simp only [immField, ne_eq, not_true_eq_false] at ho <;>
    simp only [encodeOperand, setImm, Res.ok.injEq] at h <;> subst h
  · exact ⟨true, p.hasImm16, p.hasImm32, p.hasImm64, rfl, fun _ => rfl⟩
  · refine ⟨p.hasImm8, true, p.hasImm32, p.hasImm64, rfl, fun hz => ?_⟩
    obtain ⟨a, b, c, d⟩ := h0 hz
    simp [immSize, a, immField]
  · refine ⟨p.hasImm8, p.hasImm16, true, p.hasImm64, rfl, fun hz => ?_⟩
    obtain ⟨a, b, c, d⟩ := h0 hz
    simp [immSize, a, b, immField]
  · refine ⟨p.hasImm8, p.hasImm16, p.hasImm32, true, rfl, fun hz => ?_⟩
    obtain ⟨a, b, c, d⟩ := h0 hz
    simp [immSize, a, b, c, immField]

theorem agrees_imm {oe : OE} {acc : Acc} {slot : Slot} {k : Kind} {o : Operand}
    (ho : immField oe ≠ 0) (h : agrees oe acc slot k = true) (hm : doesMatch o acc = .ok true) :
    ∃ l v, o = .imm l v := by
  cases o with
  | imm l v => exact ⟨l, v, rfl⟩
  | _ =>
    exfalso
    cases oe <;> simp only [immField, ne_eq, not_true_eq_false] at ho <;>
      unfold agrees at h <;> cases k <;> simp only [Bool.false_eq_true] at h <;>
      simp only [Bool.and_eq_true, Bool.or_eq_true, beq_iff_eq] at h
    all_goals
      obtain ⟨_, h⟩ := h
      first
        | (rcases h with ⟨ha, _⟩ | ⟨ha, _⟩ <;> subst ha <;> simp [doesMatch] at hm; done)
        | (rcases h with ⟨_, ha | ha⟩ | ⟨_, ha⟩ <;> subst ha <;> simp [doesMatch] at hm; done)
        | (rcases h with ha | ha <;> subst ha <;> simp [doesMatch] at hm; done)
        | (subst h; simp [doesMatch] at hm; done)

theorem agree0 {accs : List Acc} {slots : List Slot} {ks : List Kind}
    (h : agreeAll [] accs slots ks = true) : accs = [] ∧ slots = [] ∧ ks = [] := by
  match accs, slots, ks with
  | [], [], [] => exact ⟨rfl, rfl, rfl⟩
  | _ :: _, _, _ => simp [agreeAll] at h
  | [], _ :: _, _ => simp [agreeAll] at h
  | [], [], _ :: _ => simp [agreeAll] at h

theorem agree1 {x : OE} {accs : List Acc} {slots : List Slot} {ks : List Kind}
    (h : agreeAll [x] accs slots ks = true) :
    ∃ A s k, accs = [A] ∧ slots = [s] ∧ ks = [k] ∧ agrees x A s k = true := by
  match accs, slots, ks with
  | [A], [s], [k] => simp only [agreeAll, Bool.and_true] at h; exact ⟨A, s, k, rfl, rfl, rfl, h⟩
  | [], _, _ => simp [agreeAll] at h
  | _ :: _, [], _ => simp [agreeAll] at h
  | _ :: _, _ :: _, [] => simp [agreeAll] at h
  | _ :: _ :: _, _ :: _, _ :: _ => simp [agreeAll] at h
  | [_], _ :: _ :: _, _ :: _ => simp [agreeAll] at h
  | [_], [_], _ :: _ :: _ => simp [agreeAll] at h

theorem agree2 {x y : OE} {accs : List Acc} {slots : List Slot} {ks : List Kind}
    (h : agreeAll [x, y] accs slots ks = true) :
    ∃ A B s t k j, accs = [A, B] ∧ slots = [s, t] ∧ ks = [k, j] ∧ agrees x A s k = true ∧
      agrees y B t j = true := by
  match accs, slots, ks with
  | A :: accs, s :: slots, k :: ks =>
    simp only [agreeAll, Bool.and_eq_true] at h
    obtain ⟨B, t, j, rfl, rfl, rfl, h2⟩ := agree1 (x := y) (by simpa [agreeAll] using h.2)
    exact ⟨A, B, s, t, k, j, rfl, rfl, rfl, h.1, h2⟩
  | [], _, _ => simp [agreeAll] at h
  | _ :: _, [], _ => simp [agreeAll] at h
  | _ :: _, _ :: _, [] => simp [agreeAll] at h

theorem slots1 {s : Slot} {l : List Operand} {x : BitVec 64} {as : List Arg}
    (h : slotArgs [s] (l.map (resolve x)) = some as) :
    ∃ a r, l = [a] ∧ as = [r] ∧ slotArg s (resolve x a) = some r := by
  match l with
  | [] => simp [slotArgs] at h
  | [a] =>
    simp only [List.map_cons, List.map_nil, slotArgs, Option.bind_eq_bind, Option.bind_some] at h
    obtain ⟨r, h1, h2⟩ := Option.bind_eq_some_iff.1 h
    injection h2 with h2
    exact ⟨a, r, rfl, h2.symm, h1⟩
  | a :: b :: l =>
    simp only [List.map_cons, slotArgs, Option.bind_eq_bind] at h
    obtain ⟨r, h1, h2⟩ := Option.bind_eq_some_iff.1 h
    cases h2

theorem slots2 {s t : Slot} {l : List Operand} {x : BitVec 64} {as : List Arg}
    (h : slotArgs [s, t] (l.map (resolve x)) = some as) :
    ∃ a b r q, l = [a, b] ∧ as = [r, q] ∧ slotArg s (resolve x a) = some r ∧
      slotArg t (resolve x b) = some q := by
  match l with
  | [] => simp [slotArgs] at h
  | a :: l =>
    rw [List.map_cons, slotArgs] at h
    obtain ⟨r, h1, h2⟩ := Option.bind_eq_some_iff.1 h
    obtain ⟨as', h3, h4⟩ := Option.bind_eq_some_iff.1 h2
    obtain ⟨b, q, rfl, rfl, hq⟩ := slots1 h3
    injection h4 with h4
    exact ⟨a, b, r, q, rfl, h4.symm, h1, hq⟩

theorem match1 {A : Acc} {a : Operand} (h : matchAll (pad4 .empty [a]) (pad4 .empty [A]) = .ok true) :
    doesMatch a A = .ok true := matchAll_length h 0 a A rfl rfl

theorem match2 {A B : Acc} {a b : Operand}
    (h : matchAll (pad4 .empty [a, b]) (pad4 .empty [A, B]) = .ok true) :
    doesMatch a A = .ok true ∧ doesMatch b B = .ok true :=
  ⟨matchAll_length h 0 a A rfl rfl, matchAll_length h 1 b B rfl rfl⟩

theorem rmReg_of {mn : String} {l : List Operand} {o : Operand} {hasRex : Bool}
    (hH : Handled mn l) (ho : o ∈ l) (hmem : l.any isMem = true → isMem o = true)
    (hwide : mn ∈ wideMnemonics → hasRex = true) (h16 : ∀ i, o = .sse i → i < 16) : RmReg hasRex o := by
  have key : isMem o = true ∨ hasRex = true ∨ LowReg o := by
    rcases hH.2 with h | h | h
    · exact .inl (hmem h)
    · exact .inr (.inl (hwide h))
    · exact .inr (.inr (h o ho))
  cases o with
  | reg r u s => exact key.resolve_left (by simp [isMem])
  | star r s => exact key.resolve_left (by simp [isMem])
  | sse i => exact ⟨h16 i rfl, key.resolve_left (by simp [isMem])⟩
  | _ => trivial

theorem sse_lt {s : Slot} {x : BitVec 64} {o : Operand} {a : Arg} (h : slotArg s (resolve x o) = some a) :
    ∀ i, o = .sse i → i < 16 := by
  intro i hi
  subst hi
  simp only [resolve] at h
  cases s <;> simp only [slotArg, reduceCtorEq] at h
  · split at h
    · assumption
    · cases h
  · split at h
    · assumption
    · cases h

theorem still_not_imm {f : Fields} {k : Kind} {bs bs' : List Byte} {a : Arg}
    (hk : Still k) (h : arg f k bs = some (a, bs')) : ∀ s v, a ≠ .imm s v := by
  intro s v hc
  subst hc
  unfold arg gprArg at h
  cases k with
  | I _ _ => exact hk
  | J => exact hk
  | E s => dsimp only at h; cases hr : f.rm <;> simp only [hr] at h <;> (try split at h) <;> cases h
  | M => dsimp only at h; cases hr : f.rm <;> simp only [hr] at h <;> cases h
  | W s => dsimp only at h; cases hr : f.rm <;> simp only [hr] at h <;> cases h
  | G s => dsimp only at h; split at h <;> cases h
  | Z s => dsimp only at h; split at h <;> cases h
  | V => cases h
  | fixed _ _ => cases h

theorem expand_two {op : Op} {r q : Arg} (h : op ≠ .imul ∨ ∀ s v, q ≠ .imm s v) :
    expand op [r, q] = [r, q] := by
  unfold expand
  split
  · next heq =>
    injection heq with _ h2
    injection h2 with h2 _
    rcases h with h | h
    · exact absurd rfl h
    · exact absurd h2 (h _ _)
  · rfl

theorem expand_one {op : Op} {r : Arg} : expand op [r] = [r] := by
  unfold expand; split <;> first | rfl | (next heq => cases heq)

theorem expand_nil {op : Op} : expand op [] = [] := by
  unfold expand; split <;> first | rfl | (next heq => cases heq)

theorem args1 {f : Fields} {k : Kind} {a : Arg} {bs bs' : List Byte} (h : arg f k bs = some (a, bs')) :
    args f [k] bs = some ([a], bs') := by
  simp [args, h]

theorem args2 {f : Fields} {k j : Kind} {a b : Arg} {bs bs' bs'' : List Byte}
    (h : arg f k bs = some (a, bs')) (h' : arg f j bs' = some (b, bs'')) :
    args f [k, j] bs = some ([a, b], bs'') := by
  simp [args, h, h']

theorem args3 {f : Fields} {k j i : Kind} {a b c : Arg} {bs bs' bs'' bs3 : List Byte}
    (h : arg f k bs = some (a, bs')) (h' : arg f j bs' = some (b, bs'')) (h3 : arg f i bs'' = some (c, bs3)) :
    args f [k, j, i] bs = some ([a, b, c], bs3) := by
  simp [args, h, h', h3]

/-- The variables before the loop. -/
def start (e : Encoding) : Parts := { hasRex := e.rexw || e.rex }

theorem immSize_finish (P : Parts) : immSize (finishRex P) = immSize P := by
  unfold finishRex; split <;> rfl

/-- `imm_label` and `imm` at the end. -/
theorem patch_fin {e : Encoding} {P : Parts} (x : BitVec 64) (hr : P.hasRel32 = false) :
    patchAll x (emit e (finishRex P)).1 (emit e (finishRex P)).2 =
      headBytes e (finishRex P) ++ le (immSize P) (if P.immLabel.isSome then x else P.imm) := by
  have h1 : (finishRex P).hasRel32 = P.hasRel32 := by unfold finishRex; split <;> rfl
  have h2 : (finishRex P).immLabel = P.immLabel := by unfold finishRex; split <;> rfl
  have h3 : (finishRex P).imm = P.imm := by unfold finishRex; split <;> rfl
  rw [patch_imm x (by rw [h1]; exact hr), immSize_finish, h2, h3]

theorem patch_fin_rel {e : Encoding} {P : Parts} (x : BitVec 64) (hr : P.hasRel32 = true)
    (h0 : immSize P = 0) :
    patchAll x (emit e (finishRex P)).1 (emit e (finishRex P)).2 =
      headBytes e (finishRex P) ++ le 4 (if P.relLabel.isSome then x else P.rel.setWidth 64) := by
  have h1 : (finishRex P).hasRel32 = P.hasRel32 := by unfold finishRex; split <;> rfl
  have h2 : (finishRex P).relLabel = P.relLabel := by unfold finishRex; split <;> rfl
  have h3 : (finishRex P).rel = P.rel := by unfold finishRex; split <;> rfl
  rw [patch_rel x (by rw [h1]; exact hr) (by rw [immSize_finish]; exact h0), h2, h3]

/-- A relocation of the immediate has its size. -/
theorem rels_fin {e : Encoding} {P : Parts} {x : BitVec 64} {l : Nat}
    (hfit : ∀ r ∈ (emit e (finishRex P)).2, r.relative = false → FitsField r.size x)
    (hl : P.immLabel = some l) (hn : immSize P ≠ 0) : FitsField (immSize P) x := by
  have h2 : (finishRex P).immLabel = P.immLabel := by unfold finishRex; split <;> rfl
  have h3 : (finishRex P).imm = P.imm := by unfold finishRex; split <;> rfl
  apply hfit ⟨(headBytes e (finishRex P)).length, immSize P, false, l, P.imm⟩ _ rfl
  show _ ∈ immRels _ _ ++ relRels _ _
  apply List.mem_append_left
  unfold immRels
  rw [immSize_finish, if_neg hn, h2, hl, h3]
  exact List.mem_singleton.2 rfl

/-! ### The arrangements -/

section
variable {e : Encoding} {m : String × Op × List Slot} {l : List Operand} {x : BitVec 64}
  {as : List Arg} {P : Parts}

/-- What the table check gives for the row at hand. -/
structure Row (e : Encoding) (m : String × Op × List Slot) : Prop where
  wide : m.1 ∈ wideMnemonics → e.rexw = true ∧ hasEnc e .opext = false
  ext0 : hasEnc e .modrmReg = true → e.modrmExtension = 0
  ok : ∀ rf x, RF e rf → OX e x → plainOpcode e x = true ∧
      (hasEnc e .opext = true → (opWith e x).extractLsb' 0 3 = BitVec.ofNat 3 x) ∧
      hasModRM (decide (e.opcode = 0x0f)) (opWith e x) = some (hasEnc e .modrmRm) ∧
      ∃ ks, lookup (pfxOf e) { w := e.rexw } (decide (e.opcode = 0x0f)) (opWith e x) rf = some (m.2.1, ks) ∧
        kindsOk e m ks = true

/-- The claim about one arrangement. -/
def Decodes (e : Encoding) (m : String × Op × List Slot) (x : BitVec 64) (as : List Arg) (P : Parts) : Prop :=
  ∀ rest, decode (patchAll x (emit e (finishRex P)).1 (emit e (finishRex P)).2 ++ rest) =
    some (⟨m.2.1, expand m.2.1 as⟩, rest)

theorem fresh_start (o : Operand) : Fresh (askRex o (start e)) := by
  rw [askRex_eq]; exact ⟨rfl, rfl, rfl, rfl, rfl, rfl, rfl⟩

theorem still_of {oe : OE} {acc : Acc} {slot : Slot} {k : Kind} (h : agrees oe acc slot k = true)
    (ho : oe = .modrmRm ∨ oe = .modrmReg ∨ oe = .opext ∨ oe = .none) : Still k := by
  cases k <;> first | trivial | (rcases ho with rfl | rfl | rfl | rfl <;> simp [agrees] at h)

/-- No operand at all. -/
theorem shape_nil (henc : e.operandEncoding = []) (R : Row e m) 
    (hs : slotArgs m.2.2 (l.map (resolve x)) = some as)
    (hl : loop e (pad4 ⟨.empty, false⟩ e.operandEncoding) (pad4 .empty l) (start e) = .ok P) :
    Decodes e m x as P := by
  have hrf : RF e 0 := by simp [RF, hasEnc, henc]
  have hox : OX e 0 := by simp [OX, hasEnc, henc]
  obtain ⟨h1, _, h3, ks, h4, h5⟩ := R.ok 0 0 hrf hox
  simp only [kindsOk, henc, List.any_nil, Bool.false_eq_true, if_false, List.map_nil, Bool.and_eq_true] at h5
  obtain ⟨_, hslots, rfl⟩ := agree0 h5.1
  rw [hslots] at hs
  have hl0 : l = [] ∧ as = [] := by
    cases l with
    | nil => simp only [List.map_nil, slotArgs, Option.some.injEq] at hs; exact ⟨rfl, hs.symm⟩
    | cons a l => simp [slotArgs] at hs
  obtain ⟨rfl, rfl⟩ := hl0
  rw [henc] at hl
  have := loop0 hl
  subst this
  intro rest
  rw [patch_fin x rfl, List.append_assoc, expand_nil]
  refine decode_emit (rm := .reg 0) (rf := 0) ⟨fun h => by simp [start, h], by simp [start], by simp [start], rfl⟩ h1 ?_
    (by simp [start]) (fun _ => ⟨rfl, rfl, rfl, rfl, rfl⟩) h4 rfl
  rw [show (start e).opExt = 0 from rfl, h3]
  simp [hasEnc, henc, start]

/-- The kinds of a row without duplicate encodings. -/
theorem kinds_plain {ks : List Kind} (hd : e.operandEncoding.any OpEnc.duplicate = false)
    (h : kindsOk e m ks = true) :
    agreeAll (e.operandEncoding.map OpEnc.type) e.operandAccepts m.2.2 ks = true ∧
    (m.2.1 = .imul → ∀ oe ∈ e.operandEncoding.map OpEnc.type, immField oe = 0) := by
  unfold kindsOk at h
  rw [hd] at h
  simp only [Bool.false_eq_true, if_false, Bool.and_eq_true, Bool.not_eq_true', Bool.and_eq_false_iff] at h
  refine ⟨h.1, ?_⟩
  intro hop oe hoe
  rcases h.2 with h2 | h2
  · simp [hop] at h2
  · have := List.any_eq_false.1 h2 oe hoe
    cases oe <;> simp_all [immField]

/-- One operand in ModRM.r/m. -/
theorem shape_rm (henc : e.operandEncoding = [⟨.modrmRm, false⟩]) (R : Row e m)
    (hM : Matches e (pad4 .empty l)) (hH : Handled m.1 l)
    (hs : slotArgs m.2.2 (l.map (resolve x)) = some as)
    (hl : loop e (pad4 ⟨.empty, false⟩ e.operandEncoding) (pad4 .empty l) (start e) = .ok P) :
    Decodes e m x as P := by
  have hrf : RF e (e.modrmExtension &&& 7) := by simp [RF, hasEnc, henc]
  have hox : OX e 0 := by simp [OX, hasEnc, henc]
  obtain ⟨h1, _, h3, ks, h4, h5⟩ := R.ok _ 0 hrf hox
  have h5 := (kinds_plain (by rw [henc]; rfl) h5).1
  rw [henc] at h5
  obtain ⟨A, s, k, hacc, hslots, rfl, hag⟩ := agree1 h5
  rw [hslots] at hs
  obtain ⟨a, r, rfl, rfl, hsa⟩ := slots1 hs
  rw [Matches, hacc] at hM
  have hma := match1 hM
  rw [henc] at hl
  have hla := loop1 (by decide) (slot_nonempty hsa) hl
  obtain ⟨hpa, hua⟩ := hH.1 a (by simp)
  have hwide : m.1 ∈ wideMnemonics → (askRex a (start e)).hasRex = true := by
    intro hw; rw [askRex_eq]; simp [start, (R.wide hw).1]
  obtain ⟨f, hP, hg⟩ := rm_step hpa (fresh_start a)
    (rmReg_of hH (by simp) (by simp) hwide (sse_lt hsa)) hla
  rw [askRex_eq] at hP
  have hD : Done e P := by
    subst hP
    exact ⟨fun h => by simp [start, setRm, h], hg.1, by simp [start, setRm], rfl⟩
  have hx : rexOp a = true → P.hasRex = true := by intro h; subst hP; simp [setRm, start, h]
  have hPm : P.hasModrm = true ∧ P.opExt = 0 ∧ P.modrmReg = 0 ∧ P.hasRel32 = false ∧ immSize P = 0 ∧
      P = setRm P f := by
    subst hP; exact ⟨rfl, rfl, rfl, rfl, rfl, rfl⟩
  obtain ⟨q1, q2, q3, q4, q5, q6⟩ := hPm
  intro rest
  rw [patch_fin x q4, List.append_assoc, q5, expand_one]
  rw [← q2] at h1 h3 h4
  refine decode_emit (rm := rmOf a) hD h1 ?_ (fun _ => ⟨f, q6, hg, by rw [q3]; simp⟩) (by simp [q1]) h4 ?_
  · rw [h3, q1]; simp [hasEnc, henc]
  · exact args1 (arg_rm hD hag hma hsa hpa hua hx _ _ _)

/-- ModRM.r/m and ModRM.reg. -/
theorem shape_rm_reg (henc : e.operandEncoding = [⟨.modrmRm, false⟩, ⟨.modrmReg, false⟩]) (R : Row e m)
    (hM : Matches e (pad4 .empty l)) (hH : Handled m.1 l)
    (hs : slotArgs m.2.2 (l.map (resolve x)) = some as)
    (hl : loop e (pad4 ⟨.empty, false⟩ e.operandEncoding) (pad4 .empty l) (start e) = .ok P) :
    Decodes e m x as P := by
  have hrf : ∀ i, RF e (i &&& 7) := by intro i; simp [RF, hasEnc, henc]; exact and7_lt i
  have hox : OX e 0 := by simp [OX, hasEnc, henc]
  obtain ⟨_, _, _, ks0, _, h50⟩ := R.ok _ 0 (hrf 0) hox
  have h50 := (kinds_plain (by rw [henc]; rfl) h50).1
  rw [henc] at h50
  obtain ⟨A, B, s, t, k0, j0, hacc, hslots, rfl, hag0, hbg0⟩ := agree2 h50
  rw [hslots] at hs
  obtain ⟨a, b, r, q, rfl, rfl, hsa, hsb⟩ := slots2 hs
  obtain ⟨h1, _, h3, ks, h4, h5⟩ := R.ok _ 0 (hrf (idxOf b)) hox
  have h5 := (kinds_plain (by rw [henc]; rfl) h5).1
  rw [henc, hacc, hslots] at h5
  obtain ⟨A', B', s', t', k, j, hacc', hslots', rfl, hag, hbg⟩ := agree2 h5
  obtain ⟨rfl, rfl⟩ : A = A' ∧ B = B' := by simpa using hacc'
  obtain ⟨rfl, rfl⟩ : s = s' ∧ t = t' := by simpa using hslots'
  rw [Matches, hacc] at hM
  obtain ⟨hma, hmb⟩ := match2 hM
  rw [henc] at hl
  obtain ⟨p1, hla, hlb⟩ := loop2 (by decide) (by decide) (slot_nonempty hsa) (slot_nonempty hsb) hl
  obtain ⟨hpa, hua⟩ := hH.1 a (by simp)
  obtain ⟨hpb, hub⟩ := hH.1 b (by simp)
  have hnb := agrees_notMem hbg hmb hsb (by decide)
  have hwide : m.1 ∈ wideMnemonics → (askRex a (start e)).hasRex = true := by
    intro hw; rw [askRex_eq]; simp [start, (R.wide hw).1]
  obtain ⟨f, hp1, hg⟩ := rm_step hpa (fresh_start a)
    (rmReg_of hH (by simp) (by simp [hnb]) hwide (sse_lt hsa)) hla
  have hP := reg_step hlb
  rw [askRex_eq] at hp1 hP
  have hfacts : Done e P ∧ (rexOp a = true → P.hasRex = true) ∧ (rexOp b = true → P.hasRex = true) ∧
      P.hasModrm = true ∧ P.opExt = 0 ∧ P.modrmReg = idxOf b ∧ P.rexR = high (idxOf b) ∧
      P.hasRel32 = false ∧ immSize P = 0 ∧ P = setRm P f := by
    subst hP hp1
    refine ⟨⟨fun h => ?_, hg.1, high_le_one _, rfl⟩, fun h => ?_, fun h => ?_, rfl, rfl, rfl, rfl, rfl, rfl, rfl⟩
    · simp [start, setRm, h]
    · simp [start, setRm, h]
    · simp [start, setRm, h]
  obtain ⟨hD, hxa, hxb, q1, q2, q3, q3', q4, q5, q6⟩ := hfacts
  have hext : e.modrmExtension = 0 := R.ext0 (by simp [hasEnc, henc])
  intro rest
  rw [patch_fin x q4, List.append_assoc, q5]
  rw [← q2] at h1 h3 h4
  have hrb := arg_reg hD hbg hmb hsb hub hxb q3' (opWith e P.opExt) _ rfl (rmOf a)
    (le 0 (if P.immLabel.isSome = true then x else P.imm) ++ rest)
  rw [expand_two (.inr (still_not_imm (still_of hbg (by simp)) hrb))]
  refine decode_emit (rm := rmOf a) hD h1 ?_ (fun _ => ⟨f, q6, hg, ?_⟩) (by simp [q1]) h4 ?_
  · rw [h3, q1]; simp [hasEnc, henc]
  · rw [hext, q3]; simp
  · exact args2 (arg_rm hD hag hma hsa hpa hua hxa _ _ _) hrb

/-- ModRM.reg and ModRM.r/m. -/
theorem shape_reg_rm (henc : e.operandEncoding = [⟨.modrmReg, false⟩, ⟨.modrmRm, false⟩]) (R : Row e m)
    (hM : Matches e (pad4 .empty l)) (hH : Handled m.1 l)
    (hs : slotArgs m.2.2 (l.map (resolve x)) = some as)
    (hl : loop e (pad4 ⟨.empty, false⟩ e.operandEncoding) (pad4 .empty l) (start e) = .ok P) :
    Decodes e m x as P := by
  have hrf : ∀ i, RF e (i &&& 7) := by intro i; simp [RF, hasEnc, henc]; exact and7_lt i
  have hox : OX e 0 := by simp [OX, hasEnc, henc]
  obtain ⟨_, _, _, ks0, _, h50⟩ := R.ok _ 0 (hrf 0) hox
  have h50 := (kinds_plain (by rw [henc]; rfl) h50).1
  rw [henc] at h50
  obtain ⟨A, B, s, t, k0, j0, hacc, hslots, rfl, hag0, hbg0⟩ := agree2 h50
  rw [hslots] at hs
  obtain ⟨a, b, r, q, rfl, rfl, hsa, hsb⟩ := slots2 hs
  obtain ⟨h1, _, h3, ks, h4, h5⟩ := R.ok _ 0 (hrf (idxOf a)) hox
  have h5 := (kinds_plain (by rw [henc]; rfl) h5).1
  rw [henc, hacc, hslots] at h5
  obtain ⟨A', B', s', t', k, j, hacc', hslots', rfl, hag, hbg⟩ := agree2 h5
  obtain ⟨rfl, rfl⟩ : A = A' ∧ B = B' := by simpa using hacc'
  obtain ⟨rfl, rfl⟩ : s = s' ∧ t = t' := by simpa using hslots'
  rw [Matches, hacc] at hM
  obtain ⟨hma, hmb⟩ := match2 hM
  rw [henc] at hl
  obtain ⟨p1, hla, hlb⟩ := loop2 (by decide) (by decide) (slot_nonempty hsa) (slot_nonempty hsb) hl
  obtain ⟨hpa, hua⟩ := hH.1 a (by simp)
  obtain ⟨hpb, hub⟩ := hH.1 b (by simp)
  have hna := agrees_notMem hag hma hsa (by decide)
  have hp1 := reg_step hla
  rw [askRex_eq] at hp1
  have hwide : m.1 ∈ wideMnemonics → (askRex b p1).hasRex = true := by
    intro hw; rw [askRex_eq, hp1]; simp [start, (R.wide hw).1]
  have hfr : Fresh (askRex b p1) := by
    rw [askRex_eq, hp1]; exact ⟨rfl, rfl, rfl, rfl, rfl, rfl, rfl⟩
  obtain ⟨f, hP, hg⟩ := rm_step hpb hfr
    (rmReg_of hH (by simp) (by simp [hna]) hwide (sse_lt hsb)) hlb
  rw [askRex_eq] at hP
  have hfacts : Done e P ∧ (rexOp a = true → P.hasRex = true) ∧ (rexOp b = true → P.hasRex = true) ∧
      P.hasModrm = true ∧ P.opExt = 0 ∧ P.modrmReg = idxOf a ∧ P.rexR = high (idxOf a) ∧
      P.hasRel32 = false ∧ immSize P = 0 ∧ P = setRm P f := by
    subst hP hp1
    refine ⟨⟨fun h => ?_, hg.1, high_le_one _, rfl⟩, fun h => ?_, fun h => ?_, rfl, rfl, rfl, rfl, rfl, rfl, rfl⟩
    · simp [start, setRm, h]
    · simp [start, setRm, h]
    · simp [start, setRm, h]
  obtain ⟨hD, hxa, hxb, q1, q2, q3, q3', q4, q5, q6⟩ := hfacts
  have hext : e.modrmExtension = 0 := R.ext0 (by simp [hasEnc, henc])
  intro rest
  rw [patch_fin x q4, List.append_assoc, q5]
  rw [← q2] at h1 h3 h4
  have hrb := arg_rm hD hbg hmb hsb hpb hub hxb (opWith e P.opExt) (idxOf a &&& 7)
    (le 0 (if P.immLabel.isSome = true then x else P.imm) ++ rest)
  rw [expand_two (.inr (still_not_imm (still_of hbg (by simp)) hrb))]
  refine decode_emit (rm := rmOf b) hD h1 ?_ (fun _ => ⟨f, q6, hg, ?_⟩) (by simp [q1]) h4 ?_
  · rw [h3, q1]; simp [hasEnc, henc]
  · rw [hext, q3]; simp
  · exact args2 (arg_reg hD hag hma hsa hua hxa q3' _ _ rfl _ _) hrb

/-- ModRM.r/m and an implied register. -/
theorem shape_rm_none (henc : e.operandEncoding = [⟨.modrmRm, false⟩, ⟨.none, false⟩]) (R : Row e m)
    (hM : Matches e (pad4 .empty l)) (hH : Handled m.1 l)
    (hs : slotArgs m.2.2 (l.map (resolve x)) = some as)
    (hl : loop e (pad4 ⟨.empty, false⟩ e.operandEncoding) (pad4 .empty l) (start e) = .ok P) :
    Decodes e m x as P := by
  have hrf : RF e (e.modrmExtension &&& 7) := by simp [RF, hasEnc, henc]
  have hox : OX e 0 := by simp [OX, hasEnc, henc]
  obtain ⟨h1, _, h3, ks, h4, h5⟩ := R.ok _ 0 hrf hox
  have h5 := (kinds_plain (by rw [henc]; rfl) h5).1
  rw [henc] at h5
  obtain ⟨A, B, s, t, k, j, hacc, hslots, rfl, hag, hbg⟩ := agree2 h5
  rw [hslots] at hs
  obtain ⟨a, b, r, q, rfl, rfl, hsa, hsb⟩ := slots2 hs
  rw [Matches, hacc] at hM
  obtain ⟨hma, hmb⟩ := match2 hM
  rw [henc] at hl
  obtain ⟨p1, hla, hlb⟩ := loop2 (by decide) (by decide) (slot_nonempty hsa) (slot_nonempty hsb) hl
  obtain ⟨hpa, hua⟩ := hH.1 a (by simp)
  obtain ⟨hpb, hub⟩ := hH.1 b (by simp)
  have hnb := agrees_notMem hbg hmb hsb (by decide)
  have hwide : m.1 ∈ wideMnemonics → (askRex a (start e)).hasRex = true := by
    intro hw; rw [askRex_eq]; simp [start, (R.wide hw).1]
  obtain ⟨f, hp1, hg⟩ := rm_step hpa (fresh_start a)
    (rmReg_of hH (by simp) (by simp [hnb]) hwide (sse_lt hsa)) hla
  have hP : P = askRex b p1 := by injection hlb with h; exact h.symm
  rw [askRex_eq] at hp1 hP
  have hfacts : Done e P ∧ (rexOp a = true → P.hasRex = true) ∧
      P.hasModrm = true ∧ P.opExt = 0 ∧ P.modrmReg = 0 ∧
      P.hasRel32 = false ∧ immSize P = 0 ∧ P = setRm P f := by
    subst hP hp1
    refine ⟨⟨fun h => ?_, hg.1, by simp [setRm, start], rfl⟩, fun h => ?_, rfl, rfl, rfl, rfl, rfl, rfl⟩
    · simp [start, setRm, h]
    · simp [start, setRm, h]
  obtain ⟨hD, hxa, q1, q2, q3, q4, q5, q6⟩ := hfacts
  intro rest
  rw [patch_fin x q4, List.append_assoc, q5]
  rw [← q2] at h1 h3 h4
  have hrb := arg_none (e := e) (P := P) hbg hmb hsb hub (opWith e P.opExt) (e.modrmExtension &&& 7) (rmOf a)
    (le 0 (if P.immLabel.isSome = true then x else P.imm) ++ rest)
  rw [expand_two (.inr (still_not_imm (still_of hbg (by simp)) hrb))]
  refine decode_emit (rm := rmOf a) hD h1 ?_ (fun _ => ⟨f, q6, hg, ?_⟩) (by simp [q1]) h4 ?_
  · rw [h3, q1]; simp [hasEnc, henc]
  · rw [q3]; simp
  · exact args2 (arg_rm hD hag hma hsa hpa hua hxa _ _ _) hrb

/-- The immediate in the output. -/
theorem imm_val {o : Operand} {lb : Option Nat} {v : BitVec 64} (h : o = .imm lb v) (x : BitVec 64) :
    (if lb.isSome = true then x else v) = immVal x o := by
  subst h; cases lb <;> rfl

/-- ModRM.r/m and an immediate. -/
theorem shape_rm_imm {oe : OE} (ho : immField oe ≠ 0)
    (henc : e.operandEncoding = [⟨.modrmRm, false⟩, ⟨oe, false⟩]) (R : Row e m)
    (hM : Matches e (pad4 .empty l)) (hH : Handled m.1 l)
    (hs : slotArgs m.2.2 (l.map (resolve x)) = some as)
    (hl : loop e (pad4 ⟨.empty, false⟩ e.operandEncoding) (pad4 .empty l) (start e) = .ok P)
    (hfit : ∀ r ∈ (emit e (finishRex P)).2, r.relative = false → FitsField r.size x) :
    Decodes e m x as P := by
  have hoe : oe ≠ .modrmReg ∧ oe ≠ .opext ∧ oe ≠ .empty ∧ oe ≠ .modrmRm := by
    refine ⟨?_, ?_, ?_, ?_⟩ <;> (intro h; subst h; exact ho rfl)
  have hE1 : hasEnc e .modrmReg = false := by simp [hasEnc, henc, hoe.1.symm]
  have hE2 : hasEnc e .opext = false := by simp [hasEnc, henc, hoe.2.1.symm]
  have hE3 : hasEnc e .modrmRm = true := by simp [hasEnc, henc]
  have hrf : RF e (e.modrmExtension &&& 7) := by simp [RF, hE1, hE3]
  have hox : OX e 0 := by simp [OX, hE2]
  obtain ⟨h1, _, h3, ks, h4, h5⟩ := R.ok _ 0 hrf hox
  obtain ⟨h5, hmul⟩ := kinds_plain (by rw [henc]; rfl) h5
  have hmul : m.2.1 ≠ .imul := fun h => ho (hmul h oe (by simp [henc]))
  rw [henc] at h5
  obtain ⟨A, B, s, t, k, j, hacc, hslots, rfl, hag, hbg⟩ := agree2 h5
  rw [hslots] at hs
  obtain ⟨a, b, r, q, rfl, rfl, hsa, hsb⟩ := slots2 hs
  rw [Matches, hacc] at hM
  obtain ⟨hma, hmb⟩ := match2 hM
  rw [henc] at hl
  obtain ⟨p1, hla, hlb⟩ := loop2 (by decide) hoe.2.2.1 (slot_nonempty hsa) (slot_nonempty hsb) hl
  obtain ⟨hpa, hua⟩ := hH.1 a (by simp)
  have hnb := agrees_notMem hbg hmb hsb hoe.2.2.2
  have hwide : m.1 ∈ wideMnemonics → (askRex a (start e)).hasRex = true := by
    intro hw; rw [askRex_eq]; simp [start, (R.wide hw).1]
  obtain ⟨f, hp1, hg⟩ := rm_step hpa (fresh_start a)
    (rmReg_of hH (by simp) (by simp [hnb]) hwide (sse_lt hsa)) hla
  obtain ⟨lb, v, hb⟩ := agrees_imm ho hbg hmb
  rw [hb] at hlb
  obtain ⟨c1, c2, c3, c4, hP, hsz⟩ := imm_step ho hlb
  rw [askRex_eq] at hp1 hP hsz
  have hfacts : Done e P ∧ (rexOp a = true → P.hasRex = true) ∧
      P.hasModrm = true ∧ P.opExt = 0 ∧ P.modrmReg = 0 ∧
      P.hasRel32 = false ∧ immSize P = immField oe ∧ P.immLabel = lb ∧ P.imm = v ∧ P = setRm P f := by
    have hsz := hsz (by rw [hp1]; rfl)
    subst hP hp1
    refine ⟨⟨fun h => ?_, hg.1, by simp [setRm, start], rfl⟩, fun h => ?_, rfl, rfl, rfl, rfl, hsz, rfl, rfl, rfl⟩
    · simp [start, setRm, h]
    · simp [start, setRm, h]
  obtain ⟨hD, hxa, q1, q2, q3, q4, q5, q7, q8, q6⟩ := hfacts
  intro rest
  rw [patch_fin x q4, List.append_assoc, q5, q7, q8, imm_val hb x, expand_two (.inl hmul)]
  rw [← q2] at h1 h3 h4
  refine decode_emit (rm := rmOf a) hD h1 ?_ (fun _ => ⟨f, q6, hg, ?_⟩) (by simp [q1]) h4 ?_
  · rw [h3, q1, hE3]
  · rw [q3]; simp
  · refine args2 (arg_rm hD hag hma hsa hpa hua hxa _ _ _) (arg_imm ho hbg hmb hsb ?_ rest)
    intro hlab
    rw [← q5]
    subst hb
    cases lb with
    | none => cases hlab
    | some lb => exact rels_fin hfit q7 (by rw [q5]; exact ho)

/-- An implied register and an immediate. -/
theorem shape_none_imm {oe : OE} (ho : immField oe ≠ 0)
    (henc : e.operandEncoding = [⟨.none, false⟩, ⟨oe, false⟩]) (R : Row e m)
    (hM : Matches e (pad4 .empty l)) (hH : Handled m.1 l)
    (hs : slotArgs m.2.2 (l.map (resolve x)) = some as)
    (hl : loop e (pad4 ⟨.empty, false⟩ e.operandEncoding) (pad4 .empty l) (start e) = .ok P)
    (hfit : ∀ r ∈ (emit e (finishRex P)).2, r.relative = false → FitsField r.size x) :
    Decodes e m x as P := by
  have hoe : oe ≠ .modrmReg ∧ oe ≠ .opext ∧ oe ≠ .empty ∧ oe ≠ .modrmRm := by
    refine ⟨?_, ?_, ?_, ?_⟩ <;> (intro h; subst h; exact ho rfl)
  have hE1 : hasEnc e .modrmReg = false := by simp [hasEnc, henc, hoe.1.symm]
  have hE2 : hasEnc e .opext = false := by simp [hasEnc, henc, hoe.2.1.symm]
  have hE3 : hasEnc e .modrmRm = false := by simp [hasEnc, henc, hoe.2.2.2.symm]
  have hrf : RF e 0 := by simp [RF, hE1, hE3]
  have hox : OX e 0 := by simp [OX, hE2]
  obtain ⟨h1, _, h3, ks, h4, h5⟩ := R.ok _ 0 hrf hox
  obtain ⟨h5, hmul⟩ := kinds_plain (by rw [henc]; rfl) h5
  have hmul : m.2.1 ≠ .imul := fun h => ho (hmul h oe (by simp [henc]))
  rw [henc] at h5
  obtain ⟨A, B, s, t, k, j, hacc, hslots, rfl, hag, hbg⟩ := agree2 h5
  rw [hslots] at hs
  obtain ⟨a, b, r, q, rfl, rfl, hsa, hsb⟩ := slots2 hs
  rw [Matches, hacc] at hM
  obtain ⟨hma, hmb⟩ := match2 hM
  rw [henc] at hl
  obtain ⟨p1, hla, hlb⟩ := loop2 (by decide) hoe.2.2.1 (slot_nonempty hsa) (slot_nonempty hsb) hl
  obtain ⟨hpa, hua⟩ := hH.1 a (by simp)
  have hp1 : p1 = askRex a (start e) := by injection hla with h; exact h.symm
  obtain ⟨lb, v, hb⟩ := agrees_imm ho hbg hmb
  rw [hb] at hlb
  obtain ⟨c1, c2, c3, c4, hP, hsz⟩ := imm_step ho hlb
  rw [askRex_eq] at hp1 hP hsz
  have hfacts : Done e P ∧
      P.hasModrm = false ∧ P.opExt = 0 ∧ P.hasSib = false ∧ P.hasDisp8 = false ∧ P.hasDisp32 = false ∧
      P.hasRel32 = false ∧ immSize P = immField oe ∧ P.immLabel = lb ∧ P.imm = v := by
    have hsz := hsz (by rw [hp1]; rfl)
    subst hP hp1
    refine ⟨⟨fun h => ?_, by simp [start], by simp [start], rfl⟩, rfl, rfl, rfl, rfl, rfl, rfl, hsz, rfl, rfl⟩
    simp [start, h]
  obtain ⟨hD, q1, q2, q9, q10, q11, q4, q5, q7, q8⟩ := hfacts
  intro rest
  rw [patch_fin x q4, List.append_assoc, q5, q7, q8, imm_val hb x, expand_two (.inl hmul)]
  rw [← q2] at h1 h3
  rw [show opWith e 0 = opWith e P.opExt by rw [q2]] at h4
  refine decode_emit (rm := .reg 0) hD h1 ?_ (by simp [q1]) (fun _ => ⟨q9, q10, q11, rfl, rfl⟩) h4 ?_
  · rw [h3, q1, hE3]
  · refine args2 (arg_none (e := e) (P := P) hag hma hsa hua _ _ _ _) (arg_imm ho hbg hmb hsb ?_ rest)
    intro hlab
    rw [← q5]
    subst hb
    cases lb with
    | none => cases hlab
    | some lb => exact rels_fin hfit q7 (by rw [q5]; exact ho)

theorem low_of {mn : String} {o : Operand} (hH : Handled mn l) (ho : o ∈ l)
    (hmem : l.any isMem = false) (hwide : mn ∉ wideMnemonics) : LowReg o := by
  rcases hH.2 with h | h | h
  · rw [hmem] at h; cases h
  · exact absurd h hwide
  · exact h o ho

theorem idx_lt {o : Operand} {acc : Acc} {slot : Slot} {k : Kind} (h : LowReg o)
    (hag : agrees .opext acc slot k = true) (hm : doesMatch o acc = .ok true) : idxOf o < 8 := by
  cases o with
  | reg r u s => exact h
  | star r s => exact h
  | sse i => exact h
  | _ => exact Nat.zero_lt_succ _

/-- A register in the opcode and an immediate. -/
theorem shape_ox_imm {oe : OE} (ho : immField oe ≠ 0)
    (henc : e.operandEncoding = [⟨.opext, false⟩, ⟨oe, false⟩]) (R : Row e m)
    (hM : Matches e (pad4 .empty l)) (hH : Handled m.1 l)
    (hs : slotArgs m.2.2 (l.map (resolve x)) = some as)
    (hl : loop e (pad4 ⟨.empty, false⟩ e.operandEncoding) (pad4 .empty l) (start e) = .ok P)
    (hfit : ∀ r ∈ (emit e (finishRex P)).2, r.relative = false → FitsField r.size x) :
    Decodes e m x as P := by
  have hoe : oe ≠ .modrmReg ∧ oe ≠ .opext ∧ oe ≠ .empty ∧ oe ≠ .modrmRm := by
    refine ⟨?_, ?_, ?_, ?_⟩ <;> (intro h; subst h; exact ho rfl)
  have hE1 : hasEnc e .modrmReg = false := by simp [hasEnc, henc, hoe.1.symm]
  have hE2 : hasEnc e .opext = true := by simp [hasEnc, henc]
  have hE3 : hasEnc e .modrmRm = false := by simp [hasEnc, henc, hoe.2.2.2.symm]
  have hrf : RF e 0 := by simp [RF, hE1, hE3]
  have hox : ∀ i, i < 8 → OX e i := by intro i hi; simp [OX, hE2]; exact hi
  obtain ⟨_, _, _, ks0, _, h50⟩ := R.ok _ 0 hrf (hox 0 (by decide))
  have h50 := (kinds_plain (by rw [henc]; rfl) h50).1
  rw [henc] at h50
  obtain ⟨A, B, s, t, k0, j0, hacc, hslots, rfl, hag0, hbg0⟩ := agree2 h50
  rw [hslots] at hs
  obtain ⟨a, b, r, q, rfl, rfl, hsa, hsb⟩ := slots2 hs
  rw [Matches, hacc] at hM
  obtain ⟨hma, hmb⟩ := match2 hM
  have hna := agrees_notMem hag0 hma hsa (by decide)
  have hnb := agrees_notMem hbg0 hmb hsb hoe.2.2.2
  have hlow := low_of hH (o := a) (by simp) (by simp [hna, hnb])
    (fun hw => by rw [(R.wide hw).2] at hE2; cases hE2)
  have hidx := idx_lt hlow hag0 hma
  obtain ⟨h1, h2, h3, ks, h4, h5⟩ := R.ok _ _ hrf (hox _ hidx)
  obtain ⟨h5, hmul⟩ := kinds_plain (by rw [henc]; rfl) h5
  have hmul : m.2.1 ≠ .imul := fun h => ho (hmul h oe (by simp [henc]))
  rw [henc, hacc, hslots] at h5
  obtain ⟨A', B', s', t', k, j, hacc', hslots', rfl, hag, hbg⟩ := agree2 h5
  obtain ⟨rfl, rfl⟩ : A = A' ∧ B = B' := by simpa using hacc'
  obtain ⟨rfl, rfl⟩ : s = s' ∧ t = t' := by simpa using hslots'
  rw [henc] at hl
  obtain ⟨p1, hla, hlb⟩ := loop2 (by decide) hoe.2.2.1 (slot_nonempty hsa) (slot_nonempty hsb) hl
  obtain ⟨hpa, hua⟩ := hH.1 a (by simp)
  have hp1 := opext_step hla
  obtain ⟨lb, v, hb⟩ := agrees_imm ho hbg hmb
  rw [hb] at hlb
  obtain ⟨c1, c2, c3, c4, hP, hsz⟩ := imm_step ho hlb
  rw [askRex_eq] at hp1 hP hsz
  have hfacts : Done e P ∧ P.rexB = 0 ∧
      P.hasModrm = false ∧ P.opExt = idxOf a ∧ P.hasSib = false ∧ P.hasDisp8 = false ∧ P.hasDisp32 = false ∧
      P.hasRel32 = false ∧ immSize P = immField oe ∧ P.immLabel = lb ∧ P.imm = v := by
    have hsz := hsz (by rw [hp1]; rfl)
    subst hP hp1
    refine ⟨⟨fun h => ?_, by simp [start], by simp [start], rfl⟩, rfl, rfl, rfl, rfl, rfl, rfl, rfl, hsz, rfl, rfl⟩
    simp [start, h]
  obtain ⟨hD, q0, q1, q2, q9, q10, q11, q4, q5, q7, q8⟩ := hfacts
  intro rest
  rw [patch_fin x q4, List.append_assoc, q5, q7, q8, imm_val hb x, expand_two (.inl hmul)]
  have h2 := h2 hE2
  rw [← q2] at h1 h3 h4
  refine decode_emit (rm := .reg 0) hD h1 ?_ (by simp [q1]) (fun _ => ⟨q9, q10, q11, rfl, rfl⟩) h4 ?_
  · rw [h3, q1, hE3]
  · refine args2 (arg_opext hD hag hma hsa hua hlow q0 _ (by rw [q2]; exact h2) _ _ _)
      (arg_imm ho hbg hmb hsb ?_ rest)
    intro hlab
    rw [← q5]
    subst hb
    cases lb with
    | none => cases hlab
    | some lb => exact rels_fin hfit q7 (by rw [q5]; exact ho)

/-- A register in the opcode. -/
theorem shape_ox (henc : e.operandEncoding = [⟨.opext, false⟩]) (R : Row e m)
    (hM : Matches e (pad4 .empty l)) (hH : Handled m.1 l)
    (hs : slotArgs m.2.2 (l.map (resolve x)) = some as)
    (hl : loop e (pad4 ⟨.empty, false⟩ e.operandEncoding) (pad4 .empty l) (start e) = .ok P) :
    Decodes e m x as P := by
  have hE1 : hasEnc e .modrmReg = false := by simp [hasEnc, henc]
  have hE2 : hasEnc e .opext = true := by simp [hasEnc, henc]
  have hE3 : hasEnc e .modrmRm = false := by simp [hasEnc, henc]
  have hrf : RF e 0 := by simp [RF, hE1, hE3]
  have hox : ∀ i, i < 8 → OX e i := by intro i hi; simp [OX, hE2]; exact hi
  obtain ⟨_, _, _, ks0, _, h50⟩ := R.ok _ 0 hrf (hox 0 (by decide))
  have h50 := (kinds_plain (by rw [henc]; rfl) h50).1
  rw [henc] at h50
  obtain ⟨A, s, k0, hacc, hslots, rfl, hag0⟩ := agree1 h50
  rw [hslots] at hs
  obtain ⟨a, r, rfl, rfl, hsa⟩ := slots1 hs
  rw [Matches, hacc] at hM
  have hma := match1 hM
  have hna := agrees_notMem hag0 hma hsa (by decide)
  have hlow := low_of hH (o := a) (by simp) (by simp [hna])
    (fun hw => by rw [(R.wide hw).2] at hE2; cases hE2)
  have hidx := idx_lt hlow hag0 hma
  obtain ⟨h1, h2, h3, ks, h4, h5⟩ := R.ok _ _ hrf (hox _ hidx)
  have h5 := (kinds_plain (by rw [henc]; rfl) h5).1
  rw [henc, hacc, hslots] at h5
  obtain ⟨A', s', k, hacc', hslots', rfl, hag⟩ := agree1 h5
  obtain rfl : A = A' := by simpa using hacc'
  obtain rfl : s = s' := by simpa using hslots'
  rw [henc] at hl
  have hla := loop1 (by decide) (slot_nonempty hsa) hl
  obtain ⟨hpa, hua⟩ := hH.1 a (by simp)
  have hP := opext_step hla
  rw [askRex_eq] at hP
  have hfacts : Done e P ∧ P.rexB = 0 ∧
      P.hasModrm = false ∧ P.opExt = idxOf a ∧ P.hasSib = false ∧ P.hasDisp8 = false ∧ P.hasDisp32 = false ∧
      P.hasRel32 = false ∧ immSize P = 0 := by
    subst hP
    refine ⟨⟨fun h => ?_, by simp [start], by simp [start], rfl⟩, rfl, rfl, rfl, rfl, rfl, rfl, rfl, rfl⟩
    simp [start, h]
  obtain ⟨hD, q0, q1, q2, q9, q10, q11, q4, q5⟩ := hfacts
  intro rest
  rw [patch_fin x q4, List.append_assoc, q5, expand_one]
  have h2 := h2 hE2
  rw [← q2] at h1 h3 h4
  refine decode_emit (rm := .reg 0) hD h1 ?_ (by simp [q1]) (fun _ => ⟨q9, q10, q11, rfl, rfl⟩) h4 ?_
  · rw [h3, q1, hE3]
  · exact args1 (arg_opext hD hag hma hsa hua hlow q0 _ (by rw [q2]; exact h2) _ _ _)

/-- A jump. -/
theorem shape_rel (henc : e.operandEncoding = [⟨.rel32, false⟩]) (R : Row e m)
    (hM : Matches e (pad4 .empty l))
    (hs : slotArgs m.2.2 (l.map (resolve x)) = some as)
    (hl : loop e (pad4 ⟨.empty, false⟩ e.operandEncoding) (pad4 .empty l) (start e) = .ok P) :
    Decodes e m x as P := by
  have hE1 : hasEnc e .modrmReg = false := by simp [hasEnc, henc]
  have hE2 : hasEnc e .opext = false := by simp [hasEnc, henc]
  have hE3 : hasEnc e .modrmRm = false := by simp [hasEnc, henc]
  have hrf : RF e 0 := by simp [RF, hE1, hE3]
  have hox : OX e 0 := by simp [OX, hE2]
  obtain ⟨h1, _, h3, ks, h4, h5⟩ := R.ok _ 0 hrf hox
  have h5 := (kinds_plain (by rw [henc]; rfl) h5).1
  rw [henc] at h5
  obtain ⟨A, s, k, hacc, hslots, rfl, hag⟩ := agree1 h5
  rw [hslots] at hs
  obtain ⟨a, r, rfl, rfl, hsa⟩ := slots1 hs
  rw [Matches, hacc] at hM
  have hma := match1 hM
  rw [henc] at hl
  have hla := loop1 (by decide) (slot_nonempty hsa) hl
  have hk : k = .J ∧ s = .target ∧ A = .rel32 := by
    unfold agrees at hag
    cases k <;> simp only [Bool.false_eq_true] at hag
    simp only [Bool.and_eq_true, beq_iff_eq] at hag
    exact ⟨rfl, hag⟩
  obtain ⟨rfl, rfl, rfl⟩ := hk
  cases a with
  | abs lb v =>
    rw [askRex_eq] at hla
    simp only [encodeOperand, Res.ok.injEq] at hla
    have hfacts : Done e P ∧
        P.hasModrm = false ∧ P.opExt = 0 ∧ P.hasSib = false ∧ P.hasDisp8 = false ∧ P.hasDisp32 = false ∧
        P.hasRel32 = true ∧ immSize P = 0 ∧ P.relLabel = lb ∧ P.rel = v.setWidth 32 := by
      subst hla
      refine ⟨⟨fun h => ?_, by simp [start], by simp [start], rfl⟩, rfl, rfl, rfl, rfl, rfl, rfl, rfl, rfl, rfl⟩
      simp [start, h]
    obtain ⟨hD, q1, q2, q9, q10, q11, q4, q5, q7, q8⟩ := hfacts
    intro rest
    rw [patch_fin_rel x q4 q5, List.append_assoc, q7, q8, expand_one]
    rw [← q2] at h1 h3
    rw [show opWith e 0 = opWith e P.opExt by rw [q2]] at h4
    refine decode_emit (rm := .reg 0) hD h1 ?_ (by simp [q1]) (fun _ => ⟨q9, q10, q11, rfl, rfl⟩) h4 ?_
    · rw [h3, q1, hE3]
    · apply args1
      simp only [arg]
      rw [le_eq, field_fieldBytes]
      cases lb with
      | none =>
        simp only [resolve, slotArg, Option.some.injEq] at hsa
        subst hsa
        simp
      | some lb =>
        simp only [resolve, slotArg, Option.some.injEq] at hsa
        subst hsa
        simp
  | _ => simp [doesMatch] at hma

/-- `imul` of a register by an immediate. -/
theorem shape_dup {oe : OE} (ho : immField oe ≠ 0)
    (henc : e.operandEncoding = [⟨.modrmRm, true⟩, ⟨.modrmReg, false⟩, ⟨oe, false⟩]) (R : Row e m)
    (hM : Matches e (pad4 .empty l)) (hH : Handled m.1 l)
    (hs : slotArgs m.2.2 (l.map (resolve x)) = some as)
    (hl : loop e (pad4 ⟨.empty, false⟩ e.operandEncoding) (pad4 .empty l) (start e) = .ok P)
    (hfit : ∀ r ∈ (emit e (finishRex P)).2, r.relative = false → FitsField r.size x) :
    Decodes e m x as P := by
  have hoe : oe ≠ .modrmReg ∧ oe ≠ .opext ∧ oe ≠ .empty ∧ oe ≠ .modrmRm := by
    refine ⟨?_, ?_, ?_, ?_⟩ <;> (intro h; subst h; exact ho rfl)
  have hE1 : hasEnc e .modrmReg = true := by simp [hasEnc, henc]
  have hE2 : hasEnc e .opext = false := by simp [hasEnc, henc, hoe.2.1.symm]
  have hE3 : hasEnc e .modrmRm = true := by simp [hasEnc, henc]
  have hrf : ∀ i, RF e (i &&& 7) := by intro i; simp [RF, hE1]; exact and7_lt i
  have hox : OX e 0 := by simp [OX, hE2]
  have inv : ∀ ks, kindsOk e m ks = true → ∃ B t j, e.operandAccepts = [.reg 8, B] ∧
      m.2.2 = [.int 8, t] ∧ ks = [.G 8, .E 8, j] ∧ m.2.1 = .imul ∧ agrees oe B t j = true := by
    intro ks h
    unfold kindsOk at h
    rw [if_pos (by rw [henc]; rfl)] at h
    unfold dupOk at h
    split at h
    · next oe' a0 a s0 s k0 k1 k he ha hsl =>
      rw [henc] at he
      simp only [List.map_cons, List.map_nil, List.cons.injEq, true_and, and_true] at he
      subst he
      simp only [Bool.and_eq_true, beq_iff_eq] at h
      obtain ⟨⟨⟨⟨⟨rfl, rfl⟩, rfl⟩, rfl⟩, h1⟩, h2⟩ := h
      exact ⟨a, s, k, ha, hsl, rfl, h1, h2⟩
    · cases h
  obtain ⟨_, _, _, ks0, _, h50⟩ := R.ok _ 0 (hrf 0) hox
  obtain ⟨B, t, j0, hacc, hslots, rfl, hop, hbg0⟩ := inv _ h50
  rw [hslots] at hs
  obtain ⟨a, b, r, q, rfl, rfl, hsa, hsb⟩ := slots2 hs
  rw [Matches, hacc] at hM
  obtain ⟨hma, hmb⟩ := match2 hM
  obtain ⟨h1, _, h3, ks, h4, h5⟩ := R.ok _ 0 (hrf (idxOf a)) hox
  obtain ⟨B', t', j, hacc', hslots', rfl, _, hbg⟩ := inv _ h5
  obtain rfl : B = B' := by rw [hacc] at hacc'; simpa using hacc'
  obtain rfl : t = t' := by rw [hslots] at hslots'; simpa using hslots'
  rw [henc] at hl
  obtain ⟨p1, p2, hla, hla2, hlb⟩ :=
    loop3 (by decide) (by decide) hoe.2.2.1 (slot_nonempty hsa) (slot_nonempty hsb) hl
  obtain ⟨hpa, hua⟩ := hH.1 a (by simp)
  have hnb := agrees_notMem hbg hmb hsb hoe.2.2.2
  have hwide : m.1 ∈ wideMnemonics → (askRex a (start e)).hasRex = true := by
    intro hw; rw [askRex_eq]; simp [start, (R.wide hw).1]
  obtain ⟨f, hp1, hg⟩ := rm_step hpa (fresh_start a)
    (rmReg_of hH (by simp) (by simp [hnb]) hwide (sse_lt hsa)) hla
  have hp2 := reg_step hla2
  obtain ⟨lb, v, hb⟩ := agrees_imm ho hbg hmb
  rw [hb] at hlb
  obtain ⟨c1, c2, c3, c4, hP, hsz⟩ := imm_step ho hlb
  rw [askRex_eq] at hp1 hp2 hP hsz
  have hfacts : Done e P ∧ (rexOp a = true → P.hasRex = true) ∧
      P.hasModrm = true ∧ P.opExt = 0 ∧ P.modrmReg = idxOf a ∧ P.rexR = high (idxOf a) ∧
      P.hasRel32 = false ∧ immSize P = immField oe ∧ P.immLabel = lb ∧ P.imm = v ∧ P = setRm P f := by
    have hsz := hsz (by rw [hp2, hp1]; rfl)
    subst hP hp2 hp1
    refine ⟨⟨fun h => ?_, hg.1, high_le_one _, rfl⟩, fun h => ?_, rfl, rfl, rfl, rfl, rfl, hsz, rfl, rfl, rfl⟩
    · simp [start, setRm, h]
    · simp [start, setRm, h]
  obtain ⟨hD, hxa, q1, q2, q3, q3', q4, q5, q7, q8, q6⟩ := hfacts
  have hext : e.modrmExtension = 0 := R.ext0 hE1
  have himm : ∃ s' v', q = .imm s' v' := by
    subst hb
    cases lb <;> simp only [resolve] at hsb <;> cases t <;> simp only [slotArg, reduceCtorEq] at hsb <;>
      (split at hsb
       · injection hsb with hsb; exact ⟨_, _, hsb.symm⟩
       · cases hsb)
  have hexp : expand m.2.1 [r, q] = [r, r, q] := by
    obtain ⟨s', v', rfl⟩ := himm
    rw [hop]; rfl
  intro rest
  rw [patch_fin x q4, List.append_assoc, q5, q7, q8, imm_val hb x, hexp]
  rw [← q2] at h1 h3 h4
  refine decode_emit (rm := rmOf a) hD h1 ?_ (fun _ => ⟨f, q6, hg, ?_⟩) (by simp [q1]) h4 ?_
  · rw [h3, q1, hE3]
  · rw [hext, q3]; simp
  · refine args3 (arg_reg hD (acc := .reg 8) (slot := .int 8) (k := .G 8) rfl hma hsa hua hxa q3' _ _ rfl _ _)
      (arg_rm hD (acc := .reg 8) (slot := .int 8) (k := .E 8) rfl hma hsa hpa hua hxa _ _ _)
      (arg_imm ho hbg hmb hsb ?_ rest)
    intro hlab
    rw [← q5]
    subst hb
    cases lb with
    | none => cases hlab
    | some lb => exact rels_fin hfit q7 (by rw [q5]; exact ho)

end

end Verif.Encode
