import Verif.AsmText
import Verif.AsmTextSpec
import Verif.ObjectNameLemmas
import Verif.AsmNames
/-!
Lemmas for AsmTextProps.lean: every printed piece is read back.
-/
namespace Verif.AsmText
open Verif Asm AsmTextSpec
open Verif.Object (Name str dec Entry getLabel dec_digits isDig)
open Verif.Assemble (mnName)

/-! ### What the calls mean -/

/-- The name of a label. -/
def nameOf (es : List Entry) (ids : Nat → Int) (l : Nat) : Txt :=
  match getLabel es (ids l) with
  | .ok n => n
  | _ => []

/-- An operand as a reader of the text should see it.  Offsets are numbers of 64 bits. -/
def meantOp (es : List Entry) (ids : Nat → Int) : Opd → Operand
  | .reg r s => .reg r s
  | .xmm i => .xmm i
  | .star r => .star r
  | .imm l v => .imm (l.map (nameOf es ids)) (BitVec.ofInt 64 v).toInt
  | .abs l v => .abs (l.map (nameOf es ids)) (BitVec.ofInt 64 v).toInt
  | .mem off b => .mem (BitVec.ofInt 64 off).toInt b

/-- A call as a reader of the text should see it. -/
def meant (es : List Entry) (ids : Nat → Int) : Line → List Stmt
  | .sect s => [.section s]
  | .comment _ => []
  | .label g l => (if g then [.global (nameOf es ids l)] else []) ++ [.label (nameOf es ids l)]
  | .string bs => [.string bs]
  | .ins i => [.ins (txt (AsmNames.spelling i.mn)) (i.ops.map (meantOp es ids))]
  | .quad l v => [.quad (l.map (nameOf es ids)) (BitVec.ofInt 64 v).toInt]
  | .byte v => [.byte (BitVec.ofInt 64 v).toInt]
  | .zero n => [.zero n]
  | .align n => [.align n]

/-- The operands of instructions: `xmm0`-`xmm15`; a jump to a label whose name does not begin with `$`. -/
def OpOk (es : List Entry) (ids : Nat → Int) : Opd → Prop
  | .xmm i => i < 16
  | .abs (some l) _ => (nameOf es ids l).head? ≠ some (ch '$')
  | _ => True

/-- The calls: sections have names, comments are one line. -/
def LineOk (es : List Entry) (ids : Nat → Int) : Line → Prop
  | .sect s => isSym s = true
  | .comment t => ch '\n' ∉ t
  | .ins i => ∀ o ∈ i.ops, OpOk es ids o
  | _ => True

/-- The mnemonics are spelled as the manual spells them. -/
theorem mnName_spelling (m : Mn) : mnName m = AsmNames.spelling m := by
  cases m <;> rfl

/-! ### Splitting -/

theorem splitOn_none {c : Byte} {p : Txt} (h : c ∉ p) : splitOn c p = [p] := by
  induction p with
  | nil => rfl
  | cons b bs ih =>
    simp only [List.mem_cons, not_or] at h
    unfold splitOn
    rw [if_neg (Ne.symm h.1), ih h.2]

theorem splitOn_cons {c : Byte} {p : Txt} (h : c ∉ p) (q : Txt) : splitOn c (p ++ c :: q) = p :: splitOn c q := by
  induction p with
  | nil => simp [splitOn]
  | cons b bs ih =>
    simp only [List.mem_cons, not_or] at h
    rw [List.cons_append]
    conv => lhs; unfold splitOn
    rw [if_neg (Ne.symm h.1), ih h.2]

/-! ### Decimal numbers -/

theorem dec_ne_nil (n : Nat) : dec n ≠ [] := by
  unfold dec
  split <;> simp

theorem dec_all (n : Nat) : (dec n).all isDigit = true := by
  rw [List.all_eq_true]
  intro c hc
  have := dec_digits n c hc
  simpa [isDig, isDigit, BitVec.le_def, ch] using this

theorem dec_fold (n : Nat) : (dec n).foldl (fun n d => n * 10 + (d.toNat - 48)) 0 = n := by
  induction n using Nat.strongRecOn with
  | ind n ih =>
    unfold dec
    split
    · next h =>
      simp only [List.foldl_cons, List.foldl_nil, BitVec.toNat_ofNat]
      omega
    · next h =>
      rw [List.foldl_append, ih (n / 10) (by omega)]
      simp only [List.foldl_cons, List.foldl_nil, BitVec.toNat_ofNat]
      omega

theorem readNat_dec (n : Nat) : readNat (dec n) = some n := by
  unfold readNat
  rw [if_pos ⟨dec_ne_nil n, dec_all n⟩, dec_fold]

theorem dec_cons (n : Nat) : ∃ c cs, dec n = c :: cs ∧ isDigit c = true := by
  cases h : dec n with
  | nil => exact absurd h (dec_ne_nil n)
  | cons c cs =>
    have := dec_all n
    rw [h, List.all_cons, Bool.and_eq_true] at this
    exact ⟨c, cs, rfl, this.1⟩

theorem minus_not_digit {c : Byte} (h : isDigit c = true) : c ≠ ch '-' := by
  rintro rfl
  revert h; decide

theorem readInt_pri (v : BitVec 64) : readInt (pri v) = some v.toInt := by
  unfold pri
  split
  · next h =>
    unfold readInt
    dsimp only
    rw [if_pos rfl, readNat_dec, Option.map_some]
    congr 1
    show -(((-v.toInt).toNat : Nat) : Int) = _
    omega
  · next h =>
    obtain ⟨c, cs, e, hc⟩ := dec_cons v.toInt.toNat
    rw [e]
    unfold readInt
    dsimp only
    rw [if_neg (minus_not_digit hc), ← e, readNat_dec, Option.map_some]
    congr 1
    show ((v.toInt.toNat : Nat) : Int) = _
    omega

theorem pri_cons (v : BitVec 64) : ∃ c cs, pri v = c :: cs ∧ (isDigit c = true ∨ c = ch '-') := by
  unfold pri
  split
  · exact ⟨_, _, rfl, .inr rfl⟩
  · obtain ⟨c, cs, e, hc⟩ := dec_cons v.toInt.toNat
    exact ⟨c, cs, e, .inl hc⟩

/-- The characters of a number. -/
theorem pri_mem {v : BitVec 64} {b : Byte} (h : b ∈ pri v) : isDigit b = true ∨ b = ch '-' := by
  unfold pri at h
  split at h
  · rcases List.mem_cons.1 h with h | h
    · exact .inr h
    · exact .inl (List.all_eq_true.1 (dec_all _) _ h)
  · exact .inl (List.all_eq_true.1 (dec_all _) _ h)

/-! ### Symbols -/

theorem sym_mem {s : Txt} (h : isSym s = true) {b : Byte} (hb : b ∈ s) : isSymChar b = true := by
  cases s with
  | nil => cases hb
  | cons c cs =>
    simp only [isSym, Bool.and_eq_true] at h
    exact List.all_eq_true.1 h.2 b hb

theorem sym_not {s : Txt} (h : isSym s = true) {b : Byte} (hb : isSymChar b = false) : b ∉ s := by
  intro hm
  rw [sym_mem h hm] at hb
  cases hb

theorem sym_cons {s : Txt} (h : isSym s = true) : ∃ c cs, s = c :: cs ∧ isDigit c = false ∧ c ≠ ch '-' ∧ isSymChar c = true := by
  cases s with
  | nil => cases h
  | cons c cs =>
    have hc := sym_mem h (List.mem_cons_self ..)
    simp only [isSym, Bool.and_eq_true, Bool.not_eq_true'] at h
    refine ⟨c, cs, rfl, h.1, ?_, hc⟩
    rintro rfl
    revert hc; decide

/-- Every label has a symbol for its name. -/
def Syms (es : List Entry) : Prop := ∀ e ∈ es, e.type = .labelName → isSym e.name = true

theorem sym_append_dec {p : Txt} (hp : isSym p = true) (n : Nat) : isSym (p ++ dec n) = true := by
  obtain ⟨c, cs, rfl, h1, _, h3⟩ := sym_cons hp
  have hp' := hp
  simp only [isSym, Bool.and_eq_true] at hp'
  simp only [List.cons_append, isSym, h1, Bool.not_false, Bool.true_and]
  rw [← List.cons_append, List.all_append, hp'.2, Bool.true_and, List.all_eq_true]
  intro b hb
  have := List.all_eq_true.1 (dec_all n) b hb
  simp [isSymChar, this]

theorem takeWhile_sym {n : Txt} (h : isSym n = true) : n.takeWhile (· ≠ 0) = n := by
  have : (0 : Byte) ∉ n := sym_not h (by decide)
  exact Object.takeWhile_noNul this

theorem getLabel_sym {es : List Entry} (hs : Syms es) {id : Int} {n : Name} (h : getLabel es id = .ok n) :
    isSym n = true := by
  unfold getLabel at h
  dsimp only at h
  split at h
  · rw [Object.check_ok h]
    exact sym_append_dec (by decide) _
  · split at h
    · rw [Object.check_ok h]
      exact sym_append_dec (by decide) _
    · next m he =>
      have hl := hs _ (List.mem_of_getElem? he) rfl
      rw [Object.check_ok h]
      rw [takeWhile_sym hl]
      exact hl
    · cases h

theorem nameOf_eq {es : List Entry} {ids : Nat → Int} {l : Nat} {n : Name} (h : emitLabel es ids l = .ok n) :
    nameOf es ids l = n := by
  unfold emitLabel at h
  unfold nameOf
  rw [h]

/-! ### Expressions -/

/-- The characters of an expression. -/
def exprChar (b : Byte) : Bool := isSymChar b || b == ch '+' || b == ch '-'

theorem pri_char {v : BitVec 64} {b : Byte} (h : b ∈ pri v) : exprChar b = true := by
  rcases pri_mem h with h | h
  · simp [exprChar, isSymChar, h]
  · simp [exprChar, h]

theorem emitImm_char {es : List Entry} (hs : Syms es) {ids : Nat → Int} {l : Option Nat} {v : BitVec 64} {t : Name}
    (h : emitImm es ids l v = .ok t) : ∀ b ∈ t, exprChar b = true := by
  intro b hb
  unfold emitImm at h
  split at h
  · injection h with h; subst h
    exact pri_char hb
  · obtain ⟨n, hn, h⟩ := Res.bind_eq_ok.1 h
    have hsym := getLabel_sym hs hn
    split at h
    · injection h with h; subst h
      rcases List.mem_append.1 hb with hb | hb
      · simp [exprChar, sym_mem hsym hb]
      · rcases List.mem_cons.1 hb with hb | hb
        · simp [exprChar, hb]
        · exact pri_char hb
    · injection h with h; subst h
      simp [exprChar, sym_mem hsym hb]

theorem takeWhile_all {p : Byte → Bool} {a b : Txt} (h : ∀ x ∈ a, p x = true) (hb : ∀ c cs, b = c :: cs → p c = false) :
    (a ++ b).takeWhile p = a ∧ (a ++ b).dropWhile p = b := by
  induction a with
  | nil =>
    cases b with
    | nil => exact ⟨rfl, rfl⟩
    | cons c cs => simp [hb c cs rfl]
  | cons x xs ih =>
    obtain ⟨h1, h2⟩ := ih (fun y hy => h y (List.mem_cons_of_mem _ hy))
    have hx := h x (List.mem_cons_self ..)
    rw [List.cons_append, List.takeWhile_cons_of_pos hx, List.dropWhile_cons_of_pos hx]
    exact ⟨by rw [h1], h2⟩

theorem readExpr_emitImm {es : List Entry} (hs : Syms es) {ids : Nat → Int} {l : Option Nat} {v : BitVec 64} {t : Name}
    (h : emitImm es ids l v = .ok t) : readExpr t = some (l.map (nameOf es ids), v.toInt) := by
  unfold emitImm at h
  split at h
  · injection h with h; subst h
    obtain ⟨c, cs, e, hc⟩ := pri_cons v
    unfold readExpr
    rw [e]
    dsimp only
    rw [if_pos hc, ← e, readInt_pri]
    rfl
  · obtain ⟨n, hn, h⟩ := Res.bind_eq_ok.1 h
    have hsym := getLabel_sym hs hn
    obtain ⟨c, cs, e, h1, h2, _⟩ := sym_cons hsym
    have hplus : ∀ x ∈ n, (decide (x ≠ ch '+')) = true := by
      intro x hx
      rw [decide_eq_true_eq]
      rintro rfl
      exact sym_not hsym (by decide) hx
    split at h
    · next hv =>
      injection h with h; subst h
      obtain ⟨ht, hd⟩ := takeWhile_all (b := ch '+' :: pri v) hplus (by
        intro c cs e
        injection e with e _
        subst e; decide)
      have : n ++ ch '+' :: pri v = c :: (cs ++ ch '+' :: pri v) := by rw [e]; rfl
      unfold readExpr
      rw [this]
      dsimp only
      rw [if_neg (by rw [h1]; simp [h2]), ← this, ht, hd, if_pos hsym]
      dsimp only
      rw [readInt_pri, Option.map_some, Option.map_some, nameOf_eq hn]
    · next hv =>
      injection h with h; subst h
      obtain ⟨ht, hd⟩ := takeWhile_all (b := []) hplus (by intro c cs e; cases e)
      rw [List.append_nil] at ht hd
      have hv : v = 0 := by simpa using hv
      subst hv
      unfold readExpr
      rw [e]
      dsimp only
      rw [if_neg (by rw [h1]; simp [h2]), ← e, ht, hd, if_pos hsym, Option.map_some, nameOf_eq hn]
      rfl

/-! ### Registers -/

theorem regName_inv {r : Reg} {s : Nat} {n : Name} (h : regName r s = .ok n) : s = 8 ∨ s = 4 ∨ s = 2 ∨ s = 1 := by
  unfold regName sizeToIdx at h
  split at h
  · exact .inl rfl
  · exact .inr (.inl rfl)
  · exact .inr (.inr (.inl rfl))
  · exact .inr (.inr (.inr rfl))
  · cases h

/-- One entry of the table is read back, and has no character that ends an operand. -/
def regCheck (r : Reg) (s : Nat) : Bool :=
  match regName r s with
  | .ok (c :: cs) => c == ch '%' && lookupReg cs == some (r, s) && cs.all (fun b => isSymChar b)
  | _ => false

theorem regCheck_all (r : Reg) : regCheck r 8 = true ∧ regCheck r 4 = true ∧ regCheck r 2 = true ∧ regCheck r 1 = true := by
  cases r <;> decide +kernel

theorem regName_read {r : Reg} {s : Nat} {n : Name} (h : regName r s = .ok n) :
    ∃ cs, n = ch '%' :: cs ∧ lookupReg cs = some (r, s) ∧ ∀ b ∈ cs, isSymChar b = true := by
  have hc : regCheck r s = true := by
    obtain ⟨h8, h4, h2, h1⟩ := regCheck_all r
    rcases regName_inv h with rfl | rfl | rfl | rfl <;> assumption
  unfold regCheck at hc
  rw [h] at hc
  split at hc
  · next c cs e =>
    injection e with e
    simp only [Bool.and_eq_true, beq_iff_eq, List.all_eq_true] at hc
    exact ⟨cs, by rw [e, hc.1.1], hc.1.2, hc.2⟩
  · cases hc

theorem readReg8_name {r : Reg} {n : Name} (h : regName r 8 = .ok n) : readReg8 n = some r := by
  obtain ⟨cs, rfl, h1, _⟩ := regName_read h
  unfold readReg8
  dsimp only
  rw [if_pos rfl, h1]
  rfl

/-! ### Operands -/

/-- The characters of an operand. -/
def opChar (b : Byte) : Bool := exprChar b || b == ch '%' || b == ch '*' || b == ch '(' || b == ch ')'

theorem regName_char {r : Reg} {s : Nat} {n : Name} (h : regName r s = .ok n) : ∀ b ∈ n, opChar b = true := by
  obtain ⟨cs, rfl, _, h2⟩ := regName_read h
  intro b hb
  rcases List.mem_cons.1 hb with rfl | hb
  · decide
  · simp [opChar, exprChar, h2 b hb]

theorem emitOperand_char {es : List Entry} (hs : Syms es) {ids : Nat → Int} {o : Opd} {t : Name}
    (h : emitOperand es ids o = .ok t) : ∀ b ∈ t, opChar b = true := by
  intro b hb
  cases o with
  | reg r s => exact regName_char h b hb
  | xmm i =>
    injection h with h; subst h
    rcases List.mem_append.1 hb with hb | hb
    · have : ∀ b ∈ str "%xmm", opChar b = true := by decide
      exact this b hb
    · have := List.all_eq_true.1 (dec_all _) _ hb
      simp [opChar, exprChar, isSymChar, this]
  | star r =>
    obtain ⟨n, hn, h⟩ := Res.bind_eq_ok.1 h
    injection h with h; subst h
    rcases List.mem_cons.1 hb with rfl | hb
    · decide
    · exact regName_char hn b hb
  | imm l v =>
    obtain ⟨n, hn, h⟩ := Res.bind_eq_ok.1 h
    injection h with h; subst h
    rcases List.mem_cons.1 hb with rfl | hb
    · decide
    · simp [opChar, emitImm_char hs hn b hb]
  | abs l v => simp [opChar, emitImm_char hs h b hb]
  | mem off base =>
    obtain ⟨n, hn, h⟩ := Res.bind_eq_ok.1 h
    injection h with h; subst h
    rcases List.mem_append.1 hb with hb | hb
    · rcases List.mem_append.1 hb with hb | hb
      · split at hb
        · simp [opChar, pri_char hb]
        · cases hb
      · rcases List.mem_cons.1 hb with rfl | hb
        · decide
        · exact regName_char hn b hb
    · rcases List.mem_cons.1 hb with rfl | hb
      · decide
      · cases hb

theorem emitOperand_cons {es : List Entry} (hs : Syms es) {ids : Nat → Int} {o : Opd} {t : Name}
    (h : emitOperand es ids o = .ok t) : t ≠ [] := by
  rintro rfl
  cases o with
  | reg r s => obtain ⟨cs, e, _⟩ := regName_read h; cases e
  | xmm i => injection h with h; cases h
  | star r =>
    obtain ⟨n, hn, h⟩ := Res.bind_eq_ok.1 h
    injection h with h; cases h
  | imm l v =>
    obtain ⟨n, hn, h⟩ := Res.bind_eq_ok.1 h
    injection h with h; cases h
  | abs l v =>
    have := readExpr_emitImm hs h
    cases this
  | mem off base =>
    obtain ⟨n, hn, h⟩ := Res.bind_eq_ok.1 h
    injection h with h
    simp at h

theorem dec_noXmm : ∀ i, i < 16 → lookupReg (txt "xmm" ++ dec i) = none := by decide +kernel

theorem readOperand_emit {es : List Entry} (hs : Syms es) {ids : Nat → Int} {o : Opd} {t : Name}
    (h : emitOperand es ids o = .ok t) (ho : OpOk es ids o) : readOperand t = some (meantOp es ids o) := by
  cases o with
  | reg r s =>
    obtain ⟨cs, rfl, h1, _⟩ := regName_read h
    unfold readOperand
    dsimp only
    rw [if_pos rfl, h1]
    rfl
  | xmm i =>
    injection h with h; subst h
    have e : str "%xmm" ++ dec i = ch '%' :: (txt "xmm" ++ dec i) := rfl
    rw [e]
    unfold readOperand
    dsimp only
    rw [if_pos rfl, dec_noXmm i ho]
    dsimp only
    rw [if_pos (by rfl), show (txt "xmm" ++ dec i).drop 3 = dec i from rfl, readNat_dec]
    dsimp only
    rw [if_pos (show i < 16 from ho)]
    rfl
  | star r =>
    obtain ⟨n, hn, h⟩ := Res.bind_eq_ok.1 h
    injection h with h; subst h
    unfold readOperand
    dsimp only
    rw [if_neg (by decide), if_pos rfl, readReg8_name hn]
    rfl
  | imm l v =>
    obtain ⟨n, hn, h⟩ := Res.bind_eq_ok.1 h
    injection h with h; subst h
    unfold readOperand
    dsimp only
    rw [if_neg (by decide), if_neg (by decide), if_pos rfl, readExpr_emitImm hs hn]
    rfl
  | abs l v =>
    have hc := emitImm_char hs h
    have hr := readExpr_emitImm hs h
    cases t with
    | nil => cases hr
    | cons c cs =>
      have hd : c ≠ ch '$' := by
        rintro rfl
        have h' : emitImm es ids l (BitVec.ofInt 64 v) = .ok (ch '$' :: cs) := h
        unfold emitImm at h'
        split at h'
        · injection h' with h'
          obtain ⟨c, cs', e, hcc⟩ := pri_cons (BitVec.ofInt 64 v)
          rw [e] at h'
          injection h' with h' _
          subst h'
          revert hcc; decide
        · next k =>
          obtain ⟨n, hn, h'⟩ := Res.bind_eq_ok.1 h'
          have hsym := getLabel_sym hs hn
          obtain ⟨c', cs', e, _⟩ := sym_cons hsym
          have : c' = ch '$' := by
            split at h'
            · injection h' with h'
              rw [e] at h'
              injection h' with h' _
            · injection h' with h'
              rw [e] at h'
              injection h' with h' _
          apply ho
          rw [nameOf_eq hn, e, this]
          rfl
      have hn : ∀ x : Byte, exprChar x = false → x ∉ c :: cs := by
        intro x hx hm
        rw [hc x hm] at hx
        cases hx
      have hne : ∀ x : Byte, exprChar x = false → c ≠ x := by
        rintro x hx rfl
        exact hn c hx (List.mem_cons_self ..)
      unfold readOperand
      dsimp only
      rw [if_neg (hne _ (by decide)), if_neg (hne _ (by decide)), if_neg hd, if_neg (hn _ (by decide)), hr]
      rfl
  | mem off base =>
    obtain ⟨n, hn, h⟩ := Res.bind_eq_ok.1 h
    injection h with h; subst h
    have key : ∀ d : Txt, (∀ x ∈ d, exprChar x = true ∧ x ≠ ch '$') →
        readOperand (d ++ ch '(' :: n ++ [ch ')']) =
          (match (if d = [] then some 0 else readInt d) with
           | some v => some (.mem v base)
           | none => none) := by
      intro d hd
      obtain ⟨cs, e, _, _⟩ := regName_read hn
      have hx : ∀ x ∈ d, (decide (x ≠ ch '(')) = true := by
        intro x hx
        rw [decide_eq_true_eq]
        rintro rfl
        have := (hd _ hx).1
        revert this; decide
      obtain ⟨h1, h2⟩ := takeWhile_all (b := ch '(' :: (n ++ [ch ')'])) hx (by
        intro c cs e
        injection e with e _
        subst e; decide)
      have e2 : d ++ ch '(' :: n ++ [ch ')'] = d ++ ch '(' :: (n ++ [ch ')']) := by simp
      rw [e2]
      have hmem : ch '(' ∈ d ++ ch '(' :: (n ++ [ch ')']) := by simp
      have hfirst : ∃ c cs, d ++ ch '(' :: (n ++ [ch ')']) = c :: cs ∧ c ≠ ch '%' ∧ c ≠ ch '*' ∧ c ≠ ch '$' := by
        cases d with
        | nil => exact ⟨_, _, rfl, by decide, by decide, by decide⟩
        | cons c cs =>
          have := hd c (List.mem_cons_self ..)
          refine ⟨c, _, rfl, ?_, ?_, this.2⟩
          · rintro rfl
            have := this.1
            revert this; decide
          · rintro rfl
            have := this.1
            revert this; decide
      obtain ⟨c, cs', e3, n1, n2, n3⟩ := hfirst
      unfold readOperand
      rw [e3]
      dsimp only
      rw [if_neg n1, if_neg n2, if_neg n3, ← e3, if_pos hmem, h1, h2]
      simp only [List.drop_succ_cons, List.drop_zero, List.getLast?_append, List.getLast?_singleton, Option.some_or,
        if_true, List.dropLast_concat, readReg8_name hn]
      cases (if d = [] then some 0 else readInt d) <;> rfl
    by_cases hv : BitVec.ofInt 64 off = 0
    · rw [if_neg (by simp [hv])]
      rw [key [] (by intro x hx; cases hx)]
      show some (Operand.mem 0 base) = some (Operand.mem (BitVec.ofInt 64 off).toInt base)
      rw [hv]
      rfl
    · rw [if_pos hv]
      rw [key _ (by
        intro x hx
        refine ⟨pri_char hx, ?_⟩
        rintro rfl
        have := pri_mem hx
        revert this; decide)]
      obtain ⟨c, cs, e, _⟩ := pri_cons (BitVec.ofInt 64 off)
      rw [if_neg (by rw [e]; simp), readInt_pri]
      rfl

theorem opChar_not {t : Txt} (h : ∀ b ∈ t, opChar b = true) {x : Byte} (hx : opChar x = false) : x ∉ t := by
  intro hm
  rw [h x hm] at hx
  cases hx

theorem dropBlank_op {t : Txt} (h : ∀ b ∈ t, opChar b = true) : t.dropWhile isBlank = t := by
  cases t with
  | nil => rfl
  | cons c cs =>
    rw [List.dropWhile_cons_of_neg]
    intro hb
    have := h c (List.mem_cons_self ..)
    simp only [isBlank, Bool.or_eq_true, beq_iff_eq] at hb
    rcases hb with rfl | rfl <;> revert this <;> decide

theorem readTail_emit {es : List Entry} (hs : Syms es) {ids : Nat → Int} : ∀ {os : List Opd} {a t : Name},
    emitTail es ids os = .ok t → (∀ o ∈ os, OpOk es ids o) → (∀ b ∈ a, opChar b = true ∨ isBlank b = true) →
    all (fun p => readOperand (p.dropWhile isBlank)) (splitOn (ch ',') (a ++ t)) =
      (match readOperand (a.dropWhile isBlank) with
       | some x => some (x :: os.map (meantOp es ids))
       | none => none) := by
  intro os
  induction os with
  | nil =>
    intro a t h _ ha
    injection h with h; subst h
    rw [List.append_nil, splitOn_none (by
      intro hm
      have := ha _ hm
      revert this; decide)]
    unfold all
    cases readOperand (a.dropWhile isBlank) <;> rfl
  | cons o os ih =>
    intro a t h ho ha
    obtain ⟨x, hx, h⟩ := Res.bind_eq_ok.1 h
    obtain ⟨y, hy, h⟩ := Res.bind_eq_ok.1 h
    injection h with h; subst h
    have hxc := emitOperand_char hs hx
    have e : a ++ (str ", " ++ x ++ y) = a ++ ch ',' :: ((ch ' ' :: x) ++ y) := by
      show a ++ ([ch ',', ch ' '] ++ x ++ y) = _
      simp
    rw [e, splitOn_cons (by
      intro hm
      have := ha _ hm
      revert this; decide)]
    unfold all
    rw [ih hy (fun o ho' => ho o (List.mem_cons_of_mem _ ho')) (by
      intro b hb
      rcases List.mem_cons.1 hb with rfl | hb
      · exact .inr (by decide)
      · exact .inl (hxc b hb))]
    rw [List.dropWhile_cons_of_pos (by decide), dropBlank_op hxc, readOperand_emit hs hx (ho o (List.mem_cons_self ..))]
    cases readOperand (a.dropWhile isBlank) <;> rfl

theorem readOperands_emit {es : List Entry} (hs : Syms es) {ids : Nat → Int} {os : List Opd} {t : Name}
    (h : emitOperands es ids os = .ok t) (ho : ∀ o ∈ os, OpOk es ids o) :
    readOperands t = some (os.map (meantOp es ids)) ∧ t.dropWhile isBlank = t ∧ ch '\n' ∉ t := by
  cases os with
  | nil =>
    injection h with h; subst h
    exact ⟨rfl, rfl, by simp⟩
  | cons o os =>
    obtain ⟨x, hx, h⟩ := Res.bind_eq_ok.1 h
    obtain ⟨y, hy, h⟩ := Res.bind_eq_ok.1 h
    injection h with h; subst h
    have hxc := emitOperand_char hs hx
    have hne := emitOperand_cons hs hx
    refine ⟨?_, ?_, ?_⟩
    · unfold readOperands
      rw [if_neg (by simp [hne]), readTail_emit hs hy (fun o ho' => ho o (List.mem_cons_of_mem _ ho'))
        (fun b hb => .inl (hxc b hb)), dropBlank_op hxc, readOperand_emit hs hx (ho o (List.mem_cons_self ..))]
      rfl
    · cases x with
      | nil => exact absurd rfl hne
      | cons c cs =>
        have := dropBlank_op hxc
        rw [List.cons_append, List.dropWhile_cons_of_neg]
        intro hb
        rw [List.dropWhile_cons_of_pos hb] at this
        have := congrArg List.length this
        have h2 := (List.dropWhile_suffix (p := isBlank) (l := cs)).length_le
        simp at this
        omega
    · have tail : ∀ {os : List Opd} {y : Name}, emitTail es ids os = .ok y → ch '\n' ∉ y := by
        intro os
        induction os with
        | nil => intro y h; injection h with h; subst h; simp
        | cons o os ih =>
          intro y h
          obtain ⟨a, ha, h⟩ := Res.bind_eq_ok.1 h
          obtain ⟨b, hb, h⟩ := Res.bind_eq_ok.1 h
          injection h with h; subst h
          have h1 := opChar_not (x := ch '\n') (emitOperand_char hs ha) (by decide)
          have h2 := ih hb
          have h3 : ch '\n' ∉ str ", " := by decide
          simp only [List.mem_append, not_or]
          exact ⟨⟨h3, h1⟩, h2⟩
      have h1 := opChar_not (x := ch '\n') hxc (by decide)
      simp only [List.mem_append, not_or]
      exact ⟨h1, tail hy⟩

/-! ### Strings -/

/-- A printed character is read back whatever follows. -/
def charCheck (c : Byte) : Bool :=
  match Escape.printChar c false with
  | .ok [a] => a == c && a != ch '\\' && a != ch '"' && a != ch '\n'
  | .ok [a, b] => a == ch '\\' && !isOct b && escape b == some c && b != ch '\n'
  | .ok [a, b, d, e] => a == ch '\\' && isOct b && isOct d && isOct e && octal [b, d, e] == c
  | _ => false

theorem charCheck_all : ∀ c : Byte, c.toNat ≠ 127 → charCheck c = true := by decide +kernel

theorem oct_not_nl {b : Byte} (h : isOct b = true) : ch '\n' ≠ b := by
  rintro rfl
  revert h; decide

theorem printChar_127 : Escape.printChar 127 false = .ub := by decide

theorem readString_char {c : Byte} {t : Txt} (h : Escape.printChar c false = .ok t) (tl : Txt) (htl : tl ≠ []) :
    readString (t ++ tl) = (readString tl).map (c :: ·) ∧ ch '\n' ∉ t := by
  have hc127 : c.toNat ≠ 127 := by
    intro h1
    have : c = 127 := BitVec.eq_of_toNat_eq h1
    subst this
    rw [printChar_127] at h
    cases h
  have hc := charCheck_all c hc127
  unfold charCheck at hc
  rw [h] at hc
  cases tl with
  | nil => exact absurd rfl htl
  | cons x xs =>
  split at hc
  · next a e =>
    injection e with e; subst e
    simp only [Bool.and_eq_true, beq_iff_eq, bne_iff_ne, ne_eq] at hc
    obtain ⟨⟨⟨rfl, h1⟩, h2⟩, h3⟩ := hc
    refine ⟨?_, by simpa using Ne.symm h3⟩
    show readString (a :: x :: xs) = _
    conv => lhs; unfold readString
    rw [if_neg h2, if_pos h1]
  · next a b e =>
    injection e with e; subst e
    simp only [Bool.and_eq_true, beq_iff_eq, bne_iff_ne, ne_eq, Bool.not_eq_true'] at hc
    obtain ⟨⟨⟨rfl, h1⟩, h2⟩, h3⟩ := hc
    refine ⟨?_, by simpa [show ch '\n' ≠ ch '\\' by decide] using Ne.symm h3⟩
    show readString (ch '\\' :: b :: x :: xs) = _
    conv => lhs; unfold readString
    rw [if_neg (by decide), if_neg (by decide), if_neg (by rw [h1]; simp), h2]
  · next a b d e' e =>
    injection e with e; subst e
    simp only [Bool.and_eq_true, beq_iff_eq] at hc
    obtain ⟨⟨⟨⟨rfl, h1⟩, h2⟩, h3⟩, h4⟩ := hc
    refine ⟨?_, by
      simp only [List.mem_cons, List.not_mem_nil, or_false, not_or]
      exact ⟨by decide, oct_not_nl h1, oct_not_nl h2, oct_not_nl h3⟩⟩
    show readString (ch '\\' :: b :: d :: e' :: x :: xs) = _
    conv => lhs; unfold readString
    rw [if_neg (by decide), if_neg (by decide), if_pos h1]
    dsimp only
    rw [if_pos h2, if_pos h3, h4]
  · cases hc

theorem readString_emit : ∀ {bs : List Byte} {t : Txt}, emitChars bs = .ok t →
    readString (t ++ [ch '"']) = some bs ∧ ch '\n' ∉ t := by
  intro bs
  induction bs with
  | nil =>
    intro t h
    injection h with h; subst h
    exact ⟨by decide, by simp⟩
  | cons c cs ih =>
    intro t h
    obtain ⟨a, ha, h⟩ := Res.bind_eq_ok.1 h
    obtain ⟨b, hb, h⟩ := Res.bind_eq_ok.1 h
    injection h with h; subst h
    obtain ⟨h1, h2⟩ := ih hb
    obtain ⟨h3, h4⟩ := readString_char ha (b ++ [ch '"']) (by simp)
    rw [List.append_assoc, h3, h1]
    refine ⟨rfl, ?_⟩
    simp only [List.mem_append, not_or]
    exact ⟨h4, h2⟩

end Verif.AsmText
