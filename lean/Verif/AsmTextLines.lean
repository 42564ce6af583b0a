import Verif.AsmTextSim
import Verif.ObjectLemmas
/-!
Lemmas for AsmTextProps.lean: lines and texts.
-/
namespace Verif.AsmText
open Verif Asm AsmTextSpec
open Verif.Object (Name str dec Entry getLabel)
open Verif.Assemble (mnName)
open Verif.ObjectSpec (Call CallOf CallsOf View Shows view quadBytes)

/-! ### Lines -/

theorem isBlank_space : isBlank (ch ' ') = true := by decide

/-- A line with a first word. -/
theorem readLine_word {tab w args : Txt} (ht : ∀ b ∈ tab, isBlank b = true) (hw : ∀ b ∈ w, isBlank b = false)
    (h1 : w ≠ []) (h2 : w.head? ≠ some (ch '#')) (ha : args.dropWhile isBlank = args) :
    readLine (tab ++ (w ++ ch ' ' :: args)) = (readStmt w args).map fun s => [s] := by
  cases w with
  | nil => exact absurd rfl h1
  | cons c cs =>
    obtain ⟨_, e1⟩ := takeWhile_all (b := c :: cs ++ ch ' ' :: args) ht (by
      intro x xs e
      injection e with e _
      subst e
      exact hw c (List.mem_cons_self ..))
    obtain ⟨e2, e3⟩ := takeWhile_all (p := fun b => !isBlank b) (a := c :: cs) (b := ch ' ' :: args)
      (by intro x hx; rw [hw x hx]; rfl) (by
      intro x xs e
      injection e with e _
      subst e; decide)
    have hc : c ≠ ch '#' := by
      rintro rfl
      exact h2 rfl
    unfold readLine
    rw [e1]
    dsimp only [List.cons_append]
    rw [if_neg hc]
    rw [List.cons_append] at e2 e3
    rw [e2, e3, List.dropWhile_cons_of_pos isBlank_space, ha]

/-- A line with one word only. -/
theorem readLine_alone {w : Txt} (hw : ∀ b ∈ w, isBlank b = false) (h1 : w ≠ []) (h2 : w.head? ≠ some (ch '#')) :
    readLine w = (readStmt w []).map fun s => [s] := by
  cases w with
  | nil => exact absurd rfl h1
  | cons c cs =>
    obtain ⟨e2, e3⟩ := takeWhile_all (p := fun b => !isBlank b) (a := c :: cs) (b := [])
      (by intro x hx; rw [hw x hx]; rfl) (by intro x xs e; cases e)
    rw [List.append_nil] at e2 e3
    have hc : c ≠ ch '#' := by
      rintro rfl
      exact h2 rfl
    unfold readLine
    rw [List.dropWhile_cons_of_neg (by rw [hw c (List.mem_cons_self ..)]; simp)]
    dsimp only
    rw [if_neg hc, e2, e3]
    rfl

theorem readLine_comment (t : Txt) : readLine (ch '\t' :: ch '#' :: t) = some [] := by
  unfold readLine
  rw [List.dropWhile_cons_of_pos (by decide), List.dropWhile_cons_of_neg (by decide)]
  dsimp only
  rw [if_pos rfl]

/-! ### Texts -/

/-- The text is lines that read as the statements. -/
def Reads (t : Txt) (ss : List Stmt) : Prop :=
  ∃ ls sss, t = (ls.map (· ++ [ch '\n'])).flatten ∧ (∀ l ∈ ls, ch '\n' ∉ l) ∧ all readLine ls = some sss ∧ ss = sss.flatten

theorem Reads.nil : Reads [] [] := ⟨[], [], rfl, by simp, rfl, rfl⟩

theorem all_append {α β : Type} {f : α → Option β} : ∀ {a b : List α} {x y : List β}, all f a = some x → all f b = some y →
    all f (a ++ b) = some (x ++ y) := by
  intro a
  induction a with
  | nil => intro b x y h1 h2; injection h1 with h1; subst h1; exact h2
  | cons c cs ih =>
    intro b x y h1 h2
    unfold all at h1
    split at h1
    · next p q hp hq =>
      injection h1 with h1; subst h1
      rw [List.cons_append]
      unfold all
      rw [hp, ih hq h2]
      rfl
    · cases h1

theorem Reads.append {a b : Txt} {x y : List Stmt} (h1 : Reads a x) (h2 : Reads b y) : Reads (a ++ b) (x ++ y) := by
  obtain ⟨l1, s1, rfl, n1, r1, rfl⟩ := h1
  obtain ⟨l2, s2, rfl, n2, r2, rfl⟩ := h2
  refine ⟨l1 ++ l2, s1 ++ s2, by simp, ?_, all_append r1 r2, by simp⟩
  intro l hl
  rcases List.mem_append.1 hl with hl | hl
  · exact n1 l hl
  · exact n2 l hl

theorem Reads.line {l : Txt} {ss : List Stmt} (hn : ch '\n' ∉ l) (h : readLine l = some ss) : Reads (l ++ [ch '\n']) ss :=
  ⟨[l], [ss], by simp, by simpa using hn, by unfold all all; rw [h], by simp⟩

theorem splitOn_lines : ∀ {ls : List Txt}, (∀ l ∈ ls, ch '\n' ∉ l) →
    splitOn (ch '\n') ((ls.map (· ++ [ch '\n'])).flatten) = ls ++ [[]] := by
  intro ls
  induction ls with
  | nil => intro _; rfl
  | cons l ls ih =>
    intro h
    rw [List.map_cons, List.flatten_cons, List.append_assoc, List.singleton_append,
      splitOn_cons (h l (List.mem_cons_self ..)), ih (fun x hx => h x (List.mem_cons_of_mem _ hx))]
    rfl

theorem Reads.readText {t : Txt} {ss : List Stmt} (h : Reads t ss) : readText t = some ss := by
  obtain ⟨ls, sss, rfl, n, r, rfl⟩ := h
  unfold AsmTextSpec.readText
  dsimp only
  rw [splitOn_lines n, if_pos (by simp), List.dropLast_concat, r]
  rfl

/-! ### The lines that are printed -/

theorem sym_blank {s : Txt} (h : isSym s = true) : ∀ b ∈ s, isBlank b = false := by
  intro b hb
  have := sym_mem h hb
  cases hc : isBlank b with
  | false => rfl
  | true =>
    simp only [isBlank, Bool.or_eq_true, beq_iff_eq] at hc
    rcases hc with rfl | rfl <;> revert this <;> decide

theorem sym_drop {s : Txt} (h : isSym s = true) : s.dropWhile isBlank = s := by
  obtain ⟨c, cs, rfl, _⟩ := sym_cons h
  rw [List.dropWhile_cons_of_neg]
  rw [sym_blank h c (List.mem_cons_self ..)]
  simp

theorem dec_drop (n : Nat) : (dec n).dropWhile isBlank = dec n := by
  apply dropBlank_op
  intro b hb
  have := List.all_eq_true.1 (dec_all _) _ hb
  simp [opChar, exprChar, isSymChar, this]

theorem dec_nl (n : Nat) : ch '\n' ∉ dec n := by
  intro h
  have := List.all_eq_true.1 (dec_all _) _ h
  revert this; decide

/-- A directive. -/
theorem reads_directive {w args t : Txt} {s : Stmt} (hw : ∀ b ∈ w, isBlank b = false) (h1 : w ≠ []) (h2 : w.head? ≠ some (ch '#'))
    (h3 : ch '\n' ∉ w) (h4 : ch '\n' ∉ args) (ha : args.dropWhile isBlank = args) (hr : readStmt w args = some s)
    (et : t = w ++ ch ' ' :: args ++ [ch '\n']) : Reads t [s] := by
  subst et
  refine Reads.line ?_ ?_
  · simp only [List.mem_append, List.mem_cons, not_or]
    exact ⟨h3, by decide, h4⟩
  · have := readLine_word (tab := []) (by simp) hw h1 h2 ha
    rw [List.nil_append, hr] at this
    exact this

theorem reads_label {n : Txt} (h : isSym n = true) : Reads (n ++ str ":\n") [.label n] := by
  have e : n ++ str ":\n" = (n ++ [ch ':']) ++ [ch '\n'] := by
    rw [List.append_assoc]; rfl
  rw [e]
  refine Reads.line ?_ ?_
  · simp only [List.mem_append, List.mem_singleton, not_or]
    exact ⟨sym_not h (by decide), by decide⟩
  · rw [readLine_alone]
    · have : readStmt (n ++ [ch ':']) [] = some (.label n) := by
        unfold readStmt
        rw [if_pos (by simp), List.dropLast_concat, if_pos ⟨h, rfl⟩]
      rw [this]
      rfl
    · intro b hb
      rcases List.mem_append.1 hb with hb | hb
      · exact sym_blank h b hb
      · rw [List.mem_singleton.1 hb]; decide
    · simp
    · obtain ⟨c, cs, rfl, _, _, hc⟩ := sym_cons h
      simp only [List.cons_append, List.head?_cons, ne_eq, Option.some.injEq]
      rintro rfl
      revert hc; decide

/-- The mnemonics are words that are no directives. -/
def mnCheck (m : Mn) : Bool :=
  let w := txt (mnName m)
  w.all (fun b => !isBlank b && b != ch '\n' && b != ch ':' && b != ch '.') && w != [] && w.head? != some (ch '#')

theorem mnCheck_all (m : Mn) : mnCheck m = true := by
  cases m <;> decide +kernel

theorem reads_ins {m : Mn} {args : Txt} {ops : List Operand} (h1 : readOperands args = some ops)
    (h2 : args.dropWhile isBlank = args) (h3 : ch '\n' ∉ args) :
    Reads (str "\t" ++ str (mnName m) ++ str " " ++ args ++ str "\n") [.ins (txt (mnName m)) ops] := by
  have hm := mnCheck_all m
  unfold mnCheck at hm
  simp only [Bool.and_eq_true, List.all_eq_true, bne_iff_ne, ne_eq, Bool.not_eq_true'] at hm
  obtain ⟨⟨hw, hne⟩, hh⟩ := hm
  have e : str "\t" ++ str (mnName m) ++ str " " ++ args ++ str "\n" =
      [ch '\t'] ++ (txt (mnName m) ++ ch ' ' :: args) ++ [ch '\n'] := by
    show [ch '\t'] ++ txt (mnName m) ++ [ch ' '] ++ args ++ [ch '\n'] = _
    simp
  rw [e]
  refine Reads.line ?_ ?_
  · simp only [List.mem_append, List.mem_cons, List.not_mem_nil, or_false, not_or]
    refine ⟨by decide, fun h => (hw _ h).1.1.2 rfl, by decide, h3⟩
  · rw [readLine_word (tab := [ch '\t']) (by
      intro b hb
      rw [List.mem_singleton.1 hb]
      decide) (fun b hb => (hw b hb).1.1.1) hne hh h2]
    have hdir : ∀ d : String, ch '.' ∈ txt d → txt (mnName m) ≠ txt d := by
      intro d hd e
      rw [← e] at hd
      exact (hw _ hd).2 rfl
    have hlast : (txt (mnName m)).getLast? ≠ some (ch ':') := by
      intro h
      exact (hw _ (List.mem_of_getLast? h)).1.2 rfl
    have : readStmt (txt (mnName m)) args = some (.ins (txt (mnName m)) ops) := by
      unfold readStmt
      rw [if_neg hlast, if_neg (hdir _ (by decide)), if_neg (hdir _ (by decide)), if_neg (hdir _ (by decide)),
        if_neg (hdir _ (by decide)), if_neg (hdir _ (by decide)), if_neg (hdir _ (by decide)), if_neg (hdir _ (by decide)), h1]
      rfl
    rw [this]
    rfl

theorem emitImm_nl {es : List Entry} (hs : Syms es) {ids : Nat → Int} {l : Option Nat} {v : BitVec 64} {t : Name}
    (h : emitImm es ids l v = .ok t) : ch '\n' ∉ t ∧ t.dropWhile isBlank = t := by
  have hc := emitImm_char hs h
  have ho : ∀ b ∈ t, opChar b = true := fun b hb => by simp [opChar, hc b hb]
  exact ⟨opChar_not ho (by decide), dropBlank_op ho⟩

theorem readStmt_section (args : Txt) : readStmt (txt ".section") args = if isSym args then some (.section args) else none := rfl
theorem readStmt_global (args : Txt) : readStmt (txt ".global") args = if isSym args then some (.global args) else none := rfl
theorem readStmt_quad (args : Txt) : readStmt (txt ".quad") args = (readExpr args).map fun e => .quad e.1 e.2 := rfl
theorem readStmt_byte (args : Txt) : readStmt (txt ".byte") args = (readInt args).map .byte := rfl
theorem readStmt_zero (args : Txt) : readStmt (txt ".zero") args = (readNat args).map .zero := rfl
theorem readStmt_align (args : Txt) : readStmt (txt ".align") args = (readNat args).map .align := rfl
theorem readStmt_string (s : Txt) : readStmt (txt ".string") (ch '"' :: s) = (readString s).map .string := rfl

/-- What one call prints is read as what it means; a section that is current already is not printed. -/
theorem emitLine_reads {es : List Entry} (hs : Syms es) {ids : Nat → Int} {cur cur' : Name} {l : Line} {t : Name}
    (h : emitLine es ids cur l = .ok (t, cur')) (hl : LineOk es ids l) :
    (t = [] ∧ l = .sect cur ∧ cur' = cur) ∨
    (Reads t (meant es ids l) ∧ cur' = (match l with | .sect s => s | _ => cur)) := by
  cases l with
  | sect s =>
    injection h with h
    injection h with h1 h2
    by_cases hc : s = cur
    · rw [if_neg (by simp [hc])] at h1
      exact .inl ⟨h1.symm, by rw [hc], by rw [← h2, hc]⟩
    · rw [if_pos hc] at h1
      refine .inr ⟨?_, h2.symm⟩
      refine reads_directive (w := txt ".section") (args := s) (by decide) (by decide) (by decide) (by decide)
        (sym_not hl (by decide)) (sym_drop hl) ?_ ?_
      · rw [readStmt_section, if_pos (show isSym s = true from hl)]
      · rw [← h1]; show txt ".section" ++ [ch ' '] ++ s ++ [ch '\n'] = _; simp
  | comment c =>
    injection h with h
    injection h with h1 h2
    refine .inr ⟨?_, h2.symm⟩
    rw [← h1]
    show Reads (ch '\t' :: ch '#' :: c ++ [ch '\n']) []
    refine Reads.line ?_ (readLine_comment c)
    simp only [List.mem_cons, not_or]
    exact ⟨by decide, by decide, hl⟩
  | label g k =>
    obtain ⟨a, ha, h⟩ := Res.bind_eq_ok.1 h
    obtain ⟨n, hn, h⟩ := Res.bind_eq_ok.1 h
    injection h with h
    injection h with h1 h2
    refine .inr ⟨?_, h2.symm⟩
    have hsym := getLabel_sym hs hn
    rw [← h1]
    show Reads _ (_ ++ _)
    rw [nameOf_eq hn, List.append_assoc]
    refine Reads.append ?_ (reads_label hsym)
    cases g with
    | false =>
      injection ha with ha
      rw [← ha]
      exact Reads.nil
    | true =>
      simp only [if_true] at ha
      obtain ⟨n', hn', ha⟩ := Res.bind_eq_ok.1 ha
      rw [hn] at hn'
      injection hn' with hn'
      subst hn'
      injection ha with ha
      refine reads_directive (w := txt ".global") (args := n) (by decide) (by decide) (by decide) (by decide)
        (sym_not hsym (by decide)) (sym_drop hsym) ?_ ?_
      · rw [readStmt_global, if_pos hsym]
      · rw [← ha]; show txt ".global" ++ [ch ' '] ++ n ++ [ch '\n'] = _; simp
  | string bs =>
    obtain ⟨a, ha, h⟩ := Res.bind_eq_ok.1 h
    injection h with h
    injection h with h1 h2
    refine .inr ⟨?_, h2.symm⟩
    obtain ⟨r1, r2⟩ := readString_emit ha
    have e : t = (ch '\t' :: (txt ".string" ++ ch ' ' :: (ch '"' :: (a ++ [ch '"'])))) ++ [ch '\n'] := by
      rw [← h1]
      show (ch '\t' :: txt ".string" ++ [ch ' ', ch '"']) ++ a ++ [ch '"', ch '\n'] = _
      simp
    rw [e]
    refine Reads.line ?_ ?_
    · simp only [List.mem_cons, List.mem_append, List.not_mem_nil, or_false, not_or]
      exact ⟨by decide, by decide, by decide, by decide, r2, by decide⟩
    · have := readLine_word (tab := [ch '\t']) (w := txt ".string") (args := ch '"' :: (a ++ [ch '"'])) (by decide) (by decide)
        (by decide) (by decide) (List.dropWhile_cons_of_neg (by decide))
      rw [readStmt_string, r1] at this
      exact this
  | ins i =>
    obtain ⟨a, ha, h⟩ := Res.bind_eq_ok.1 h
    injection h with h
    injection h with h1 h2
    refine .inr ⟨?_, h2.symm⟩
    obtain ⟨r1, r2, r3⟩ := readOperands_emit hs ha hl
    rw [← h1]
    show Reads _ [.ins (txt (AsmNames.spelling i.mn)) _]
    rw [← mnName_spelling]
    exact reads_ins r1 r2 r3
  | quad k v =>
    obtain ⟨a, ha, h⟩ := Res.bind_eq_ok.1 h
    injection h with h
    injection h with h1 h2
    refine .inr ⟨?_, h2.symm⟩
    have ha : emitImm es ids k (BitVec.ofInt 64 v) = .ok a := ha
    obtain ⟨n1, n2⟩ := emitImm_nl hs ha
    refine reads_directive (w := txt ".quad") (args := a) (by decide) (by decide) (by decide) (by decide) n1 n2 ?_ ?_
    · rw [readStmt_quad, readExpr_emitImm hs ha]; rfl
    · rw [← h1]; show txt ".quad" ++ [ch ' '] ++ a ++ [ch '\n'] = _; simp
  | byte v =>
    obtain ⟨a, ha, h⟩ := Res.bind_eq_ok.1 h
    injection h with h
    injection h with h1 h2
    refine .inr ⟨?_, h2.symm⟩
    have ha : emitImm es ids none (BitVec.ofInt 64 v) = .ok a := ha
    obtain ⟨n1, n2⟩ := emitImm_nl hs ha
    refine reads_directive (w := txt ".byte") (args := a) (by decide) (by decide) (by decide) (by decide) n1 n2 ?_ ?_
    · injection ha with ha
      rw [readStmt_byte, ← ha, readInt_pri]; rfl
    · rw [← h1]; show txt ".byte" ++ [ch ' '] ++ a ++ [ch '\n'] = _; simp
  | zero n =>
    injection h with h
    injection h with h1 h2
    refine .inr ⟨?_, h2.symm⟩
    refine reads_directive (w := txt ".zero") (args := dec n) (by decide) (by decide) (by decide) (by decide)
      (dec_nl n) (dec_drop n) ?_ ?_
    · rw [readStmt_zero, readNat_dec]; rfl
    · rw [← h1]; show txt ".zero" ++ [ch ' '] ++ dec n ++ [ch '\n'] = _; simp
  | align n =>
    injection h with h
    injection h with h1 h2
    refine .inr ⟨?_, h2.symm⟩
    refine reads_directive (w := txt ".align") (args := dec n) (by decide) (by decide) (by decide) (by decide)
      (dec_nl n) (dec_drop n) ?_ ?_
    · rw [readStmt_align, readNat_dec]; rfl
    · rw [← h1]; show txt ".align" ++ [ch ' '] ++ dec n ++ [ch '\n'] = _; simp

end Verif.AsmText
