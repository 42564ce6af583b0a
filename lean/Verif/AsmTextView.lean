import Verif.AsmTextLines
import Verif.ObjectProps
/-!
Lemmas for AsmTextProps.lean: whole texts, and the object of the same calls.
-/
namespace Verif.AsmText
open Verif Asm AsmTextSpec
open Verif.Object (Name str Entry getLabel)
open Verif.ObjectSpec (Call CallOf CallsOf View Shows view step quadBytes)

/-! ### Sections that are current already -/

/-- The statements without the section statements that change nothing. -/
def squeeze : Txt → List Stmt → List Stmt
  | _, [] => []
  | cur, s :: ss =>
    match s with
    | .section n => if n = cur then squeeze cur ss else .section n :: squeeze n ss
    | s => s :: squeeze cur ss

theorem placeIn_squeeze (cur : Txt) (ss : List Stmt) : placeIn cur (squeeze cur ss) = placeIn cur ss := by
  induction ss generalizing cur with
  | nil => rfl
  | cons s ss ih =>
    cases s with
    | «section» n =>
      show placeIn cur (if n = cur then squeeze cur ss else .section n :: squeeze n ss) = placeIn n ss
      split
      · next e => rw [ih, e]
      · exact ih n
    | _ => exact congrArg (List.cons (cur, _)) (ih cur)

theorem globals_squeeze (cur : Txt) (ss : List Stmt) : globals (squeeze cur ss) = globals ss := by
  induction ss generalizing cur with
  | nil => rfl
  | cons s ss ih =>
    cases s with
    | «section» n =>
      show globals (if n = cur then squeeze cur ss else .section n :: squeeze n ss) = globals ss
      split
      · exact ih cur
      · exact ih n
    | global n => exact congrArg (n :: ·) (ih cur)
    | _ => exact ih cur

/-- No call changes the section. -/
def Stays (cs : List Call) : Prop := ∀ c ∈ cs, ∀ n, c ≠ .sect n

theorem stays_cur {cs : List Call} (h : Stays cs) (v : View) : (cs.foldl step v).cur = v.cur := by
  induction cs generalizing v with
  | nil => rfl
  | cons c cs ih =>
    rw [List.foldl_cons, ih (fun x hx => h x (List.mem_cons_of_mem _ hx))]
    cases c with
    | sect n => exact absurd rfl (h _ (List.mem_cons_self ..) n)
    | _ => rfl

theorem foldl_squeeze (enc : Txt → List Operand → List Call) (gs : List Txt) {ss : List Stmt}
    (h : ∀ m ops, .ins m ops ∈ ss → Stays (enc m ops)) (cur : Txt) {v : View} (hv : v.cur = cur) :
    (((squeeze cur ss).map (stmtCalls enc gs)).flatten).foldl step v = ((ss.map (stmtCalls enc gs)).flatten).foldl step v := by
  induction ss generalizing cur v with
  | nil => rfl
  | cons s ss ih =>
    have h' : ∀ m ops, .ins m ops ∈ ss → Stays (enc m ops) := fun m ops hm => h m ops (List.mem_cons_of_mem _ hm)
    have other : Stays (stmtCalls enc gs s) → squeeze cur (s :: ss) = s :: squeeze cur ss →
        (((squeeze cur (s :: ss)).map (stmtCalls enc gs)).flatten).foldl step v =
        (((s :: ss).map (stmtCalls enc gs)).flatten).foldl step v := by
      intro hs e
      rw [e, List.map_cons, List.flatten_cons, List.foldl_append, List.map_cons, List.flatten_cons, List.foldl_append]
      exact ih h' cur (by rw [stays_cur hs, hv])
    cases s with
    | «section» n =>
      show (((if n = cur then squeeze cur ss else .section n :: squeeze n ss).map (stmtCalls enc gs)).flatten).foldl step v =
        ((ss.map (stmtCalls enc gs)).flatten).foldl step { v with cur := n }
      split
      · next e =>
        rw [ih h' cur hv, e, ← hv]
      · exact ih h' n rfl
    | ins m ops => exact other (h m ops (List.mem_cons_self ..)) rfl
    | global n => exact other (by intro c hc; cases hc) rfl
    | quad l k =>
      refine other ?_ rfl
      cases l <;> · intro c hc n e; subst e; simp [stmtCalls] at hc
    | _ =>
      refine other ?_ rfl
      intro c hc n e; subst e; simp [stmtCalls] at hc

/-! ### Texts -/

theorem squeeze_append {cur : Txt} {a b : List Stmt} (h : ∀ s ∈ a, ∀ n, s ≠ .section n) :
    squeeze cur (a ++ b) = a ++ squeeze cur b := by
  induction a with
  | nil => rfl
  | cons s a ih =>
    have ih := ih fun x hx => h x (List.mem_cons_of_mem _ hx)
    have hs := h s (List.mem_cons_self ..)
    rw [List.cons_append, List.cons_append, ← ih]
    cases s <;> first | rfl | exact absurd rfl (hs _)

theorem meant_sect {es : List Entry} {ids : Nat → Int} {l : Line} (h : ∀ s, l ≠ .sect s) :
    ∀ s ∈ meant es ids l, ∀ n, s ≠ .section n := by
  intro s hs n e
  subst e
  cases l with
  | sect s => exact h s rfl
  | label g k => cases g <;> simp [meant] at hs
  | _ => simp [meant] at hs

theorem emitLines_reads {es : List Entry} (hs : Syms es) {ids : Nat → Int} : ∀ {ls : List Line} {cur : Name} {t : Name},
    emitLines es ids cur ls = .ok t → (∀ l ∈ ls, LineOk es ids l) →
    Reads t (squeeze cur (ls.map (meant es ids)).flatten) := by
  intro ls
  induction ls with
  | nil =>
    intro cur t h _
    injection h with h; subst h
    exact Reads.nil
  | cons l ls ih =>
    intro cur t h hl
    obtain ⟨⟨a, cur'⟩, ha, h⟩ := Res.bind_eq_ok.1 h
    obtain ⟨b, hb, h⟩ := Res.bind_eq_ok.1 h
    injection h with h; subst h
    have hr := ih hb (fun x hx => hl x (List.mem_cons_of_mem _ hx))
    rw [List.map_cons, List.flatten_cons]
    rcases emitLine_reads hs ha (hl l (List.mem_cons_self ..)) with ⟨h1, h2, h3⟩ | ⟨h1, h2⟩
    · subst h1 h2 h3
      show Reads b (squeeze cur' (.section cur' :: _))
      unfold squeeze
      dsimp only
      rw [if_pos rfl]
      exact hr
    · by_cases hsect : ∃ s, l = .sect s
      · obtain ⟨s, rfl⟩ := hsect
        have h2 : cur' = s := h2
        subst h2
        show Reads (a ++ b) (squeeze cur (.section cur' :: _))
        unfold squeeze
        dsimp only
        split
        · next e =>
          exfalso
          have ha : Res.ok (if cur' ≠ cur then str ".section " ++ cur' ++ str "\n" else [], cur') = Res.ok (a, cur') := ha
          rw [if_neg (by simp [e])] at ha
          injection ha with ha
          injection ha with ha _
          subst ha
          have := h1.readText
          simp [meant, AsmTextSpec.readText, splitOn, all] at this
        · exact Reads.append h1 hr
      · have hsect : ∀ s, l ≠ .sect s := fun s e => hsect ⟨s, e⟩
        have h2 : cur' = cur := by
          cases l with
          | sect s => exact absurd rfl (hsect s)
          | _ => exact h2
        subst h2
        rw [squeeze_append (meant_sect hsect)]
        exact Reads.append h1 hr

/-! ### Objects -/

theorem asmRels_ops {ids : Nat → Int} {len : Nat} : ∀ {rs : List Encode.Rel} {os : List Object.Op},
    Assemble.asmRels ids len rs = .ok os → ∀ n, .sect n ∉ os := by
  intro rs
  induction rs with
  | nil => intro os h n; injection h with h; subst h; simp
  | cons r rs ih =>
    intro os h n
    obtain ⟨a, ha, h⟩ := Res.bind_eq_ok.1 h
    obtain ⟨b, hb, h⟩ := Res.bind_eq_ok.1 h
    injection h with h; subst h
    have : Object.Op.sect n ≠ a := by
      rintro rfl
      unfold Assemble.asmRel at ha
      repeat' split at ha
      all_goals (first | cases ha | skip)
    simp only [List.mem_cons, not_or]
    exact ⟨this, ih hb n⟩

theorem asmIns_ops {ids : Nat → Int} {i : Ins} {os : List Object.Op} (h : Assemble.asmIns ids i = .ok os) :
    ∀ n, .sect n ∉ os := by
  intro n
  obtain ⟨a, ha, h⟩ := Res.bind_eq_ok.1 h
  split at h
  · cases h
  · obtain ⟨b, hb, h⟩ := Res.bind_eq_ok.1 h
    injection h with h; subst h
    simp only [List.mem_append, List.mem_singleton, not_or]
    exact ⟨asmRels_ops hb n, by simp⟩

theorem callsOf_stays {es : List Entry} : ∀ {os : List Object.Op} {cs : List Call}, CallsOf es os cs → (∀ n, .sect n ∉ os) →
    Stays cs := by
  intro os
  induction os with
  | nil =>
    intro cs h _
    cases cs with
    | nil => intro c hc; cases hc
    | cons => exact h.elim
  | cons o os ih =>
    intro cs h hn
    cases cs with
    | nil => exact h.elim
    | cons c cs =>
      obtain ⟨h1, h2⟩ := h
      intro x hx n e
      subst e
      rcases List.mem_cons.1 hx with hx | hx
      · subst hx
        cases o with
        | sect m => exact hn m (List.mem_cons_self ..)
        | write bs => cases h1
        | quad v => cases h1
        | zero k => cases h1
        | align k => cases h1.1
        | label g id => obtain ⟨_, _, _, h⟩ := h1; cases h
        | reloc id off add ty => obtain ⟨_, _, _, h⟩ := h1; cases h
      · exact ih h2 (fun n hm => hn n (List.mem_cons_of_mem _ hm)) _ hx n rfl

theorem objLines_mem {ids : Nat → Int} : ∀ {ls : List Line} {ops : List Object.Op}, objLines ids ls = .ok ops →
    ∀ l ∈ ls, ∃ os, objLine ids l = .ok os := by
  intro ls
  induction ls with
  | nil => intro ops _ l hl; cases hl
  | cons x ls ih =>
    intro ops h l hl
    obtain ⟨a, ha, h⟩ := Res.bind_eq_ok.1 h
    obtain ⟨b, hb, h⟩ := Res.bind_eq_ok.1 h
    rcases List.mem_cons.1 hl with rfl | hl
    · exact ⟨a, ha⟩
    · exact ih hb l hl

theorem no_sect {es : List Entry} {ids : Nat → Int} {ls : List Line} {ops : List Object.Op} (ho : objLines ids ls = .ok ops)
    {enc : Txt → List Operand → List Call}
    (henc : ∀ i, .ins i ∈ ls → ∀ os, Assemble.asmIns ids i = .ok os →
      CallsOf es os (enc (txt (AsmNames.spelling i.mn)) (i.ops.map (meantOp es ids)))) :
    ∀ m os, .ins m os ∈ (ls.map (meant es ids)).flatten → Stays (enc m os) := by
  intro m os hm
  obtain ⟨x, hx, hm⟩ := List.mem_flatten.1 hm
  obtain ⟨l, hl, rfl⟩ := List.mem_map.1 hx
  cases l with
  | ins i =>
    simp only [meant, List.mem_singleton, Stmt.ins.injEq] at hm
    obtain ⟨rfl, rfl⟩ := hm
    obtain ⟨os, hos⟩ := objLines_mem ho _ hl
    exact callsOf_stays (henc i hl os hos) (asmIns_ops hos)
  | label g k => cases g <;> simp [meant] at hm
  | _ => simp [meant] at hm

/-- What the flag of each label is. -/
theorem flags_of {es : List Entry} {ids : Nat → Int} {ls : List Line}
    (hg : ∀ l g l' g', .label g l ∈ ls → .label g' l' ∈ ls → nameOf es ids l = nameOf es ids l' → g = g') :
    ∀ l g, .label g l ∈ ls → (globals (ls.map (meant es ids)).flatten).contains (nameOf es ids l) = g := by
  intro l g hl
  cases g with
  | true =>
    rw [List.contains_iff_mem]
    refine List.mem_filterMap.2 ⟨.global (nameOf es ids l), List.mem_flatten.2 ⟨_, List.mem_map.2 ⟨_, hl, rfl⟩, ?_⟩, rfl⟩
    simp [meant]
  | false =>
    rw [← Bool.not_eq_true, List.contains_iff_mem]
    intro hm
    obtain ⟨s, hs, e⟩ := List.mem_filterMap.1 hm
    cases s with
    | global n =>
      injection e with e; subst e
      obtain ⟨x, hx, hm⟩ := List.mem_flatten.1 hs
      obtain ⟨l', hl', rfl⟩ := List.mem_map.1 hx
      cases l' with
      | label g k =>
        cases g with
        | false => simp [meant] at hm
        | true =>
          simp only [meant, if_true, List.singleton_append, List.mem_cons, Stmt.global.injEq, reduceCtorEq,
            List.not_mem_nil, or_false] at hm
          have := hg _ _ _ _ hl hl' hm
          cases this
      | _ => simp [meant] at hm
    | _ => cases e

theorem foldl_emit2 (a b : List Byte) (v : View) : [Call.emit a, .emit b].foldl step v = [Call.emit (a ++ b)].foldl step v :=
  Object.emit_emit v a b

theorem objLine_calls {es : List Entry} (hs : Syms es) {ids : Nat → Int} {cur cur' : Name} {l : Line} {t : Name} {ops : List Object.Op}
    {gs : List Txt} (h : emitLine es ids cur l = .ok (t, cur')) (ho : objLine ids l = .ok ops)
    {enc : Txt → List Operand → List Call}
    (henc : ∀ i, l = .ins i → ∀ os, Assemble.asmIns ids i = .ok os →
      CallsOf es os (enc (txt (AsmNames.spelling i.mn)) (i.ops.map (meantOp es ids))))
    (hid : ∀ l, ids l ≠ -1) (hal : ∀ n, l = .align n → 0 < n)
    (hg : ∀ k g, l = .label g k → gs.contains (nameOf es ids k) = g) :
    ∃ calls, CallsOf es ops calls ∧
      ∀ v, calls.foldl step v = (((meant es ids l).map (stmtCalls enc gs)).flatten).foldl step v := by
  cases l with
  | sect n =>
    injection ho with ho; subst ho
    exact ⟨[.sect n], ⟨rfl, trivial⟩, fun v => rfl⟩
  | comment c =>
    injection ho with ho; subst ho
    exact ⟨[], trivial, fun v => rfl⟩
  | label g k =>
    injection ho with ho; subst ho
    obtain ⟨a, ha, h⟩ := Res.bind_eq_ok.1 h
    obtain ⟨n, hn, h⟩ := Res.bind_eq_ok.1 h
    refine ⟨[.define n g], ⟨⟨n, hn, hid k, rfl⟩, trivial⟩, fun v => ?_⟩
    have e := nameOf_eq hn
    have := hg k g rfl
    rw [e] at this
    cases g with
    | false =>
      show _ = [Call.define (nameOf es ids k) (gs.contains (nameOf es ids k))].foldl step v
      rw [e, this]
    | true =>
      show _ = [Call.define (nameOf es ids k) (gs.contains (nameOf es ids k))].foldl step v
      rw [e, this]
  | string bs =>
    injection ho with ho; subst ho
    exact ⟨[.emit bs, .emit [0]], ⟨rfl, rfl, trivial⟩, fun v => foldl_emit2 bs [0] v⟩
  | ins i =>
    refine ⟨_, henc i rfl ops ho, fun v => ?_⟩
    simp [meant, stmtCalls]
  | quad k x =>
    cases k with
    | none =>
      injection ho with ho; subst ho
      refine ⟨[.emit (quadBytes (BitVec.ofInt 64 x))], ⟨rfl, trivial⟩, fun v => ?_⟩
      show _ = [Call.emit (quadBytes (BitVec.ofInt 64 (BitVec.ofInt 64 x).toInt))].foldl step v
      rw [BitVec.ofInt_toInt]
    | some k =>
      injection ho with ho; subst ho
      obtain ⟨a, ha, h⟩ := Res.bind_eq_ok.1 h
      obtain ⟨n, hn, _⟩ := Res.bind_eq_ok.1 ha
      refine ⟨[.refer ⟨.r64, n, 0, BitVec.ofInt 64 x⟩, .emit (quadBytes 0)], ⟨⟨n, hn, hid k, rfl⟩, rfl, trivial⟩, fun v => ?_⟩
      have : quadBytes 0 = List.replicate 8 0 := by decide
      rw [this]
      show _ = [Call.refer ⟨.r64, nameOf es ids k, 0, BitVec.ofInt 64 (BitVec.ofInt 64 x).toInt⟩, .emit (List.replicate 8 0)].foldl step v
      rw [BitVec.ofInt_toInt, nameOf_eq hn]
  | byte x =>
    injection ho with ho; subst ho
    refine ⟨[.emit [(BitVec.ofInt 64 x).setWidth 8]], ⟨rfl, trivial⟩, fun v => ?_⟩
    have : (BitVec.ofInt 64 x).setWidth 8 = BitVec.ofInt 8 (BitVec.ofInt 64 x).toInt := by
      apply BitVec.eq_of_toInt_eq
      rw [BitVec.toInt_setWidth, BitVec.toInt_ofInt]
      have h1 := BitVec.toInt_eq_toNat_bmod (BitVec.ofInt 64 x)
      rw [h1]
      rw [Int.bmod_bmod_of_dvd (by decide)]
    rw [this]
    rfl
  | zero n =>
    injection ho with ho; subst ho
    exact ⟨[.emit (List.replicate n 0)], ⟨rfl, trivial⟩, fun v => rfl⟩
  | align n =>
    injection ho with ho; subst ho
    exact ⟨[.align n], ⟨⟨rfl, hal n rfl⟩, trivial⟩, fun v => rfl⟩

theorem objLines_calls {es : List Entry} (hs : Syms es) {ids : Nat → Int} {gs : List Txt} {enc : Txt → List Operand → List Call}
    (hid : ∀ l, ids l ≠ -1) : ∀ {ls : List Line} {cur t : Name} {ops : List Object.Op},
    emitLines es ids cur ls = .ok t → objLines ids ls = .ok ops →
    (∀ i, .ins i ∈ ls → ∀ os, Assemble.asmIns ids i = .ok os →
      CallsOf es os (enc (txt (AsmNames.spelling i.mn)) (i.ops.map (meantOp es ids)))) →
    (∀ n, .align n ∈ ls → 0 < n) →
    (∀ k g, .label g k ∈ ls → gs.contains (nameOf es ids k) = g) →
    ∃ calls, CallsOf es ops calls ∧
      ∀ v, calls.foldl step v = (((ls.map (meant es ids)).flatten.map (stmtCalls enc gs)).flatten).foldl step v := by
  intro ls
  induction ls with
  | nil =>
    intro cur t ops _ ho _ _ _
    injection ho with ho; subst ho
    exact ⟨[], trivial, fun v => rfl⟩
  | cons l ls ih =>
    intro cur t ops h ho henc hal hg
    obtain ⟨⟨a, cur'⟩, ha, h⟩ := Res.bind_eq_ok.1 h
    obtain ⟨b, hb, _⟩ := Res.bind_eq_ok.1 h
    obtain ⟨x, hx, ho⟩ := Res.bind_eq_ok.1 ho
    obtain ⟨y, hy, ho⟩ := Res.bind_eq_ok.1 ho
    injection ho with ho; subst ho
    obtain ⟨c1, k1, v1⟩ := objLine_calls (gs := gs) (enc := enc) hs ha hx (fun i e => henc i (by rw [e]; exact List.mem_cons_self ..)) hid
      (fun n e => hal n (by rw [e]; exact List.mem_cons_self ..)) (fun k g e => hg k g (by rw [e]; exact List.mem_cons_self ..))
    obtain ⟨c2, k2, v2⟩ := ih hb hy (fun i hi => henc i (List.mem_cons_of_mem _ hi)) (fun n hn => hal n (List.mem_cons_of_mem _ hn))
      (fun k g hk => hg k g (List.mem_cons_of_mem _ hk))
    refine ⟨c1 ++ c2, Object.callsOf_append k1 k2, fun v => ?_⟩
    rw [List.foldl_append, v1, v2, List.map_cons, List.flatten_cons, List.map_append, List.flatten_append, List.foldl_append]

/-! ### Which calls are written -/

/-- The registers have sizes. -/
def SizesOk : Opd → Prop
  | .reg _ size => size = 8 ∨ size = 4 ∨ size = 2 ∨ size = 1
  | _ => True

/-- The label of an operand has a name. -/
def Named (es : List Entry) (ids : Nat → Int) (l : Nat) : Prop := ∃ n, getLabel es (ids l) = .ok n

/-- The labels of the call have names, its registers sizes. -/
def Writable (es : List Entry) (ids : Nat → Int) : Line → Prop
  | .label _ l => Named es ids l
  | .ins i => ∀ o ∈ i.ops, SizesOk o ∧ ∀ l v, o = .imm (some l) v ∨ o = .abs (some l) v → Named es ids l
  | .quad (some l) _ => Named es ids l
  | _ => True

theorem regName_ok (r : Reg) {size : Nat} (h : size = 8 ∨ size = 4 ∨ size = 2 ∨ size = 1) : ∃ n, regName r size = .ok n := by
  rcases h with rfl | rfl | rfl | rfl <;> cases r <;> exact ⟨_, rfl⟩

theorem emitImm_ok {es : List Entry} {ids : Nat → Int} {l : Option Nat} (v : BitVec 64) (h : ∀ k, l = some k → Named es ids k) :
    ∃ t, emitImm es ids l v = .ok t := by
  cases l with
  | none => exact ⟨_, rfl⟩
  | some k =>
    obtain ⟨n, hn⟩ := h k rfl
    unfold emitImm emitLabel
    dsimp only
    rw [hn, Res.bind_ok]
    split <;> exact ⟨_, rfl⟩

theorem emitOperand_ok {es : List Entry} {ids : Nat → Int} {o : Opd} (h : SizesOk o)
    (hn : ∀ l v, o = .imm (some l) v ∨ o = .abs (some l) v → Named es ids l) : ∃ t, emitOperand es ids o = .ok t := by
  cases o with
  | reg r s => exact regName_ok r h
  | xmm i => exact ⟨_, rfl⟩
  | star r =>
    obtain ⟨n, e⟩ := regName_ok r (.inl rfl)
    exact ⟨ch '*' :: n, by unfold emitOperand; dsimp only; rw [e, Res.bind_ok]; rfl⟩
  | imm l v =>
    obtain ⟨n, e⟩ := emitImm_ok (es := es) (ids := ids) (l := l) (BitVec.ofInt 64 v) (fun k hk => hn k v (by rw [hk]; exact .inl rfl))
    exact ⟨ch '$' :: n, by unfold emitOperand; dsimp only; rw [e, Res.bind_ok]; rfl⟩
  | abs l v => exact emitImm_ok (BitVec.ofInt 64 v) (fun k hk => hn k v (by rw [hk]; exact .inr rfl))
  | mem off base =>
    obtain ⟨n, e⟩ := regName_ok base (.inl rfl)
    exact ⟨_, by unfold emitOperand; dsimp only; rw [e, Res.bind_ok]; rfl⟩

theorem emitTail_ok {es : List Entry} {ids : Nat → Int} {os : List Opd}
    (h : ∀ o ∈ os, SizesOk o ∧ ∀ l v, o = .imm (some l) v ∨ o = .abs (some l) v → Named es ids l) :
    ∃ t, emitTail es ids os = .ok t := by
  induction os with
  | nil => exact ⟨_, rfl⟩
  | cons o os ih =>
    obtain ⟨a, ha⟩ := emitOperand_ok (h o (List.mem_cons_self ..)).1 (h o (List.mem_cons_self ..)).2
    obtain ⟨b, hb⟩ := ih fun x hx => h x (List.mem_cons_of_mem _ hx)
    exact ⟨_, by unfold emitTail; rw [ha, Res.bind_ok, hb, Res.bind_ok]; rfl⟩

theorem emitChars_ok {bs : List Byte} (h : (127 : Byte) ∉ bs) : ∃ t, emitChars bs = .ok t := by
  induction bs with
  | nil => exact ⟨_, rfl⟩
  | cons c cs ih =>
    simp only [List.mem_cons, not_or] at h
    obtain ⟨a, ha⟩ : ∃ a, Escape.printChar c false = .ok a := by
      have := charCheck_all c (fun e => h.1 (BitVec.eq_of_toNat_eq e.symm))
      unfold charCheck at this
      cases hp : Escape.printChar c false with
      | ok a => exact ⟨a, rfl⟩
      | fail => rw [hp] at this; cases this
      | ub => rw [hp] at this; cases this
    obtain ⟨b, hb⟩ := ih h.2
    exact ⟨_, by unfold emitChars; rw [ha, Res.bind_ok, hb, Res.bind_ok]; rfl⟩

theorem emitLine_ok {es : List Entry} {ids : Nat → Int} (cur : Name) {l : Line} (h : Writable es ids l)
    (hd : ∀ bs, l = .string bs → (127 : Byte) ∉ bs) : ∃ x, emitLine es ids cur l = .ok x := by
  cases l with
  | sect s => exact ⟨_, rfl⟩
  | comment c => exact ⟨_, rfl⟩
  | label g k =>
    obtain ⟨n, hn⟩ := h
    have hn : emitLabel es ids k = .ok n := hn
    cases g <;> exact ⟨_, by simp [emitLine, hn]; rfl⟩
  | string bs =>
    obtain ⟨a, ha⟩ := emitChars_ok (hd bs rfl)
    exact ⟨_, by unfold emitLine; dsimp only; rw [ha, Res.bind_ok]; rfl⟩
  | ins i =>
    have : ∃ t, emitOperands es ids i.ops = .ok t := by
      have h : ∀ o ∈ i.ops, SizesOk o ∧ ∀ l v, o = .imm (some l) v ∨ o = .abs (some l) v → Named es ids l := h
      cases hops : i.ops with
      | nil => exact ⟨_, rfl⟩
      | cons o os =>
        rw [hops] at h
        obtain ⟨a, ha⟩ := emitOperand_ok (h o (List.mem_cons_self ..)).1 (h o (List.mem_cons_self ..)).2
        obtain ⟨b, hb⟩ := emitTail_ok fun x hx => h x (List.mem_cons_of_mem _ hx)
        exact ⟨_, by unfold emitOperands; dsimp only; rw [ha, Res.bind_ok, hb, Res.bind_ok]; rfl⟩
    obtain ⟨a, ha⟩ := this
    exact ⟨_, by unfold emitLine; dsimp only; rw [ha, Res.bind_ok]; rfl⟩
  | quad k v =>
    obtain ⟨a, ha⟩ := emitImm_ok (es := es) (ids := ids) (l := k) (BitVec.ofInt 64 v) (fun j hj => by subst hj; exact h)
    have ha : emitOperand es ids (.abs k v) = .ok a := ha
    exact ⟨_, by unfold emitLine; dsimp only; rw [ha, Res.bind_ok]; rfl⟩
  | byte v => exact ⟨_, rfl⟩
  | zero n => exact ⟨_, rfl⟩
  | align n => exact ⟨_, rfl⟩

end Verif.AsmText
