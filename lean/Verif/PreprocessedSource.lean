import Verif.PreprocessedText
import Verif.TokenizerProps
import Verif.EscapeProps
import Verif.MacroLemmas
/-! What `-E` prints for the tokens of a source without directives and macros. -/
namespace Verif.PreprocessedLemmas
open Verif TokenizerSpec PreprocessedSpec
open Verif.Tokenizer (kind_cases Shows Agrees Linked isIdent_kind)
open Verif.Preprocessed

/-! ### The text that was read -/

theorem lexes_white {P : Ctx → List Byte → List Byte → Prop} {c : Ctx} {t : List Char'} {l : List Item} (h : Lexes P c t l) (hc : c.white = true) :
    ∀ i l', l = i :: l' → i.white = true := by
  induction h with
  | done c => intro i l' e; cases e
  | newline h ih => exact ih rfl
  | blank h1 h2 h ih => exact ih rfl
  | lineComment h1 h2 h3 h ih => exact ih rfl
  | blockComment h1 h2 h3 h ih => exact ih rfl
  | header h1 h2 h3 h ih => intro i l' e; cases e; exact hc
  | token h1 h2 h3 h4 h ih => intro i l' e; cases e; exact hc

/-- A token without white space before it follows immediately. -/
theorem lexes_next {P : Ctx → List Byte → List Byte → Prop} {c : Ctx} {t : List Char'} {l : List Item} (h : Lexes P c t l) :
    ∀ i l', l = i :: l' → i.white = false → ∃ r, bytes t = i.text ++ r ∧ i.text ≠ [] := by
  intro i l' e hw
  cases h with
  | done c => cases e
  | newline h => rw [lexes_white h rfl i l' e] at hw; cases hw
  | blank h1 h2 h => rw [lexes_white h rfl i l' e] at hw; cases hw
  | lineComment h1 h2 h3 h => rw [lexes_white h rfl i l' e] at hw; cases hw
  | blockComment h1 h2 h3 h => rw [lexes_white h rfl i l' e] at hw; cases hw
  | @header _ n w r body _ h1 h2 h3 h =>
    cases e
    exact ⟨bytes r, by simp [bytes], by simp [bytes]⟩
  | @token _ b n w r k _ h1 h2 h3 h4 h =>
    cases e
    exact ⟨bytes r, by simp [bytes], by simp [bytes]⟩

/-- Items that follow one another without white space are `Apart`. -/
inductive Joined : List Item → Prop
  | nil : Joined []
  | last {i : Item} : Joined [i]
  | cons {i j : Item} {l : List Item} : j.white = true ∨ Apart i.text j.text → Joined (j :: l) → Joined (i :: j :: l)

theorem lexes_joined {c : Ctx} {t : List Char'} {l : List Item} (h : Lexes Supported c t l) (hh : ∀ i ∈ l, i.kind ≠ .PP_HEADER_NAME_H) : Joined l := by
  induction h with
  | done c => exact .nil
  | newline h ih => exact ih hh
  | blank h1 h2 h ih => exact ih hh
  | lineComment h1 h2 h3 h ih => exact ih hh
  | blockComment h1 h2 h3 h ih => exact ih hh
  | header h1 h2 h3 h ih => exact absurd rfl (hh _ (List.mem_cons_self ..))
  | @token c b n w r k l h1 h2 h3 h4 h ih =>
    have ih := ih (fun i hi => hh i (by simp [hi]))
    cases l with
    | nil => exact .last
    | cons j l =>
      refine .cons ?_ ih
      cases hj : j.white with
      | true => exact .inl rfl
      | false =>
        right
        obtain ⟨s, e, hne⟩ := lexes_next h j l rfl hj
        show Apart (bytes ((b, n) :: w)) j.text
        have hhead : (bytes r).head? = j.text.head? := by
          rw [e]
          cases ht : j.text with
          | nil => exact absurd ht hne
          | cons => rfl
        refine ⟨fun m h5 h6 => ?_, ?_, ?_⟩
        · have := h3.2 m h5 (by rw [e]; simp only [List.length_append] at h6 ⊢; omega)
          rw [e, ← List.append_assoc, List.take_append_of_le_length h6] at this
          exact this
        · rintro ⟨g1, g2⟩
          exact h4.dots g1 (by rw [hhead]; exact g2)
        · rintro ⟨g1, g2⟩
          apply h1
          have e2 : bytes ((b, n) :: w ++ r) = bytes ((b, n) :: w) ++ bytes r := by simp [bytes]
          rw [e2, g1]
          rw [← hhead] at g2
          cases hr : bytes r with
          | nil => rw [hr] at g2; simp at g2
          | cons y s' =>
            rw [hr] at g2
            simp only [List.head?_cons, Option.some.injEq] at g2
            rcases g2 with rfl | rfl
            · exact .inl rfl
            · exact .inr rfl

theorem lexes_kind {c : Ctx} {t : List Char'} {l : List Item} (h : Lexes Supported c t l) :
    ∀ i ∈ l, i.kind ≠ .PP_HEADER_NAME_H → i.kind ≠ .PP_DIRECTIVE → kind i.text = some i.kind ∧ i.text ∉ digraphs := by
  induction h with
  | done c => intro i hi; cases hi
  | newline h ih => exact ih
  | blank h1 h2 h ih => exact ih
  | lineComment h1 h2 h3 h ih => exact ih
  | blockComment h1 h2 h3 h ih => exact ih
  | header h1 h2 h3 h ih =>
    intro i hi h4 h5
    rcases List.mem_cons.1 hi with rfl | hi
    · exact absurd rfl h4
    · exact ih i hi h4 h5
  | @token c b n w r k l h1 h2 h3 h4 h ih =>
    intro i hi h5 h6
    rcases List.mem_cons.1 hi with rfl | hi
    · have hk : inContext c k = k := by
        unfold inContext at h6 ⊢
        split
        · rename_i e; rw [if_pos e] at h6; exact absurd rfl h6
        · rfl
      refine ⟨?_, h4.digraph⟩
      show kind (bytes ((b, n) :: w)) = some (inContext c k)
      rw [hk]; exact h3.1
    · exact ih i hi h5 h6

/-! ### The expander -/

/-- Nothing to be replaced. -/
def Inert (env : Str → Option DefineMap.Define) (t : Tok) : Prop :=
  t.type ≠ .T_EOI ∧ (t.type = .T_IDENT → env t.str = none ∧ t.str ≠ str "__LINE__" ∧ t.str ≠ str "__FILE__")

theorem next_inert {env : Str → Option DefineMap.Define} {n : Nat} {t : Tok} {ts : List Tok} (h : Inert env t) :
    Macro.next env (n + 1) { src := t :: ts } = .ok (t, { src := ts }) := by
  have hx : Macro.expand env true true (n + 1) { src := t :: ts } = .ok (some t, { src := ts }) := by
    unfold Macro.expand
    simp only [Bool.not_true, Bool.false_and, Bool.false_eq_true, if_false, Macro.take, if_true, Run.bind_ok]
    rw [if_neg h.1]
    by_cases hi : t.type ≠ .T_IDENT ∨ StringSet.contains t.hs t.str
    · rw [if_pos hi]
    · rw [if_neg hi]
      have ht : t.type = .T_IDENT := by
        by_cases e : t.type = .T_IDENT
        · exact e
        · exact absurd (.inl e) hi
      obtain ⟨h1, h2, h3⟩ := h.2 ht
      have hb : Macro.builtin t = none := by unfold Macro.builtin; rw [if_neg h2, if_neg h3]
      rw [hb]
      simp only [h1]
  unfold Macro.next
  rw [hx]
  rfl

theorem expanded_inert {env : Str → Option DefineMap.Define} {n : Nat} : ∀ (ts : List Tok), (∀ t ∈ ts, Inert env t) → ∀ f, ts.length < f →
    expanded env (n + 1) f { src := ts } = .ok ts
  | [], _, 0, h => by simp at h
  | [], _, f + 1, _ => by
    simp [expanded, Macro.next, Macro.expand, Macro.take, Macro.eoi]
  | t :: ts, _, 0, h => by simp at h
  | t :: ts, hi, f + 1, h => by
    rw [expanded, next_inert (hi t (by simp)), Run.bind_ok]
    simp only [if_neg (hi t (by simp)).1, expanded_inert ts (fun u hu => hi u (by simp [hu])) f (by simp at h; omega)]
    rfl

/-! ### Strings and keywords -/

theorem getIdent_spec (s : Str) : (∃ k ∈ keywords, str k.1 = s ∧ getIdent s = k.2) ∨ (getIdent s = .T_IDENT ∧ ∀ k ∈ keywords, str k.1 ≠ s) := by
  have t1 : keyTable.all (fun e => keywords.any fun k => decide (str k.1 = e.2 ∧ k.2 = e.1)) = true := by decide +kernel
  have t2 : keywords.all (fun k => keyTable.any fun e => decide (e.2 = str k.1)) = true := by decide +kernel
  unfold getIdent
  cases h : keyTable.find? fun e => e.2 == s with
  | some e =>
    left
    have h1 := List.mem_of_find?_eq_some h
    have h2 : e.2 = s := by simpa using List.find?_some h
    have := List.all_eq_true.1 t1 e h1
    obtain ⟨k, hk, hk2⟩ := List.any_eq_true.1 this
    have hk2 := of_decide_eq_true hk2
    exact ⟨k, hk, by rw [hk2.1, h2], hk2.2.symm⟩
  | none =>
    right
    refine ⟨rfl, fun k hk e => ?_⟩
    obtain ⟨x, hx, hx2⟩ := List.any_eq_true.1 (List.all_eq_true.1 t2 k hk)
    have hx2 := of_decide_eq_true hx2
    have := List.find?_eq_none.1 h x hx
    simp [hx2, e] at this

/-- The items that are printed faithfully. -/
structure Plain (i : Item) : Prop where
  short : Short i.text
  kind : i.kind ≠ .T_CHARACTER_CONSTANT ∧ i.kind ≠ .PP_HASH ∧ i.kind ≠ .PP_HHASH ∧ i.kind ≠ .PP_DIRECTIVE ∧ i.kind ≠ .PP_HEADER_NAME_H
  string : i.kind = .T_STRING → ∃ cps : List Nat, (∀ c ∈ cps, Harmless c) ∧
    i.text = ch '"' :: EscapeSpec.renderAll (cps.map .plain) ++ [ch '"']

/-- A string is not followed by a string or an identifier. -/
inductive Spaced : List Item → Prop
  | nil : Spaced []
  | last {i : Item} : Spaced [i]
  | cons {i j : Item} {l : List Item} : (i.kind = .T_STRING → j.kind ≠ .T_STRING ∧ j.kind ≠ .T_IDENT) → Spaced (j :: l) → Spaced (i :: j :: l)

/-- What becomes of a token. -/
def Becomes (t : Tok) (i : Item) (u : Tok) : Prop :=
  Spelled u i.text ∧ u.firstOfLine = t.firstOfLine ∧ u.whitespace = t.whitespace ∧ u.whitespaceAfter = t.whitespaceAfter

inductive AllBecome : List Tok → List Item → List Tok → Prop
  | nil : AllBecome [] [] []
  | cons {t : Tok} {ts : List Tok} {i : Item} {l : List Item} {u : Tok} {us : List Tok} : Becomes t i u → AllBecome ts l us →
    AllBecome (t :: ts) (i :: l) (u :: us)

theorem concat_string {cps : List Nat} (h : ∀ c ∈ cps, Harmless c) :
    Escape.concatStrings [ch '"' :: EscapeSpec.renderAll (cps.map .plain) ++ [ch '"']] =
      .ok (.default, EscapeSpec.renderAll (cps.map .plain) ++ [0]) := by
  have := Escape.concat_strings_partial .default [(.default, cps.map .plain)] ⟨fun l hl => .inl (by simp at hl; rw [hl]), .inl rfl⟩
    (fun l hl => by simp at hl; rw [hl]; exact body_wf h)
    (fun l hl i hi => by
      simp at hl; rw [hl] at hi
      simp at hi
      obtain ⟨c, _, rfl⟩ := hi
      intro e; cases e)
  have e : EscapeSpec.denoteAll (Escape.enc .default) (cps.map .plain) = EscapeSpec.renderAll (cps.map .plain) := denote_plain cps
  simp only [List.map_cons, List.map_nil, List.flatten_cons, List.flatten_nil, List.append_nil, e] at this
  exact this

/-- Of a token that is not a string. -/
theorem single_ok {t : Tok} {i : Item} (hs : Shows t i) (hp : Plain i) (hk : kind i.text = some i.kind) (hd : i.text ∉ digraphs)
    (hn : i.kind ≠ .T_STRING) : ∃ u, single t = .ok u ∧ Becomes t i u ∧ (i.kind ≠ .T_IDENT → u = t) := by
  by_cases hi : i.kind = .T_IDENT
  · have ht : t.type = .T_IDENT := by rw [hs.kind, hi]
    have hid : isIdent i.text = true := by
      rcases kind_cases hk with ⟨h, -⟩ | ⟨-, -, e⟩ | ⟨-, e⟩ | ⟨-, e⟩ | ⟨-, -, h⟩
      · exact h
      · rw [hi] at e; cases e
      · rw [hi] at e; cases e
      · rw [hi] at e; cases e
      · rw [hi] at h
        have ht : punctuators.all (fun p => decide (p.2 ≠ .T_IDENT)) = true := by decide +kernel
        exact absurd rfl (of_decide_eq_true (List.all_eq_true.1 ht _ (Tokenizer.lookup_mem h)))
    refine ⟨{ t with type := getIdent t.str }, by unfold single; rw [if_pos ht], ⟨?_, rfl, rfl, rfl⟩, fun h => absurd hi h⟩
    rcases getIdent_spec i.text with ⟨k, hk1, hk2, hk3⟩ | ⟨h1, h2⟩
    · rw [← hk2]
      refine .keyword hk1 ?_
      show getIdent t.str = k.2
      rw [hs.text, hk3]
    · have : Spelled { t with type := getIdent t.str } ({ t with type := getIdent t.str } : Tok).str :=
        .ident (by show getIdent t.str = _; rw [hs.text, h1]) (by show isIdent t.str = true; rw [hs.text]; exact hid)
          (by show ∀ k ∈ keywords, _ ≠ t.str; rw [hs.text]; exact h2)
      rw [← hs.text]; exact this
  · refine ⟨t, ?_, ⟨?_, rfl, rfl, rfl⟩, fun _ => rfl⟩
    · unfold single
      rw [if_neg (by rw [hs.kind]; exact hi), if_neg (by rw [hs.kind]; exact hp.kind.1)]
    · rcases kind_cases hk with ⟨-, e⟩ | ⟨-, h, e⟩ | ⟨-, e⟩ | ⟨-, e⟩ | ⟨-, -, h⟩
      · exact absurd e hi
      · rw [← hs.text]
        exact .number (by rw [hs.kind, e]) (by rw [hs.text]; exact h)
      · exact absurd e hn
      · exact absurd e hp.kind.1
      · refine .punctuator ?_ hd ?_ ?_
        · rw [hs.kind]; exact Tokenizer.lookup_mem h
        · rw [hs.kind]; exact hp.kind.2.1
        · rw [hs.kind]; exact hp.kind.2.2.1

theorem concat_ok : ∀ (n : Nat) (ts : List Tok) (l : List Item), ts.length ≤ n → Agrees ts l → (∀ i ∈ l, Plain i ∧ kind i.text = some i.kind ∧ i.text ∉ digraphs) →
    Spaced l → ∃ us, concat n ts = .ok us ∧ AllBecome ts l us := by
  intro n
  induction n using Nat.strongRecOn with
  | _ n ih =>
    intro ts l hl ha hp hsp
    match ts, l, ha with
    | [], [], _ => cases n <;> exact ⟨[], rfl, .nil⟩
    | t :: ts, i :: l, ha =>
      obtain ⟨hs, ha⟩ := ha
      obtain ⟨n, rfl⟩ : ∃ m, n = m + 1 := ⟨n - 1, by simp at hl; omega⟩
      obtain ⟨hp1, hk1, hd1⟩ := hp i (by simp)
      have hp' : ∀ i ∈ l, Plain i ∧ kind i.text = some i.kind ∧ i.text ∉ digraphs := fun j hj => hp j (by simp [hj])
      have hlt : ts.length ≤ n := by simp at hl; omega
      by_cases hst : i.kind = .T_STRING
      · obtain ⟨cps, hc, ht⟩ := hp1.string hst
        have hts : isString t = true := by unfold Preprocessed.isString; rw [hs.kind, hst]; rfl
        have hu : Becomes t i { t with type := stringType .default, str := EscapeSpec.renderAll (cps.map .plain) ++ [0] } := by
          refine ⟨?_, rfl, rfl, rfl⟩
          rw [ht]
          exact .string rfl hc rfl
        match ts, l, ha, hsp, hp', hlt with
        | [], [], _, _, _, _ =>
          refine ⟨[{ t with type := stringType .default, str := EscapeSpec.renderAll (cps.map .plain) ++ [0] }], ?_, .cons hu .nil⟩
          rw [concat, if_pos hts]
          simp only [List.takeWhile_nil, List.map_nil, List.dropWhile_nil]
          rw [hs.text, ht, concat_string hc]
          rfl
        | p :: ts, j :: l, ha, hsp, hp', hlt =>
          obtain ⟨hsj, ha⟩ := ha
          obtain ⟨hpj, hkj, hdj⟩ := hp' j (by simp)
          cases hsp with
          | cons hij hsp =>
            obtain ⟨hj1, hj2⟩ := hij hst
            have hps : isString p = false := by
              unfold Preprocessed.isString
              rw [hsj.kind]
              simpa using hj1
            obtain ⟨v, hv1, hv2, hv3⟩ := single_ok hsj hpj hkj hdj hj1
            obtain rfl := hv3 hj2
            have hsp' : Spaced l := by
              cases hsp with
              | last => exact .nil
              | cons _ h => exact h
            obtain ⟨us, h1, h2⟩ := ih n (by omega) ts l (by simp at hlt; omega) ha (fun x hx => hp' x (by simp [hx])) hsp'
            refine ⟨{ t with type := stringType .default, str := EscapeSpec.renderAll (cps.map .plain) ++ [0] } :: v :: us, ?_,
              .cons hu (.cons hv2 h2)⟩
            rw [concat, if_pos hts]
            simp only [List.takeWhile_cons, hps, List.map_nil, List.dropWhile_cons, Bool.false_eq_true, if_false]
            rw [hs.text, ht, concat_string hc]
            simp only [Res.bind_ok, h1]
            rfl
      · have hts : ¬ isString t = true := by
          unfold Preprocessed.isString
          rw [hs.kind]
          simpa using hst
        obtain ⟨u, hu1, hu2, -⟩ := single_ok hs hp1 hk1 hd1 hst
        have hsp' : Spaced l := by
          cases hsp with
          | last => exact .nil
          | cons _ h => exact h
        obtain ⟨us, h1, h2⟩ := ih n (by omega) ts l hlt ha hp' hsp'
        refine ⟨u :: us, ?_, .cons hu2 h2⟩
        rw [concat, if_neg hts, hu1]
        simp only [Res.bind_ok, h1]
        rfl

/-- The tokens with their spellings. -/
theorem become_pairs {ts : List Tok} {l : List Item} {us : List Tok} (h : AllBecome ts l us) (ha : Agrees ts l) (hl : Linked ts) (hj : Joined l) :
    ∃ ps : List (Tok × List Byte), ps.map (·.1) = us ∧ ps.map (·.2) = l.map (·.text) ∧ (∀ p ∈ ps, Spelled p.1 p.2) ∧ Separated ps := by
  induction h with
  | nil => exact ⟨[], rfl, rfl, (fun p hp => by cases hp), .nil⟩
  | @cons t ts i l u us hb h ih =>
    obtain ⟨hs, ha⟩ := ha
    have hl' : Linked ts := by
      cases hl with
      | last => exact .nil
      | cons _ _ hl => exact hl
    have hj' : Joined l := by
      cases hj with
      | last => exact .nil
      | cons _ hj => exact hj
    obtain ⟨ps, h1, h2, h3, h4⟩ := ih ha hl' hj'
    refine ⟨(u, i.text) :: ps, by simp [h1], by simp [h2], ?_, ?_⟩
    · intro p hp
      rcases List.mem_cons.1 hp with rfl | hp
      · exact hb.1
      · exact h3 p hp
    · cases h with
      | nil =>
        cases ps with
        | nil => exact .last
        | cons p ps => simp at h1
      | @cons t2 ts i2 l u2 us hb2 h =>
        cases ps with
        | nil => simp at h1
        | cons p ps =>
          have e1 : p.1 = u2 := by simp at h1; exact h1.1
          have e2 : p.2 = i2.text := by simp at h2; exact h2.1
          refine .cons ?_ h4
          obtain ⟨hs2, -⟩ := ha
          cases hl with
          | cons hw hf hlk =>
            cases hj with
            | cons hij hjk =>
              rcases hij with hij | hij
              · left
                show u.whitespaceAfter = true
                rw [hb.2.2.2, hw, hs2.white, hij]
              · right; right; right
                rw [e2]; exact hij

end Verif.PreprocessedLemmas
