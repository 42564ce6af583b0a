import Verif.AssembleSpec
import Verif.ObjectNameLemmas
/-! Lemmas for C97: sections of an object keep their names. -/
namespace Verif.Assemble
open Verif ObjectSpec
open Verif.Object (Obj Name Section Entry run)

/-! ### Sections keep their names -/

theorem section_kept {es : List Entry} {op : Object.Op} {c : Call} {o o' : Obj} {v : View} (h : Object.Good o v) (hc : CallOf es op c)
    (hs : Object.step es o op = .ok o') {i : Nat} {t : Section} (ht : o.sections[i]? = some t) :
    ∃ t', o'.sections[i]? = some t' ∧ t'.name = t.name := by
  have on : ∀ {o o' : Obj} {f : Section → Section}, Object.onSection o f = .ok o' → (∀ s, (f s).name = s.name) →
      ∀ {t : Section}, o.sections[i]? = some t → ∃ t', o'.sections[i]? = some t' ∧ t'.name = t.name := by
    intro o o' f ho hf t ht
    unfold Object.onSection at ho
    split at ho
    · next s hs =>
      injection ho with ho; subst ho
      dsimp only
      by_cases hi : o.cur = i
      · subst hi
        have hlt := (List.getElem?_eq_some_iff.1 ht).1
        rw [List.getElem?_set_self hlt]
        rw [hs] at ht; injection ht with ht; subst ht
        exact ⟨_, rfl, hf _⟩
      · rw [List.getElem?_set_ne hi]; exact ⟨t, ht, rfl⟩
    · cases ho
  have wr : ∀ {o o' : Obj} {bs : List Byte}, Object.write o bs = .ok o' → ∀ {t : Section}, o.sections[i]? = some t →
      ∃ t', o'.sections[i]? = some t' ∧ t'.name = t.name := by
    intro o o' bs h t ht
    unfold Object.write at h
    exact on h (fun _ => rfl) ht
  have sy : ∀ {o o' : Obj} {id : Int} {k : Nat}, Object.getSymbol es o id = .ok (o', k) → o'.sections = o.sections := by
    intro o o' id k h
    unfold Object.getSymbol at h
    obtain ⟨n, _, h⟩ := Res.bind_eq_ok.1 h
    split at h <;> (injection h with h; injection h with h1 h2; subst h1; rfl)
  cases op with
  | sect n =>
    injection hs with hs; subst hs
    unfold Object.setSection
    split
    · exact ⟨t, ht, rfl⟩
    · refine ⟨t, ?_, rfl⟩
      dsimp only
      rw [List.getElem?_append_left (List.getElem?_eq_some_iff.1 ht).1]
      exact ht
  | write bs => exact wr hs ht
  | quad v =>
    simp only [Object.step, Object.writeQuad] at hs
    obtain ⟨o1, e1, hs⟩ := Res.bind_eq_ok.1 hs
    obtain ⟨o2, e2, hs⟩ := Res.bind_eq_ok.1 hs
    obtain ⟨o3, e3, hs⟩ := Res.bind_eq_ok.1 hs
    obtain ⟨o4, e4, hs⟩ := Res.bind_eq_ok.1 hs
    obtain ⟨o5, e5, hs⟩ := Res.bind_eq_ok.1 hs
    obtain ⟨o6, e6, hs⟩ := Res.bind_eq_ok.1 hs
    obtain ⟨o7, e7, hs⟩ := Res.bind_eq_ok.1 hs
    obtain ⟨t1, h1, n1⟩ := wr e1 ht
    obtain ⟨t2, h2, n2⟩ := wr e2 h1
    obtain ⟨t3, h3, n3⟩ := wr e3 h2
    obtain ⟨t4, h4, n4⟩ := wr e4 h3
    obtain ⟨t5, h5, n5⟩ := wr e5 h4
    obtain ⟨t6, h6, n6⟩ := wr e6 h5
    obtain ⟨t7, h7, n7⟩ := wr e7 h6
    obtain ⟨t8, h8, n8⟩ := wr hs h7
    exact ⟨t8, h8, by rw [n8, n7, n6, n5, n4, n3, n2, n1]⟩
  | zero n => exact wr hs ht
  | align n =>
    simp only [Object.step, Object.align] at hs
    split at hs
    · cases hs
    · split at hs
      · cases hs
      · split at hs
        · injection hs with hs; subst hs; exact ⟨t, ht, rfl⟩
        · obtain ⟨o1, e1, hs⟩ := Res.bind_eq_ok.1 hs
          obtain ⟨t1, h1, n1⟩ := wr e1 ht
          obtain ⟨t2, h2, n2⟩ := on hs (fun _ => rfl) h1
          exact ⟨t2, h2, by rw [n2, n1]⟩
  | label g id =>
    simp only [Object.step, Object.symbolSet] at hs
    split at hs
    · cases hs
    · obtain ⟨⟨o1, k⟩, e1, hs⟩ := Res.bind_eq_ok.1 hs
      split at hs
      · cases hs
      · injection hs with hs; subst hs
        exact ⟨t, by dsimp only; rw [sy e1]; exact ht, rfl⟩
  | reloc id off add ty =>
    simp only [Object.step, Object.symbolRelocate] at hs
    obtain ⟨⟨o1, k⟩, e1, hs⟩ := Res.bind_eq_ok.1 hs
    exact on hs (fun _ => rfl) (by rw [sy e1]; exact ht)

theorem sections_kept {es : List Entry} : ∀ {ops : List Object.Op} {cs : List Call} {o o' : Obj} {v : View}, Object.Good o v →
    CallsOf es ops cs → run es o ops = .ok o' → ∀ {i : Nat} {t : Section}, o.sections[i]? = some t →
    ∃ t', o'.sections[i]? = some t' ∧ t'.name = t.name
  | [], _, o, o', v, _, _, h, i, t, ht => by injection h with h; subst h; exact ⟨t, ht, rfl⟩
  | op :: ops, [], _, _, _, _, hc, _, _, _, _ => hc.elim
  | op :: ops, c :: cs, o, o', v, hg, hc, h, i, t, ht => by
    obtain ⟨o1, e1, h1⟩ := Object.good_step hg hc.1
    rw [run, e1, Res.bind_ok] at h
    obtain ⟨t1, h2, n1⟩ := section_kept hg hc.1 e1 ht
    obtain ⟨t2, h3, n2⟩ := sections_kept h1 hc.2 h h2
    exact ⟨t2, h3, by rw [n2, n1]⟩

theorem run_append {es : List Entry} : ∀ {a b : List Object.Op} {o o' : Obj}, run es o (a ++ b) = .ok o' →
    ∃ o1, run es o a = .ok o1 ∧ run es o1 b = .ok o'
  | [], b, o, o', h => ⟨o, rfl, h⟩
  | x :: a, b, o, o', h => by
    rw [List.cons_append, run] at h
    obtain ⟨o1, e1, h⟩ := Res.bind_eq_ok.1 h
    obtain ⟨o2, h1, h2⟩ := run_append h
    exact ⟨o2, by rw [run, e1, Res.bind_ok]; exact h1, h2⟩

end Verif.Assemble
