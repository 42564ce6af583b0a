import Verif.TokenizerTokenLemmas
/-!
Helper lemmas: punctuators, and the token at a position.
-/
namespace Verif.Tokenizer
open Verif TokenizerSpec

set_option maxRecDepth 4000

theorem bytes_cons {w : List Char'} {b : Byte} {l : List Byte} (h : bytes w = b :: l) : ∃ x w', w = x :: w' ∧ x.1 = b ∧ bytes w' = l := by
  cases w with
  | nil => cases h
  | cons x w =>
    simp only [bytes, List.map_cons, List.cons.injEq] at h
    exact ⟨x, w, rfl, h.1, h.2⟩

theorem bytes_nil {w : List Char'} (h : bytes w = []) : w = [] := by simpa [bytes] using h

theorem alts_stop {w : List Byte} {b : Byte} (hs : b = 0 ∨ kind (w ++ [b]) = none) (l : List Char)
    (h : l.all (fun c => decide (c ∈ selfChars) && (kind (w ++ [ch c])).isSome && decide (ch c ≠ 0)) = true) :
    ∀ c ∈ l, c ∈ selfChars ∧ b ≠ ch c := by
  intro c hc
  have := List.all_eq_true.1 h c hc
  simp only [Bool.and_eq_true, decide_eq_true_eq] at this
  exact ⟨this.1.1, stops hs c this.1.2 this.2⟩

/-- What a successful scan is. -/
def Scans (m f : Nat) (s : St) (fl : Flags) (first : Bool) (w r : List Char') (k : TType) (fl' : Flags) : Prop :=
  ∃ s', scan f s fl first = .ok (k, s', fl') ∧ Reads s (bytes w) s' ∧ At m s' r

/-- First characters for which the scan looks into `opTable`. -/
def opFirst (c : Char) : Bool :=
  decide (c ∈ selfChars ∧ ¬ wordClass c.toNat ∧ c.toNat ≠ '.'.toNat ∧ c.toNat ≠ '#'.toNat ∧ c.toNat ≠ '<'.toNat)

theorem scan_op {m f : Nat} {s : St} {fl : Flags} {first : Bool} {x : Char'} {w r : List Char'} {k : TType} (c : Char) (g : St → Run (TType × St))
    (h : At m s (x :: w ++ r)) (hx : x.1 = ch c) (hc : opFirst c = true)
    (hf : (opTable.find? fun a => a.1.toNat == c.toNat) = some (c, g))
    (hg : ∃ s', g s = .ok (k, s') ∧ Reads s (bytes (x :: w)) s' ∧ At m s' r) : Scans m f s fl first (x :: w) r k fl := by
  obtain ⟨s', e, hr, ha⟩ := hg
  obtain ⟨h1, h2, h3, h4, h5⟩ := of_decide_eq_true hc
  refine ⟨s', ?_, hr, ha⟩
  have hsc : s.c = c.toNat := (h.is h1).2 hx
  rw [scan, hsc, if_neg h2, if_neg h3, if_neg h4, if_neg h5, hf]
  simp only
  rw [e]
  rfl

theorem op_one {m f : Nat} {s : St} {fl : Flags} {first : Bool} {w r : List Char'} {k : TType} (c : Char)
    (alts : List (Char × (St → Run (TType × St)))) (h : At m s (w ++ r)) (hw : bytes w = [ch c]) (hc : opFirst c = true)
    (hs : headByte r = 0 ∨ kind (bytes w ++ [headByte r]) = none)
    (hf : (opTable.find? fun a => a.1.toNat == c.toNat) = some (c, op k alts))
    (ha : (alts.map Prod.fst).all (fun d => decide (d ∈ selfChars) && (kind ([ch c] ++ [ch d])).isSome && decide (ch d ≠ 0)) = true) :
    Scans m f s fl first w r k fl := by
  rw [hw] at hs
  obtain ⟨x, w', rfl, hx, hw'⟩ := bytes_cons hw
  have := bytes_nil hw'
  subst this
  exact scan_op c _ h hx hc hf (op_end h (alts_stop hs _ ha))

theorem op_two {m f : Nat} {s : St} {fl : Flags} {first : Bool} {w r : List Char'} {k t : TType} (c d : Char)
    (alts alts2 : List (Char × (St → Run (TType × St)))) (h : At m s (w ++ r)) (hw : bytes w = [ch c, ch d]) (hc : opFirst c = true)
    (hs : headByte r = 0 ∨ kind (bytes w ++ [headByte r]) = none) (hd : d ∈ selfChars)
    (hf : (opTable.find? fun a => a.1.toNat == c.toNat) = some (c, op t alts))
    (hf2 : (alts.find? fun a => a.1.toNat == d.toNat) = some (d, op k alts2))
    (ha : (alts2.map Prod.fst).all (fun e => decide (e ∈ selfChars) && (kind ([ch c, ch d] ++ [ch e])).isSome && decide (ch e ≠ 0)) = true) :
    Scans m f s fl first w r k fl := by
  rw [hw] at hs
  obtain ⟨x, w', rfl, hx, hw'⟩ := bytes_cons hw
  obtain ⟨y, w'', rfl, hy, hw''⟩ := bytes_cons hw'
  have := bytes_nil hw''
  subst this
  exact scan_op c _ h hx hc hf (op_go (w := []) h hd hy hf2 fun s1 h1 => op_end h1 (alts_stop hs _ ha))

theorem shift_assign {m f : Nat} {s : St} {fl : Flags} {first : Bool} {w r : List Char'} (h : At m s (w ++ r)) (hw : bytes w = str ">>=") :
    Scans m f s fl first w r .T_RSHIFTA fl := by
  obtain ⟨x, w', rfl, hx, hw'⟩ := bytes_cons hw
  obtain ⟨y, w', rfl, hy, hw'⟩ := bytes_cons hw'
  obtain ⟨z, w', rfl, hz, hw'⟩ := bytes_cons hw'
  have := bytes_nil hw'
  subst this
  refine scan_op '>' _ h hx (by decide) rfl (op_go (w := [z]) (c := '>') h (by decide) hy rfl fun s1 h1 => ?_)
  exact op_go (w := []) (c := '=') h1 (by decide) hz rfl fun s2 h2 => op_end h2 (by simp)

theorem scan_less {m f : Nat} {s : St} {fl : Flags} {first : Bool} {x : Char'} {w r : List Char'} {k : TType}
    (h : At m s (x :: w ++ r)) (hx : x.1 = ch '<') (hh : fl.header = false)
    (hg : ∃ s', less s = .ok (k, s') ∧ Reads s (bytes (x :: w)) s' ∧ At m s' r) : Scans m f s fl first (x :: w) r k fl := by
  obtain ⟨s', e, hr, ha⟩ := hg
  refine ⟨s', ?_, hr, ha⟩
  have hsc : s.c = '<'.toNat := (h.is (by decide)).2 hx
  rw [scan, hsc, if_neg (by decide), if_neg (by decide), if_neg (by decide), if_pos rfl, hh]
  simp only [Bool.false_eq_true, if_false]
  rw [e]
  rfl

theorem less_ok {m f : Nat} {s : St} {fl : Flags} {first : Bool} {w r : List Char'} {k : TType} (h : At m s (w ++ r))
    (hh : fl.header = false) (hs : headByte r = 0 ∨ kind (bytes w ++ [headByte r]) = none)
    (hw : (bytes w = str "<" ∧ k = .T_L) ∨ (bytes w = str "<<" ∧ k = .T_LSHIFT) ∨ (bytes w = str "<=" ∧ k = .T_LEQ) ∨
      (bytes w = str "<<=" ∧ k = .T_LSHIFTA)) : Scans m f s fl first w r k fl := by
  rcases hw with ⟨hw, rfl⟩ | ⟨hw, rfl⟩ | ⟨hw, rfl⟩ | ⟨hw, rfl⟩ <;> rw [hw] at hs
  · obtain ⟨x, w', rfl, hx, hw'⟩ := bytes_cons hw
    have := bytes_nil hw'
    subst this
    exact scan_less h hx hh (op_end h (alts_stop hs _ (by decide +kernel)))
  · obtain ⟨x, w', rfl, hx, hw'⟩ := bytes_cons hw
    obtain ⟨y, w', rfl, hy, hw'⟩ := bytes_cons hw'
    have := bytes_nil hw'
    subst this
    exact scan_less h hx hh (op_go (w := []) (c := '<') h (by decide) hy rfl fun s1 h1 => op_end h1 (alts_stop hs _ (by decide +kernel)))
  · obtain ⟨x, w', rfl, hx, hw'⟩ := bytes_cons hw
    obtain ⟨y, w', rfl, hy, hw'⟩ := bytes_cons hw'
    have := bytes_nil hw'
    subst this
    exact scan_less h hx hh (op_go (w := []) (c := '=') h (by decide) hy rfl fun s1 h1 => op_end h1 (by simp))
  · obtain ⟨x, w', rfl, hx, hw'⟩ := bytes_cons hw
    obtain ⟨y, w', rfl, hy, hw'⟩ := bytes_cons hw'
    obtain ⟨z, w', rfl, hz, hw'⟩ := bytes_cons hw'
    have := bytes_nil hw'
    subst this
    refine scan_less h hx hh (op_go (w := [z]) (c := '<') h (by decide) hy rfl fun s1 h1 => ?_)
    exact op_go (w := []) (c := '=') h1 (by decide) hz rfl fun s2 h2 => op_end h2 (by simp)

/-- The scan at a period. -/
theorem scan_dot {m f : Nat} {s : St} {fl : Flags} {first : Bool} {x : Char'} {w r : List Char'} {k : TType}
    (h : At m s (x :: w ++ r)) (hx : x.1 = ch '.')
    (hg : ∃ s', dot f s = .ok (k, s') ∧ Reads s (bytes (x :: w)) s' ∧ At m s' r) : Scans m f s fl first (x :: w) r k fl := by
  obtain ⟨s', e, hr, ha⟩ := hg
  refine ⟨s', ?_, hr, ha⟩
  have hsc : s.c = '.'.toNat := (h.is (by decide)).2 hx
  rw [scan, hsc, if_neg (by decide), if_pos rfl, e]
  rfl

theorem dot_ok {m f : Nat} {s : St} {x : Char'} {r : List Char'} (h : At m s (x :: r)) (hd : headByte r ≠ ch '.')
    (hs : isDigit (headByte r) = false) : ∃ s', dot f s = .ok (.T_DOT, s') ∧ Reads s (bytes [x]) s' ∧ At m s' r := by
  obtain ⟨s1, e1, h1, hx1⟩ := At.read h
  refine ⟨s1, ?_, hx1 (.refl s1), h1⟩
  obtain ⟨n1, n2⟩ := (words_table (headByte r)).2.2 hs
  rw [← h1.c] at n1 n2
  rw [dot, e1]
  simp only [Run.bind_ok]
  rw [if_neg (by rintro (e | e) <;> contradiction), if_neg (fun e => hd ((h1.is (by decide)).1 e))]

theorem ellipsis_ok {m f : Nat} {s : St} {x y z : Char'} {r : List Char'} (h : At m s (x :: y :: z :: r)) (hy : y.1 = ch '.') (hz : z.1 = ch '.') :
    ∃ s', dot f s = .ok (.T_ELLIPSIS, s') ∧ Reads s (bytes [x, y, z]) s' ∧ At m s' r := by
  obtain ⟨s1, e1, h1, hx1⟩ := At.read h
  obtain ⟨s2, e2, h2, hx2⟩ := At.read h1
  obtain ⟨s3, e3, h3, hx3⟩ := At.read h2
  refine ⟨s3, ?_, hx1 (hx2 (hx3 (.refl s3))), h3⟩
  have hc1 : s1.c = '.'.toNat := (h1.is (by decide)).2 hy
  have hc2 : s2.c = '.'.toNat := (h2.is (by decide)).2 hz
  rw [dot, e1]
  simp only [Run.bind_ok]
  rw [if_neg (by rw [hc1]; decide), if_pos hc1, e2]
  simp only [Run.bind_ok]
  rw [if_neg (by simp [hc2]), e3]
  rfl

theorem dotNumber_ok {m f : Nat} {s : St} {x d : Char'} {w r : List Char'} (h : At m s (x :: d :: w ++ r)) (hd : isDigit d.1 = true)
    (hw : numberTail .plain (bytes w) = true) (hn : NoNames (bytes w)) (hl : ∀ b ∈ bytes w, b < 128)
    (hr : numberTail .plain (bytes w ++ [headByte r]) = false) (hq : headByte r ≠ ch '\'') (hf : w.length < f) :
    ∃ s', dot f s = .ok (.T_NUM, s') ∧ Reads s (bytes (x :: d :: w)) s' ∧ At m s' r := by
  obtain ⟨s1, e1, h1, hx1⟩ := At.read (t := d :: w ++ r) h
  obtain ⟨s2, e2, h2, hx2⟩ := At.read (t := w ++ r) h1
  obtain ⟨s3, e3, hr3, h3⟩ := number_reads h2 hw hn hl hr hq hf
  refine ⟨s3, ?_, hx1 (hx2 hr3), h3⟩
  have hc : s1.c = EQ_DECIMAL ∨ s1.c = '8'.toNat := by
    have hc1 : s1.c = eq d.1 := h1.c
    rw [hc1]
    rcases (words_table d.1).2.1 hd with e | e
    · exact .inr e
    · exact .inl e
  rw [dot, e1]
  simp only [Run.bind_ok]
  rw [if_pos hc, e2]
  simp only [Run.bind_ok]
  rw [e3]
  rfl

theorem hash_ok {m f : Nat} {s : St} {fl : Flags} {first : Bool} {x : Char'} {r : List Char'} (h : At m s (x :: r)) (hx : x.1 = ch '#')
    (hs : headByte r ≠ ch '#') :
    Scans m f s fl first [x] r (if first then .PP_DIRECTIVE else .PP_HASH) (if first then { fl with directive := true } else fl) := by
  obtain ⟨s1, e1, h1, hx1⟩ := At.read h
  refine ⟨s1, ?_, hx1 (.refl s1), h1⟩
  have hsc : s.c = '#'.toNat := (h.is (by decide)).2 hx
  rw [scan, hsc, if_neg (by decide), if_neg (by decide), if_pos rfl, hash, e1]
  simp only [Run.bind_ok]
  rw [if_neg (fun e => hs ((h1.is (by decide)).1 e))]
  cases first <;> rfl

theorem hashHash_ok {m f : Nat} {s : St} {fl : Flags} {first : Bool} {x y : Char'} {r : List Char'} (h : At m s (x :: y :: r)) (hx : x.1 = ch '#')
    (hy : y.1 = ch '#') : Scans m f s fl first [x, y] r .PP_HHASH fl := by
  obtain ⟨s1, e1, h1, hx1⟩ := At.read h
  obtain ⟨s2, e2, h2, hx2⟩ := At.read h1
  refine ⟨s2, ?_, hx1 (hx2 (.refl s2)), h2⟩
  have hsc : s.c = '#'.toNat := (h.is (by decide)).2 hx
  rw [scan, hsc, if_neg (by decide), if_neg (by decide), if_pos rfl, hash, e1]
  simp only [Run.bind_ok]
  rw [if_pos ((h1.is (by decide)).2 hy), e2]
  rfl

theorem scan_word {m f : Nat} {s : St} {fl : Flags} {first : Bool} {w r : List Char'} {k : TType} (hc : wordClass s.c)
    (hg : ∃ s', scanWord f s = .ok (k, s') ∧ Reads s (bytes w) s' ∧ At m s' r) : Scans m f s fl first w r k fl := by
  obtain ⟨s', e, hr, ha⟩ := hg
  refine ⟨s', ?_, hr, ha⟩
  rw [scan, if_pos hc, e]
  rfl

theorem lookup_mem {w : List Byte} {k : TType} : ∀ {l : List (Str × TType)}, l.lookup w = some k → (w, k) ∈ l := by
  intro l
  induction l with
  | nil => intro h; cases h
  | cons a l ih =>
    intro h
    rw [List.lookup] at h
    split at h
    · rename_i hb
      cases h
      simp only [beq_iff_eq] at hb
      rw [hb]
      exact List.mem_cons_self
    · exact List.mem_cons_of_mem _ (ih h)

/-- The flags after a token. -/
def flagsAfter (fl : Flags) (k : TType) : Flags := if k = .PP_DIRECTIVE then { fl with directive := true } else fl

/-- Punctuators that begin with neither `/` nor, in an include directive, `<`. -/
theorem scan_punct {m f : Nat} {s : St} {fl : Flags} {c : Ctx} {w r : List Char'} {k : TType} (h : At m s (w ++ r))
    (hw : punctuators.lookup (bytes w) = some k) (hs : headByte r = 0 ∨ kind (bytes w ++ [headByte r]) = none)
    (hd : bytes w ∉ digraphs) (hdots : bytes w = str "." → headByte r ≠ ch '.')
    (hslash : (bytes w).head? ≠ some (ch '/')) (hless : (bytes w).head? = some (ch '<') → fl.header = false) :
    Scans m f s fl c.first w r (inContext c k) (flagsAfter fl (inContext c k)) := by
  have hm := lookup_mem hw
  -- anything but `#` keeps its kind
  have keep : k ≠ .PP_HASH → k ≠ .PP_DIRECTIVE → Scans m f s fl c.first w r k fl →
      Scans m f s fl c.first w r (inContext c k) (flagsAfter fl (inContext c k)) := by
    intro h1 h2 h3
    have : inContext c k = k := by
      unfold inContext
      rw [if_neg (fun h => h1 h.1)]
    rw [this, flagsAfter, if_neg h2]
    exact h3
  simp only [punctuators, List.mem_cons, Prod.mk.injEq, List.not_mem_nil, or_false] at hm
  rcases hm with ⟨hb, rfl⟩ | ⟨hb, rfl⟩ | ⟨hb, rfl⟩ | ⟨hb, rfl⟩ | ⟨hb, rfl⟩ | ⟨hb, rfl⟩ | ⟨hb, rfl⟩ | ⟨hb, rfl⟩ | ⟨hb, rfl⟩ | ⟨hb, rfl⟩ |
    ⟨hb, rfl⟩ | ⟨hb, rfl⟩ | ⟨hb, rfl⟩ | ⟨hb, rfl⟩ | ⟨hb, rfl⟩ | ⟨hb, rfl⟩ | ⟨hb, rfl⟩ | ⟨hb, rfl⟩ | ⟨hb, rfl⟩ | ⟨hb, rfl⟩ |
    ⟨hb, rfl⟩ | ⟨hb, rfl⟩ | ⟨hb, rfl⟩ | ⟨hb, rfl⟩ | ⟨hb, rfl⟩ | ⟨hb, rfl⟩ | ⟨hb, rfl⟩ | ⟨hb, rfl⟩ | ⟨hb, rfl⟩ | ⟨hb, rfl⟩ |
    ⟨hb, rfl⟩ | ⟨hb, rfl⟩ | ⟨hb, rfl⟩ | ⟨hb, rfl⟩ | ⟨hb, rfl⟩ | ⟨hb, rfl⟩ | ⟨hb, rfl⟩ | ⟨hb, rfl⟩ | ⟨hb, rfl⟩ | ⟨hb, rfl⟩ |
    ⟨hb, rfl⟩ | ⟨hb, rfl⟩ | ⟨hb, rfl⟩ | ⟨hb, rfl⟩ | ⟨hb, rfl⟩ | ⟨hb, rfl⟩ | ⟨hb, rfl⟩ | ⟨hb, rfl⟩ | ⟨hb, rfl⟩ | ⟨hb, rfl⟩ |
    ⟨hb, rfl⟩ | ⟨hb, rfl⟩ | ⟨hb, rfl⟩ | ⟨hb, rfl⟩
  · exact keep (by decide) (by decide) (op_one '[' [] h hb (by decide) hs rfl (by decide +kernel))
  · exact keep (by decide) (by decide) (op_one ']' [] h hb (by decide) hs rfl (by decide +kernel))
  · exact keep (by decide) (by decide) (op_one '(' [] h hb (by decide) hs rfl (by decide +kernel))
  · exact keep (by decide) (by decide) (op_one ')' [] h hb (by decide) hs rfl (by decide +kernel))
  · exact keep (by decide) (by decide) (op_one '{' [] h hb (by decide) hs rfl (by decide +kernel))
  · exact keep (by decide) (by decide) (op_one '}' [] h hb (by decide) hs rfl (by decide +kernel))
  · refine keep (by decide) (by decide) ?_
    have hdig : isDigit (headByte r) = false := by
      rcases hs with e | e
      · rw [e]; decide
      · cases hx : isDigit (headByte r)
        · rfl
        · refine absurd e (isNumber_kind ?_)
          rw [hb]
          show isNumber (ch '.' :: [headByte r]) = true
          simp [isNumber, hx, numberTail]
    obtain ⟨x, w', rfl, hx, hw'⟩ := bytes_cons hb
    have := bytes_nil hw'
    subst this
    exact scan_dot h hx (dot_ok h (hdots hb) hdig)
  · exact keep (by decide) (by decide) (op_two '-' '>' _ [] h hb (by decide) hs (by decide) rfl rfl (by decide +kernel))
  · exact keep (by decide) (by decide) (op_two '+' '+' _ [] h hb (by decide) hs (by decide) rfl rfl (by decide +kernel))
  · exact keep (by decide) (by decide) (op_two '-' '-' _ [] h hb (by decide) hs (by decide) rfl rfl (by decide +kernel))
  · exact keep (by decide) (by decide) (op_one '&' _ h hb (by decide) hs rfl (by decide +kernel))
  · exact keep (by decide) (by decide) (op_one '*' _ h hb (by decide) hs rfl (by decide +kernel))
  · exact keep (by decide) (by decide) (op_one '+' _ h hb (by decide) hs rfl (by decide +kernel))
  · exact keep (by decide) (by decide) (op_one '-' _ h hb (by decide) hs rfl (by decide +kernel))
  · exact keep (by decide) (by decide) (op_one '~' _ h hb (by decide) hs rfl (by decide +kernel))
  · exact keep (by decide) (by decide) (op_one '!' _ h hb (by decide) hs rfl (by decide +kernel))
  · rw [hb] at hslash; exact absurd rfl hslash
  · exact keep (by decide) (by decide) (op_one '%' _ h hb (by decide) hs rfl (by decide +kernel))
  · exact keep (by decide) (by decide) (less_ok h (hless (by rw [hb]; rfl)) hs (by simp [hb]))
  · exact keep (by decide) (by decide) (op_two '>' '>' _ _ h hb (by decide) hs (by decide) rfl rfl (by decide +kernel))
  · exact keep (by decide) (by decide) (less_ok h (hless (by rw [hb]; rfl)) hs (by simp [hb]))
  · exact keep (by decide) (by decide) (op_one '>' _ h hb (by decide) hs rfl (by decide +kernel))
  · exact keep (by decide) (by decide) (less_ok h (hless (by rw [hb]; rfl)) hs (by simp [hb]))
  · exact keep (by decide) (by decide) (op_two '>' '=' _ _ h hb (by decide) hs (by decide) rfl rfl (by decide +kernel))
  · exact keep (by decide) (by decide) (op_two '=' '=' _ _ h hb (by decide) hs (by decide) rfl rfl (by decide +kernel))
  · exact keep (by decide) (by decide) (op_two '!' '=' _ _ h hb (by decide) hs (by decide) rfl rfl (by decide +kernel))
  · exact keep (by decide) (by decide) (op_one '^' _ h hb (by decide) hs rfl (by decide +kernel))
  · exact keep (by decide) (by decide) (op_one '|' _ h hb (by decide) hs rfl (by decide +kernel))
  · exact keep (by decide) (by decide) (op_two '&' '&' _ _ h hb (by decide) hs (by decide) rfl rfl (by decide +kernel))
  · exact keep (by decide) (by decide) (op_two '|' '|' _ _ h hb (by decide) hs (by decide) rfl rfl (by decide +kernel))
  · exact keep (by decide) (by decide) (op_one '?' _ h hb (by decide) hs rfl (by decide +kernel))
  · exact keep (by decide) (by decide) (op_one ':' _ h hb (by decide) hs rfl (by decide +kernel))
  · exact keep (by decide) (by decide) (op_one ';' _ h hb (by decide) hs rfl (by decide +kernel))
  · refine keep (by decide) (by decide) ?_
    obtain ⟨x, w', rfl, hx, hw'⟩ := bytes_cons hb
    obtain ⟨y, w', rfl, hy, hw'⟩ := bytes_cons hw'
    obtain ⟨z, w', rfl, hz, hw'⟩ := bytes_cons hw'
    have := bytes_nil hw'
    subst this
    exact scan_dot h hx (ellipsis_ok h hy hz)
  · exact keep (by decide) (by decide) (op_one '=' _ h hb (by decide) hs rfl (by decide +kernel))
  · exact keep (by decide) (by decide) (op_two '*' '=' _ _ h hb (by decide) hs (by decide) rfl rfl (by decide +kernel))
  · rw [hb] at hslash; exact absurd rfl hslash
  · exact keep (by decide) (by decide) (op_two '%' '=' _ _ h hb (by decide) hs (by decide) rfl rfl (by decide +kernel))
  · exact keep (by decide) (by decide) (op_two '+' '=' _ _ h hb (by decide) hs (by decide) rfl rfl (by decide +kernel))
  · exact keep (by decide) (by decide) (op_two '-' '=' _ _ h hb (by decide) hs (by decide) rfl rfl (by decide +kernel))
  · exact keep (by decide) (by decide) (less_ok h (hless (by rw [hb]; rfl)) hs (by simp [hb]))
  · exact keep (by decide) (by decide) (shift_assign h hb)
  · exact keep (by decide) (by decide) (op_two '&' '=' _ _ h hb (by decide) hs (by decide) rfl rfl (by decide +kernel))
  · exact keep (by decide) (by decide) (op_two '^' '=' _ _ h hb (by decide) hs (by decide) rfl rfl (by decide +kernel))
  · exact keep (by decide) (by decide) (op_two '|' '=' _ _ h hb (by decide) hs (by decide) rfl rfl (by decide +kernel))
  · exact keep (by decide) (by decide) (op_one ',' _ h hb (by decide) hs rfl (by decide +kernel))
  · rw [hb] at hs
    obtain ⟨x, w', rfl, hx, hw'⟩ := bytes_cons hb
    have := bytes_nil hw'
    subst this
    have h2 := hash_ok (f := f) (fl := fl) (first := c.first) h hx (stops hs '#' (by decide +kernel) (by decide))
    cases hc : c.first with
    | false =>
      rw [hc] at h2
      have : inContext c .PP_HASH = .PP_HASH := by simp [inContext, hc]
      rw [this]
      exact h2
    | true =>
      rw [hc] at h2
      have : inContext c .PP_HASH = .PP_DIRECTIVE := by simp [inContext, hc]
      rw [this]
      exact h2
  · refine keep (by decide) (by decide) ?_
    obtain ⟨x, w', rfl, hx, hw'⟩ := bytes_cons hb
    obtain ⟨y, w', rfl, hy, hw'⟩ := bytes_cons hw'
    have := bytes_nil hw'
    subst this
    exact hashHash_ok h hx hy
  all_goals exact absurd (by rw [hb]; decide) hd

end Verif.Tokenizer
