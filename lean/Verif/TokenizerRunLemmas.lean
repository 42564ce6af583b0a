import Verif.TokenizerTextLemmas
/-!
Helper lemmas: the loop over the tokens of a text.
-/
namespace Verif.Tokenizer
open Verif TokenizerSpec

set_option maxRecDepth 4000

/-- What the contexts of a text are like. -/
structure Fits (c : Ctx) : Prop where
  hash : c.hash = true → c.incl = false
  first : c.first = true → c.incl = false ∧ c.hash = false

/-- A token of the compiler is one of the specification. -/
structure Shows (t : Tok) (i : Item) : Prop where
  kind : t.type = i.kind
  text : t.str = i.text
  first : t.firstOfLine = i.first
  white : t.whitespace = i.white
  line : t.line = i.line

/-- The flags that belong to a context. -/
def flagsOf (c : Ctx) : Flags := { header := c.incl, directive := c.hash }

/-- The result of `restart`: a token, or the end. -/
def Next (m : Nat) (t : List Char') (l : List Item) (x : Run (Tok × St × Flags)) : Prop :=
  (l = [] ∧ ∃ tok s' fl', x = .ok (tok, s', fl') ∧ tok.type = .T_EOI ∧ tok.firstOfLine = true) ∨
  (∃ i l' c' r s' tok, l = i :: l' ∧ x = .ok (tok, s', flagsOf c') ∧ tok.type ≠ .T_EOI ∧ Shows tok i ∧ At m s' r ∧ Lexes Supported c' r l' ∧
    c'.first = false ∧ c'.white = false ∧ Fits c' ∧ r.length < t.length ∧ ∀ x ∈ r, x ∈ t)

theorem Next.mono {m : Nat} {t t' : List Char'} {l : List Item} {x : Run (Tok × St × Flags)} (h : Next m t l x) (hl : t.length ≤ t'.length)
    (hm : ∀ x ∈ t, x ∈ t') : Next m t' l x := by
  rcases h with h | ⟨i, l', c', r, s', tok, h1, h2, h3, h4, h5, h6, h7, h8, h9, h10, h11⟩
  · exact .inl h
  · exact .inr ⟨i, l', c', r, s', tok, h1, h2, h3, h4, h5, h6, h7, h8, h9, by omega, fun x hx => hm x (h11 x hx)⟩

theorem finish_ok {m : Nat} {start s' : St} {t : List Char'} {w : List Byte} {k : TType} {fl : Flags} {white first : Bool} (h : At m start t)
    (hr : Reads start w s') (hl : w.length ≤ t.length) (hsep : start.sep = false) (hn : NoNames w) :
    finish start k s' fl white first = .ok ({ type := k, str := w, firstOfLine := first || decide (k = .T_EOI), whitespace := white, line := start.line }, s',
      if k = .T_IDENT ∧ fl.directive = true then { header := decide (w = str "include"), directive := false } else fl) := by
  unfold finish
  rw [tokenText_eq h hr hl h.crlf hsep hn]
  simp only [Run.bind_ok]
  split <;> rfl

/-- The token after the flags are updated. -/
theorem token_next {m : Nat} {s s' : St} {c : Ctx} {x : Char'} {w r : List Char'} {k : TType} {l : List Item} {fl' : Flags}
    (h : At m s (x :: w ++ r)) (hc : Fits c) (hx : x.1 ≠ ch '\n') (hsep : s.sep = false)
    (hk : k ≠ .T_EOI) (hdir : k = .PP_DIRECTIVE → c.first = true) (hid : c.hash = true → k = .T_IDENT)
    (hn : NoNames (bytes (x :: w)))
    (hlex : Lexes Supported (c.after k (bytes (x :: w))) r l) (hr : Reads s (bytes (x :: w)) s') (ha : At m s' r)
    (hfl : fl' = flagsAfter (flagsOf c) k) :
    Next m (x :: w ++ r) (⟨k, bytes (x :: w), c.first, c.white, x.2⟩ :: l) (finish s k s' fl' c.white c.first) := by
  rw [finish_ok h hr (by simp [bytes]) hsep hn]
  right
  refine ⟨_, _, c.after k (bytes (x :: w)), r, s', _, rfl, congrArg Run.ok (congrArg (Prod.mk _) (congrArg (Prod.mk _) ?_)), hk, ⟨rfl, rfl, ?_, rfl, ?_⟩, ha, hlex, rfl, rfl, ?_, ?_, ?_⟩
  · subst hfl
    by_cases hh : c.hash = true
    · have := hid hh
      subst this
      simp [flagsAfter, flagsOf, Ctx.after, hh]
    · have hh : c.hash = false := by simpa using hh
      by_cases hd : k = .PP_DIRECTIVE
      · subst hd
        simp [flagsAfter, flagsOf, Ctx.after, hh]
      · simp [flagsAfter, flagsOf, Ctx.after, hh, hd]
  · simp [hk]
  · show (s.line : Int) = x.2
    rw [At.line (t := w ++ r) h hx]
  · constructor
    · intro h1
      simp only [Ctx.after, decide_eq_true_eq] at h1
      have := hc.first (hdir h1)
      simp [Ctx.after, this.2, this.1]
    · intro h1; cases h1
  · simp; omega
  · intro y hy
    simp only [List.cons_append, List.mem_cons, List.mem_append]
    exact .inr (.inr hy)

theorem space_table (b : Byte) : (b ∈ blanks → b ≠ 11 → b ≠ 12 → eq b = EQ_SPACE ∧ b ≠ ch '\n') ∧ (eq b = EQ_SPACE → b ≠ ch '/' ∧ b ≠ ch '\n') := by
  have := byte_table (p := fun b => decide ((b ∈ blanks → b ≠ 11 → b ≠ 12 → eq b = EQ_SPACE ∧ b ≠ ch '\n') ∧ (eq b = EQ_SPACE → b ≠ ch '/' ∧ b ≠ ch '\n')))
    (by decide +kernel) b
  exact of_decide_eq_true this

/-- `tokenizer_next` finds the next token of the text. -/
theorem restart_next {m : Nat} {c : Ctx} {t : List Char'} {l : List Item} (hlex : Lexes Supported c t l) : ∀ {f : Nat} {s : St}, At m s t → Fits c →
    (∀ x ∈ t, x.1 ≠ 0) → t.length + 2 ≤ f → Next m t l (restart f s (flagsOf c) c.white c.first) := by
  induction hlex with
  | done c =>
    intro f s h _ _ hf
    match f with
    | f + 1 =>
    left
    have hc : s.c = EQ_NULL := h.c
    refine ⟨rfl, ?_⟩
    have h0 := h.flags false false
    rw [restart]
    simp only
    rw [if_neg (by rw [hc]; decide), if_neg (by rw [hc]; decide), if_neg (by rw [hc]; decide)]
    have hs : scan f { s with esc := false, sep := false } (flagsOf c) c.first = .ok (.T_EOI, { s with esc := false, sep := false }, flagsOf c) := by
      have hc' : ({ s with esc := false, sep := false } : St).c = EQ_NULL := hc
      rw [scan, hc', if_neg (by decide), if_neg (by decide), if_neg (by decide), if_neg (by decide)]
      rfl
    rw [hs]
    simp only [Run.bind_ok]
    rw [finish_ok h0 (.refl _) (Nat.zero_le _) rfl (by intro a b c e; simp at e)]
    exact ⟨_, _, _, rfl, rfl, by simp⟩
  | @newline c n r l _ ih =>
    intro f s h _ hz hf
    match f with
    | f + 1 =>
    have hc : s.c = '\n'.toNat := (h.is (by decide)).2 rfl
    obtain ⟨s1, e1, h1, -⟩ := At.read (h.flags false false)
    rw [restart]
    simp only
    rw [if_neg (by rw [hc]; decide), if_pos hc, e1]
    have := ih (f := f) h1 ⟨by simp [lineStart], by simp [lineStart]⟩ (fun x hx => hz x (by simp [hx])) (by simp at hf; omega)
    exact this.mono (by simp) (by simp +contextual)
  | @blank c b n r l hb hP _ ih =>
    intro f s h hfit hz hf
    match f with
    | f + 1 =>
    have hb' := (space_table b).1 hb (fun e => hP.blank.1 (by rw [e])) (fun e => hP.blank.2 (by rw [e]))
    have hc : s.c = EQ_SPACE := by rw [h.c]; exact hb'.1
    obtain ⟨s1, e1, h1, -⟩ := At.read (h.flags false false)
    rw [restart]
    simp only
    rw [if_pos hc, e1]
    have := ih (f := f) h1 ⟨hfit.hash, hfit.first⟩ (fun x hx => hz x (by simp [hx])) (by simp at hf; omega)
    exact this.mono (by simp) (by simp +contextual)
  | @lineComment c w r l hw hnl hr _ ih =>
    intro f s h hfit hz hf
    match f with
    | f + 1 =>
    match w, hw with
    | [], hw => cases hw
    | [_], hw => simp [bytes, str] at hw
    | x :: y :: w, hw =>
    have hxy : x.1 = ch '/' ∧ y.1 = ch '/' := by
      have : [x.1, y.1] = [ch '/', ch '/'] := hw
      simpa using this
    have hc : s.c = '/'.toNat := (h.is (by decide)).2 hxy.1
    obtain ⟨s1, e1, h1, -⟩ := At.read (t := y :: w ++ r) (h.flags false false)
    have hc1 : s1.c = '/'.toNat := (h1.is (by decide)).2 hxy.2
    have hr' : headByte r = 0 ∨ headByte r = ch '\n' := by
      cases r with
      | nil => exact .inl rfl
      | cons z r =>
        right
        show z.1 = _
        simpa [bytes] using hr
    obtain ⟨s2, e2, h2⟩ := line_reads (w := y :: w) (f := f) h1 (fun z hz' => ⟨fun e => hnl (by
      simp only [bytes, List.mem_map]
      exact ⟨z, List.mem_cons_of_mem _ hz', e⟩), hz z (by simp only [List.cons_append, List.mem_cons, List.mem_append] at hz' ⊢
                                                          rcases hz' with h | h
                                                          · exact .inr (.inl h)
                                                          · exact .inr (.inr (.inl h)))⟩) hr' (by simp at hf ⊢; omega)
    rw [restart]
    simp only
    rw [if_neg (by rw [hc]; decide), if_neg (by rw [hc]; decide), if_pos hc, e1]
    simp only [Run.bind_ok]
    rw [if_pos hc1, e2]
    simp only [Run.bind_ok]
    have := ih (f := f) h2 ⟨hfit.hash, hfit.first⟩ (fun z hz' => hz z (by simp [hz'])) (by simp at hf ⊢; omega)
    exact this.mono (by simp; omega) (by simp +contextual)
  | @blockComment c w r body l hw hb hP _ ih =>
    intro f s h hfit hz hf
    match f with
    | f + 1 =>
    obtain ⟨x, w', rfl, hx, hw'⟩ := bytes_cons (b := ch '/') (l := ch '*' :: (body ++ str "*/")) (by rw [hw]; rfl)
    obtain ⟨y, w'', rfl, hy, hw''⟩ := bytes_cons hw'
    have hc : s.c = '/'.toNat := (h.is (by decide)).2 hx
    obtain ⟨s1, e1, h1, -⟩ := At.read (t := y :: w'' ++ r) (h.flags false false)
    have hc1 : s1.c = '*'.toNat := (h1.is (by decide)).2 hy
    have hlen : body.length + 2 = w''.length := by
      have := congrArg List.length hw''
      simp [bytes, str] at this
      omega
    obtain ⟨s2, e2, h2⟩ := block_reads (f := f) (w := w'') h1 hw'' hb (hP.comment body hw) (fun b hb' => by
      have : b ∈ bytes w'' := by rw [hw'']; simp [hb']
      obtain ⟨z, hz', rfl⟩ := List.mem_map.1 this
      exact hz z (by simp [hz'])) (by simp at hf ⊢; omega)
    rw [restart]
    simp only
    rw [if_neg (by rw [hc]; decide), if_neg (by rw [hc]; decide), if_pos hc, e1]
    simp only [Run.bind_ok]
    rw [if_neg (by rw [hc1]; decide), if_pos hc1, e2]
    simp only [Run.bind_ok]
    have := ih (f := f) h2 ⟨hfit.hash, hfit.first⟩ (fun z hz' => hz z (by simp [hz'])) (by simp at hf ⊢; omega)
    exact this.mono (by simp; omega) (by simp +contextual)
  | @header c n w r body l hincl hw hbody hlex _ =>
    intro f s h hfit hz hf
    match f with
    | f + 1 =>
    have hc : s.c = '<'.toNat := (h.is (by decide)).2 rfl
    have hw' : bytes w = body ++ [ch '>'] := by
      simp only [bytes, List.map_cons, List.cons_append, List.cons.injEq, true_and] at hw
      exact hw
    have hnb : ∀ b ∈ bytes ((ch '<', n) :: w), b ≠ ch '\\' := by
      intro b hb
      rw [hw] at hb
      simp only [List.cons_append, List.mem_cons, List.mem_append, List.not_mem_nil, or_false] at hb
      rcases hb with rfl | hb | rfl
      · decide
      · exact (hbody b hb).2.2.1
      · decide
    have hnames : NoNames (bytes ((ch '<', n) :: w)) := by
      intro a b d e
      exact absurd rfl (hnb (ch '\\') (by rw [e]; simp))
    have hq : quotedTail (ch '>') (bytes w) = true := by
      rw [hw']
      clear hw hw' hnb hnames
      induction body with
      | nil => decide
      | cons b body ihb =>
        have h1 := hbody b (by simp)
        have h2 := ihb (fun d hd => hbody d (by simp [hd]))
        have : ∃ d q, body ++ [ch '>'] = d :: q := by cases body <;> exact ⟨_, _, rfl⟩
        obtain ⟨d, q, e⟩ := this
        rw [List.cons_append, e, quotedTail]
        rw [e] at h2
        have n1 : (b == ch '\\') = false := by simpa using h1.2.2.1
        simp [n1, h1.1, h1.2.1, h2]
    have h0 := h.flags false false
    obtain ⟨s2, e2, hr2, h2⟩ := quoted_reads (q := '>') (by decide) (by decide) (by decide) (f := f) (t := .PP_HEADER_NAME_H) h0 hq hnames.tail
      (fun b hb => by
        obtain ⟨z, hz', rfl⟩ := List.mem_map.1 hb
        exact hz z (by simp [hz'])) (by simp at hf ⊢; omega)
    rw [restart]
    simp only
    rw [if_neg (by rw [hc]; decide), if_neg (by rw [hc]; decide), if_neg (by rw [hc]; decide)]
    have hs : scan f { s with esc := false, sep := false } (flagsOf c) c.first = .ok (.PP_HEADER_NAME_H, s2, flagsOf c) := by
      have hc' : ({ s with esc := false, sep := false } : St).c = '<'.toNat := hc
      have hh : (flagsOf c).header = true := hincl
      rw [scan, if_neg (by rw [hc']; decide), if_neg (by rw [hc']; decide), if_neg (by rw [hc']; decide), if_pos hc', hh]
      simp only [if_true]
      rw [e2]
      rfl
    rw [hs]
    simp only [Run.bind_ok]
    refine token_next h0 hfit (x := (ch '<', n)) (show ch '<' ≠ ch '\n' by decide) rfl (by decide) (by intro e; cases e) ?_ hnames hlex hr2 h2 rfl
    intro hh
    have := hfit.hash hh
    rw [hincl] at this
    cases this
  | @token c b n w r k l hcom hinc hL hP hlex _ =>
    intro f s h hfit hz hf
    match f with
    | f + 1 =>
    have h0 := h.flags false false
    have hk := hL.1
    have hfirst := kind_first (b := b) (w := bytes w) (k := k) hk
    have hnames : NoNames (bytes ((b, n) :: w)) := hP.names (by rw [hk]; simp)
    have hc : s.c = eq b := h.c
    have hn1 : s.c ≠ EQ_SPACE := by rw [hc]; exact fun e => hfirst (.inl e)
    have hn2 : s.c ≠ '\n'.toNat := fun e => hfirst (.inr ((h.is (by decide)).1 e))
    have hkeoi : inContext c k ≠ .T_EOI := by
      unfold inContext
      split
      · decide
      · exact (kind_not hk).1
    have hkdir : inContext c k = .PP_DIRECTIVE → c.first = true := by
      unfold inContext
      split
      · rename_i h1; intro _; exact h1.2
      · intro e; exact absurd e (kind_not hk).2
    have hkid : c.hash = true → inContext c k = .T_IDENT := by
      intro hh
      have := hP.directive hh (by rw [hk]; simp)
      rw [isIdent_kind this] at hk
      cases hk
      simp [inContext]
    have hzb : ∀ d ∈ bytes ((b, n) :: w), d ≠ 0 := by
      intro d hd
      obtain ⟨z, hz', rfl⟩ := List.mem_map.1 hd
      exact hz z (by
        simp only [List.cons_append, List.mem_cons, List.mem_append] at hz' ⊢
        rcases hz' with h | h
        · exact .inl h
        · exact .inr (.inl h))
    rw [restart]
    simp only
    rw [if_neg hn1, if_neg hn2]
    by_cases hs : b = ch '/'
    · subst hs
      have hcs : s.c = '/'.toNat := (h.is (by decide)).2 rfl
      rw [if_pos hcs]
      rcases kind_slash hk with ⟨hw, rfl⟩ | ⟨hw, rfl⟩
      · have := bytes_nil hw
        subst this
        obtain ⟨s1, e1, h1, hx1⟩ := At.read (t := r) h0
        rw [e1]
        simp only [Run.bind_ok]
        have hst := hL.next
        have hr1 : headByte r ≠ ch '/' ∧ headByte r ≠ ch '*' := by
          cases r with
          | nil => exact ⟨by decide, by decide⟩
          | cons z r =>
            constructor
            · intro e
              apply hcom
              left
              change z.1 = _ at e
              simp [bytes, str, e]
            · intro e
              apply hcom
              right
              change z.1 = _ at e
              simp [bytes, str, e]
        have hr2 : headByte r ≠ ch '=' := stops (w := [ch '/']) hst '=' (by decide +kernel) (by decide)
        rw [if_neg (fun e => hr1.1 ((h1.is (by decide)).1 e)), if_neg (fun e => hr1.2 ((h1.is (by decide)).1 e)),
          if_neg (fun e => hr2 ((h1.is (by decide)).1 e))]
        exact token_next h0 hfit (x := (ch '/', n)) (w := []) (show ch '/' ≠ ch '\n' by decide) rfl hkeoi hkdir hkid hnames hlex (hx1 (.refl s1)) h1 rfl
      · obtain ⟨y, w', rfl, hy, hw'⟩ := bytes_cons hw
        have := bytes_nil hw'
        subst this
        obtain ⟨s1, e1, h1, hx1⟩ := At.read (t := y :: r) h0
        obtain ⟨s2, e2, h2, hx2⟩ := At.read (t := r) h1
        have hc1 : s1.c = '='.toNat := (h1.is (by decide)).2 hy
        rw [e1]
        simp only [Run.bind_ok]
        rw [if_neg (by rw [hc1]; decide), if_neg (by rw [hc1]; decide), if_pos hc1, e2]
        simp only [Run.bind_ok]
        exact token_next h0 hfit (x := (ch '/', n)) (w := [y]) (show ch '/' ≠ ch '\n' by decide) rfl hkeoi hkdir hkid hnames hlex (hx1 (hx2 (.refl s2))) h2 rfl
    · have hcs : s.c ≠ '/'.toNat := fun e => hs ((h.is (by decide)).1 e)
      rw [if_neg hcs]
      obtain ⟨s2, e2, hr2, h2⟩ := scan_token (fl := flagsOf c) (f := f) h0 hL hs (fun e => by
        show c.incl = false
        cases hi : c.incl
        · rfl
        · exact absurd ⟨hi, e⟩ hinc) hP hlex hzb (by simp at hf; omega)
      rw [e2]
      simp only [Run.bind_ok]
      exact token_next h0 hfit (x := (b, n)) (fun e => hfirst (.inr e)) rfl hkeoi hkdir hkid hnames hlex hr2 h2 rfl

/-- Tokens as they follow one another: each knows whether white space or the end of the line comes after it. -/
inductive Linked : List Tok → Prop
  | nil : Linked []
  | last {t : Tok} : t.firstOfLineAfter = true → Linked [t]
  | cons {t u : Tok} {l : List Tok} : t.whitespaceAfter = u.whitespace → t.firstOfLineAfter = u.firstOfLine → Linked (u :: l) → Linked (t :: u :: l)

/-- Lists of tokens that agree. -/
def Agrees : List Tok → List Item → Prop
  | [], [] => True
  | t :: l, i :: k => Shows t i ∧ Agrees l k
  | _, _ => False

theorem tokenLoop_ok {m : Nat} : ∀ {f : Nat} {t : List Char'} {c : Ctx} {l : List Item} {tok : Tok} {i : Item} {s : St}, tok.type ≠ .T_EOI → Shows tok i →
    At m s t → Lexes Supported c t l → c.first = false → c.white = false → Fits c → (∀ x ∈ t, x.1 ≠ 0) → t.length + 3 ≤ f →
    ∃ u r, tokenLoop f tok s (flagsOf c) = .ok (u :: r) ∧ Agrees (u :: r) (i :: l) ∧ Linked (u :: r) ∧ u.whitespace = tok.whitespace ∧
      u.firstOfLine = tok.firstOfLine := by
  intro f
  induction f with
  | zero => intro t c l tok i s _ _ _ _ _ _ _ _ hf; omega
  | succ f ih =>
  intro t c l tok i s ht hs ha hlex hc1 hc2 hfit hz hf
  have hn := restart_next hlex (f := f) ha hfit hz (by omega)
  rw [hc1, hc2] at hn
  rw [tokenLoop, if_pos ht]
  unfold tokenizerNext
  rcases hn with ⟨rfl, n, s', fl', e, h1, h2⟩ | ⟨j, l', c', r, s', n, rfl, e, h1, h2, h3, h4, h5, h6, h7, h8, h9⟩
  · rw [e]
    simp only [Run.bind_ok]
    match f, hf with
    | f + 1, _ =>
    rw [tokenLoop, if_neg (by simp [h1])]
    simp only [Run.bind_ok]
    exact ⟨_, _, rfl, ⟨⟨hs.kind, hs.text, hs.first, hs.white, hs.line⟩, trivial⟩, .last h2, rfl, rfl⟩
  · rw [e]
    simp only [Run.bind_ok]
    obtain ⟨u, q, e2, hagree, hlink, hw, hfl⟩ := ih h1 h2 h3 h4 h5 h6 h7 (fun x hx => hz x (h9 x hx)) (by omega)
    rw [e2]
    simp only [Run.bind_ok]
    refine ⟨_, _, rfl, ⟨⟨hs.kind, hs.text, hs.first, hs.white, hs.line⟩, hagree⟩, .cons ?_ ?_ hlink, rfl, rfl⟩
    · exact hw.symm
    · exact hfl.symm

theorem spliced_zero : ∀ (l : List Byte) (n : Nat), ∃ m, spliced n (l ++ [0]) = spliced n l ++ [(0, m)] := by
  intro l
  induction hn : l.length using Nat.strongRecOn generalizing l with
  | ind k ih =>
  intro n
  subst hn
  match l with
  | [] => exact ⟨n, rfl⟩
  | [b] =>
    have h0 : ¬ ((0 : Byte) = ch '\n') := by decide
    refine ⟨if b = ch '\n' then n + 1 else n, ?_⟩
    show spliced n [b, 0] = [(b, n)] ++ _
    rw [spliced.eq_def]
    simp only
    rw [if_neg (fun h => h0 h.2)]
    rfl
  | b :: c :: r =>
    by_cases h1 : b = ch '\\' ∧ c = ch '\n'
    · obtain ⟨m, e⟩ := ih r.length (by simp; omega) r rfl (n + 1)
      refine ⟨m, ?_⟩
      rw [List.cons_append, List.cons_append, spliced.eq_def n (b :: c :: (r ++ [0])), spliced.eq_def n (b :: c :: r)]
      simp only
      rw [if_pos h1, if_pos h1, e]
    · match r with
      | [] =>
        have h0 : ¬ ((0 : Byte) = ch '\n') := by decide
        obtain ⟨m, e⟩ := ih 1 (by simp) [c] rfl (if b = ch '\n' then n + 1 else n)
        refine ⟨m, ?_⟩
        show spliced n [b, c, 0] = spliced n [b, c] ++ _
        rw [spliced.eq_def n [b, c, 0], spliced.eq_def n [b, c]]
        simp only
        rw [if_neg h1, if_neg h1, if_neg (fun h => h0 h.2.2)]
        rw [List.cons_append, ← e]
        rfl
      | d :: r =>
        by_cases h2 : b = ch '\\' ∧ c = ch '\r' ∧ d = ch '\n'
        · obtain ⟨m, e⟩ := ih r.length (by simp; omega) r rfl (n + 1)
          refine ⟨m, ?_⟩
          rw [List.cons_append, List.cons_append, List.cons_append, spliced.eq_def n (b :: c :: d :: (r ++ [0])), spliced.eq_def n (b :: c :: d :: r)]
          simp only
          rw [if_neg h1, if_neg h1, if_pos h2, if_pos h2, e]
        · obtain ⟨m, e⟩ := ih (c :: d :: r).length (by simp) (c :: d :: r) rfl (if b = ch '\n' then n + 1 else n)
          refine ⟨m, ?_⟩
          rw [List.cons_append, List.cons_append, List.cons_append, spliced.eq_def n (b :: c :: d :: (r ++ [0])), spliced.eq_def n (b :: c :: d :: r)]
          simp only
          rw [if_neg h1, if_neg h1, if_neg h2, if_neg h2, List.cons_append, ← e]
          rfl

theorem spliced_mem : ∀ (l : List Byte) (n : Nat), ∀ x ∈ spliced n l, x.1 ∈ l := by
  intro l
  induction hn : l.length using Nat.strongRecOn generalizing l with
  | ind k ih =>
  intro n x hx
  subst hn
  match l with
  | [] => cases hx
  | [b] => simp [spliced] at hx; simp [hx]
  | b :: c :: r =>
    rw [spliced.eq_def] at hx
    simp only at hx
    by_cases h1 : b = ch '\\' ∧ c = ch '\n'
    · rw [if_pos h1] at hx
      have := ih r.length (by simp; omega) r rfl _ x hx
      simp [this]
    · rw [if_neg h1] at hx
      match r with
      | [] =>
        simp only [List.mem_cons] at hx
        rcases hx with rfl | hx
        · simp
        · have := ih 1 (by simp) [c] rfl _ x hx
          simp at this
          simp [this]
      | d :: r =>
        simp only at hx
        by_cases h2 : b = ch '\\' ∧ c = ch '\r' ∧ d = ch '\n'
        · rw [if_pos h2] at hx
          have := ih r.length (by simp; omega) r rfl _ x hx
          simp [this]
        · rw [if_neg h2] at hx
          rcases List.mem_cons.1 hx with rfl | hx
          · simp
          · have := ih (c :: d :: r).length (by simp) (c :: d :: r) rfl _ x hx
            exact List.mem_cons_of_mem _ this

theorem spliced_length : ∀ (l : List Byte) (n : Nat), (spliced n l).length ≤ l.length := by
  intro l
  induction hn : l.length using Nat.strongRecOn generalizing l with
  | ind k ih =>
  intro n
  subst hn
  match l with
  | [] => simp [spliced]
  | [b] => simp [spliced]
  | b :: c :: r =>
    rw [spliced.eq_def]
    simp only
    by_cases h1 : b = ch '\\' ∧ c = ch '\n'
    · rw [if_pos h1]
      have := ih r.length (by simp; omega) r rfl (n + 1)
      simp; omega
    · rw [if_neg h1]
      match r with
      | [] =>
        have := ih 1 (by simp) [c] rfl (if b = ch '\n' then n + 1 else n)
        simp only [List.length_cons, List.length_nil] at this ⊢
        omega
      | d :: r =>
        simp only
        by_cases h2 : b = ch '\\' ∧ c = ch '\r' ∧ d = ch '\n'
        · rw [if_pos h2]
          have := ih r.length (by simp; omega) r rfl (n + 1)
          simp; omega
        · rw [if_neg h2]
          have := ih (c :: d :: r).length (by simp) (c :: d :: r) rfl (if b = ch '\n' then n + 1 else n)
          simp only [List.length_cons] at this ⊢
          omega

/-- The tokens of a text are those of the specification. -/
theorem tokenizeInput_ok {contents : List Byte} {l : List Item} (hz : 0 ∉ contents) (hcr : NoCrlf contents)
    (hlex : Lexes Supported lineStart (spliced 1 contents) l) :
    ∀ f, contents.length + 5 ≤ f → ∃ toks, (tokenizerNext f { c := '\n'.toNat, prev := ch '\n', rest := contents ++ [0], line := 1, esc := false, sep := false } {} >>=
      fun x => tokenLoop f x.1 x.2.1 x.2.2) = .ok toks ∧ Agrees toks l ∧ Linked toks := by
  obtain ⟨m, hm⟩ := spliced_zero contents 1
  let s : St := { c := '\n'.toNat, prev := ch '\n', rest := contents ++ [0], line := 1, esc := false, sep := false }
  have hcr0 : NoCrlf (contents ++ [0]) := by
    intro a b e
    rcases List.eq_nil_or_concat b with rfl | ⟨b', z, rfl⟩
    · have := congrArg List.getLast? e
      simp at this
      exact absurd this (by decide)
    · have e' : contents ++ [0] = (a ++ ch '\\' :: ch '\r' :: ch '\n' :: b') ++ [z] := by rw [e]; simp
      exact hcr _ _ (List.append_inj_left' e' rfl)
  have ha : At m s ((ch '\n', 1) :: spliced 1 contents) := by
    refine ⟨show '\n'.toNat = eq (ch '\n') by decide, ?_, ⟨1, ?_, ?_⟩, ?_, hcr0⟩
    · show (ch '\n' :: (contents ++ [0])).getLast? = some 0
      rw [← List.cons_append, List.getLast?_append]
      rfl
    · show (ch '\n', 1) :: spliced 1 (contents ++ [0]) = _
      rw [hm]
      rfl
    · intro h; exact absurd rfl h
    · intro h; exact absurd (show ch '\n' = ch '\\' from h) (by decide)
  have hzt : ∀ x ∈ (ch '\n', 1) :: spliced 1 contents, x.1 ≠ 0 := by
    intro x hx
    rcases List.mem_cons.1 hx with rfl | hx
    · decide
    · intro e; exact hz (by rw [← e]; exact spliced_mem _ _ x hx)
  have hlex' : Lexes Supported { first := false, white := false, hash := false, incl := false } ((ch '\n', 1) :: spliced 1 contents) l := .newline hlex
  intro f hf
  have hlen := spliced_length contents 1
  · have hf : ((ch '\n', 1) :: spliced 1 contents).length + 4 ≤ f := by simp only [List.length_cons]; omega
    have hn := restart_next hlex' (f := f) ha ⟨by simp, by simp⟩ hzt (by omega)
    unfold tokenizerNext
    change Next m _ l (restart f s {} false false) at hn
    rcases hn with ⟨rfl, n, s', fl', e, h1, h2⟩ | ⟨j, l', c', r, s', n, rfl, e, h1, h2, h3, h4, h5, h6, h7, h8, h9⟩
    · rw [e]
      simp only [Run.bind_ok]
      match f, hf with
      | f + 1, _ =>
      rw [tokenLoop, if_neg (by simp [h1])]
      exact ⟨[], rfl, trivial, .nil⟩
    · rw [e]
      simp only [Run.bind_ok]
      obtain ⟨u, q, e2, hagree, hlink, -, -⟩ := tokenLoop_ok (f := f) h1 h2 h3 h4 h5 h6 h7 (fun x hx => hzt x (h9 x hx)) (by omega)
      exact ⟨_, e2, hagree, hlink⟩

end Verif.Tokenizer
