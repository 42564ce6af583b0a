import Verif.DeclaratorSpec
/-!
Lemmas for declarators: the tree that is built for a declarator, and its type.
-/
namespace Verif.DeclaratorLemmas
open Verif Simple Declarator DeclaratorSpec
open Verif.Types (Ty Kind)
open Verif.Run (Ends)

/-! ### Qualifiers and specifiers -/

/-- The counts of qualifiers. -/
def tally (q : Quals) : List Qual → Quals
  | [] => q
  | .const :: r => tally { q with const := q.const + 1 } r
  | _ :: r => tally { q with rest := q.rest + 1 } r

theorem tally_const (qs : List Qual) : ∀ q, (tally q qs).const = q.const + qs.count .const := by
  induction qs with
  | nil => intro q; rfl
  | cons a r ih => intro q; cases a <;> simp [tally, ih] <;> omega

theorem tally_append (a b : List Qual) : ∀ q, tally (tally q a) b = tally q (a ++ b) := by
  induction a with
  | nil => intro q; rfl
  | cons x r ih => intro q; cases x <;> exact ih _

theorem applyTq_tally (t : Ty) (qs : List Qual) (h : Once qs) :
    applyTq t (tally ⟨0, 0⟩ qs) = if Qual.const ∈ qs then makeConst t else t := by
  unfold applyTq
  rw [tally_const]
  have : (0 + qs.count Qual.const = 1) ↔ Qual.const ∈ qs := by
    rw [← List.count_pos_iff]; unfold Once at h; omega
  simp only [this]

/-- The first token is not a qualifier. -/
def NotQual : List DTok → Prop
  | .qual _ :: _ => False
  | _ => True

theorem quals_toks (qs : List Qual) : ∀ q r, NotQual r → quals q (qualToks qs ++ r) = (tally q qs, r) := by
  induction qs with
  | nil =>
    intro q r h
    show quals q r = (q, r)
    cases r with
    | nil => rfl
    | cons a r => cases a <;> first | rfl | exact h.elim
  | cons a s ih =>
    intro q r h
    cases a <;> exact ih _ r h

theorem specifiers_end (env : Nat → Option Ty) (q : Quals) (t : Ty) (r : List DTok) (h : NotSpec r) :
    specifiers env q (some t) true r = .ok (some (q, some t), r) := by
  cases r with
  | nil => rfl
  | cons a r => cases a <;> first | rfl | exact h.elim

theorem specifiers_quals (env : Nat → Option Ty) (qs : List Qual) : ∀ q ty m r, m = true ∨ qs ≠ [] →
    specifiers env q ty m (qualToks qs ++ r) = specifiers env (tally q qs) ty true r := by
  induction qs with
  | nil => intro q ty m r h; rw [h.resolve_right (fun h => h rfl)]; rfl
  | cons a s ih => intro q ty m r _; cases a <;> exact ih _ _ _ _ (.inl rfl)

theorem specifiers_toks (env : Nat → Option Ty) (s : Spec) (h : s.Valid env) (r : List DTok) (hr : NotSpec r) :
    specifiers env ⟨0, 0⟩ none false (s.toks ++ r) = .ok (some (tally ⟨0, 0⟩ (s.pre ++ s.post), some s.base), r) := by
  obtain ⟨pre, ty, post⟩ := s
  have htd := h.2.2.2
  have step : ∀ q m, specifiers env q none m (ty.tok :: (qualToks post ++ r)) = .ok (some (tally q post, some (Spec.base ⟨pre, ty, post⟩)), r) := by
    intro q m
    rw [← specifiers_end env _ _ r hr, ← specifiers_quals env post q _ true r (.inl rfl)]
    cases ty with
    | void => rfl
    | type t => rfl
    | tdef n t =>
      show (match (none : Option Ty), env n with
        | none, some t => specifiers env q (some t) true (qualToks post ++ r)
        | _, _ => .ok (if m then some (q, none) else none, .ident n :: (qualToks post ++ r))) = _
      rw [htd n t rfl]; rfl
  rw [← tally_append]
  have e : Spec.toks ⟨pre, ty, post⟩ ++ r = qualToks pre ++ (ty.tok :: (qualToks post ++ r)) := by
    simp [Spec.toks]
  rw [e]
  cases pre with
  | nil => exact step _ _
  | cons a p => rw [specifiers_quals env (a :: p) _ _ _ _ (.inr (by simp))]; exact step _ _

/-! ### The tree of a declarator -/

/-- The tree. -/
def ast : D → Ast
  | .name n => .terminal (some n)
  | .empty => .terminal none
  | .ptr qs d => .pointer (tally ⟨0, 0⟩ qs) (ast d)
  | .paren d => ast d
  | .arr d _ qs _ size => .array size (tally ⟨0, 0⟩ qs) (ast d)
  | .fn d ps => .function (if ps.soleVoid then [] else ps.types) ps.names ps.variadic (ast d)

/-- The tree or NULL. -/
def ast? (d : D) : Option Ast := if d.isEmpty then none else some (ast d)

/-- The scope that stays open after a parameter list. -/
def keepPs (ps : Ps) (k : Kept) : Kept :=
  if ps.isList && !ps.soleVoid then
    match k with
    | some none => some (some ps.listed)
    | k => k
  else k

/-- The scope that stays open after a declarator. -/
def keep : D → Kept → Kept
  | .name _, k => k
  | .empty, k => k
  | .ptr _ d, k => keep d k
  | .paren d, k => keep d k
  | .arr d _ _ _ _, k => keep d k
  | .fn d ps, k => keepPs ps (keep d k)

/-! ### Its type -/

theorem constOf_not_array (t : Ty) (h : IsArray t = false) : constOf t = makeConst t := by
  obtain ⟨k, c, l⟩ := t
  cases k <;> first | (simp [IsArray] at h; done) | (rw [constOf]; rfl; all_goals simp)

theorem constOf_pointer (c : Bool) (t : Ty) : constOf (.node .pointer c [t]) = .node .pointer true [t] :=
  constOf_not_array _ rfl

theorem arrayType_valid (t : Ty) (size : Size) (h : ValidSize size) : arrayType t size = .ok (arrayOf t size) := by
  cases size with
  | empty => rfl
  | star => rfl
  | expr d i => rfl
  | num s v =>
    obtain ⟨h1, h2⟩ := h
    show (if s = true ∧ v ≤ 0 then Res.fail else Res.ok (Ty.node (.array (v % 2 ^ 64).toNat) false [t])) = .ok (.node (.array v.toNat) false [t])
    rw [if_neg (by omega), Int.emod_eq_of_lt (by omega) h2]

/-- Add const to the array itself. -/
def flag (b : Bool) (t : Ty) : Ty := if b then makeConst t else t

theorem astToType_bare (allow : Bool) (d : D) (h : d.bare = true) (t : Ty) :
    astToType allow t (ast d) = .ok (t, d.name?) := by
  induction d using D.rec (motive_2 := fun _ => True) with
  | name n => rfl
  | empty => rfl
  | paren d ih => exact ih h
  | ptr qs d ih => cases h
  | arr d _ _ _ _ ih => cases h
  | fn d ps ih _ => cases h
  | unspec => trivial
  | last => trivial
  | more => trivial

theorem bracketQuals_bare (d : D) (h : d.bare = true) : d.bracketQuals = [] ∧ ∀ t, d.denote t = t := by
  induction d using D.rec (motive_2 := fun _ => True) with
  | name n => exact ⟨rfl, fun t => by rw [D.denote]⟩
  | empty => exact ⟨rfl, fun t => by rw [D.denote]⟩
  | paren d ih => exact ⟨(ih h).1, fun t => by rw [D.denote]; exact (ih h).2 t⟩
  | ptr qs d ih => cases h
  | arr d _ _ _ _ ih => cases h
  | fn d ps ih _ => cases h
  | unspec => trivial
  | last => trivial
  | more => trivial

theorem astToType_ast (env : Nat → Option Ty) (allow : Bool) (d : D) : d.Valid env allow → ∀ t,
    astToType allow t (ast d) = .ok (flag (decide (Qual.const ∈ d.bracketQuals)) (d.denote t), d.name?) := by
  induction d using D.rec (motive_2 := fun _ => True) with
  | name n => intro _ t; rw [D.denote]; rfl
  | empty => intro _ t; rw [D.denote]; rfl
  | paren d ih => intro h t; rw [D.Valid] at h; rw [D.denote]; exact ih h.2.2 t
  | ptr qs d ih =>
    intro h t
    rw [D.Valid] at h
    rw [D.denote]
    show astToType allow (applyTq _ _) (ast d) = _
    rw [applyTq_tally _ _ h.1]
    unfold qualified
    rw [constOf_pointer]
    exact ih h.2 _
  | arr d s1 qs s2 size ih =>
    intro h t
    rw [D.Valid] at h
    obtain ⟨hdir, hv, hs, ho, hq, -, -⟩ := h
    rw [D.denote]
    show (arrayType t size >>= fun a => if (!allow) = true then
      (if (tally ⟨0, 0⟩ qs).const ≠ 0 ∨ (tally ⟨0, 0⟩ qs).rest ≠ 0 then .fail else astToType allow a (ast d))
      else astToType allow (applyTq a (tally ⟨0, 0⟩ qs)) (ast d)) = _
    rw [arrayType_valid _ _ hs, Res.bind_ok]
    show _ = Res.ok (flag (decide (Qual.const ∈ (if d.bare then qs else d.bracketQuals))) _, d.name?)
    rcases hq with ⟨rfl, hb⟩ | ⟨-, -, rfl⟩
    · rw [if_neg (by simp), astToType_bare _ d hb, applyTq_tally _ _ ho, if_pos hb, (bracketQuals_bare d hb).2]
      simp only [flag, decide_eq_true_eq]
    · have e : (if d.bare = true then [] else d.bracketQuals) = d.bracketQuals := by
        split
        · next hb => rw [(bracketQuals_bare d hb).1]
        · rfl
      rw [e]
      cases allow
      · exact ih hv _
      · exact ih hv _
  | fn d ps ih _ =>
    intro h t
    rw [D.Valid] at h
    rw [D.denote]
    exact ih h.2.1 _
  | unspec => trivial
  | last => trivial
  | more => trivial

theorem bracketQuals_other (env : Nat → Option Ty) (d : D) : d.Valid env false → d.bracketQuals = [] := by
  induction d using D.rec (motive_2 := fun _ => True) with
  | name n => intro _; rfl
  | empty => intro _; rfl
  | paren d ih => intro h; rw [D.Valid] at h; exact ih h.2.2
  | ptr qs d ih => intro h; rw [D.Valid] at h; exact ih h.2
  | arr d s1 qs s2 size ih =>
    intro h
    rw [D.Valid] at h
    obtain ⟨hdir, hv, hs, ho, hq, -, -⟩ := h
    have := hq.resolve_left (by simp)
    show (if d.bare then qs else d.bracketQuals) = []
    rw [this.2.2, ih hv]; simp
  | fn d ps ih _ => intro h; rw [D.Valid] at h; exact ih h.2.1
  | unspec => trivial
  | last => trivial
  | more => trivial

theorem astToType_false (env : Nat → Option Ty) (d : D) (h : d.Valid env false) (t : Ty) :
    astToType false t (ast d) = .ok (d.denote t, d.name?) := by
  rw [astToType_ast env false d h, bracketQuals_other env d h]; rfl

/-- The type of the declarator is that of the specifiers, or derived, and then no const array. -/
theorem denote_noConstArray (d : D) : ∀ t, NoConstArray t → NoConstArray (d.denote t) := by
  induction d using D.rec (motive_2 := fun _ => True) with
  | name n => intro t h; rw [D.denote]; exact h
  | empty => intro t h; rw [D.denote]; exact h
  | paren d ih => intro t h; rw [D.denote]; exact ih t h
  | ptr qs d ih =>
    intro t _; rw [D.denote]; refine ih _ ?_
    unfold qualified
    rw [constOf_pointer]
    split <;> exact fun h => by simp [IsArray] at h
  | arr d s1 qs s2 size ih => intro t _; rw [D.denote]; refine ih _ ?_; cases size <;> exact fun _ => ⟨rfl, t, rfl⟩
  | fn d ps ih _ => intro t _; rw [D.denote]; refine ih _ ?_; exact fun h => by simp [IsArray] at h
  | unspec => trivial
  | last => trivial
  | more => trivial

/-- Qualifiers in brackets belong to an array. -/
theorem bracketQuals_array (env : Nat → Option Ty) (d : D) : d.Valid env true → d.bracketQuals ≠ [] → ∀ t, IsArray (d.denote t) = true := by
  induction d using D.rec (motive_2 := fun _ => True) with
  | name n => intro _ h; exact (h rfl).elim
  | empty => intro _ h; exact (h rfl).elim
  | paren d ih => intro h hb t; rw [D.denote]; rw [D.Valid] at h; exact ih h.2.2 hb t
  | ptr qs d ih => intro h hb t; rw [D.denote]; rw [D.Valid] at h; exact ih h.2 hb _
  | arr d s1 qs s2 size ih =>
    intro h hb t
    rw [D.denote]; rw [D.Valid] at h
    cases hbare : d.bare
    · refine ih h.2.1 (fun e => hb ?_) _
      show (if d.bare then qs else d.bracketQuals) = []
      rw [hbare, e]; rfl
    · rw [(bracketQuals_bare d hbare).2]; cases size <;> rfl
  | fn d ps ih _ => intro h hb t; rw [D.denote]; rw [D.Valid] at h; exact ih h.2.1 hb _
  | unspec => trivial
  | last => trivial
  | more => trivial

theorem adjust_flag (qs : List Qual) (t : Ty) (h : NoConstArray t) (hq : qs ≠ [] → IsArray t = true) :
    adjust (flag (decide (Qual.const ∈ qs)) t) = adjusted qs t := by
  obtain ⟨k, c, l⟩ := t
  have hn : IsArray (.node k c l) = false → qs = [] := by
    intro e
    cases qs with
    | nil => rfl
    | cons a r => rw [hq (by simp)] at e; cases e
  have arr : ∀ (k' : Kind), k = k' → IsArray (.node k' c l) = true → c = false ∧ ∃ t, l = [t] := by
    intro k' e ha; subst e; exact h ha
  cases k with
  | array n =>
    obtain ⟨rfl, t, rfl⟩ := arr _ rfl rfl
    by_cases hc : Qual.const ∈ qs <;> simp [flag, hc, adjust, adjust.pointer, adjusted, makeConst, qualified, constOf_pointer]
  | incompleteArray =>
    obtain ⟨rfl, t, rfl⟩ := arr _ rfl rfl
    by_cases hc : Qual.const ∈ qs <;> simp [flag, hc, adjust, adjust.pointer, adjusted, makeConst, qualified, constOf_pointer]
  | vla e =>
    obtain ⟨rfl, t, rfl⟩ := arr _ rfl rfl
    by_cases hc : Qual.const ∈ qs <;> simp [flag, hc, adjust, adjust.pointer, adjusted, makeConst, qualified, constOf_pointer]
  | struct => rw [hn rfl]; simp [flag, adjust, adjusted]
  | pointer => rw [hn rfl]; simp [flag, adjust, adjusted]
  | function v => rw [hn rfl]; simp [flag, adjust, adjusted]
  | simple s => rw [hn rfl]; simp [flag, adjust, adjusted]

theorem type_of_spec (env : Nat → Option Ty) (s : Spec) (h : s.Valid env) :
    applyTq s.base (tally ⟨0, 0⟩ (s.pre ++ s.post)) = s.type ∧ NoConstArray s.type := by
  obtain ⟨ho, hn, ha, -⟩ := h
  rw [applyTq_tally _ _ ho]
  unfold Spec.type qualified
  split
  · next hc =>
    rw [constOf_not_array _ (ha hc)]
    refine ⟨rfl, ?_⟩
    have := ha hc
    generalize s.base = b at this
    obtain ⟨k, c, l⟩ := b
    intro h2
    exfalso
    revert this h2
    cases k <;> simp [IsArray]
  · exact ⟨rfl, hn⟩

theorem parameter_type (env : Nat → Option Ty) (s : Spec) (d : D) (hs : s.Valid env) (hd : d.Valid env true) :
    ∃ t, astToType? true (applyTq s.base (tally ⟨0, 0⟩ (s.pre ++ s.post))) (ast? d) = .ok (t, d.name?) ∧
      adjust t = adjusted d.bracketQuals (d.denote s.type) := by
  obtain ⟨e, hn⟩ := type_of_spec env s hs
  rw [e]
  refine ⟨flag (decide (Qual.const ∈ d.bracketQuals)) (d.denote s.type), ?_, adjust_flag _ _ (denote_noConstArray d _ hn)
    (fun h => bracketQuals_array env d hd h _)⟩
  have := astToType_ast env true d hd s.type
  cases d with
  | empty => rw [D.denote]; rfl
  | _ => exact this

/-! ### Brackets -/

theorem acceptStatic_other (a : DTok) (r : List DTok) (h : a ≠ .kstatic) : acceptStatic (a :: r) = (false, a :: r) := by
  cases a <;> first | rfl | exact (h rfl).elim

theorem acceptStatic_quals (qs : List Qual) (a : DTok) (r : List DTok) (h : a ≠ .kstatic) :
    acceptStatic (qualToks qs ++ a :: r) = (false, qualToks qs ++ a :: r) := by
  cases qs with
  | nil => exact acceptStatic_other a r h
  | cons q s => rfl

/-- The brackets without `[`. -/
def bracketToks (s1 : Bool) (qs : List Qual) (s2 : Bool) (size : Size) : List DTok :=
  staticToks s1 ++ qualToks qs ++ staticToks s2 ++ sizeToks size ++ [.rbrack]

theorem brackets_toks (s1 : Bool) (qs : List Qual) (s2 : Bool) (size : Size) (r : List DTok) (hs : ValidSize size)
    (h12 : s1 = true → s2 = false) (hz : s1 = true ∨ s2 = true → hasSize size = true) :
    brackets (bracketToks s1 qs s2 size ++ r) = .ok (size, tally ⟨0, 0⟩ qs, r) := by
  have tail : ∀ (b : Bool), (b = true → hasSize size = true) →
      (match sizeToks size ++ ([.rbrack] ++ r) with
        | .rbrack :: r => if b then Res.fail else .ok (Size.empty, tally ⟨0, 0⟩ qs, r)
        | .star :: r => do
          let r ← expectRbrack r
          .ok (Size.star, tally ⟨0, 0⟩ qs, r)
        | r => do
          let (s, r) ← expression r
          let r ← expectRbrack r
          .ok (s, tally ⟨0, 0⟩ qs, r)) = .ok (size, tally ⟨0, 0⟩ qs, r) := by
    intro b hb
    cases size with
    | empty => cases b with
      | false => rfl
      | true => cases hb rfl
    | star => rfl
    | num s v => rfl
    | expr d i => cases (show d = false from hs); rfl
  have hd : ∃ a l, sizeToks size ++ ([.rbrack] ++ r) = a :: l ∧ a ≠ .kstatic ∧ ∀ l, NotQual (a :: l) := by
    cases size with
    | expr d i => cases (show d = false from hs); exact ⟨_, _, rfl, by simp, fun _ => trivial⟩
    | _ => exact ⟨_, _, rfl, by simp, fun _ => trivial⟩
  obtain ⟨a, l, el, hak, haq⟩ := hd
  cases s1 with
  | true =>
    cases h12 rfl
    have e : bracketToks true qs false size ++ r = .kstatic :: (qualToks qs ++ (a :: l)) := by
      rw [← el]; simp [bracketToks, staticToks]
    rw [e]
    simp only [brackets]
    rw [show ∀ x, acceptStatic (.kstatic :: x) = (true, x) from fun _ => rfl]
    simp only
    rw [quals_toks _ _ _ (haq l)]
    simp only [acceptStatic_other a l hak]
    rw [← el]
    exact tail true (fun _ => hz (.inl rfl))
  | false =>
    cases s2 with
    | false =>
      have e : bracketToks false qs false size ++ r = qualToks qs ++ (a :: l) := by
        rw [← el]; simp [bracketToks, staticToks]
      rw [e]
      simp only [brackets]
      rw [acceptStatic_quals qs a l hak]
      simp only
      rw [quals_toks _ _ _ (haq l)]
      simp only [acceptStatic_other a l hak]
      rw [← el]
      exact tail false (fun h => by cases h)
    | true =>
      have e : bracketToks false qs true size ++ r = qualToks qs ++ (.kstatic :: (a :: l)) := by
        rw [← el]; simp [bracketToks, staticToks]
      rw [e]
      have e2 : brackets (qualToks qs ++ (.kstatic :: (a :: l))) =
          (match a :: l with
            | .rbrack :: r => if true then Res.fail else .ok (Size.empty, tally ⟨0, 0⟩ qs, r)
            | .star :: r => do
              let r ← expectRbrack r
              .ok (Size.star, tally ⟨0, 0⟩ qs, r)
            | r => do
              let (s, r) ← expression r
              let r ← expectRbrack r
              .ok (s, tally ⟨0, 0⟩ qs, r)) := by
        cases qs with
        | nil =>
          simp only [brackets, qualToks, List.map_nil, List.nil_append]
          rw [show ∀ x, acceptStatic (.kstatic :: x) = (true, x) from fun _ => rfl]
          simp only
          rw [show quals ⟨0, 0⟩ (a :: l) = (⟨0, 0⟩, a :: l) from quals_toks [] _ _ (haq l)]
          simp only [acceptStatic_other a l hak]
          rfl
        | cons q s =>
          simp only [brackets]
          rw [show acceptStatic (qualToks (q :: s) ++ DTok.kstatic :: a :: l) = (false, qualToks (q :: s) ++ DTok.kstatic :: a :: l) from rfl]
          simp only
          rw [quals_toks _ _ _ (show NotQual (DTok.kstatic :: a :: l) from trivial)]
          rfl
      rw [e2, ← el]
      exact tail true (fun _ => hz (.inr rfl))

/-! ### Parsing -/

theorem suffixes_stop (env : Nat → Option Ty) (k : Kept) (a : Ast) (r : List DTok) (h : Stop r) :
    Ends (fun f => suffixes env f k a r) (.ok (a, k, r)) := by
  refine Ends.succ (Ends.congr (g := fun _ => .ok (a, k, r)) (fun n => ?_) (Ends.const _))
  cases r with
  | nil => rfl
  | cons t r => cases t <;> first | rfl | exact h.elim

theorem declarator_stop (env : Nat → Option Ty) (k : Kept) (r : List DTok) (h : Stop r) :
    Ends (fun f => declarator env f k r) (.ok (none, true, k, r)) := by
  refine Ends.succ (Ends.congr (g := fun _ => .ok (none, true, k, r)) (fun n => ?_) (Ends.const _))
  cases r with
  | nil => rfl
  | cons t r => cases t <;> first | rfl | exact h.elim

theorem suffixes_arr (env : Nat → Option Ty) (k : Kept) (a : Ast) (s1 : Bool) (qs : List Qual) (s2 : Bool) (size : Size) (r : List DTok) (x)
    (hs : ValidSize size) (h12 : s1 = true → s2 = false) (hz : s1 = true ∨ s2 = true → hasSize size = true)
    (h : Ends (fun f => suffixes env f k (.array size (tally ⟨0, 0⟩ qs) a) r) x) :
    Ends (fun f => suffixes env f k a (.lbrack :: (bracketToks s1 qs s2 size ++ r))) x := by
  refine Ends.succ (Ends.congr (g := fun n => suffixes env n k (.array size (tally ⟨0, 0⟩ qs) a) r) (fun n => ?_) h)
  show (Run.ofRes (brackets (bracketToks s1 qs s2 size ++ r)) >>= _) = _
  rw [brackets_toks _ _ _ _ _ hs h12 hz]; rfl

theorem suffixes_fn (env : Nat → Option Ty) (k : Kept) (a : Ast) (r : List DTok) (b k' r' x)
    (h1 : Ends (fun f => functionParameters env f k a r) (.ok (b, k', r')))
    (h : Ends (fun f => suffixes env f k' b r') x) :
    Ends (fun f => suffixes env f k a (.lpar :: r)) x :=
  Ends.succ (Ends.bindOk h1 h)

theorem ps_toks_starts (ps : Ps) (r : List DTok) (env : Nat → Option Ty) (h : ps.Valid env) :
    atTypedef env (ps.toks ++ DTok.rpar :: r) = true ∨
    (atTypedef env (ps.toks ++ DTok.rpar :: r) = false ∧
      (∀ f k, declarator env (f + 1) k (ps.toks ++ DTok.rpar :: r) = .ok (none, true, k, ps.toks ++ DTok.rpar :: r))) := by
  have sp : ∀ (s : Spec) (r : List DTok), s.Valid env → atTypedef env (s.toks ++ r) = true ∨
      (atTypedef env (s.toks ++ r) = false ∧ (∀ f k, declarator env (f + 1) k (s.toks ++ r) = .ok (none, true, k, s.toks ++ r))) := by
    intro s r hs
    obtain ⟨pre, ty, post⟩ := s
    cases pre with
    | cons a p => exact .inr ⟨rfl, fun _ _ => rfl⟩
    | nil =>
      cases ty with
      | void => exact .inr ⟨rfl, fun _ _ => rfl⟩
      | type t => exact .inr ⟨rfl, fun _ _ => rfl⟩
      | tdef n t =>
        left
        show (env n).isSome = true
        rw [hs.2.2.2 n t rfl]; rfl
  cases ps with
  | unspec => rw [Ps.toks]; exact .inr ⟨rfl, fun _ _ => rfl⟩
  | last s d v =>
    rw [Ps.Valid] at h
    rw [Ps.toks, List.append_assoc, List.append_assoc]; exact sp _ _ h.1
  | more s d q =>
    rw [Ps.Valid] at h
    rw [Ps.toks, List.append_assoc, List.append_assoc]; exact sp _ _ h.1

theorem declarator_fn_empty (env : Nat → Option Ty) (ps : Ps) (hps : ps.Valid env) (k : Kept) (r : List DTok) (b k' a k'' r')
    (h1 : Ends (fun f => functionParameters env f k (.terminal none) (ps.toks ++ DTok.rpar :: r)) (.ok (b, k', r)))
    (h : Ends (fun f => suffixes env f k' b r) (.ok (a, k'', r'))) :
    Ends (fun f => declarator env f k (.lpar :: (ps.toks ++ DTok.rpar :: r))) (.ok (some a, true, k'', r')) := by
  have h2 : Ends (fun f => if atTypedef env (ps.toks ++ DTok.rpar :: r) then Run.ok (none, true, k, ps.toks ++ DTok.rpar :: r)
      else declarator env f k (ps.toks ++ DTok.rpar :: r)) (.ok (none, true, k, ps.toks ++ DTok.rpar :: r)) := by
    rcases ps_toks_starts ps r env hps with h | ⟨h, h'⟩
    · simp only [h, if_true]; exact Ends.const _
    · simp only [h]
      exact Ends.succ (Ends.congr (g := fun _ => .ok (none, true, k, ps.toks ++ DTok.rpar :: r)) (fun n => h' n k) (Ends.const _))
  exact Ends.succ (Ends.bindOk h2 (Ends.bindOk h1 (Ends.bindOk h (Ends.const _))))

theorem toks_nil (d : D) : d.toks = [] → d = .empty := by
  intro h
  cases d with
  | empty => rfl
  | name n => rw [D.toks] at h; cases h
  | ptr qs d => rw [D.toks] at h; cases h
  | paren d => rw [D.toks] at h; cases h
  | arr d _ _ _ _ => rw [D.toks] at h; simp at h
  | fn d ps => rw [D.toks] at h; simp at h

/-- How a declarator may begin. -/
theorem toks_head (d : D) : ∀ r, (d.toks ++ r = r ∧ d = .empty) ∨ (∃ l n, d.toks ++ r = .ident n :: l ∧ ∀ env, d.startsTypedef env = (env n).isSome) ∨
    (∃ l, d.toks ++ r = .lpar :: l) ∨ (∃ l, d.toks ++ r = .star :: l) ∨ (∃ l, d.toks ++ r = .lbrack :: l) := by
  induction d using D.rec (motive_2 := fun _ => True) with
  | name n => intro r; rw [D.toks]; exact .inr (.inl ⟨r, n, rfl, fun env => rfl⟩)
  | empty => intro r; rw [D.toks]; exact .inl ⟨rfl, rfl⟩
  | paren d ih => intro r; rw [D.toks]; exact .inr (.inr (.inl ⟨_, rfl⟩))
  | ptr qs d ih => intro r; rw [D.toks]; exact .inr (.inr (.inr (.inl ⟨_, rfl⟩)))
  | arr d s1 qs s2 size ih =>
    intro r; rw [D.toks, List.append_assoc]
    rcases ih (DTok.lbrack :: (staticToks s1 ++ qualToks qs ++ staticToks s2 ++ sizeToks size ++ [.rbrack]) ++ r) with ⟨h, -⟩ | ⟨l, n, h, h2⟩ | h | h | h
    · exact .inr (.inr (.inr (.inr ⟨_, h⟩)))
    · exact .inr (.inl ⟨l, n, h, h2⟩)
    · exact .inr (.inr (.inl h))
    · exact .inr (.inr (.inr (.inl h)))
    · exact .inr (.inr (.inr (.inr h)))
  | fn d ps ih _ =>
    intro r; rw [D.toks, List.append_assoc]
    rcases ih (DTok.lpar :: (ps.toks ++ [.rpar]) ++ r) with ⟨h, -⟩ | ⟨l, n, h, h2⟩ | h | h | h
    · exact .inr (.inr (.inl ⟨_, h⟩))
    · exact .inr (.inl ⟨l, n, h, h2⟩)
    · exact .inr (.inr (.inl h))
    · exact .inr (.inr (.inr (.inl h)))
    · exact .inr (.inr (.inr (.inr h)))
  | unspec => trivial
  | last => trivial
  | more => trivial

theorem atTypedef_toks (env : Nat → Option Ty) (d : D) (h : d.startsTypedef env = false) (he : d.isEmpty = false) (r : List DTok) :
    atTypedef env (d.toks ++ r) = false := by
  rcases toks_head d r with ⟨-, h1⟩ | ⟨l, n, h1, h2⟩ | ⟨l, h1⟩ | ⟨l, h1⟩ | ⟨l, h1⟩
  · rw [h1] at he; cases he
  · rw [h1]; show (env n).isSome = false; rw [← h2 env]; exact h
  all_goals rw [h1]; rfl

/-- What comes after the specifiers of a parameter. -/
theorem notSpec_toks (d : D) (r : List DTok) (h : NotSpec r) : NotSpec (d.toks ++ r) := by
  rcases toks_head d r with ⟨h1, -⟩ | ⟨l, n, h1, -⟩ | ⟨l, h1⟩ | ⟨l, h1⟩ | ⟨l, h1⟩ <;> rw [h1] <;> first | exact h | trivial

theorem notQual_toks (d : D) (r : List DTok) (h : Stop r) : NotQual (d.toks ++ r) := by
  rcases toks_head d r with ⟨h1, -⟩ | ⟨l, n, h1, -⟩ | ⟨l, h1⟩ | ⟨l, h1⟩ | ⟨l, h1⟩ <;> rw [h1] <;> first | trivial | skip
  cases r with
  | nil => trivial
  | cons a r => cases a <;> first | exact h.elim | trivial

end Verif.DeclaratorLemmas
