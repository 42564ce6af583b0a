import Verif.Members
import Verif.MembersSpec
import Verif.DeclaratorParse
/-!
C105: the members of a structure or union are those that C says (6.7.2.1).
-/
namespace Verif.Members
open Verif Simple Declarator DeclaratorSpec DeclaratorLemmas MembersSpec
open Verif.Types (Ty Kind)
open Verif.Run (Ends)

/-! ### Specifiers -/

/-- Neither a specifier nor `_Alignas` follows. -/
def NotMore (r : List DTok) : Prop := NotSpec r ∧ ∀ n l, r ≠ .alignas n :: l

/-- Whether `data_type` is set. -/
def isSet (s : Spec) : Bool :=
  match s.ty with
  | .void => false
  | .type t => isRecord t
  | .tdef _ _ => true

theorem specs_end (env : Nat → Option Ty) (q : Quals) (t : Ty × Bool) (r : List DTok) (h : NotMore r) :
    specs env q (some t) true r = .ok (some (q, some t), r) := by
  cases r with
  | nil => rfl
  | cons a r => cases a <;> first | rfl | exact h.1.elim | exact absurd rfl (h.2 _ _)

theorem specs_quals (env : Nat → Option Ty) (qs : List Qual) : ∀ q ty m r, m = true ∨ qs ≠ [] →
    specs env q ty m (qualToks qs ++ r) = specs env (tally q qs) ty true r := by
  induction qs with
  | nil => intro q ty m r h; rw [h.resolve_right (fun h => h rfl)]; rfl
  | cons a s ih => intro q ty m r _; cases a <;> exact ih _ _ _ _ (.inl rfl)

theorem specs_toks (env : Nat → Option Ty) (s : Spec) (h : s.Valid env) (m : Bool) (r : List DTok) (hr : NotMore r) :
    specs env ⟨0, 0⟩ none m (s.toks ++ r) = .ok (some (tally ⟨0, 0⟩ (s.pre ++ s.post), some (s.base, isSet s)), r) := by
  obtain ⟨pre, ty, post⟩ := s
  have htd := h.2.2.2
  have step : ∀ q m, specs env q none m (ty.tok :: (qualToks post ++ r)) =
      .ok (some (tally q post, some (Spec.base ⟨pre, ty, post⟩, isSet ⟨pre, ty, post⟩)), r) := by
    intro q m
    rw [← specs_end env _ _ r hr, ← specs_quals env post q _ true r (.inl rfl)]
    cases ty with
    | void => rfl
    | type t => rfl
    | tdef n t =>
      show (match (none : Option (Ty × Bool)), env n with
        | none, some t => specs env q (some (t, true)) true (qualToks post ++ r)
        | _, _ => .ok (if m then some (q, none) else none, .ident n :: (qualToks post ++ r))) = _
      rw [htd n t rfl]; rfl
  rw [← tally_append]
  have e : Spec.toks ⟨pre, ty, post⟩ ++ r = qualToks pre ++ (ty.tok :: (qualToks post ++ r)) := by
    simp [Spec.toks]
  rw [e]
  cases pre with
  | nil => exact step _ _
  | cons a p => rw [specs_quals env (a :: p) _ _ _ _ (.inr (by simp))]; exact step _ _

/-! ### Declarators -/

/-- What the compiler keeps of a member. -/
def field (m : Member) : Field := ⟨m.type, m.name, m.width.getD (-1)⟩

/-- What follows a declarator in a list. -/
def After (r : List DTok) : Prop := (∃ l, r = .comma :: l) ∨ ∃ l, r = .semi :: l

theorem width_ok (s : Bool) (w : Int) (h0 : 0 ≤ w) (h : w ≤ 64) (r : List DTok) : width (.num s w :: r) = .ok (w, r) := by
  have : (BitVec.ofInt 32 w).toInt = w := by
    rw [BitVec.toInt_ofInt, Int.bmod_def]; omega
  simp [width, this]

theorem stop_after {r : List DTok} (h : After r) : Stop r ∧ ∀ l, r ≠ .colon :: l := by
  rcases h with ⟨l, rfl⟩ | ⟨l, rfl⟩ <;> exact ⟨trivial, by simp⟩

/-- One declarator and what follows it. -/
theorem declarators_step (env : Nat → Option Ty) (s : Spec) (hs : s.Valid env) (b : Bool) (m : MD) (hm : m.Valid env) (a : Option Nat)
    (fs : List Field) (found : Bool) (r : List DTok) (hr : After r) (x)
    (h : Ends (fun f => declarators env (tally ⟨0, 0⟩ (s.pre ++ s.post)) (some (s.base, b)) f (fs ++ [field (m.member a s.type)]) true (acceptComma r)) x) :
    Ends (fun f => declarators env (tally ⟨0, 0⟩ (s.pre ++ s.post)) (some (s.base, b)) f fs found (m.toks ++ r)) x := by
  obtain ⟨e, -⟩ := type_of_spec env s hs
  refine Ends.succ ?_
  cases m with
  | plain d =>
    obtain ⟨hd, hn⟩ := hm
    have hp := (parses env false d hd).1 none r (stop_after hr).1
    have he : d.isEmpty = false := by cases d <;> first | rfl | exact absurd rfl hn
    rw [show ast? d = some (ast d) by unfold ast?; rw [he]; rfl] at hp
    have hi : d.name?.isNone = false := by cases h : d.name? with | none => exact absurd h hn | some _ => rfl
    rw [hi] at hp
    refine Ends.bindOk hp ?_
    simp only [if_neg (show ¬ (false = true) by decide), specType, Run.bind_ok, e, astToType_false env d hd, Run.ofRes_ok]
    rcases hr with ⟨l, rfl⟩ | ⟨l, rfl⟩ <;> exact h
  | bits d sg w =>
    obtain ⟨hd, hb, hn, h0, h64⟩ := hm
    have hp := (parses env false d hd).1 none (.colon :: .num sg w :: r) trivial
    have e1 : MD.toks (.bits d sg w) ++ r = d.toks ++ .colon :: .num sg w :: r := by simp [MD.toks]
    rw [e1]
    have hden : ∀ t, d.denote t = t := (bracketQuals_bare d hb).2
    have hf : field (MD.member a s.type (.bits d sg w)) = ⟨s.type, d.name?, w⟩ := by
      simp [field, MD.member, hden]
    rw [hf] at h
    cases hd' : d.name? with
    | none =>
      obtain rfl := hn hd'
      refine Ends.bindOk hp ?_
      simp only [ast?, D.isEmpty, specType, Run.bind_ok, e, width_ok sg w h0 h64]
      exact h
    | some n =>
      have he : d.isEmpty = false := by cases d <;> first | rfl | cases hd'
      rw [show ast? d = some (ast d) by unfold ast?; rw [he]; rfl, hd'] at hp
      rw [hd'] at h
      refine Ends.bindOk hp ?_
      simp only [Option.isNone, if_neg (show ¬ (false = true) by decide), specType, Run.bind_ok, e, astToType_false env d hd,
        Run.ofRes_ok, width_ok sg w h0 h64, hd']
      exact h

theorem declarators_end (env : Nat → Option Ty) (q : Quals) (t : Option (Ty × Bool)) (fs : List Field) (found : Bool) (r : List DTok) :
    Ends (fun f => declarators env q t f fs found (.semi :: r)) (.ok (fs, found, .semi :: r)) := by
  refine Ends.succ ?_
  refine Ends.bindOk (declarator_stop env none (.semi :: r) trivial) ?_
  exact Ends.const _

theorem declarators_list (env : Nat → Option Ty) (s : Spec) (hs : s.Valid env) (b : Bool) (a : Option Nat) (r : List DTok) :
    ∀ (ms : List MD) (_ : ∀ m ∈ ms, m.Valid env) (fs : List Field) (found : Bool),
    Ends (fun f => declarators env (tally ⟨0, 0⟩ (s.pre ++ s.post)) (some (s.base, b)) f fs found (listToks ms ++ .semi :: r))
      (.ok (fs ++ ms.map (fun m => field (m.member a s.type)), found || !ms.isEmpty, .semi :: r))
  | [], _, fs, found => by simpa [listToks] using declarators_end env _ _ fs found r
  | [m], hm, fs, found => by
    refine declarators_step env s hs b m (hm m (by simp)) a fs found _ (.inr ⟨_, rfl⟩) _ ?_
    simpa [acceptComma] using declarators_end env _ _ (fs ++ [field (m.member a s.type)]) true r
  | m :: m' :: ms, hm, fs, found => by
    have e : listToks (m :: m' :: ms) ++ .semi :: r = m.toks ++ .comma :: (listToks (m' :: ms) ++ .semi :: r) := by
      simp [listToks]
    rw [e]
    refine declarators_step env s hs b m (hm m (by simp)) a fs found _ (.inl ⟨_, rfl⟩) _ ?_
    have := declarators_list env s hs b a r (m' :: ms) (fun x hx => hm x (by simp [List.mem_cons] at hx ⊢; exact .inr hx))
      (fs ++ [field (m.member a s.type)]) true
    simpa [acceptComma] using this

/-! ### The list -/

theorem notMore_list (ms : List MD) (r : List DTok) : NotMore (listToks ms ++ .semi :: r) := by
  have d1 : ∀ (d : D) (r : List DTok), NotMore r → NotMore (d.toks ++ r) := by
    intro d r h
    refine ⟨notSpec_toks d r h.1, fun n l e => ?_⟩
    rcases toks_head d r with ⟨h1, -⟩ | ⟨l', n', h1, -⟩ | h1
    · exact h.2 n l (h1 ▸ e)
    · rw [h1] at e; cases e
    · rcases h1 with ⟨l', h1⟩ | ⟨l', h1⟩ | ⟨l', h1⟩ <;> · rw [h1] at e; cases e
  have d2 : ∀ (m : MD) (r : List DTok), NotMore r → NotMore (m.toks ++ r) := by
    intro m r h
    cases m with
    | plain d => exact d1 d r h
    | bits d s w =>
      simp only [MD.toks, List.append_assoc]
      exact d1 d _ ⟨trivial, by simp⟩
  match ms with
  | [] => exact ⟨trivial, by simp [listToks]⟩
  | [m] => exact d2 m _ ⟨trivial, by simp⟩
  | m :: m' :: ms =>
    have e : listToks (m :: m' :: ms) ++ .semi :: r = m.toks ++ .comma :: (listToks (m' :: ms) ++ .semi :: r) := by
      simp [listToks]
    rw [e]
    exact d2 m _ ⟨trivial, by simp⟩

/-- Whatever alignment is asked for: the other parts of the members are read. -/
theorem members_read (env : Nat → Option Ty) (rest : List DTok) : ∀ (ms : List M) (_ : ∀ m ∈ ms, m.Valid env)
    (_ : ∀ m ∈ ms, m.ds = [] → Qual.const ∉ m.spec.pre ++ m.spec.post) (fs : List Field),
    Ends (fun f => members env f fs ((ms.map M.toks).flatten ++ .rbrace :: rest))
      (.ok (fs ++ (ms.map M.members).flatten.map field, rest))
  | [], _, _, fs => by
    refine Ends.succ ?_
    simpa [members, specs] using Ends.const (Run.ok (fs, rest))
  | m :: ms, hv, hc, fs => by
    obtain ⟨h1, h2, h3⟩ := hv m (by simp)
    have ih := members_read env rest ms (fun x hx => hv x (by simp [hx])) (fun x hx => hc x (by simp [hx]))
    have key : ∀ tail, specs env ⟨0, 0⟩ none false (m.toks ++ tail) =
        .ok (some (tally ⟨0, 0⟩ (m.spec.pre ++ m.spec.post), some (m.spec.base, isSet m.spec)), listToks m.ds ++ .semi :: tail) := by
      intro tail
      have hn := notMore_list m.ds tail
      cases ha : m.align with
      | none => simpa [M.toks, ha] using specs_toks env m.spec h1 false _ hn
      | some n => simpa [M.toks, ha, specs] using specs_toks env m.spec h1 true _ hn
    refine Ends.succ ?_
    have e0 : ((m :: ms).map M.toks).flatten ++ .rbrace :: rest = m.toks ++ ((ms.map M.toks).flatten ++ .rbrace :: rest) := by simp
    rw [e0]
    generalize ht : (ms.map M.toks).flatten ++ .rbrace :: rest = tail at ih
    refine Ends.congr (g := fun f => declarators env (tally ⟨0, 0⟩ (m.spec.pre ++ m.spec.post)) (some (m.spec.base, isSet m.spec)) f fs false
        (listToks m.ds ++ .semi :: tail) >>= fun (fs, found, r) =>
      match r with
      | .semi :: r =>
        if found then members env f fs r
        else do
          let a ← anonymous (some (m.spec.base, isSet m.spec))
          members env f (fs ++ [a]) r
      | _ => .fail) (fun f => ?_) ?_
    · show (Run.ofRes (specs env ⟨0, 0⟩ none false (m.toks ++ tail)) >>= _) = _
      rw [key]; rfl
    · refine Ends.bindOk (declarators_list env m.spec h1 (isSet m.spec) m.align tail m.ds h2 fs false) ?_
      cases hd : m.ds with
      | nil =>
        obtain ⟨t, ht, i, c, l, rfl⟩ := h3 hd
        have hb : m.spec.base = .node (.struct i) c l := by unfold Spec.base; rw [ht]
        have hty : m.spec.type = .node (.struct i) c l := by
          unfold Spec.type qualified; rw [if_neg (hc m (by simp) hd), hb]
        have hset : isSet m.spec = true := by unfold isSet; rw [ht]; rfl
        have hmm : m.members = [⟨.node (.struct i) c l, none, none, m.align⟩] := by unfold M.members; rw [hd, hty]; rfl
        simp only [List.isEmpty, Bool.not_true, Bool.or_false, hb, hset, anonymous, isRecord, if_true, Run.bind_ok,
          List.map_nil, List.append_nil, Bool.false_eq_true, if_false]
        have := ih (fs ++ [⟨.node (.struct i) c l, none, -1⟩])
        simpa [hmm, field] using this
      | cons d ds =>
        have hmm : m.members = (d :: ds).map (MD.member m.align m.spec.type) := by unfold M.members; rw [hd]; rfl
        simp only [List.isEmpty, Bool.not_false, Bool.or_true, if_true]
        have := ih (fs ++ (d :: ds).map fun x => field (x.member m.align m.spec.type))
        have e2 : (d :: ds).map (fun x => field (x.member m.align m.spec.type)) = m.members.map field := by rw [hmm, List.map_map]; rfl
        rw [e2] at this ⊢
        simpa using this

/-- C17 6.7.2.1: every list of members is read, and what is kept of it tells its members. -/
def MembersRight (env : Nat → Option Ty) : Prop :=
  ∃ meaning : List Field → List Member, ∀ (ms : List M) (rest : List DTok), (∀ m ∈ ms, m.Valid env) →
    ∃ fs, Ends (fun f => members env f [] ((ms.map M.toks).flatten ++ .rbrace :: rest)) (.ok (fs, rest)) ∧
      meaning fs = (ms.map M.members).flatten

/-- What the fields mean: a width of -1 is none. -/
def meaning (fs : List Field) : List Member :=
  fs.map fun f => ⟨f.type, f.name, if f.bitfield = -1 then none else some f.bitfield, none⟩

theorem meaning_field (env : Nat → Option Ty) (m : M) (h : m.Valid env) (ha : m.align = none) : meaning (m.members.map field) = m.members := by
  obtain ⟨-, h2, -⟩ := h
  unfold M.members
  split
  · simp [meaning, field, ha]
  · simp only [meaning, List.map_map]
    apply List.map_congr_left
    intro d hd
    cases d with
    | plain d => simp [field, MD.member, ha]
    | bits d s w =>
      obtain ⟨-, -, -, h0, -⟩ := h2 _ hd
      simp only [Function.comp, field, MD.member, ha, Option.getD]
      rw [if_neg (by omega)]

/-- C105, `_partial`: the members, in their order, with types, names and widths, for every list of member declarations,
with any declarators. Full statement: `MembersRight`. Missing: `_Alignas` (violated, see `alignas_violated`) and const before
an anonymous structure (violated, see `const_anonymous_violated`). -/
theorem members_partial (env : Nat → Option Ty) (ms : List M) (rest : List DTok) (hv : ∀ m ∈ ms, m.Valid env)
    (hc : ∀ m ∈ ms, m.ds = [] → Qual.const ∉ m.spec.pre ++ m.spec.post) (ha : ∀ m ∈ ms, m.align = none) :
    ∃ fs, Ends (fun f => members env f [] ((ms.map M.toks).flatten ++ .rbrace :: rest)) (.ok (fs, rest)) ∧
      meaning fs = (ms.map M.members).flatten := by
  refine ⟨_, members_read env rest ms hv hc [], ?_⟩
  rw [List.nil_append]
  induction ms with
  | nil => rfl
  | cons m ms ih =>
    simp only [List.map_cons, List.flatten_cons, List.map_append]
    have e : ∀ a b, meaning (a ++ b) = meaning a ++ meaning b := by intro a b; simp [meaning]
    rw [e, meaning_field env m (hv m (by simp)) (ha m (by simp)),
      ih (fun x hx => hv x (by simp [hx])) (fun x hx => hc x (by simp [hx])) (fun x hx => ha x (by simp [hx]))]

/-- `int` -/
private abbrev tint : Ty := .node (.simple .int) false []

/-- Members that the theorem is about: `const int a : 3, *p[2], : 0; struct { … };` -/
private def sample : List M :=
  [⟨none, ⟨[.const], .type tint, []⟩, [.bits (.name 0) true 3, .plain (.ptr [] (.arr (.name 1) false [] false (.num true 2))), .bits .empty true 0]⟩,
   ⟨none, ⟨[], .type (.node (.struct 5) false []), []⟩, []⟩]

example : (∀ m ∈ sample, m.Valid fun _ => none) ∧ (∀ m ∈ sample, m.ds = [] → Qual.const ∉ m.spec.pre ++ m.spec.post) ∧
    (∀ m ∈ sample, m.align = none) ∧
    (sample.map M.members).flatten = [
      ⟨.node (.simple .int) true [], some 0, some 3, none⟩,
      ⟨.node (.array 2) false [.node .pointer false [.node (.simple .int) true []]], some 1, none, none⟩,
      ⟨.node (.simple .int) true [], none, some 0, none⟩,
      ⟨.node (.struct 5) false [], none, none, none⟩] := by
  refine ⟨?_, ?_, ?_, ?_⟩
  · intro m hm
    simp [sample] at hm
    rcases hm with rfl | rfl
    · simp [M.Valid, MD.Valid, Spec.Valid, Once, NoConstArray, Spec.base, IsArray, D.Valid, D.direct, D.bare, D.name?, ValidSize, List.count_cons]
    · simp [M.Valid, Spec.Valid, Once, NoConstArray, Spec.base, IsArray, Record]
  · simp [sample]
  · simp [sample]
  · simp [sample, M.members, MD.member, D.denote, D.name?, Spec.type, Spec.base, qualified, constOf, arrayOf]

/-! ### Where the code goes wrong -/

/-- C105, violation: `struct { _Alignas(16) int a; }` and `struct { int a; }` are read alike. -/
theorem alignas_violated (env : Nat → Option Ty) : ¬ MembersRight env := by
  rintro ⟨mean, h⟩
  have v : ∀ a, ∀ m ∈ [(⟨a, ⟨[], .type tint, []⟩, [.plain (.name 0)]⟩ : M)], m.Valid env := by
    intro a m hm
    simp at hm; subst hm
    simp [M.Valid, MD.Valid, Spec.Valid, Once, NoConstArray, Spec.base, IsArray, D.Valid, D.name?]
  obtain ⟨f1, ⟨M1, g1⟩, e1⟩ := h [⟨none, ⟨[], .type tint, []⟩, [.plain (.name 0)]⟩] [] (v none)
  obtain ⟨f2, ⟨M2, g2⟩, e2⟩ := h [⟨some 16, ⟨[], .type tint, []⟩, [.plain (.name 0)]⟩] [] (v (some 16))
  obtain ⟨N1, k1⟩ := members_read env [] [⟨none, ⟨[], .type tint, []⟩, [.plain (.name 0)]⟩] (v none) (by simp) []
  obtain ⟨N2, k2⟩ := members_read env [] [⟨some 16, ⟨[], .type tint, []⟩, [.plain (.name 0)]⟩] (v (some 16)) (by simp) []
  have a1 := (g1 (M1 + N1) (by omega)).symm.trans (k1 (M1 + N1) (by omega))
  have a2 := (g2 (M2 + N2) (by omega)).symm.trans (k2 (M2 + N2) (by omega))
  simp [M.members, MD.member, field] at a1 a2
  rw [a1] at e1
  rw [a2] at e2
  rw [e1] at e2
  simp [M.members, MD.member] at e2

/-- `const struct { … };` as a member: the structure is not const, so its members can be modified. In C they are const. -/
theorem const_anonymous_violated (env : Nat → Option Ty) : ∃ m : M, m.Valid env ∧
    m.members = [⟨.node (.struct 5) true [], none, none, none⟩] ∧
    Ends (fun f => members env f [] (m.toks ++ [.rbrace])) (.ok ([⟨.node (.struct 5) false [], none, -1⟩], [])) := by
  refine ⟨⟨none, ⟨[.const], .type (.node (.struct 5) false []), []⟩, []⟩, ?_, ?_, ⟨3, fun f hf => ?_⟩⟩
  · simp [M.Valid, Spec.Valid, Once, NoConstArray, Spec.base, IsArray, Record]
  · simp [M.members, Spec.type, Spec.base, qualified, constOf]
  · obtain ⟨g, rfl⟩ : ∃ g, f = g + 3 := ⟨f - 3, by omega⟩
    simp only [M.toks, Spec.toks, qualToks, TySpec.tok, listToks]
    rfl

/-- `int *p : 3` is accepted, as a bit-field of type int; a bit-field must have an integer type (6.7.2.1p5). -/
theorem pointer_width_accepted (env : Nat → Option Ty) :
    Ends (fun f => members env f [] [.spec tint, .star, .ident 0, .colon, .num true 3, .semi, .rbrace])
      (.ok ([⟨tint, some 0, 3⟩], [])) := by
  refine ⟨6, fun f hf => ?_⟩
  obtain ⟨g, rfl⟩ : ∃ g, f = g + 6 := ⟨f - 6, by omega⟩
  rfl

/-- `struct { int a b; }` is accepted: the comma may be missing. -/
theorem missing_comma_accepted (env : Nat → Option Ty) :
    Ends (fun f => members env f [] [.spec tint, .ident 0, .ident 1, .semi, .rbrace])
      (.ok ([⟨tint, some 0, -1⟩, ⟨tint, some 1, -1⟩], [])) := by
  refine ⟨6, fun f hf => ?_⟩
  obtain ⟨g, rfl⟩ : ∃ g, f = g + 6 := ⟨f - 6, by omega⟩
  rfl

/-- `struct { int; }` makes the compiler dereference NULL. -/
theorem no_declarator_ub (env : Nat → Option Ty) :
    Ends (fun f => members env f [] [.spec tint, .semi, .rbrace]) .ub := by
  refine ⟨6, fun f hf => ?_⟩
  obtain ⟨g, rfl⟩ : ∃ g, f = g + 6 := ⟨f - 6, by omega⟩
  rfl

/-- A member must have a name, unless it is a bit-field. -/
theorem abstract_member_rejected (env : Nat → Option Ty) (s : Spec) (d : D) (r : List DTok) (fs : List Field) (hs : s.Valid env)
    (hd : d.Valid env false) (hn : d.name? = none) (he : d.isEmpty = false) (hr : Stop r) (hr2 : NotMore (d.toks ++ r)) :
    Ends (fun f => members env f fs (s.toks ++ (d.toks ++ r))) .fail := by
  have hp := (parses env false d hd).1 none r hr
  rw [show ast? d = some (ast d) by unfold ast?; rw [he]; rfl, hn] at hp
  refine Ends.succ ?_
  have key := specs_toks env s hs false _ hr2
  refine Ends.congr (g := fun f => declarators env (tally ⟨0, 0⟩ (s.pre ++ s.post)) (some (s.base, isSet s)) f fs false (d.toks ++ r) >>=
      fun (fs, found, r) =>
      match r with
      | .semi :: r =>
        if found then members env f fs r
        else do
          let a ← anonymous (some (s.base, isSet s))
          members env f (fs ++ [a]) r
      | _ => .fail) (fun f => ?_) ?_
  · show (Run.ofRes (specs env ⟨0, 0⟩ none false (s.toks ++ (d.toks ++ r))) >>= _) = _
    rw [key]; rfl
  · have : Ends (fun f => declarators env (tally ⟨0, 0⟩ (s.pre ++ s.post)) (some (s.base, isSet s)) f fs false (d.toks ++ r)) .fail :=
      Ends.succ (Ends.bindOk hp (Ends.const _))
    exact Ends.bind this (Ends.const _)

example : (D.ptr [] .empty).Valid (fun _ => none) false ∧ (D.ptr [] .empty).name? = none ∧
    NotMore ((D.ptr [] .empty).toks ++ [.semi]) :=
  ⟨by simp [D.Valid, Once], rfl, by simp [NotMore, D.toks, qualToks, NotSpec]⟩

end Verif.Members
