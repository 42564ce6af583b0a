import Verif.AddrConstLemmas
/-!
C113: an address constant in a static initialiser becomes the address it denotes, and the compound
literals whose addresses are used become unnamed objects.
-/
namespace Verif.AddrConstProps
open Verif Verif.Simple Verif.SimpleSpec Verif.StaticInit Verif.AddrConst Verif.AddrConstSpec Verif.AddrConstLemmas

/-- Full statement: for every initialiser with the meaning `n` in which the compound literals whose
addresses are used have the labels that `register_label` gives out in turn, the compiler emits `n`,
and before it, in order, an object for each of these literals: at its label, of its size, with the
meaning of its initialiser.  Missing: the initialisers that are not `KnownInit`; the violations
below are examples of them. -/
theorem static_parts_partial {d : Decls} {lab : Nat → Int} {i : I} {n : Node} (nodeOf : Nat → Node)
    (h : Init d lab i n) (hk : KnownInit i) (next : Int)
    (hn : ∀ x ∈ addressed i, Init d lab x.2.2 (nodeOf x.1))
    (hlab : ∀ (j : Nat) (x : Nat × Ty × I), (addressed i)[j]? = some x → lab x.1 = next - j) :
    ∃ ps, parts d next i = .ok (ps, n) ∧ ps.length = (addressed i).length ∧
      ∀ (j : Nat) (x : Nat × Ty × I), (addressed i)[j]? = some x →
        ps[j]? = some (lab x.1, (bytes d x.2.1).toNat, nodeOf x.1) := by
  obtain ⟨ti, ti', ls, h1, h2, h3, h4⟩ := build_init nodeOf h hk next hn hlab
  refine ⟨ls.map (pendingOf d), ?_, ?_, fun j x hj => ?_⟩
  · simp [parts, h1, h2, h3]
  · rw [h4, pend_length]
  · rw [h4, pend_get d nodeOf _ next j x hj, hlab j x hj]

/-- An address constant that leads to no compound literal is folded to its label and offset by the
parser, wherever it occurs.  Missing: as above. -/
theorem address_constant_partial {d : Decls} {e : E} {t : Ty} {l o : Int} (h : Den d e (.pv t (.named l) o))
    (hk : Known e) : build d e = .ok (.const (.ptr (.ptr t) l o)) := by
  obtain ⟨e', h1, h2⟩ := rep_den h hk (by rw [den_lits h]; simp [litsOf])
  cases h2; exact h1

/-- `offsetof` is an integer constant, the offset.  Missing: indices of other types
(`offsetof_index_violated`). -/
theorem offsetof_partial {d : Decls} {t u : Ty} {p : List Step} {o : Int} (h : Offset d t p o u) (hp : IntIndices p)
    (hs : Small o) : build d (offsetof t p) = .ok (.const (.num (.simple .ulong) (BitVec.ofInt 64 o))) := by
  have h1 := rep_offset h hp (.obj (-1) t) 0 (by omega) (by simpa using hs) rfl
  rw [Int.zero_add] at h1
  simp only [offsetof, build, h1, Res.bind_ok]
  have h2 : mkAddr d (.const (.lab u (-1) o)) = .ok (.const (.ptr (.ptr u) (-1) o)) := fold_some rfl
  rw [h2, Res.bind_ok, mkCast_other (e1 := .const (.ptr (.ptr u) (-1) o)) rfl (by simp [T.ty, K.ty])]
  exact fold_some (by simp [eval, onConst, evalCast, Ty.isPtr])

/-! ### Examples -/

/-- `struct { char c; int a[3]; struct 0 *p; }` -/
def decls : Decls where
  abi := .sysv
  size := fun _ => 24
  member := fun r i => if r = 0 then [⟨0, -1, .simple .char⟩, ⟨4, -1, .array (.simple .int) 3⟩, ⟨16, -1, .ptr (.record 0)⟩][i]? else none

/-- `&s[1].a[2]` for `struct 0 s[2]` at label 7. -/
def inArray : E :=
  .addr (.deref (.add (.dot (.deref (.add (.obj 7 (.array (.record 0) 2)) (.num .int 1))) 1) (.num .char 2)))

theorem inArray_den : Den decls inArray (.pv (.simple .int) (.named 7) 36) :=
  .addr (.deref (.addL
    (.dot (m := ⟨4, -1, .array (.simple .int) 3⟩) (r := 0)
      (.deref (.addL (.obj 7 _) (.array _ _ _ _) (.num _ _ (by decide) (by decide)) trivial (by decide) (by decide)) (.pv _ _ _))
      rfl rfl (by decide))
    (.array _ _ _ _) (.num _ _ (by decide) (by decide)) trivial (by decide) (by decide)) (.pv _ _ _))

example : build decls inArray = .ok (.const (.ptr (.ptr (.simple .int)) 7 36)) :=
  address_constant_partial inArray_den (by simp [inArray, Known, isAbsolute, IndexOk, Promotes])

example : build decls (offsetof (.record 0) [.member 1, .index .int 2]) =
    .ok (.const (.num (.simple .ulong) 12)) :=
  offsetof_partial (u := .simple .int) (o := 4 + (2 * 4 + 0))
    (.member (m := ⟨4, -1, .array (.simple .int) 3⟩) rfl rfl
      (.index (t := .simple .int) trivial (by decide) (by decide) (by decide) (.nil _)))
    (by intro s v h; simp at h; obtain ⟨rfl, _⟩ := h; decide) (by decide)

/-- `{ (int[]){1, 2} + 1, &s[1].a[2] }`, the pointers at the offsets 0 and 8. -/
def two : I :=
  .entry 0 (-1) (-1) (.expr (.ptr (.simple .int)) (.add (.lit 0 (.array (.simple .int) 2)
    (.entry 0 (-1) (-1) (.expr (.simple .int) (.num .int 1)) (.entry 4 (-1) (-1) (.expr (.simple .int) (.num .int 2)) .last)))
    (.num .int 1)))
  (.entry 8 (-1) (-1) (.expr (.ptr (.simple .int)) inArray) .last)

example : ∃ ps, parts decls (-2) two =
      .ok (ps, .entry 0 (-1) (-1) (.address (-2) 4) (.entry 8 (-1) (-1) (.address 7 36) .last)) ∧ ps.length = 1 ∧
    ps[0]? = some (-2, 8, .entry 0 (-1) (-1) (.const 4 1) (.entry 4 (-1) (-1) (.const 4 2) .last)) := by
  obtain ⟨ps, h1, h2, h3⟩ := static_parts_partial (d := decls) (lab := fun _ => -2) (i := two)
    (n := .entry 0 (-1) (-1) (.address (-2) 4) (.entry 8 (-1) (-1) (.address 7 36) .last))
    (fun _ => .entry 0 (-1) (-1) (.const 4 1) (.entry 4 (-1) (-1) (.const 4 2) .last))
    (.entry (.address (b := .literal 0 _ _) (o := 4) (v := .pv (.simple .int) (.literal 0 _ _) 4)
        (.addL (i := 1) (o := 0) (.lit _ _ _ trivial) (.array _ _ _ _) (.num _ _ (by decide) (by decide)) trivial (by decide) (by decide))
        (.pv _ _ _))
      (.entry (.address (b := .named 7) inArray_den (.pv _ _ _)) .last))
    (by simp [two, inArray, KnownInit, Known, isAbsolute, IndexOk, Promotes, addressed, isValue, literalIn]) (-2)
    (by
      intro x hx
      simp [two, inArray, addressed, isValue, literalIn] at hx
      subst hx
      exact .entry (.integer (i := 1) (.num _ _ (by decide) (by decide)))
        (.entry (.integer (i := 2) (.num _ _ (by decide) (by decide))) .last))
    (by
      intro j x hj
      simp [two, inArray, addressed, isValue, literalIn] at hj
      cases j <;> simp at hj ⊢)
  exact ⟨ps, h1, by rw [h2]; rfl, h3 0 _ rfl⟩

/-- C113: the value of an object is no constant. For a pointer `o` with static storage, the address of `o` is not taken for the value of `&*o` and `o + i`. -/
theorem value_no_constant (s : ST) (l next v : Int) :
    parts decls next (.expr (.ptr (.simple s)) (.addr (.deref (.obj l (.ptr (.simple s)))))) = .ok ([], .other) ∧
    parts decls next (.expr (.ptr (.simple s)) (.add (.obj l (.ptr (.simple s))) (.num .int v))) = .ok ([], .other) := by
  constructor <;> cases s <;> rfl

/-! ### Violations -/

/-- An expression that the compiler takes for no constant leaves a pointer zero, without a
diagnostic: the file has eight zero bytes and no reference. -/
theorem other_is_zero : codegenStaticVar 8 true 5 8 (some .other) [] =
    .ok [.sect (str ".data"), .align 8, .label true 5, .quad 0, .sect (str ".text")] := by
  decide +kernel

/-- `int *p = &a[1u];` and `int *p = a + 1L;` are taken for no constants. -/
theorem index_type_violated (s : ST) (hs : s ∈ [ST.uint, .long, .ulong, .llong, .ullong]) (lab : Nat → Int) (next : Int) :
    Init decls lab (.expr (.ptr (.simple .int)) (.addr (.deref (.add (.obj 7 (.array (.simple .int) 3)) (.num s 1))))) (.address 7 4) ∧
    parts decls next (.expr (.ptr (.simple .int)) (.addr (.deref (.add (.obj 7 (.array (.simple .int) 3)) (.num s 1))))) =
      .ok ([], .other) := by
  have hi : IsInt s ∧ InRange decls.abi s 1 := by
    revert hs; cases s <;> decide
  refine ⟨?_, ?_⟩
  · exact .address (b := .named 7) (o := 4) (.addr (.deref (.addL (i := 1) (o := 0) (.obj _ _) (.array _ _ _ _)
      (.num _ _ hi.1 hi.2) trivial (by decide) (by decide)) (.pv _ _ _))) (.pv _ _ _)
  · revert hs
    cases s <;> simp <;> rfl

/-- `char *p = (char *)4 + 1;` is taken for no constant. -/
theorem absolute_violated (lab : Nat → Int) (next : Int) :
    Init decls lab (.expr (.ptr (.simple .char)) (.add (.cast (.ptr (.simple .char)) (.num .int 4)) (.num .int 1))) (.const 8 5) ∧
    parts decls next (.expr (.ptr (.simple .char)) (.add (.cast (.ptr (.simple .char)) (.num .int 4)) (.num .int 1))) =
      .ok ([], .other) :=
  ⟨.address (b := .absolute) (o := 5) (.addL (i := 1) (o := 4) (.castNum (.num _ _ (by decide) (by decide))) (.pv _ _ _)
    (.num _ _ (by decide) (by decide)) trivial (by decide) (by decide)) (.pv _ _ _), rfl⟩

/-- `int *p = ((struct s *)0)->a;` is taken for no constant. -/
theorem member_of_null_violated (lab : Nat → Int) (next : Int) :
    Init decls lab (.expr (.ptr (.simple .int)) (.dot (.deref (.cast (.ptr (.record 0)) (.num .int 0))) 1)) (.const 8 4) ∧
    parts decls next (.expr (.ptr (.simple .int)) (.dot (.deref (.cast (.ptr (.record 0)) (.num .int 0))) 1)) =
      .ok ([], .other) :=
  ⟨.address (b := .absolute) (o := 4) (.dot (m := ⟨4, -1, .array (.simple .int) 3⟩) (r := 0)
    (.deref (.castNum (.num _ _ (by decide) (by decide))) (.pv _ _ _)) rfl rfl (by decide)) (.array _ _ _ _), rfl⟩

/-- `int **p = (int *[]){(int[]){1}};`: the element of the outer literal should be the address of
the inner one, for which there is no object; it is taken for no constant. -/
theorem nested_literal_violated (lab : Nat → Int) (next : Int) :
    Init decls lab (.entry 0 (-1) (-1) (.expr (.ptr (.simple .int)) (.lit 1 (.array (.simple .int) 1)
      (.entry 0 (-1) (-1) (.expr (.simple .int) (.num .int 1)) .last))) .last)
      (.entry 0 (-1) (-1) (.address (lab 1) 0) .last) ∧
    parts decls next (.expr (.ptr (.ptr (.simple .int))) (.lit 0 (.array (.ptr (.simple .int)) 1)
      (.entry 0 (-1) (-1) (.expr (.ptr (.simple .int)) (.lit 1 (.array (.simple .int) 1)
        (.entry 0 (-1) (-1) (.expr (.simple .int) (.num .int 1)) .last))) .last))) =
      .ok ([(next, 8, .entry 0 (-1) (-1) .other .last)], .address next 0) :=
  ⟨.entry (.address (b := .literal 1 _ _) (o := 0) (.lit _ _ _ trivial) (.array _ _ _ _)) .last, rfl⟩

/-- `offsetof(struct s, a[1u])` is no integer constant. -/
theorem offsetof_index_violated :
    Offset decls (.record 0) [.member 1, .index .uint 1] 8 (.simple .int) ∧
    ∀ k, build decls (offsetof (.record 0) [.member 1, .index .uint 1]) ≠ .ok (.const k) := by
  refine ⟨.member (m := ⟨4, -1, .array (.simple .int) 3⟩) (o := 4) rfl rfl
    (.index (v := 1) (o := 0) trivial (by decide) (by decide) (by decide) (.nil _)), fun k h => ?_⟩
  injection h with h
  exact T.noConfusion h

/-- 7.19p3: `offsetof` has the type `size_t`, eight bytes for both ABIs; for Windows it has four. -/
theorem offsetof_type_violated (d : Decls) (hd : d.abi = .ms) {t u : Ty} {p : List Step} {o : Int} (h : Offset d t p o u)
    (hp : IntIndices p) (hs : Small o) : ∃ e, build d (offsetof t p) = .ok e ∧ bytes d e.ty = 4 :=
  ⟨_, offsetof_partial h hp hs, by simp [T.ty, K.ty, bytes, width, hd]⟩

end Verif.AddrConstProps
