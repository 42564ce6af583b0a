import Verif.DriverSpec
import Verif.ArgumentsProps
/-!
Lemmas about the driver.
-/
namespace Verif.Driver
open Verif Arguments ArgumentsSpec DriverSpec

/-! ### Names -/

theorem afterSlash_append (b : Str) : ∀ (a : Str) (i l : Nat), afterSlash (a ++ b) i l = afterSlash b (i + a.length) (afterSlash a i l)
  | [], _, _ => rfl
  | c :: a, i, l => by
    simp only [List.cons_append, afterSlash, List.length_cons]
    rw [afterSlash_append b a (i + 1)]
    congr 1
    omega

theorem afterSlash_none : ∀ (a : Str) (i l : Nat), ch '/' ∉ a → afterSlash a i l = l
  | [], _, _, _ => rfl
  | c :: a, i, l, h => by
    have hc : c ≠ ch '/' := fun e => h (by simp [e])
    simp only [afterSlash, hc, if_false]
    exact afterSlash_none a (i + 1) l fun hm => h (List.mem_cons_of_mem _ hm)

theorem getBasename_file {dir base : Str} (hd : dir = [] ∨ ∃ d, dir = d ++ str "/") (hb : ch '/' ∉ base) :
    getBasename (dir ++ base) = base := by
  unfold getBasename
  rw [afterSlash_append, afterSlash_none base _ _ hb]
  rcases hd with rfl | ⟨d, rfl⟩
  · rfl
  · have e : afterSlash (d ++ str "/") 0 0 = (d ++ str "/").length := by
      rw [afterSlash_append]
      simp [str, ch, afterSlash]
    rw [e, List.drop_left]

theorem base_suffix {f : File} (h : f.Ok) (c : Char) (hc : ch '/' ≠ ch c) : ch '/' ∉ f.base ++ [ch '.', ch c] := by
  intro hm
  rcases List.mem_append.1 hm with hm | hm
  · exact h.base hm
  · rcases List.mem_cons.1 hm with e | hm
    · revert e; decide
    · rcases List.mem_cons.1 hm with e | hm
      · exact hc e
      · cases hm

theorem getBasename_source {f : File} (h : f.Ok) : getBasename f.source = f.base ++ str ".c" := by
  unfold File.source
  rw [List.append_assoc]
  exact getBasename_file h.dir (base_suffix h 'c' (by decide))

theorem getBasename_object {f : File} (h : f.Ok) : getBasename f.object = f.base ++ str ".o" := by
  unfold File.object
  rw [List.append_assoc]
  exact getBasename_file h.dir (base_suffix h 'o' (by decide))

theorem isExtFile_two (b : Str) (x y : Byte) (hx : x = ch '.') : isExtFile (b ++ [x, y]) e = .ok (decide (y = e)) := by
  subst hx
  unfold isExtFile
  have hl : (b ++ [ch '.', y]).length = b.length + 2 := by simp
  rw [hl, if_neg (by omega)]
  have e1 : b.length + 2 - 2 = b.length := by omega
  have e2 : b.length + 2 - 1 = b.length + 1 := by omega
  rw [e1, e2]
  simp

theorem isExtFile_c (b : Str) : isExtFile (b ++ str ".c") (ch 'c') = .ok true := by
  have := isExtFile_two (e := ch 'c') b (ch '.') (ch 'c') rfl
  rw [decide_eq_true rfl] at this
  exact this

theorem isExtFile_oc (b : Str) : isExtFile (b ++ str ".o") (ch 'c') = .ok false := by
  have := isExtFile_two (e := ch 'c') b (ch '.') (ch 'o') rfl
  have d : decide (ch 'o' = ch 'c') = false := by decide
  rw [d] at this
  exact this

theorem isExtFile_o (b : Str) : isExtFile (b ++ str ".o") (ch 'o') = .ok true := by
  have := isExtFile_two (e := ch 'o') b (ch '.') (ch 'o') rfl
  rw [decide_eq_true rfl] at this
  exact this

theorem cut_c (b : Str) : cut (b ++ str ".c") = b := by
  unfold cut
  have : (b ++ str ".c").length - 2 = b.length := by
    have : (str ".c").length = 2 := rfl
    simp [this]
  rw [this, List.take_left]

theorem dependencyPath_suffixed {n : Str} (h : Suffixed n) : dependencyPath n = some (n.take (n.length - 2) ++ str ".d") := by
  obtain ⟨stem, hs, h⟩ := h
  have e1 : (str ".o").length = 2 := rfl
  have e2 : (str ".s").length = 2 := rfl
  rcases h with rfl | rfl
  · rw [(dependency_file stem hs).1]
    simp [e1]
  · rw [(dependency_file stem hs).2]
    simp [e2]

/-! ### Flags -/

theorem lastOf_nil {α : Type} (p : Str → Option α) : lastOf p [] = none := rfl

theorem lastOf_cons {α : Type} (p : Str → Option α) (s : Str) (l : List Str) : lastOf p (s :: l) = (lastOf p l).or (p s) := by
  unfold lastOf
  rw [List.reverse_cons, List.findSome?_append]
  congr 1
  simp [List.findSome?]
  cases p s <;> rfl

theorem getD_or {α : Type} (a b : Option α) (d : α) : (a.or b).getD d = a.getD (b.getD d) := by
  cases a <;> rfl

theorem take_prefix {p s : Str} {n : Nat} (hn : p.length = n) : s.take n = p ↔ p <+: s := by
  subst hn
  constructor
  · intro h
    exact ⟨s.drop p.length, by
      have := List.take_append_drop p.length s
      rw [h] at this
      exact this⟩
  · rintro ⟨r, rfl⟩
    exact List.take_left

/-- What a single option changes. -/
theorem setFlag_eq (s : Str) (f : Flags) (h : ∀ v, s = str "debug-stack-size=" ++ v → ∃ n, Numeral v n ∧ n < 2147483648) :
    setFlag s f = .ok {
      large := (modelOf s).getD f.large
      debugStack := decide (str "debug-stack-size" <+: s) || f.debugStack
      debugMin := (debugOf s).getD f.debugMin
      ms := (abiOf s).getD f.ms
      mingw := decide (s = str "mingw-workarounds") || f.mingw
      dump := (dumpOf s).or f.dump } := by
  unfold setFlag
  split
  · next e => subst e; rfl
  split
  · next e => subst e; rfl
  rename_i n1 n2
  have hmodel : modelOf s = none := by
    unfold modelOf
    rw [if_neg n2, if_neg n1]
  rw [hmodel]
  split
  · next e =>
    have hp : str "debug-stack-size" <+: s := (take_prefix rfl).1 e
    obtain ⟨r, rfl⟩ := hp
    have hp : str "debug-stack-size" <+: str "debug-stack-size" ++ r := ⟨r, rfl⟩
    have habi : abiOf (str "debug-stack-size" ++ r) = none := by
      unfold abiOf
      rw [if_neg, if_neg] <;>
      · intro e
        have := congrArg (List.head?) e
        revert this
        simp [str, ch]
    have hm : decide (str "debug-stack-size" ++ r = str "mingw-workarounds") = false := by
      rw [decide_eq_false_iff_not]
      intro e
      have := congrArg (List.head?) e
      revert this
      simp [str, ch]
    have hd : dumpOf (str "debug-stack-size" ++ r) = none := by
      unfold dumpOf
      rw [if_neg]
      rintro ⟨t, e⟩
      have := congrArg (fun l => l[1]?) e
      revert this
      simp [str, ch]
    have hdrop : (str "debug-stack-size" ++ r).drop 16 = r := List.drop_left' (l₁ := str "debug-stack-size") rfl
    rw [habi, hm, hd, hdrop]
    cases r with
    | nil =>
      have : debugOf (str "debug-stack-size" ++ []) = none := by decide +kernel
      rw [this]
      simp [hp]
    | cons c v =>
      dsimp only
      by_cases hc : c = ch '='
      · subst hc
        rw [if_pos rfl]
        have e : str "debug-stack-size" ++ ch '=' :: v = str "debug-stack-size=" ++ v := by simp [str]
        obtain ⟨n, hn, hlt⟩ := h v e
        rw [atoi_numeral hn hlt]
        have hdeb : debugOf (str "debug-stack-size" ++ ch '=' :: v) = some (n : Int) := by
          unfold debugOf
          rw [e, if_pos ⟨v, rfl⟩]
          have : (str "debug-stack-size=" ++ v).drop 17 = v := List.drop_left' (l₁ := str "debug-stack-size=") rfl
          rw [this, hn.2.2]
        rw [hdeb]
        simp [hp]
      · rw [if_neg hc]
        have hdeb : debugOf (str "debug-stack-size" ++ c :: v) = none := by
          unfold debugOf
          rw [if_neg]
          rintro ⟨t, e⟩
          have e2 : str "debug-stack-size=" ++ t = str "debug-stack-size" ++ ch '=' :: t := by simp [str]
          rw [e2] at e
          have := List.append_cancel_left e
          exact hc (List.cons.inj this).1.symm
        rw [hdeb]
        simp [hp]
  · next n3 =>
    have hnp : ¬ str "debug-stack-size" <+: s := fun hp => n3 ((take_prefix rfl).2 hp)
    have hdeb : debugOf s = none := by
      unfold debugOf
      rw [if_neg]
      rintro ⟨t, rfl⟩
      exact hnp ⟨ch '=' :: t, by simp [str]⟩
    rw [hdeb]
    split
    · next e => subst e; rfl
    split
    · next e => subst e; rfl
    split
    · next e => subst e; rfl
    rename_i m1 m2 m3
    have habi : abiOf s = none := by
      unfold abiOf
      rw [if_neg m1, if_neg m2]
    rw [habi]
    split
    · next e =>
      have hp : str "dump-ir=" <+: s := (take_prefix rfl).1 e
      simp [dumpOf, hp, hnp, m3]
    · next n =>
      have hp : ¬ str "dump-ir=" <+: s := fun hp => n ((take_prefix rfl).2 hp)
      simp [dumpOf, hp, hnp, m3]

theorem setFlags_eq : ∀ (l : List Str) (f : Flags), FlagsOk l → setFlags l f = .ok {
      large := (lastOf modelOf l).getD f.large
      debugStack := (l.any fun s => decide (str "debug-stack-size" <+: s)) || f.debugStack
      debugMin := (lastOf debugOf l).getD f.debugMin
      ms := (lastOf abiOf l).getD f.ms
      mingw := decide (str "mingw-workarounds" ∈ l) || f.mingw
      dump := (lastOf dumpOf l).or f.dump }
  | [], f, _ => by simp [setFlags, lastOf_nil]
  | s :: l, f, h => by
    unfold setFlags
    rw [setFlag_eq s f fun v e => h v (by simp [e]), Run.bind_ok, setFlags_eq l _ fun v hv => h v (List.mem_cons_of_mem _ hv)]
    simp only [lastOf_cons, getD_or, List.any_cons, List.mem_cons, Run.ok.injEq, Flags.mk.injEq, true_and, Option.or_assoc, and_true]
    constructor
    · cases decide (str "debug-stack-size" <+: s) <;> simp
    · by_cases e : s = str "mingw-workarounds"
      · simp [e]
      · have e2 : ¬ str "mingw-workarounds" = s := fun x => e x.symm
        simp [e, e2]

/-- The flags of a source are those the options mean. -/
theorem setFlags_effective {l : List Str} (h : FlagsOk l) :
    ∃ f, setFlags l {} = .ok f ∧ effective f = flagsOf l ∧ f.ms = (lastOf abiOf l).getD false ∧
      f.mingw = decide (str "mingw-workarounds" ∈ l) := by
  refine ⟨_, setFlags_eq l {} h, ?_, rfl, by simp⟩
  unfold effective flagsOf
  by_cases e : str "mingw-workarounds" ∈ l <;> simp [e]

/-! ### Macros -/

theorem defineAll_none (n : Str) : ∀ (l : List (Str × Str)) (m : Macros), (∀ d ∈ l, d.1 ≠ n) → defineAll l m n = m n
  | [], _, _ => rfl
  | d :: l, m, h => by
    show defineAll l (defineString d.1 d.2 m) n = m n
    rw [defineAll_none n l _ fun e he => h e (List.mem_cons_of_mem _ he)]
    have : n ≠ d.1 := fun e => h d (by simp) e.symm
    simp [defineString, this]

theorem defineAll_last (n v : Str) (l r : List (Str × Str)) (m : Macros) (h : ∀ d ∈ r, d.1 ≠ n) :
    defineAll (l ++ (n, v) :: r) m n = some v := by
  unfold defineAll
  rw [List.foldl_append, List.foldl_cons]
  rw [show r.foldl (fun m d => defineString d.1 d.2 m) _ n = _ from defineAll_none n r _ h]
  simp [defineString]

theorem addDefinition_defines {d n v : Str} (h : Defines d n v) : addDefinition d = (n, v) := by
  obtain ⟨hn, rfl | ⟨rfl, rfl⟩⟩ := h
  · exact (definition_split n v hn).1
  · exact (definition_split d [] hn).2

theorem split_first : ∀ d : Str, ch '=' ∈ d → ∃ n v, d = n ++ ch '=' :: v ∧ ch '=' ∉ n
  | [], h => by cases h
  | c :: d, h => by
    by_cases hc : c = ch '='
    · exact ⟨[], d, by simp [hc], by simp⟩
    · have hd : ch '=' ∈ d := by
        rcases List.mem_cons.1 h with e | e
        · exact absurd e.symm hc
        · exact e
      obtain ⟨n, v, e, hn⟩ := split_first d hd
      exact ⟨c :: n, v, by rw [e]; rfl, by
        intro hm
        rcases List.mem_cons.1 hm with e | e
        · exact hc e.symm
        · exact hn e⟩

theorem defines_addDefinition (d : Str) : Defines d (addDefinition d).1 (addDefinition d).2 := by
  by_cases h : ch '=' ∈ d
  · obtain ⟨n, v, rfl, hn⟩ := split_first d h
    have e : n ++ ch '=' :: v = n ++ str "=" ++ v := by simp [str]
    rw [e, (definition_split n v hn).1]
    exact ⟨hn, Or.inl rfl⟩
  · rw [(definition_split d [] h).2]
    exact ⟨h, Or.inr ⟨rfl, rfl⟩⟩

theorem foldl_remove (n : Str) : ∀ (l : List Str) (m : Macros), l.foldl (fun m k => defineRemove k m) m n = if n ∈ l then none else m n
  | [], m => by simp
  | k :: l, m => by
    rw [List.foldl_cons, foldl_remove n l]
    by_cases hl : n ∈ l
    · simp [hl]
    · by_cases hk : n = k
      · simp [hk, defineRemove]
      · simp [hk, hl, defineRemove]

/-- Predefined names that nobody mentions. -/
theorem base_predefined (w : World) (f : Flags) (a : Args) (n v : Str) (h : Predefined w f.ms n v)
    (hd : ∀ d ∈ a.defines.map addDefinition, d.1 ≠ n) : baseMacros w f a n = some v := by
  unfold baseMacros
  rw [defineAll_none n _ _ hd]
  cases h with
  | lp64 e | win32 e | win64 e | llp64 e =>
    rw [e]
    rfl
  | _ => rfl

/-- A test for reserved names and `NULL`. -/
def known (n : Str) : Bool := decide (n = str "NULL") || match n with
  | a :: c :: _ => decide (a = ch '_') && (decide (c = ch '_') || decide (ch 'A' ≤ c) && decide (c ≤ ch 'Z'))
  | _ => false

theorem known_cases {n : Str} (h : known n = true) : n = str "NULL" ∨ Reserved n := by
  unfold known at h
  rw [Bool.or_eq_true] at h
  rcases h with h | h
  · exact Or.inl (of_decide_eq_true h)
  · right
    split at h
    · next a c r =>
      simp only [Bool.and_eq_true, Bool.or_eq_true, decide_eq_true_eq] at h
      exact ⟨c, r, by rw [h.1], h.2⟩
    · cases h

theorem defineAll_known {n : Str} (h1 : ¬ Reserved n) (h2 : n ≠ str "NULL") (l : List (Str × Str)) (hl : (l.map Prod.fst).all known = true)
    (m : Macros) : defineAll l m n = m n := by
  refine defineAll_none n l m fun d hd e => ?_
  have := List.all_eq_true.1 hl d.1 (List.mem_map.2 ⟨d, hd, rfl⟩)
  rw [e] at this
  rcases known_cases this with h | h
  · exact h2 h
  · exact h1 h

theorem base_clean (w : World) (f : Flags) (a : Args) {n : Str} (hm : f.mingw = false) (h1 : ¬ Reserved n) (h2 : n ≠ str "NULL")
    (hd : ∀ d ∈ a.defines.map addDefinition, d.1 ≠ n) : baseMacros w f a n = none := by
  have e : ∀ m, addImplementationDefs w m = defineAll [(str "NULL", str "(void*)0"), (str "__DATE__", w.date), (str "__TIME__", w.time),
      (str "__STDC__", str "1"), (str "__FUNCTION__", str "__func__"), (str "__STDC_HOSTED__", str "0"),
      (str "__STDC_VERSION__", str "201710L"), (str "__x86_64__", str "1")] m := fun _ => rfl
  unfold baseMacros
  rw [defineAll_none n _ _ hd, defineAll_known h1 h2 _ (by decide +kernel), e, defineAll_known h1 h2 _ (by
    show List.all [str "NULL", str "__DATE__", str "__TIME__", str "__STDC__", str "__FUNCTION__", str "__STDC_HOSTED__",
      str "__STDC_VERSION__", str "__x86_64__"] known = true
    decide +kernel)]
  rw [defineAll_known h1 h2 _ (by cases f.ms <;> decide +kernel), hm]
  rfl

/-- The source of an operand. -/
def source (w : World) (f : Flags) (a : Args) (p : Str) : Src :=
  ⟨p, a.includes ++ defaultInclude, a.undefines.foldl (fun m n => defineRemove n m) (baseMacros w f a), effective f⟩

theorem macrosFor (w : World) (f : Flags) (items : List Item) (hms : f.ms = (lastOf abiOf (values .f items)).getD false)
    (hmw : f.mingw = decide (str "mingw-workarounds" ∈ values .f items)) :
    MacrosFor w items ((values .U items).foldl (fun m n => defineRemove n m) (baseMacros w f (meaning items))) where
  undefined n hn := by rw [foldl_remove, if_pos hn]
  defined n v d l r hn e hd hr := by
    rw [foldl_remove, if_neg hn]
    unfold baseMacros
    have e2 : (meaning items).defines.map addDefinition = l.map addDefinition ++ (n, v) :: r.map addDefinition := by
      show (values .D items).map addDefinition = _
      rw [e, List.map_append, List.map_cons, addDefinition_defines hd]
    rw [e2]
    refine defineAll_last n v _ _ _ ?_
    intro x hx
    obtain ⟨y, hy, rfl⟩ := List.mem_map.1 hx
    intro e
    exact hr y hy _ (e ▸ defines_addDefinition y)
  predefined n v hn hd hp := by
    rw [foldl_remove, if_neg hn]
    refine base_predefined w f _ n v (hms ▸ hp) ?_
    intro x hx
    obtain ⟨y, hy, rfl⟩ := List.mem_map.1 hx
    intro e
    exact hd y hy _ (e ▸ defines_addDefinition y)
  clean n hf h1 h2 hd := by
    rw [foldl_remove]
    split
    · rfl
    · refine base_clean w f _ (by rw [hmw]; exact decide_eq_false hf) h1 h2 ?_
      intro x hx
      obtain ⟨y, hy, rfl⟩ := List.mem_map.1 hx
      intro e
      exact hd y hy _ (e ▸ defines_addDefinition y)

theorem sourceFor (w : World) (f : Flags) (items : List Item) (p : Str) (he : effective f = flagsOf (values .f items))
    (hms : f.ms = (lastOf abiOf (values .f items)).getD false) (hmw : f.mingw = decide (str "mingw-workarounds" ∈ values .f items)) :
    SourceFor w items p (source w f (meaning items) p) where
  path := rfl
  includes := rfl
  macros := macrosFor w f items hms hmw
  flags := he

/-! ### Operands -/

theorem write_ok {w : World} {p : Str} (h : w.writable p = true) (c : Content) (st : St) :
    write w p c st = .ok { st with written := st.written ++ [(p, c)] } := if_pos h

theorem outName_c {a : Args} {file : File} (hf : file.Ok) (hc : a.flagC = true) (hS : a.flagUpperS = false) :
    outName a file.source = a.outfile.getD (file.base ++ str ".o") := by
  unfold outName
  rw [getBasename_source hf, cut_c, hS, hc]
  cases a.outfile <;> rfl

theorem outName_S {a : Args} {file : File} (hf : file.Ok) (hS : a.flagUpperS = true) :
    outName a file.source = a.outfile.getD (file.base ++ str ".s") := by
  unfold outName
  rw [getBasename_source hf, cut_c, hS]
  cases a.outfile <;> rfl

theorem compileFile_eq {w : World} {f : Flags} {a : Args} {p : Str} {st : St} (h : w.accepts (source w f a p) = true) :
    compileFile w f a p st = (do
      let st ← emit w f a (source w f a p) (outName a p) st
      writeDeps w a (source w f a p) (outName a p) st) := by
  unfold compileFile
  unfold source at h
  simp only [h, not_true_eq_false, if_false]
  rfl

theorem compileFile_rejected {w : World} {f : Flags} {a : Args} {p : Str} {st : St} (h : w.accepts (source w f a p) = false) :
    compileFile w f a p st = .fail := by
  unfold compileFile
  unfold source at h
  simp only [h, Bool.false_eq_true, not_false_eq_true, if_true]

/-- The dependency file of an output. -/
def depName (a : Args) (out : Str) : Str := a.mfPath.getD (out.take (out.length - 2) ++ str ".d")

/-- What `-MD` writes. -/
def depOutput (w : World) (a : Args) (src : Src) (out : Str) : List (Str × Content) :=
  if a.flagMD = true then [(depName a out, .deps (a.mtPath.getD out) (w.reads src))] else []

theorem writeDeps_ok {w : World} {a : Args} {src : Src} {out : Str} {st : St}
    (hdep : a.flagMD = true → (a.mfPath ≠ none ∨ Suffixed out) ∧ w.writable (depName a out) = true) :
    writeDeps w a src out st = .ok { st with written := st.written ++ depOutput w a src out } := by
  unfold writeDeps depOutput
  cases hMD : a.flagMD with
  | false => simp
  | true =>
    obtain ⟨h1, h2⟩ := hdep hMD
    have hmf : a.mfPath.or (dependencyPath out) = some (depName a out) := by
      unfold depName
      cases hm : a.mfPath with
      | some m => rfl
      | none =>
        rcases h1 with h1 | h1
        · exact absurd hm h1
        · rw [dependencyPath_suffixed h1]; rfl
    simp only [if_true, hmf, write_ok h2]

/-- A source with `-c` or `-S`. -/
theorem compileFile_one {w : World} {f : Flags} {a : Args} {p : Str} {st : St} {out : Str} {c : Content}
    (hacc : w.accepts (source w f a p) = true) (ho : outName a p = out) (hw : w.writable out = true)
    (hc : a.flagC = true ∧ a.flagUpperS = false ∧ c = (if f.ms then Content.coff (.compiled (source w f a p)) else .elf (.compiled (source w f a p))) ∨
      a.flagUpperS = true ∧ a.flagC = false ∧ c = .text (source w f a p))
    (hdep : a.flagMD = true → (a.mfPath ≠ none ∨ Suffixed out) ∧ w.writable (depName a out) = true) :
    compileFile w f a p st = .ok { st with written := st.written ++ (out, c) :: depOutput w a (source w f a p) out } := by
  rw [compileFile_eq hacc, ho]
  have he : emit w f a (source w f a p) out st = .ok { st with written := st.written ++ [(out, c)] } := by
    unfold emit
    rcases hc with ⟨h1, h2, rfl⟩ | ⟨h1, h2, rfl⟩
    · simp [h1, h2, write_ok hw]
    · simp [h1, h2, hw]
  rw [he, Run.bind_ok, writeDeps_ok hdep]
  simp

theorem operand_source {w : World} {f : Flags} {a : Args} {file : File} (hf : file.Ok) (hE : a.flagE = false) (st : St) :
    operand w f a file.source st = compileFile w f a file.source st := by
  unfold operand
  simp only [getBasename_source hf, hE, isExtFile_c, Run.bind_ok, Bool.false_eq_true, if_false, if_true]

theorem operand_E {w : World} {f : Flags} {a : Args} {file : File} (hf : file.Ok) (hE : a.flagE = true) (st : St) :
    operand w f a file.source st = preprocessFile w f a file.source st := by
  unfold operand
  simp only [getBasename_source hf, hE, isExtFile_c, Run.bind_ok, if_true]

theorem operand_object {w : World} {f : Flags} {a : Args} {file : File} (hf : file.Ok) (hE : a.flagE = false) (hS : a.flagUpperS = false)
    (hc : a.flagC = false) (ho : w.object file.object = .object) (st : St) :
    operand w f a file.object st = .ok { st with objects := st.objects ++ [.read file.object] } := by
  unfold operand
  simp only [getBasename_object hf, hE, isExtFile_oc, isExtFile_o, Run.bind_ok, Bool.false_eq_true, if_false, if_true, hS, hc, ho,
    or_self]

/-- A loop over sources that write files. -/
theorem loop_written {w : World} {f : Flags} {a : Args} (out : File → List (Str × Content)) :
    ∀ (files : List File) (st : St), (∀ file ∈ files, ∀ st, operand w f a file.source st = .ok { st with written := st.written ++ out file }) →
    operandsLoop w f a (files.map File.source) st = .ok { st with written := st.written ++ files.flatMap out }
  | [], st, _ => by simp [operandsLoop]
  | file :: files, st, h => by
    rw [List.map_cons, operandsLoop, h file (by simp), Run.bind_ok, loop_written out files _ fun x hx => h x (List.mem_cons_of_mem _ hx)]
    simp

/-- A loop over sources that print. -/
theorem loop_printed {w : World} {f : Flags} {a : Args} (src : Str → Src) :
    ∀ (files : List File) (st : St), (∀ file ∈ files, ∀ st, operand w f a file.source st = .ok { st with printed := st.printed ++ [src file.source] }) →
    operandsLoop w f a (files.map File.source) st = .ok { st with printed := st.printed ++ files.map fun file => src file.source }
  | [], st, _ => by simp [operandsLoop]
  | file :: files, st, h => by
    rw [List.map_cons, operandsLoop, h file (by simp), Run.bind_ok, loop_printed src files _ fun x hx => h x (List.mem_cons_of_mem _ hx)]
    simp

/-- A loop over operands that give objects. -/
theorem loop_objects {w : World} {f : Flags} {a : Args} (src : Str → Src) :
    ∀ (ops : List Operand) (st : St), (∀ o ∈ ops, ∀ st, operand w f a o.path st = .ok { st with objects := st.objects ++ [o.obj src] }) →
    operandsLoop w f a (ops.map Operand.path) st = .ok { st with objects := st.objects ++ ops.map (Operand.obj src) }
  | [], st, _ => by simp [operandsLoop]
  | o :: ops, st, h => by
    rw [List.map_cons, operandsLoop, h o (by simp), Run.bind_ok, loop_objects src ops _ fun x hx => h x (List.mem_cons_of_mem _ hx)]
    simp

/-- An operand that is not translated ends the loop. -/
theorem loop_fails {w : World} {f : Flags} {a : Args} {p : Str} (h : ∀ st st', operand w f a p st ≠ .ok st') :
    ∀ (ps : List Str) (st st' : St), p ∈ ps → operandsLoop w f a ps st ≠ .ok st'
  | [], _, _, hp => by cases hp
  | q :: ps, st, st', hp => by
    rw [operandsLoop]
    cases ho : operand w f a q st with
    | ok s =>
      rw [Run.bind_ok]
      rcases List.mem_cons.1 hp with rfl | hp
      · exact absurd ho (h st s)
      · exact loop_fails h ps s st' hp
    | fail => simp
    | ub => simp
    | more => simp

end Verif.Driver
