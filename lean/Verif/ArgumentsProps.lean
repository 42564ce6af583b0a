import Verif.ArgumentsSpec
/-!
The command line (C64).
-/
namespace Verif.Arguments
open Verif ArgumentsSpec

/-- How many rounds the loop needs at most. -/
def cost (argv : List Str) : Nat := (argv.map fun s => s.length + 1).sum + 1

theorem meaning_operand (l : List Item) (s : Str) :
    meaning (l ++ [.operand s]) = { meaning l with operands := (meaning l).operands ++ [s] } := by
  simp [meaning, operands, values, levels]

theorem meaning_ignored (l : List Item) (s : Str) : meaning (l ++ [.ignored s]) = meaning l := by
  simp [meaning, operands, values, levels]

theorem meaning_level (l : List Item) (n : Nat) : meaning (l ++ [.level n]) = { meaning l with optlevel := n } := by
  simp [meaning, operands, values, levels]

/-- The state in which the value of an option is read. -/
def stateOf : Opt → State
  | .D => .define | .U => .undefine | .I => .include' | .L => .libraryDir | .l => .library | .f => .flag | .o => .outfile
  | .MT => .mt | .MF => .mf

theorem store_value (l : List Item) (o : Opt) (v : Str) : store (stateOf o) v (meaning l) = .ok (meaning (l ++ [.value o v])) := by
  cases o <;> simp [store, stateOf, meaning, operands, values, levels]

theorem operandArg_flag (rest : List Str) (l : List Item) (f : Flag) :
    operandArg rest f.text (meaning l) = .ok (meaning (l ++ [.flag f]), .operand, none) := by
  have hm : ∀ g : Flag, decide (.flag g ∈ l ++ [.flag f]) = (decide (.flag g ∈ l) || decide (g = f)) := by
    intro g
    simp [Bool.decide_or]
  have e : meaning (l ++ [.flag f]) = { meaning l with
      flagC := decide (.flag .c ∈ l ++ [.flag f])
      flagG := decide (.flag .g ∈ l ++ [.flag f])
      flagS := decide (.flag .s ∈ l ++ [.flag f])
      flagE := decide (.flag .E ∈ l ++ [.flag f])
      flagUpperS := decide (.flag .S ∈ l ++ [.flag f])
      flagMD := decide (.flag .MD ∈ l ++ [.flag f]) } := by
    simp [meaning, operands, values, levels]
  rw [e]
  simp only [hm]
  cases f <;> simp [operandArg, Flag.text, str, ch, letter, letterM, after, meaning]

theorem operandArg_opt (rest : List Str) (a : Args) (o : Opt) (v : Str) :
    operandArg rest (o.text ++ v) a = .ok (a, stateOf o, if v = [] then none else some v) := by
  cases v with
  | nil => cases o <;> simp [operandArg, Opt.text, str, ch, letter, letterM, after, stateOf]
  | cons c v => cases o <;> simp [operandArg, Opt.text, str, ch, letter, letterM, after, stateOf]

theorem operandArg_level (rest : List Str) (a : Args) (v : Str) :
    operandArg rest (str "-O" ++ v) a = .ok (a, .optlevel, if v = [] then none else some v) := by
  cases v <;> simp [operandArg, str, ch, letter, after]

theorem operandArg_std (rest : List Str) (a : Args) (v : Str) : operandArg rest (str "-std" ++ v) a = .ok (a, .operand, none) := by
  simp [operandArg, str, ch]

theorem operandArg_warning (rest : List Str) (a : Args) (v : Str) : operandArg rest (str "-W" ++ v) a = .ok (a, .operand, none) := by
  cases v <;> simp [operandArg, str, ch, letter, after]

theorem operandArg_operand (rest : List Str) (a : Args) (s : Str) (h : s.head? ≠ some (ch '-')) :
    operandArg rest s a = .ok ({ a with operands := a.operands ++ [s] }, .operand, none) := by
  cases s with
  | nil => rfl
  | cons c s =>
    have hc : c ≠ ch '-' := fun e => h (by rw [e]; rfl)
    simp [operandArg, hc]

theorem digits_eq : ∀ (v : Str) (n : Nat), (∀ c ∈ v, ch '0' ≤ c ∧ c ≤ ch '9') → digits v n = v.foldl (fun n c => n * 10 + (c.toNat - 48)) n
  | [], n, _ => rfl
  | c :: v, n, h => by
    unfold digits
    rw [if_pos (h c List.mem_cons_self), List.foldl_cons]
    exact digits_eq v _ fun d hd => h d (List.mem_cons_of_mem _ hd)

theorem atoi_numeral {v : Str} {n : Nat} (h : Numeral v n) (hn : n < 2147483648) : atoi v = .ok (n : Int) := by
  obtain ⟨h1, h2, h3⟩ := h
  cases v with
  | nil => exact absurd rfl h1
  | cons c v =>
    have hc := h2 c List.mem_cons_self
    simp only [ch, BitVec.le_def] at hc
    have hc1 : 48 ≤ c.toNat := hc.1
    have hc2 : c.toNat ≤ 57 := hc.2
    have hsp : ¬ (c = 32 ∨ (9 ≤ c ∧ c ≤ 13)) := by
      rintro (rfl | ⟨-, hx⟩)
      · simp at hc1
      · rw [BitVec.le_def] at hx
        simp at hx
        omega
    have hmin : c ≠ ch '-' := by rintro rfl; simp [ch] at hc1
    have hplus : c ≠ ch '+' := by rintro rfl; simp [ch] at hc1
    unfold atoi
    rw [List.dropWhile_cons_of_neg (by simpa using hsp)]
    simp only [if_neg hmin, if_neg hplus]
    rw [digits_eq _ _ h2, h3, if_pos (by omega)]

theorem loop_args (f : Nat) (argv : List Str) (arg : Str) (s : State) (a : Args) :
    loop (f + 1) (arg :: argv) none s a = (round argv arg s a >>= fun x => loop f argv x.2.2 x.2.1 x.1) := rfl

theorem loop_next (f : Nat) (argv : List Str) (arg : Str) (s : State) (a : Args) :
    loop (f + 1) argv (some arg) s a = (round argv arg s a >>= fun x => loop f argv x.2.2 x.2.1 x.1) := by
  cases argv <;> rfl

/-- One item is read. -/
theorem loop_item {i : Item} {w : List Str} (h : Written i w) (done : List Item) (argv : List Str) : ∃ k, k ≤ 2 ∧ 1 ≤ k ∧ k + 1 ≤ cost w ∧
    ∀ f, loop (f + k) (w ++ argv) none .operand (meaning done) = loop f argv none .operand (meaning (done ++ [i])) := by
  cases h with
  | operand hs =>
    refine ⟨1, by omega, by omega, by simp [cost], fun f => ?_⟩
    rw [List.singleton_append, loop_args]
    simp only [round, if_true, operandArg_operand _ _ _ hs, Run.bind_ok, meaning_operand]
  | flag g =>
    refine ⟨1, by omega, by omega, by simp [cost], fun f => ?_⟩
    rw [List.singleton_append, loop_args]
    simp only [round, if_true, operandArg_flag, Run.bind_ok]
  | std v =>
    refine ⟨1, by omega, by omega, by simp [cost], fun f => ?_⟩
    rw [List.singleton_append, loop_args]
    simp only [round, if_true, operandArg_std, Run.bind_ok, meaning_ignored]
  | warning v =>
    refine ⟨1, by omega, by omega, by simp [cost], fun f => ?_⟩
    rw [List.singleton_append, loop_args]
    simp only [round, if_true, operandArg_warning, Run.bind_ok, meaning_ignored]
  | @attached o v hv =>
    refine ⟨2, by omega, by omega, ?_, fun f => ?_⟩
    · cases v with
      | nil => exact absurd rfl hv
      | cons c v => simp [cost]; omega
    · have ho : stateOf o ≠ .operand := by cases o <;> decide
      rw [List.singleton_append, loop_args]
      simp only [round, if_true, operandArg_opt, Run.bind_ok, if_neg hv]
      rw [loop_next]
      simp only [round, if_neg ho, store_value, Run.bind_ok]
  | separate o v =>
    refine ⟨2, by omega, by omega, by simp [cost]; omega, fun f => ?_⟩
    have ho : stateOf o ≠ .operand := by cases o <;> decide
    rw [List.cons_append, List.singleton_append, loop_args]
    have := operandArg_opt (v :: argv) (meaning done) o []
    rw [List.append_nil] at this
    simp only [round, if_true, this, Run.bind_ok]
    rw [loop_args]
    simp only [round, if_neg ho, store_value, Run.bind_ok]
  | @levelAttached v n hv hn =>
    refine ⟨2, by omega, by omega, ?_, fun f => ?_⟩
    · cases v with
      | nil => exact absurd rfl hv.1
      | cons c v => simp [cost]; omega
    · rw [List.singleton_append, loop_args]
      simp only [round, if_true, operandArg_level, Run.bind_ok, if_neg hv.1]
      rw [loop_next]
      simp only [round, store, atoi_numeral hv hn, Run.bind_ok, meaning_level, reduceCtorEq, if_false]
  | @levelSeparate v n hv hn =>
    refine ⟨2, by omega, by omega, by simp [cost]; omega, fun f => ?_⟩
    rw [List.cons_append, List.singleton_append, loop_args]
    have := operandArg_level (v :: argv) (meaning done) []
    rw [List.append_nil] at this
    simp only [round, if_true, this, Run.bind_ok]
    rw [loop_args]
    simp only [round, store, atoi_numeral hv hn, Run.bind_ok, meaning_level, reduceCtorEq, if_false]

theorem cost_append (a b : List Str) : cost (a ++ b) + 1 = cost a + cost b := by
  simp [cost]
  omega

theorem loop_items {items : List Item} {argv : List Str} (h : CommandLine items argv) : ∀ (done : List Item) (f : Nat), cost argv ≤ f →
    loop f argv none .operand (meaning done) = .ok (meaning (done ++ items)) := by
  induction h with
  | nil =>
    intro done f hf
    have : 1 ≤ f := hf
    obtain ⟨g, rfl⟩ : ∃ g, f = g + 1 := ⟨f - 1, by omega⟩
    simp [loop]
  | @cons i is w as hw _ ih =>
    intro done f hf
    obtain ⟨k, h1, h2, h3, h4⟩ := loop_item hw done as
    have := cost_append w as
    obtain ⟨g, rfl⟩ : ∃ g, f = g + k := ⟨f - k, by simp [cost] at *; omega⟩
    rw [h4, ih _ _ (by omega)]
    simp

/-- The whole of C64: every command line is read without reading past its strings. -/
def NeverPast : Prop := ∀ (argv : List Str) (f : Nat), (∀ s ∈ argv, 0 ∉ s) → argumentsParse f argv ≠ .ub

/-- C64. Every command line that consists of operands, flags, options with their values (attached or separate), optimisation levels and ignored
options is read, and its meaning is that of its items: it does not depend on how the items are written; operands and the values of each option
are collected in order, whatever stands between them; of the options given once the last counts. -/
theorem command_line_partial {items : List Item} {argv : List Str} (h : CommandLine items argv) (f : Nat) (hf : cost argv ≤ f) :
    argumentsParse f argv = .ok (meaning items) :=
  loop_items h [] f hf

/-- C64 fails for `-`: the string is read past its end. -/
theorem lone_dash_violated : ¬ NeverPast := by
  intro h
  exact h [str "-"] 10 (by decide) (by decide +kernel)

/-- A flag with text attached at the end of the command line: the message is printed with a null pointer. -/
theorem message_violated : argumentsParse 10 [str "-cx"] = .ub := by decide +kernel

/-- An unknown option is not diagnosed: what follows its letter becomes an operand. -/
theorem unknown_option_accepted : argumentsParse 20 [str "-xa.c"] = .ok { operands := [str "a.c"] } := by decide +kernel

/-- An option whose value is missing is not diagnosed. -/
theorem missing_value_accepted : argumentsParse 20 [str "a.c", str "-o"] = .ok { operands := [str "a.c"] } := by decide +kernel

theorem takeWhile_ne {n v : Str} (h : ch '=' ∉ n) : (n ++ ch '=' :: v).takeWhile (· ≠ ch '=') = n ∧
    (n ++ ch '=' :: v).dropWhile (· ≠ ch '=') = ch '=' :: v := by
  induction n with
  | nil => simp
  | cons c n ih =>
    have hc : c ≠ ch '=' := fun e => h (by simp [e])
    have := ih fun hn => h (List.mem_cons_of_mem _ hn)
    simp only [List.cons_append, List.takeWhile_cons, List.dropWhile_cons, hc, ne_eq, not_false_eq_true, decide_true, if_true]
    simp only [ne_eq] at this
    exact ⟨by rw [this.1], this.2⟩

/-- C64: `-Dname=value` defines the name with everything after the first equals sign, `-Dname` defines it as 1. -/
theorem definition_split (n v : Str) (h : ch '=' ∉ n) :
    addDefinition (n ++ str "=" ++ v) = (n, v) ∧ addDefinition n = (n, str "1") := by
  constructor
  · have e : n ++ str "=" ++ v = n ++ ch '=' :: v := by simp [str, ch]
    unfold addDefinition
    rw [e, (takeWhile_ne h).1, (takeWhile_ne h).2]
  · have h1 : ∀ l : Str, ch '=' ∉ l → l.takeWhile (· ≠ ch '=') = l ∧ l.dropWhile (· ≠ ch '=') = [] := by
      intro l
      induction l with
      | nil => intro _; exact ⟨rfl, rfl⟩
      | cons c l ih =>
        intro hl
        have hc : c ≠ ch '=' := fun e => hl (by simp [e])
        have := ih fun hn => hl (List.mem_cons_of_mem _ hn)
        simp only [List.takeWhile_cons, List.dropWhile_cons, hc, ne_eq, not_false_eq_true, decide_true, if_true]
        simp only [ne_eq] at this
        exact ⟨by rw [this.1], this.2⟩
    unfold addDefinition
    rw [(h1 n h).1, (h1 n h).2]

/-- C64: the dependencies of `x.o` and `x.s` are written to `x.d`. -/
theorem dependency_file (p : Str) (h : p ≠ []) :
    dependencyPath (p ++ str ".o") = some (p ++ str ".d") ∧ dependencyPath (p ++ str ".s") = some (p ++ str ".d") := by
  have hl : 1 ≤ p.length := by
    cases p with
    | nil => exact absurd rfl h
    | cons _ _ => simp
  have e1 : (str ".o").length = 2 := rfl
  have e2 : (str ".s").length = 2 := rfl
  constructor
  · unfold dependencyPath
    simp only [List.length_append, e1, Nat.add_sub_cancel, List.drop_left, List.take_left]
    rw [if_neg]
    simp
    omega
  · unfold dependencyPath
    simp only [List.length_append, e2, Nat.add_sub_cancel, List.drop_left, List.take_left]
    rw [if_neg]
    simp
    omega

/-- The suffix of an operand of one letter is looked for before its beginning. -/
theorem short_operand_violated : isExtFile (str "x") (ch 'c') = .ub := by decide +kernel

/-- `a.c -I inc -DX=1 -o out -O2 -c -Iusr b.c` meets the hypothesis of `command_line_partial`. -/
example : CommandLine [.operand (str "a.c"), .value .I (str "inc"), .value .D (str "X=1"), .value .o (str "out"), .level 2, .flag .c,
      .value .I (str "usr"), .operand (str "b.c")]
    [str "a.c", str "-I", str "inc", str "-DX=1", str "-o", str "out", str "-O2", str "-c", str "-Iusr", str "b.c"] := by
  refine .cons (a := [_]) (.operand (by decide)) ?_
  refine .cons (a := [_, _]) (.separate .I _) ?_
  refine .cons (a := [_]) (.attached (o := .D) (by decide)) ?_
  refine .cons (a := [_, _]) (.separate .o _) ?_
  refine .cons (a := [_]) (.levelAttached (v := str "2") ⟨by decide, by decide, by decide⟩ (by decide)) ?_
  refine .cons (a := [_]) (.flag .c) ?_
  refine .cons (a := [_]) (.attached (o := .I) (by decide)) ?_
  refine .cons (a := [_]) (.operand (by decide)) ?_
  exact .nil

end Verif.Arguments
