import Verif.DriverLemmas
/-!
C112: the driver produces what the options ask for.

The main theorems are about command lines as C64 describes them (`CommandLine items argv`).  Their hypotheses name the cases in
which the code does something else; those follow as `_violated`.
-/
namespace Verif.Driver
open Verif Arguments ArgumentsSpec DriverSpec

theorem main_run {w : World} {items : List Item} {argv : List Str} {fuel : Nat} (hcl : CommandLine items argv) (hf : cost argv ≤ fuel) :
    main w fuel argv = run w (meaning items) := by
  unfold main
  rw [command_line_partial hcl fuel hf]
  rfl

theorem run_eq {w : World} {items : List Item} (hs : .flag .s ∉ items) {f : Flags} (hflags : setFlags (values .f items) {} = .ok f)
    (hone : (operands items).length = 1 ∨ values .o items = [] ∨ (.flag .c ∉ items ∧ .flag .S ∉ items)) :
    run w (meaning items) = (do
      let st ← operandsLoop w f (meaning items) (operands items) {}
      if ¬ ((meaning items).flagUpperS ∨ (meaning items).flagC ∨ (meaning items).flagE) then
        if ¬ w.links st.objects then .fail
        else write w ((meaning items).outfile.getD (str "a.out")) (.executable st.objects) st
      else .ok st) := by
  have e1 : (meaning items).flagS = false := decide_eq_false hs
  have e2 : ¬ ((meaning items).operands.length ≠ 1 ∧ (meaning items).outfile ≠ none ∧
      ((meaning items).flagUpperS = true ∨ (meaning items).flagC = true)) := by
    rintro ⟨h1, h2, h3⟩
    rcases hone with h | h | ⟨ha, hb⟩
    · exact h1 h
    · apply h2
      show (values .o items).getLast? = none
      rw [h]
      rfl
    · rcases h3 with h3 | h3
      · exact hb (of_decide_eq_true h3)
      · exact ha (of_decide_eq_true h3)
  unfold run
  simp only [e1, Bool.false_eq_true, if_false, e2]
  rw [show (meaning items).flags = values .f items from rfl, hflags, Run.bind_ok]
  rfl

/-- C112, `-c`: every source is translated with the include directories, macros and flags the options mean, and its object
is written to the file of `-o` or to the base name with the suffix `.o`; with `-MD` its dependency file follows. -/
theorem objects_written_partial {w : World} {items : List Item} {argv : List Str} {fuel : Nat} {files : List File}
    (hcl : CommandLine items argv) (hf : cost argv ≤ fuel) (hops : operands items = files.map File.source)
    (hfiles : ∀ x ∈ files, x.Ok) (hflags : FlagsOk (values .f items))
    (hc : .flag .c ∈ items) (hS : .flag .S ∉ items) (hE : .flag .E ∉ items) (hs : .flag .s ∉ items)
    (hone : values .o items = [] ∨ files.length = 1)
    (hacc : ∀ x ∈ files, ∀ s, SourceFor w items x.source s → w.accepts s = true)
    (hw : ∀ x ∈ files, w.writable (target items (str ".o") x) = true)
    (hdep : .flag .MD ∈ items → ∀ x ∈ files, (values .MF items ≠ [] ∨ Suffixed (target items (str ".o") x)) ∧
      w.writable (depFile items (target items (str ".o") x)) = true) :
    ∃ src : Str → Src, (∀ p, SourceFor w items p (src p)) ∧ main w fuel argv = .ok { written := files.flatMap (outputs w items (str ".o")
      (fun s => if (lastOf abiOf (values .f items)).getD false then .coff (.compiled s) else .elf (.compiled s)) src) } := by
  obtain ⟨f, hset, heff, hms, hmw⟩ := setFlags_effective hflags
  have hsrc := fun p => sourceFor w f items p heff hms hmw
  refine ⟨fun p => source w f (meaning items) p, hsrc, ?_⟩
  have hlen : (operands items).length = files.length := by rw [hops, List.length_map]
  rw [main_run hcl hf, run_eq hs hset (by rcases hone with h | h; exact Or.inr (Or.inl h); exact Or.inl (hlen.trans h)), hops]
  have ec : (meaning items).flagC = true := decide_eq_true hc
  have eS : (meaning items).flagUpperS = false := decide_eq_false hS
  have eE : (meaning items).flagE = false := decide_eq_false hE
  rw [loop_written (outputs w items (str ".o")
      (fun s => if (lastOf abiOf (values .f items)).getD false then .coff (.compiled s) else .elf (.compiled s))
      (fun p => source w f (meaning items) p))]
  · simp [ec]
  · intro x hx st
    rw [operand_source (hfiles x hx) eE]
    rw [compileFile_one (hacc x hx _ (hsrc _)) (outName_c (hfiles x hx) ec eS) (hw x hx) (Or.inl ⟨ec, eS, rfl⟩)]
    · rw [hms]
      by_cases hMD : Item.flag .MD ∈ items
      · have e : (meaning items).flagMD = true := decide_eq_true hMD
        simp only [depOutput, e, if_true, outputs, hMD]
        rfl
      · have e : (meaning items).flagMD = false := decide_eq_false hMD
        simp only [depOutput, e, if_false, Bool.false_eq_true, outputs, hMD]
        rfl
    · intro hMD
      obtain ⟨h1, h2⟩ := hdep (of_decide_eq_true hMD) x hx
      refine ⟨?_, h2⟩
      rcases h1 with h1 | h1
      · refine Or.inl fun e => h1 ?_
        exact List.getLast?_eq_none_iff.1 e
      · exact Or.inr h1

/-- C112, `-S`: the same with the assembly of the sources and the suffix `.s`. -/
theorem assembly_written_partial {w : World} {items : List Item} {argv : List Str} {fuel : Nat} {files : List File}
    (hcl : CommandLine items argv) (hf : cost argv ≤ fuel) (hops : operands items = files.map File.source)
    (hfiles : ∀ x ∈ files, x.Ok) (hflags : FlagsOk (values .f items))
    (hc : .flag .c ∉ items) (hS : .flag .S ∈ items) (hE : .flag .E ∉ items) (hs : .flag .s ∉ items)
    (hone : values .o items = [] ∨ files.length = 1)
    (hacc : ∀ x ∈ files, ∀ s, SourceFor w items x.source s → w.accepts s = true)
    (hw : ∀ x ∈ files, w.writable (target items (str ".s") x) = true)
    (hdep : .flag .MD ∈ items → ∀ x ∈ files, (values .MF items ≠ [] ∨ Suffixed (target items (str ".s") x)) ∧
      w.writable (depFile items (target items (str ".s") x)) = true) :
    ∃ src : Str → Src, (∀ p, SourceFor w items p (src p)) ∧
      main w fuel argv = .ok { written := files.flatMap (outputs w items (str ".s") .text src) } := by
  obtain ⟨f, hset, heff, hms, hmw⟩ := setFlags_effective hflags
  have hsrc := fun p => sourceFor w f items p heff hms hmw
  refine ⟨fun p => source w f (meaning items) p, hsrc, ?_⟩
  have hlen : (operands items).length = files.length := by rw [hops, List.length_map]
  rw [main_run hcl hf, run_eq hs hset (by rcases hone with h | h; exact Or.inr (Or.inl h); exact Or.inl (hlen.trans h)), hops]
  have ec : (meaning items).flagC = false := decide_eq_false hc
  have eS : (meaning items).flagUpperS = true := decide_eq_true hS
  have eE : (meaning items).flagE = false := decide_eq_false hE
  rw [loop_written (outputs w items (str ".s") .text (fun p => source w f (meaning items) p))]
  · simp [eS]
  · intro x hx st
    rw [operand_source (hfiles x hx) eE]
    rw [compileFile_one (hacc x hx _ (hsrc _)) (outName_S (hfiles x hx) eS) (hw x hx) (Or.inr ⟨eS, ec, rfl⟩)]
    · by_cases hMD : Item.flag .MD ∈ items
      · have e : (meaning items).flagMD = true := decide_eq_true hMD
        simp only [depOutput, e, if_true, outputs, hMD]
        rfl
      · have e : (meaning items).flagMD = false := decide_eq_false hMD
        simp only [depOutput, e, if_false, Bool.false_eq_true, outputs, hMD]
        rfl
    · intro hMD
      obtain ⟨h1, h2⟩ := hdep (of_decide_eq_true hMD) x hx
      refine ⟨?_, h2⟩
      rcases h1 with h1 | h1
      · refine Or.inl fun e => h1 ?_
        exact List.getLast?_eq_none_iff.1 e
      · exact Or.inr h1

/-- C112, `-E`: the preprocessed sources are printed in order and no file is written. -/
theorem preprocessed_partial {w : World} {items : List Item} {argv : List Str} {fuel : Nat} {files : List File}
    (hcl : CommandLine items argv) (hf : cost argv ≤ fuel) (hops : operands items = files.map File.source)
    (hfiles : ∀ x ∈ files, x.Ok) (hflags : FlagsOk (values .f items))
    (hE : .flag .E ∈ items) (hs : .flag .s ∉ items) (hU : values .U items = []) (hMD : .flag .MD ∉ items)
    (hone : values .o items = [] ∨ files.length = 1 ∨ (.flag .c ∉ items ∧ .flag .S ∉ items))
    (hacc : ∀ x ∈ files, ∀ s, SourceFor w items x.source s → w.accepts s = true) :
    ∃ src : Str → Src, (∀ p, SourceFor w items p (src p)) ∧
      main w fuel argv = .ok { printed := files.map fun x => src x.source } := by
  obtain ⟨f, hset, heff, hms, hmw⟩ := setFlags_effective hflags
  have hsrc := fun p => sourceFor w f items p heff hms hmw
  refine ⟨fun p => source w f (meaning items) p, hsrc, ?_⟩
  have hlen : (operands items).length = files.length := by rw [hops, List.length_map]
  rw [main_run hcl hf, run_eq hs hset (by
    rcases hone with h | h | h
    · exact Or.inr (Or.inl h)
    · exact Or.inl (hlen.trans h)
    · exact Or.inr (Or.inr h)), hops]
  have eE : (meaning items).flagE = true := decide_eq_true hE
  rw [loop_printed fun p => source w f (meaning items) p]
  · simp [eE]
  · intro x hx st
    rw [operand_E (hfiles x hx) eE]
    have hu : (meaning items).undefines = [] := hU
    have ha := hacc x hx _ (hsrc x.source)
    unfold source at ha
    unfold preprocessFile source
    simp only [hu, List.foldl_nil, ne_eq, not_true_eq_false, if_false] at ha ⊢
    simp only [ha, not_true_eq_false, if_false]

/-- C112, without `-c`, `-S` and `-E`: the objects of the sources and the object files, in the order of the operands, are
linked, and the executable is written to the file of `-o` or to `a.out`. -/
theorem linked_partial {w : World} {items : List Item} {argv : List Str} {fuel : Nat} {ops : List Operand}
    (hcl : CommandLine items argv) (hf : cost argv ≤ fuel) (hops : operands items = ops.map Operand.path)
    (hfiles : ∀ x ∈ ops, x.Ok) (hflags : FlagsOk (values .f items))
    (hc : .flag .c ∉ items) (hS : .flag .S ∉ items) (hE : .flag .E ∉ items) (hs : .flag .s ∉ items) (hMD : .flag .MD ∉ items)
    (hacc : ∀ x, Operand.source x ∈ ops → ∀ s, SourceFor w items x.source s → w.accepts s = true)
    (hobj : ∀ x, Operand.object x ∈ ops → w.object x.object = .object)
    (hw : w.writable (((values .o items).getLast?).getD (str "a.out")) = true)
    (hlink : ∀ src : Str → Src, (∀ p, SourceFor w items p (src p)) → w.links (ops.map (Operand.obj src)) = true) :
    ∃ src : Str → Src, (∀ p, SourceFor w items p (src p)) ∧ main w fuel argv = .ok {
      written := [(((values .o items).getLast?).getD (str "a.out"), .executable (ops.map (Operand.obj src)))],
      objects := ops.map (Operand.obj src) } := by
  obtain ⟨f, hset, heff, hms, hmw⟩ := setFlags_effective hflags
  have hsrc := fun p => sourceFor w f items p heff hms hmw
  refine ⟨fun p => source w f (meaning items) p, hsrc, ?_⟩
  rw [main_run hcl hf, run_eq hs hset (Or.inr (Or.inr ⟨hc, hS⟩)), hops]
  have ec : (meaning items).flagC = false := decide_eq_false hc
  have eS : (meaning items).flagUpperS = false := decide_eq_false hS
  have eE : (meaning items).flagE = false := decide_eq_false hE
  have eM : (meaning items).flagMD = false := decide_eq_false hMD
  rw [loop_objects fun p => source w f (meaning items) p]
  · have hl := hlink _ hsrc
    simp only [Run.bind_ok, ec, eS, eE, Bool.false_eq_true, or_self, not_false_eq_true, if_true, List.nil_append, hl,
      not_true_eq_false, if_false]
    exact write_ok hw _ _
  · intro o ho st
    cases o with
    | source x =>
      show operand w f _ x.source st = _
      rw [operand_source (hfiles _ ho) eE, compileFile_eq (hacc x ho _ (hsrc _))]
      simp [emit, eS, ec, writeDeps, eM, Operand.obj]
    | object x => exact operand_object (hfiles _ ho) eE eS ec (hobj x ho) st

/-- C112: if a source is not accepted the driver does not end as if it had been. -/
theorem errors_reported {w : World} {items : List Item} {argv : List Str} {fuel : Nat} {x : File}
    (hcl : CommandLine items argv) (hf : cost argv ≤ fuel) (hx : x.Ok) (hmem : x.source ∈ operands items)
    (hflags : FlagsOk (values .f items)) (hrej : ∀ s, SourceFor w items x.source s → w.accepts s = false) (st : St) :
    main w fuel argv ≠ .ok st := by
  obtain ⟨f, hset, heff, hms, hmw⟩ := setFlags_effective hflags
  have hr := hrej _ (sourceFor w f items x.source heff hms hmw)
  have hop : ∀ st st', operand w f (meaning items) x.source st ≠ .ok st' := by
    intro st st'
    cases eE : (meaning items).flagE with
    | false =>
      rw [operand_source hx eE, compileFile_rejected hr]
      simp
    | true =>
      rw [operand_E hx eE]
      unfold preprocessFile
      by_cases hu : (meaning items).undefines = []
      · unfold source at hr
        simp only [hu, List.foldl_nil] at hr
        simp [hu, hr]
      · simp [hu]
  rw [main_run hcl hf]
  unfold run
  dsimp only
  split
  · simp
  · split
    · simp
    · rw [show (meaning items).flags = values .f items from rfl, hset, Run.bind_ok]
      cases h : operandsLoop w f (meaning items) (meaning items).operands {} with
      | ok s => exact absurd h (loop_fails hop _ _ _ hmem)
      | fail => simp
      | ub => simp
      | more => simp

/-! ### What goes wrong -/

/-- Everything is accepted, can be written and linked. -/
def w0 : World := ⟨str "\"Nov 16 2026\"", str "\"12:00:00\"", fun _ => true, fun s => [s.path], fun _ => .object, fun _ => true, fun _ => true⟩

/-- The names and kinds of the files written. -/
def kinds : Run St → Option (List (Str × String))
  | .ok st => some (st.written.map fun x => (x.1, match x.2 with
    | .text _ => "text" | .elf .zero => "zero" | .elf _ => "elf" | .coff _ => "coff" | .executable _ => "executable" | .deps _ _ => "deps"))
  | _ => none

/-- `-U` together with `-E` is not implemented (src/main.c:255-256): the hypothesis `hU` of `preprocessed_partial`. -/
theorem undefine_E_violated : main w0 50 [str "-E", str "-UX", str "a.c"] = .fail := by rfl

/-- `-s` is not implemented (src/main.c:295-296), though POSIX has it. -/
theorem strip_violated : main w0 50 [str "-s", str "a.c"] = .fail := by rfl

/-- `-MD` without `-c` or `-S`: no name for the dependency file is found and `fopen` gets a null pointer (src/main.c:214, 217). -/
theorem depend_link_violated : main w0 50 [str "-MD", str "a.c"] = .ub := by rfl

/-- So does `-MD` with an output that does not end in `.o` or `.s`. -/
theorem depend_name_violated : main w0 50 [str "-c", str "-MD", str "-o", str "a.obj", str "a.c"] = .ub := by rfl

/-- With `-E`, `-MD` writes nothing (src/main.c:258-281). -/
theorem depend_E_violated : kinds (main w0 50 [str "-E", str "-MD", str "-MF", str "a.d", str "a.c"]) = some [] := by decide +kernel

/-- With both `-S` and `-c` the assembly is written to `a.s` and then overwritten by an object without contents
(src/main.c:185-197). -/
theorem assembly_object_violated : kinds (main w0 50 [str "-S", str "-c", str "a.c"]) = some [(str "a.s", "text"), (str "a.s", "zero")] := by
  decide +kernel

/-- An object that cannot be written: nothing tests the result of `fopen` (src/linker/elf.c:748). -/
theorem unwritable_violated : main { w0 with writable := fun p => p ≠ str "x/a.o" } 50 [str "-c", str "-o", str "x/a.o", str "a.c"] = .ub := by rfl

/-- An object that does not exist: nothing tests the result of `fopen` (src/linker/elf.c:758-761). -/
theorem missing_object_violated : main { w0 with object := fun _ => .missing } 50 [str "a.o"] = .ub := by rfl

/-- Object files together with `-c` end in an assertion (src/main.c:320). -/
theorem object_c_violated : main w0 50 [str "-c", str "a.c", str "b.o"] = .fail := by rfl

/-- Libraries are not used at all, though they are read from the command line. -/
theorem libraries_violated (w : World) (a : Args) (l d : List Str) : run w { a with libraries := l, libraryDirs := d } = run w a := by
  have h : ∀ (f : Flags) (ps : List Str) (st : St),
      operandsLoop w f { a with libraries := l, libraryDirs := d } ps st = operandsLoop w f a ps st := by
    intro f ps
    induction ps with
    | nil => intro st; rfl
    | cons p ps ih =>
      intro st
      rw [operandsLoop, operandsLoop, show operand w f { a with libraries := l, libraryDirs := d } p st = operand w f a p st from rfl]
      congr 1
      funext st
      exact ih st
  unfold run
  simp only [h]

/-- The macros with which `a.c` is translated by the command `-c a.c` and the options `l`. -/
def startMacros (l : List Str) : Option Macros := match main w0 100 (l ++ [str "-c", str "a.c"]) with
  | .ok { written := [(_, .elf (.compiled s))], .. } => some s.macros
  | _ => none

/-- `NULL` is a macro before the first line, though its name is not reserved (6.10.8p4, 7.1.3): `int NULL;` is not accepted. -/
theorem null_violated : ¬ Reserved (str "NULL") ∧ (startMacros []).map (fun m => m (str "NULL")) = some (some (str "(void*)0")) := by
  refine ⟨?_, by decide +kernel⟩
  rintro ⟨c, r, e, _⟩
  have : some (ch 'N') = some (ch '_') := congrArg List.head? e
  revert this
  decide

/-- The macros by which 6.10.8.3 lets an implementation do without complex types, atomic types and threads are missing. -/
theorem no_complex_violated : (startMacros []).map (fun m => (m (str "__STDC_NO_COMPLEX__"), m (str "__STDC_NO_ATOMICS__"), m (str "__STDC_NO_THREADS__")))
    = some (none, none, none) := by decide +kernel

/-- With `-fmingw-workarounds`, `__int8` stands for `int`, a type of four bytes (src/abi/microsoft.c:307). -/
theorem int8_violated : (startMacros [str "-fmingw-workarounds"]).map (fun m => m (str "__int8")) = some (some (str "int")) := by decide +kernel

/-- An example for the hypotheses: `-c -Iinc -DX=1 -UY -MD d/a.c b.c`. -/
example : let items : List Item := [.flag .c, .value .I (str "inc"), .value .D (str "X=1"), .value .U (str "Y"), .flag .MD,
      .operand (str "d/a.c"), .operand (str "b.c")]
    let files : List File := [⟨str "d/", str "a"⟩, ⟨[], str "b"⟩]
    CommandLine items [str "-c", str "-Iinc", str "-D", str "X=1", str "-UY", str "-MD", str "d/a.c", str "b.c"] ∧
    operands items = files.map File.source ∧ (∀ x ∈ files, x.Ok) ∧ FlagsOk (values .f items) ∧
    (∀ x ∈ files, Suffixed (target items (str ".o") x)) ∧ Defines (str "X=1") (str "X") (str "1") := by
  refine ⟨?_, rfl, ?_, ?_, ?_, ?_⟩
  · exact .cons (.flag .c) (.cons (.attached (o := .I) (v := str "inc") (by decide)) (.cons (.separate .D (str "X=1"))
      (.cons (.attached (o := .U) (v := str "Y") (by decide)) (.cons (.flag .MD) (.cons (.operand (by decide +kernel))
      (.cons (.operand (by decide +kernel)) .nil))))))
  · intro x hx
    rcases List.mem_cons.1 hx with rfl | hx
    · exact ⟨Or.inr ⟨str "d", rfl⟩, by decide +kernel, by decide +kernel⟩
    · cases List.mem_singleton.1 hx
      exact ⟨Or.inl rfl, by decide +kernel, by decide +kernel⟩
  · intro v hv
    cases hv
  · intro x hx
    rcases List.mem_cons.1 hx with rfl | hx
    · exact ⟨str "a", by decide +kernel, Or.inl rfl⟩
    · cases List.mem_singleton.1 hx
      exact ⟨str "b", by decide +kernel, Or.inl rfl⟩
  · exact ⟨by decide +kernel, Or.inl rfl⟩

end Verif.Driver
