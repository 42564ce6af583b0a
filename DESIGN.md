# Design: Lean 4 verification of lasarus/C-Compiler

## Method

The source in `/repo/src` was read as text; nothing was built or run.  For each
area there is

* `lean/Verif/<Area>.lean`        – the model, one Lean definition per C function
  (or per loop / switch of it), each with the file and line range it models and
  the simplifications made;
* helper lemmas in the same file or in `<Area>Lemmas.lean`;
* `lean/Verif/<Area>Spec.lean`     – an independent specification (what the C
  standard, RFC, psABI, or plain mathematics says), not mentioning the model,
  for areas where the specification is not a one-line formula;
* `lean/Verif/<Area>Props.lean`    – the property theorems only, each with an
  `example` that its hypotheses are satisfiable in a non-trivial case.

Conventions: C `int`/sizes are `Nat`/`Int` where overflow is not part of the
property, `BitVec n` where it is.  Hash functions are parameters: theorems hold
for *every* hash function, so collisions are covered.  An internal compiler
error (`ICE`, `NOTIMP`, `ERROR`: prints and exits) is a distinct outcome
(`none` / `.ice` / `.error`), undefined behaviour of the compiler itself (out of
bounds access, division by zero, over-shift) is another distinct outcome
(`.ub`), and non-termination is modelled by a step function with no terminal
state reachable ("for every fuel the run has not finished").

When the code violates a property the negation is proved with a concrete
witness (`..._violated`) and the strongest true restriction is kept as
`..._partial`, with the full statement in the docstring.

## Trusted base

* The Lean 4.33.0 kernel; axioms `propext`, `Classical.choice`, `Quot.sound`
  only (no own axioms, no `native_decide`, no `bv_decide`).
* The reading of the C source: the theorems are about the models.  Line
  citations allow checking the reading.
* The specification files (x86-64 semantics/decoding subset, UTF-8, C17 tables,
  psABI rules) are transcriptions of the public documents.
* Not modelled: libc (`strtod`, stdio, `realloc` failure), the file system beyond a
  set of existing paths, floating point arithmetic (only bit patterns and
  comparison classes), the parser's declarator syntax and initialiser
  elaboration, debug/dot output, and performance.

## Per property plan

(The table in "Status" at the end is updated with the results.)

| id | model | proof |
|----|-------|-------|
| C01 | `utf8_encode`/`utf8_decode` on byte lists | round trip by case split on the four ranges + BitVec/omega; bytes = RFC 3629 spec |
| C02 | escape table printer and `escape_sequence_read` as list functions | 256-entry table lifted; induction over strings |
| C03 | digit loops of `escape_sequence_read` | octal/simple proved by induction; hex: negation (multiplier 8) + one-digit partial |
| C04 | `write_N`/`read_N` on byte lists at offsets | BitVec lemmas; frame lemma |
| C05 | `character_constant_to_int` fold | single char proved, multi-char: negation + partial for ASCII |
| C06 | chained hash table with arbitrary hash | refinement to `Name → Option Def` by induction over operations |
| C07 | per-name stack of saved definitions | refinement; negation for undefined names |
| C08 | `directiver_next` condition stack as a line machine | refinement to a tree-structured spec of groups by induction over nesting |
| C09 | same machine with EOI and underflow outcomes | negations: stray #endif is UB, unterminated `#if 0` diverges |
| C10 | `line_diff` machine | induction over line history |
| C11 | `evaluate_expression` as fuelled precedence-climbing parser over tokens | soundness/completeness against a stratified grammar: parse (print e) = e for every e |
| C12 | operator switch on 64-bit values | case analysis per operator against Int semantics |
| C13 | sorted-array string sets | negation for intersection; union membership; partial for correctly sorted sets |
| C14 | object-like expansion with hide sets | termination measure: names not in hide set |
| C15 | `integer_constant_from_string` | induction over digits; type table by case split |
| C16 | `conv_*`, `simple_cast` on BitVec 64 | BitVec arithmetic; negation for `_Bool` |
| C17 | `operators_constant` | per operator; UB/negation for division by zero |
| C18 | `get_arithmetic_type` finite table | complete table check + range semantics |
| C19 | `calculate_offsets` (no bit-fields / general) | loop invariant by induction |
| C20 | `calculate_offsets` bit-fields | invariant; negations |
| C21 | `ir_set_bits`/`ir_get_bits`, `constant_to_buffer` | bitwise extensionality |
| C22 | hash-consing table | invariant: table injective; refinement to structural equality |
| C23 | `type_make_composite` on type trees | structural induction |
| C24 | `type_search_member` | structural induction over nested records |
| C25 | two-array symbol table with links | refinement to list of scopes |
| C26 | pragma pack state | negation; partial |
| C27 | counters + `specifiers_to_type` | permutation invariance + complete table |
| C28 | association-list loop | induction over list |
| C29 | `parse_pratt` over abstract tokens | parse(print e) = e for all e by induction with precedence contexts |
| C30 | condition lowering (int truncation, testq) | negations; partial for int-sized |
| C31 | switch chain | induction; negation for long |
| C32 | small x86-64 machine, emitted sequences | symbolic execution + BitVec arithmetic |
| C33 | operator→IR mapping | negation for unsigned division; partial others |
| C34 | cast sequences on the x86 machine | BitVec; negations for char→float and u64→float |
| C35 | ucomis flags + setcc | 4×6 complete table; negation |
| C36 | memcpy/memzero loops on byte memory | induction over length |
| C37 | `codegen_function` slot allocation | list induction |
| C38 | sequential phi copies vs simultaneous | negation (swap) + partial |
| C39 | call emission's rsp effect | negation + partial for no stack args |
| C40 | `classify` | negation; partial |
| C41 | `get_calling_convention` | list induction, disjointness |
| C42 | va_arg state machine | induction over number of reads |
| C43 | encoder vs independent decoder | round trip per form, negations |
| C44 | best-match loop | list induction |
| C45 | object builder | induction over ops |
| C46 | interning tables, label printing | injectivity |
| C47 | rodata interning | invariant |
| C48 | `codegen_initializer` on byte buffers | induction |
| C49 | relocation application | list-update lemmas |
| C50 | combine_objects symbol resolution | negation + partial |
| C51 | section concatenation / address assignment | list induction |
| C52 | ELF symbol/relocation tables and byte-level headers | round trip |
| C53 | elf_allocate_sections | list induction |
| C54 | coff_write_object offsets | list sums; negation for long section names |
| C55 | node_set_argument on multigraph | invariant |
| C56 | reachability marking | fixpoint = reachability |
| C57 | Cooper–Harvey–Kennedy | fixpoint characterisation |
| C58 | punctuator switch of tokenizer | maximal munch over complete table, arbitrary suffix |
| C59 | comment/splice scanning | spec on character lists; negations |
| C60 | 3-slot window | refinement to list |
| C61 | include search & once set | refinement |
| C62 | string concatenation | induction |
| C63 | stringify then read back | induction |
| C64 | argument state machine | induction over argv |
| C65 | end of file in the `#define` reader | negation (divergence), partial |
| C66 | argument collection of the expander | relation to a grammar of balanced arguments |
| C67 | substitution for function-like macros | relational specification of 6.10.3.1 |
| C68 | `paste_table`, `glue`, the substitution loop with `#` and `##` | relational specification of 6.10.3.1-6.10.3.3 (replacement list read as pieces, chains of operands), induction over the pieces from the right; complete table for punctuators; negations |
| C69 | argument collection at end of input | negation (divergence) |
| C70 | `calculate_offsets` against the psABI | exact for one type, negations |
| C71 | typedef lookup against identifier lookup | negation |
| C72 | qualifier counters | negation, partial |
| C73 | store nodes and node sizes | x86 machine; negation |
| C74 | `IR_FLOAT_CAST`, `IR_*_FLOAT_CAST` sequences | IEEE format specification; negations |
| C75 | `IR_CONSTANT` | x86 machine |
| C76 | prologue and epilogue | x86 machine |
| C77 | `IR_CALL` sequences | x86 machine, list induction |
| C78 | rbx save and restore | x86 machine |
| C79 | `sysv_expr_return` against the caller | case split; negations |
| C80 | `IR_LOAD_BASE_RELATIVE_ADDRESS` | x86 machine; negation |
| C81 | `va_start` against the psABI figure | negation, partial |
| C82 | `codegen_static_var` | list induction; negation |
| C83 | section placement against alignment | negation, partial |
| C84 | `schedule_late` on the graph model with the dominator tree of C57 | memoless placement by rank, invariant `Rep` (nearest common dominator of the demands so far), simulation of the marks |
| C85 | the floating rows of `codegen_asm_table`, `IR_NEGATE_FLOAT` | symbolic execution, IEEE operations as a parameter |
| C86 | `ir_local_schedule` | depth-first invariant (everything visited of lower rank is listed), roots in order of creation; negations by two graphs |
| C87 | the lists of C86 executed with names for the state of memory | chains of replacements per block, position argument; negation by a graph |
| C88 | `recursive_find` and `try_remove_alloc` on the IR graph; memory split into the contents of the variable and the rest | invariant of the search with its table and the phis under construction; values solved by rank, simulation in both directions; negation by the graph of `x = x` in a loop |
| C89 | the statement parser on tokens (expressions and declarations one token each), building the control part of the graph; the statements of C17 6.8 as trees with a small-step meaning and a search for labels | the parser does on the tokens of a tree what a recursive function does on the tree; an invariant of the graph under construction (every block ends once, kept blocks are blank) gives the shape of the blocks of every statement in the finished graph; simulation in both directions with a measure for steps that the graph does not make; negations by computed runs |
| C90 | the part of `parse_init_declarator` after the declarator, and the tentative definitions at the end; initialisers are numbers | an invariant of the symbol of one name over the declarations read so far (its flags say which kinds of declarations there were), other names and blocks do not touch it; labels of block variables are told apart by reading back their decimal number |
| C91 | `parse_initializer_recursive` and `parse_brace_initializer` with their tokens; an assignment expression is one token; structure types carry their const; the order in which entries are written is that of the code generators | the specification is a relation from syntax to a sequence of events (a list begins; a part gets a value) with a cursor that moves to the next part; induction on the number of tokens, with an invariant for the state between two initialisers (comma read or not) at each level of the recursion; then the tree is compared with the last value of each part |
| C92 | `expr_new` with promotion, the usual conversions, decay and the rewriting of operators on pointers, `&&`, `\|\|`, `!`, `->` and `[]`; `expression_evaluate` with its five forms of evaluated expressions; constructors of nodes and blocks. Names are resolved, constants are not folded, calls are one instruction, the state threading is replaced by the order in a block (C86, C87) | the specification has types and values of expressions as relations over memory (6.5), in which conflicting operands have no value, and a machine for blocks of nodes; induction on the evaluation: the translation succeeds, the machine gets from the end of the block before to the end of the block after, and the evaluated expression `holds` the value (in a node, as a constant, or in an object that has not changed since). Witnesses use that the machine is deterministic |
| C93 | `parse_declarator`, `parse_function_parameters`, `parse_parameter_list`, `ast_to_type`, `type_adjust_parameter`, `ast_get_parameters`, `parse_type_name` and the first part of `parse_init_declarator` on tokens; the type keywords of one specifier list and a size expression are one token each | The grammar of 6.7.6 is a tree with its rendering and its denotation, written independently; by induction over trees with fuel, with what may follow a direct declarator as a continuation, parsing a rendering gives the tree's abstract syntax, whose type is the denotation |
| C94 | `codegen_instruction` as a whole, `codegen_phi_node`, `codegen_block`, `codegen_function`: a list of labels and instructions for a list of blocks; the pieces are the models of C33-C39, C76 and C80. Blocks are named by their labels. Left out: variadic functions, variable-length arrays, structure constants | The specification (`FuncSpec`) is a big-step meaning of the instructions on node values and memory, a relation between blocks in which all phi nodes of a join get their values at once, and a machine that runs lines with jumps, symbols and calls (an oracle that must respect the calling convention). `Implements` demands that the code reaches every block the function reaches with equal accessible memory, and returns when it returns. Proof: a simulation invariant (`Sim`: values in their slots, accessible memory equal, the bytes of the return address and saved pointer unchanged) over the geometry of the frame (`Geo`, derived from C37), instruction by instruction, join by join (C38), block by block; entry and exit from C76. The stack that is needed is bounded by an explicit sum. The machine is shown deterministic, which makes the negative result a statement about the only run |
| C95 | `parse_struct` and `parse_enum` on a tree of specifiers, members and scopes; the table of symbols as a list of scopes (C25). The specification `Says` is a relation on the same trees after C17 6.2.1p7 and 6.7.2.3: tags are declared at the opening brace, types are numbered. | Induction over the derivation (and, for rejection, over the text) with a relation between the two states: a partial one-to-one map of types, and marks for tags that C has declared at an opening brace and the compiler has not declared yet. |
| C96 | `parse_specifier`, `parse_specifiers` and `specifiers_to_type` with `data_type` and `got_ts`; a whole struct, union or enum specifier is one token (C95), an identifier carries what `symbols_get_typedef` finds. | `split` says where the specifiers end (6.7.8), `Denotes` is 6.7.2p2. Induction over the text with the lemmas of C27 about flags and multisets. |
| C97 | `asm_ins_impl` and `asm_label` writing to an object, between the lines of C94 (FuncCode.lean) and the encoder, object and linker models of C43, C46, C49. | `Laid` says that memory decodes line by line (decoder of C43). Every line that the code templates emit is an instance of a finite table of forms, checked by the kernel to be in the domain of C43 (`forms_ok`); `function_all` shows by cases over the templates that nothing else is emitted; the rest is the simulation of `object_accumulates` and `fields_patched`. |
| C98 | `src/abi/microsoft.c` function by function: `ms_expr_call` as a plan (registers, stack offsets, change of `%rsp`) turned into the call node of C77, `ms_expr_function`, `ms_expr_return`, preamble, `va_start`, `va_arg` as code. A type is a size and whether it is floating. | `posReg`, `posOff`, `positions` state the convention by position; `Entered` is what the call and the callee's entry do. The two loops are solved by index (`argLoop_regs`, `argLoop_stack`, `paramLoop_get`), the machine part uses C77's `call_set_up` and C73. Simplification: the duplication of floating arguments of variadic functions in integer and SSE registers is not required by the spec (a callee looks only in one of them); the arguments' addresses (`evaluated_expression_to_address`) are given. |
| C99 | The text branch of every function of `src/assembler/assembler.c` with the table of register names, and the object branch of the same calls (`objLine`). Output is a list of bytes; write errors are not modelled. | `readText` is a reader of the assembler's syntax written from its manual (lines, labels, directives, operands, escapes); `place` puts statements into sections; `assembled` turns statements into the calls of C45's object view. Proved piece by piece: decimal numbers, symbols, the 64 register names and 256 characters by full tables, operands, lines, texts; redundant `.section` lines change nothing. Instructions: `enc` is any encoder that agrees with the compiler's own (C43). |
| C100 | Expression trees as `expression_finalize` makes them bottom up: promotion, usual conversions, casts, folding of unary, binary, logical, conditional and comma operators; `expression_to_constant`; `parse_static_assert`. Parsing is C29, the arithmetic C16-C18. Doubles only as conditions and in casts. | `HasType` and `HasValue` are relations written from C17 6.5 and 6.6 with mathematical integers; `constant_main` is an induction on the expression. Violations by concrete expressions. |
| C101 | `parse_enumerator`, the loop of `parse_enum`, `constant_increment`; the uninitialised `prev` is undefined behaviour; the symbol table (C25) is reduced to visible constants and names of the current scope; an expression is one token. | `Enumerates` is written from 6.7.2.2; induction on the list with C100 for the expressions. |
| C102 | The branch of `ast_to_type` for array sizes and the lines of `parse_struct` for widths. | C100 for the expression, C16 for the conversion to the type of sizes. |
| C103 | `string_concat_next` on the list of expanded tokens, the loop over `expander_next` (C45 to C51), `dbg_token` with its growing buffer, the loop of `preprocess_file`. The specification is `Lexes` of C58: the printed text must be split into spellings of the tokens. | Printed words separated by white space are the longest tokens at their places; without white space exactly if no token begins with the first and goes into the second. For a source this holds because the tokenizer (C58) took the longest tokens. |
| C104 | The branches of `parse_primary_expression` for strings, numbers and character constants, with `EXPR_STR`, the three `character_constant_*_to_int`, `is_float`, `floating_point_constant_from_string`, on the tokens that `string_concat_next` (C103, C62) hands over. The specification has the grammar of floating constants, the elements of strings as numbers, and what it is that bytes hold elements of a width. | Partial. `strtod` is trusted to read the longest floating constant at the start of its argument. |
| C105 | The list between the braces in `parse_struct`, on the declarators of C93: specifiers with `_Alignas`, the loop over declarators, widths, anonymous structures. | The grammar of 6.7.2.1 is a tree with its tokens and its members; induction over the list with C93 for each declarator. Tags and redeclaration are C25, offsets C19 and C20. |
| C106 | `Session.lean`: `compile_file` as far as files share state: labels, static variables, counters and `packs` outlive the resets; the object is built by the calls of C45 | The calls of the k-th file are those of a file on its own that has the code of this file and the static variables of all up to it (renaming by shifting the counters); C45 and the distinct names of C46 turn calls into the object (`ObjectOf`, independent of the label numbers). Negation by two files; the linker of C50 run on them shows the two copies. Left out: initialisers with compound literals (their data would be emitted for the first file only), assembly text, state of the preprocessor that leaves a file clean |
| C107 | `Lvalue.lean`: construction of typed expressions with `const` and folding (values left open: any answers to what is folded and what is null), and the form `expression_evaluate` gives each, as far as it decides acceptance | The specification has lvalues with their types and the expressions that are none. By induction over lvalues and the addresses in them: an lvalue is built with its type and evaluated to an object; the converse by cases of the expressions that are no lvalues. Partial: assignment with `=`; see the violations. |
| C108 | `Vla.lean`: numbers of the allocations, clearing of their words at entry, the code of `IR_VLA_ALLOC`; the machine of C76 and the placement of C85/C86 | Symbolic execution of the code over the frame of C76; an invariant on the words (decreasing with the number, above the stack pointer, ends of the arrays alive) is kept by every step of a history. Partial: the outer array must have the smaller number. |
| C109 | types.c 346-431, calculate_size, sizeof, type names and declarations as a parser that writes instructions while it reads; the run of what it has written | a specification in which a length is evaluated where it stands; mutual induction over expressions and types, with the registers of the lengths related to the lengths of the specification |
| C110 | `Args.lean`: `do_default_argument_promotion`, the checks and conversions of `E_CALL`, `parse_call_parameters`, `variable_cast`, `evaluated_expression_cast`, `evaluate_call` | A specification of assignment, promotion and conversion on mathematical values; every cast is shown to compute it, then induction over the arguments with `take`/`drop` of the parameters. Where the arguments go from there is C30/C98. |
| C111 | `AutoInit.lean`: `ir_init_ptr`, `ir_init_var_recursive`, `expression_to_address`, `calculate_offset`; expressions are functions on memory, nodes are given their effects | The specification lists the parts that an initialiser names with their bits; induction over the parts, with the invariant that the parts so far are in place, all other bits of the object are zero and the rest of memory is what the expressions alone make of it |
| C112 | `main`, `compile_file`, `preprocess_file`, `set_flags`, `get_basename`, the predefined macros (src/main.c, config.def.h, abi_init_*) on the arguments of C64; translation, linking and the file system are parameters | one theorem per mode by induction over the operands; macros by the history of definitions; violations by running the model |
| C113 | `evaluate_constant_expression` on labels, `decay_array`, `expression_cast`, `constant_cast`, `offsetof`, `codegen_compound_literals`, `codegen_pre_initializer`, `register_label`; the operators on integers are those of C16 and C21, `const` is left out | induction over the meaning of address constants with an invariant that says what the pass over compound literals makes of each built expression; induction over initialisers; violations by running the model |
| C114 | `directiver_push_input`, `next_from_stack`, `next`, `push`, `get_include_path`, `#include`, `#pragma`, `#line` and the loop of `directiver_next` over a stack of files with their tokens; tokenizer, expander and file system are parameters, the search is that of C61; macro and conditional directives are in C10 | induction over the derivation that replaces every `#include` by what the file yields, with the tokens after the current file as a continuation; violations by running the model, one for all fuel |
| C115 | `peephole_phi`, `optimize_peephole` on the graph model with `node_replace`; runs of a function are steps from block to block with a value per node, phis take the values of their side at once, the meaning of nodes is a parameter; SSA form is a hypothesis | one replacement is simulated in both directions, because the value of the phi and its only operand agree wherever the phi is available (the other side cannot be reached); the order in which nodes are computed is kept by a new rank; induction over the worklist |
| C116 | `parse_handle_pragma` on the tokens after expansion, the loop of `parse_into_ir`, `parse_statement` for expressions, blocks, `if`, `while`, `;` and pragmas; the parsers of declarations and expressions are parameters; the expander is that of C14 in the witness | the meaning of texts with pragma lines is a relation; induction over it; violations by running the model |
| C117 | `directiver_next` with its stack of conditions over the stack of files of C114, with `#define` and the line of `#if` with `defined`; the evaluation of the expression is a parameter (`Guard.lean`); the specification is a relation between a part of a file and what it yields, with skipped groups described by their nesting only (`GuardSpec.lean`) | a continuation lemma: whatever the rest of the files yields, a part with complete sections puts its tokens before it; skipped groups, the groups after the selected one and included files by induction; partial, two negations |

No property is considered inexpressible.

## Disagreements between the code and the properties

Every row marked "proved" has a theorem with a concrete witness; the others were found while reading
and are recorded only (no theorem), usually because the function is not modelled.

| where | what happens | property | theorem |
|---|---|---|---|
| escape sequences | `\x` with two or more digits is read in base 8 | C03 | `Escape.escapes_denote_violated` |
| character properties | byte 127 indexes `char_props` out of bounds when a string is printed | C02, C63 | `Macro.stringify_exact_violated` |
| character constants | multi-character constants have an unexpected value | C05 | `Escape.char_const_multi_violated` |
| u"" strings | code points above U+FFFF are truncated, not encoded as surrogates | C62 | `Escape.utf16_supplementary_violated` |
| push_macro/pop_macro | a name undefined when pushed is not undefined by pop | C07 | `DefineMap.push_pop_violated` |
| conditionals | stray `#endif` reads outside its stack, stray `#else` and an unclosed `#if 0` run for ever, an unclosed `#if 1` is accepted | C09 | `Directives.malformed_diagnosed_violated` |
| `#define` | on the last line of a file it runs for ever | C65 | `Directives.last_define_violated` |
| `#line` | tokens read ahead are shifted twice | C10 | `Directives.line_directive_violated`, `line_after_define_violated` |
| `#if` | `~` is rejected | C11 | `PPExpr.if_parsing_violated` |
| `#if` | literals in [2^31, 2^32) in hexadecimal, `!` of unsigned, shift by unsigned, branches of mixed signedness | C12 | `PPExpr.if_arithmetic_violated` |
| hide sets | intersection loses members; expansion may not end | C13, C14 | `StringSet.inter_exact_violated`, `Macro.expansion_terminates_violated` |
| macro calls | `f(1,)` accepted for one parameter; an unterminated call runs for ever | C66, C69 | `Macro.too_many_arguments_diagnosed_violated`, `unterminated_diagnosed_violated` |
| `a ## b` | the argument on the left of a chain is macro-expanded except for its last token: `#define F(a) a ## 1`, `F(F(2) 3)` gives `21 31` instead of `F(2) 31` | C68 | `Macro.pasting_exact_violated` |
| `##`, `#` | an empty operand pastes to the token before; `#` in an object-like macro is an error | C68 | `Macro.placemarker_violated`, `hash_in_object_like_violated` |
| integer constants | constants above 2^64 wrap; repeated suffixes accepted | C15 | `Simple.integer_constant_violated`, `bad_suffix_accepted` |
| constant folding | conversion to `_Bool` keeps the low byte | C16 | `Simple.cast_to_bool_violated` |
| constant folding | `% 0`, unsigned `/ 0` and `LONG_MIN / -1` are executed by the compiler | C17 | `Simple.fold_crashes_violated` |
| conversions | on LLP64 `long` is promoted to `int` | C18 | `Simple.usual_conversions_llp64_violated` |
| structure layout | `int a:9; char b:3; char c;` overlaps; zero-width fields misplace the next; placement differs from the psABI | C20, C70 | `Layout.bitfields_sound_violated`, `zero_width_violated`, `sysv_bitfields_violated` |
| composite types | `int a[3]`/`char a[]` merged, `int (*)[3]`/`int (*)[]` rejected, order dependence | C23 | `Types.composite_*_violated` |
| `#pragma pack` | `pop` never restores | C26 | `PragmaPack.pack_pop_violated` |
| specifiers | `long double` is `double`; `const const int` is unqualified | C27, C72 | `Specifiers.specifiers_violated`, `const_qualified_violated` |
| scopes | an inner object does not hide a typedef name | C71 | `Symbols.typedef_hidden_violated` |
| `_Generic` | duplicate types after a default accepted | C28 | `Generic.generic_duplicate_violated` |
| expressions | `sizeof (T){...}` misparsed; `a ? b : c = d` accepted | C29 | `Pratt.sizeof_compound_violated`, `conditional_assignment_violated` |
| conditions | -0.0 counts as true; loop conditions are truncated to `int` | C30 | `Cond.if_condition_violated`, `loop_*_violated` |
| `switch` | 64-bit controlling expressions are truncated | C31 | `Cond.switch_violated` |
| operators | unsigned division is emitted as signed division | C33 | `Codegen.selects_operator_violated` |
| conversions in code | negative `char`/`short` to floating, unsigned from 2^63, floating to unsigned and to `_Bool` | C34, C74 | `Cast.*_violated` |
| NaN | `<`, `<=`, `==`, `!=` wrong for NaN operands | C35 | `Codegen.nan_comparison_violated` |
| joins | phi copies are sequential: a loop that swaps variables loses one | C38 | `Phi.join_violated` |
| calls | `%rsp` is lowered twice by a call with stack arguments | C39 | `Call.call_restores_violated` |
| classification | `struct {long; double}`, 17-32 byte and packed structures | C40 | `Classify.classify_*violated` |
| convention | more than 6 register arguments overflow an array; 16-byte aligned stack arguments; several structure results | C41, C79 | `Convention.*_violated` |
| variadic functions | `va_arg` of floating types not implemented; `fp_offset` is 0 | C42, C81 | `VaArg.va_arg_double_violated`, `va_list_violated` |
| over-aligned locals | stack parameters read from the wrong place | C80 | `StackParam.reads_param_violated` |
| assignment | a 64-bit comparison stored into an `int` writes 8 bytes | C73 | `Memory.assignment_exact_violated` |
| encoder | `pushq %r8`, `movabsq %r8`, 32-bit r8-r15, `0(%rbp)`, index registers, high byte registers, negative unsigned immediates, extra operands | C43, C44 | `Encode.*_violated` |
| objects | an alignment request at an aligned position is forgotten | C45 | `Object.section_alignment_violated` |
| static data | `char s[3] = "abc"` writes out of bounds; literals misalign the variable | C48, C82 | `StaticInit.static_string_violated`, `static_var_violated` |
| linker | references to another object resolve to the start of the section; alignments ignored | C50, C83 | `Linker.reference_resolves_violated`, `sections_aligned_violated` |
| ELF reader | symbol indices of relocations masked to 16 bits; alignments not read | C52 | `Elf.elf_round_trip_violated` |
| COFF writer | string table offset of long section names lacks 4 | C54 | `Coff.coff_layout_violated` |
| placement | an address assigned in code after a `return` and used at the join: the compiler reads through a null pointer | C84 | `Ir.placement_violated` |
| dead nodes | calls in a loop without exit are removed | C56 | `Ir.dead_code_violated` |
| tokenizer | digraphs, `..`, `/***/`, unfinished comments, backslash CR LF | C58, C59 | `Tokenizer.*_violated` |
| command line | `-`, `-cx`, one-letter operands read outside their strings; unknown options accepted | C64 | `Arguments.*_violated`, `*_accepted` |
| enumerations | a constant keeps the type of its expression; the type is never complete | – | not modelled |
| compound shift | `x >>= 1u` shifts in the common type | – | not modelled |
| `constant_is_zero` | the `float` and `double` members are swapped | – | not modelled |
| bit-field assignment | the value of the expression is not truncated | – | not modelled |
| code motion | a load is moved behind a store in a block between it and its use: `int f(int c) { int a = 1, *p = &a, b = a; if (c) a = 2; return b; }` returns 2 for `c != 0` | C87 | `Ir.states_respected_violated` |
| mem2reg | the table of values found (`scratch`) keeps a load that has been replaced meanwhile: in `int f(int x) { int y; while (x) { x = x; y = x; } return y; }` the assignment `y = x` stores a load of the memory of `x`, which nothing writes any more | C88 | `Ir.self_store_violated` |
| definitions | `int x; extern int x;` emits no definition of `x`: the second declaration clears `is_tentative` (declaration.c:1332-1335) | C90 | `Tentative.tentative_then_extern_violated` |
| definitions | `extern int x = 1;` is rejected although it is a definition (6.9.2p1) | C90 | `Tentative.extern_initialiser_violated` |
| definitions | `int x[];` at the end of the unit keeps its unknown size; `asm_zero (-1)` is emitted instead of one element (6.9.2p5) | C90 | `Tentative.unsized_array_violated` |
| definitions | `_Alignas(16) int x; int x;` forgets the alignment (the last declaration counts); C17 6.7.5p7 does not say clearly which tentative definition counts | C90 | not claimed |
| initialisers | `struct { struct { int a, b; } s; int c; } x = { .s.b = 1, 2 };` is rejected: the comma is read by the call for `s`, which is at its end (declaration.c:1098-1105); so is `{ .b = 1, 2 }` when `b` is the last member of an anonymous structure or a member of an anonymous union | C91 | `Initial.comma_after_designator_violated` |
| initialisers | `int x = { 1, };` is rejected | C91 | `Initial.scalar_comma_violated` |
| initialisers | `char x[] = { "abc", };` becomes an array of one element that holds an address | C91 | `Initial.string_comma_violated` |
| initialisers | `{ .s = { 1, 2 }, .s = { 3 } }` keeps the 2 (6.7.9p19: the second list overrides the first) | C91 | `Initial.override_list_violated` |
| initialisers | `{ .s = v, .s.a = 3 }` fails the assertion in `initializer_add_entry` | C91 | `Initial.override_value_violated` |
| initialisers | `union { int a, b; } x = { .b = 2, .a = 1 };` initialises `b`: entries are written in the order of the members | C91 | `Initial.override_member_violated` |
| initialisers | `const struct S v = {1, 2}; struct { struct S s; int c; } x = { v, 3 };` gives `v` to `x.s.a`, 3 to `x.s.b` and nothing to `x.c`; likewise `const struct S a[2] = { v, w };` for `v` that is not const: types are compared with their qualifiers (declaration.c:1139, 1147). `struct S y = v;` takes the same way and copies the structure only because the conversion of a structure to `int` is its bytes; with a `_Bool` or a bit-field in front the rest is lost | C91 | `Initial.const_structure_violated` |
| initialisers | a string literal with operators behind it (`"abc"[0]`) for an array of characters is taken for a string; more initialisers than elements are accepted in a list | C91 | not claimed |
| expressions | `int x = -8; x >>= 1u;` shifts in the common type `unsigned` and gives 0x7ffffffc instead of -4 (6.5.7p3, 6.5.16.2p3; expression.c:347-370 converts both operands of every compound assignment) | C92 | `ExprIr.compound_shift_violated` |
| expressions | the value of `s.f = 9` for a field of three bits is 9 instead of 1 (6.5.16p3): the result is the value before it is stored; the same holds for compound assignments and `++s.f` | C92 | `ExprIr.bitfield_assignment_violated` |
| expressions | `(x = y) + g()` where `g` changes `y`: the value of the assignment is kept as the object `y` and read after the call (expression_to_ir.c:482-493); for the same reason a volatile `v` is read twice in `a = b = v` | C92 | `ExprIr.assigned_value_violated` |
| expressions | `(unsigned)s.f` is `s.f`: a cast to the same type is dropped, the result still counts as a bit-field and is promoted to `int`, so `(unsigned)s.f - 6 < 0` can be true | C92 | `ExprIr.bitfield_cast_violated` |
| expressions | `(int)c += 1` is accepted and assigns to `c`; `const int c; c += 1;` in a function is accepted: the conversions wrap the operand in a node that removes `const`, and only casts are taken off again before the check (expression.c:83-95, 346-386) | C107 | `Lvalue.cast_compound_violated`, `const_compound_violated` |
| expressions | `const struct S s; s.a = 1;` is accepted: members do not take the `const` of the object (types.c:301-304, 6.5.2.3p3); so is `s = t` for structures with a `const` member (6.3.2.1p1) | C107 | `Lvalue.const_member_violated`, `const_inside_violated` |
| expressions | `(0, c) = 1`, `+c = 1`, `(int)c = 1` are accepted and assign to `c`, even if it is `const`; `(a = b) = 1` is accepted and assigns to `b` (expression_to_ir.c:445-493) | C107 | `Lvalue.comma_violated`, `plus_violated`, `cast_violated`, `assign_violated` |
| expressions | `(x ? a : b) += 1` is accepted: compound assignments do not ask for an lvalue (expression_to_ir.c:495-539) | C107 | `Lvalue.conditional_compound_violated` |
| expressions | `(int){1} = 2` is rejected: compound literals are not marked as lvalues | C107 | `Lvalue.compound_literal_violated` |
| expressions | `int x; struct S s; x = s; s = x; s += 1;` is accepted: types of the operands are not compared (6.5.16.1p1) | C107 | `Lvalue.mismatch_violated` |
| expressions | `x ? g : s` with a `const` structure `g` at file scope is rejected, the removal of `const` folds back to the label with its type (expression.c:1074-1080) | C107 | `Lvalue.conditional_const_violated` |
| expressions | `*(int *)0x1000 = 1` ends in NOTIMP: the folded address is a constant (expression_to_ir.c:209-245) | C107 | `Lvalue.numeric_address_violated` |
| expressions | `constant_is_zero` reads the wrong member of the union for `float` and `double` (expression.c:1099): `0.5 ? 1 : 2` can fold to 2 | - | not claimed |
| declarators | `int a[*p];` is rejected: `*` in brackets is always taken for `[*]` (declaration.c:888-890) | C93 | `DeclaratorProps.deref_size_violated` |
| declarators | `typedef void V; int f(V);` gets one parameter of type void (6.7.6.3p10; declaration.c:786-787 looks for the keyword) | C93 | `DeclaratorProps.void_typedef_violated` |
| declarators | `typedef int A[3]; int f(const A x);` makes `x` an `int *const` instead of a `const int *` (6.7.3p9; `type_make_const` marks the array, types.c:165-169) | C93 | `DeclaratorProps.const_array_violated` |
| declarators | `typedef char T; void g(void) { int (T); }` is rejected: the rule of 6.7.6.3p11 is applied outside parameters (declaration.c:820) | C93 | `DeclaratorProps.typedef_in_parentheses_violated` |
| declarators | `int (*f(void))(int b) { return 0; }` has `b` in the scope of its body: the first list with parameters keeps its scope (declaration.c:793-796) | C93 | `DeclaratorProps.scope_violated` |
| declarators | `int f(int a,);`, `int f(...);` and `struct { int a b; }` are accepted | C93 | not claimed |
| functions | a function with an argument on the stack and a local with an alignment of more than 16 reads the argument from the wrong place: offsets from `%rbp` are used although `%rbp` has been aligned (codegen.c:475-487, 669-683) | C94 (C80) | `FuncCode.function_violated` |
| tags | `struct T { void (*f)(struct T *); };` gives `f` a pointer to another, incomplete `T` that belongs to the parameter list: the tag is added only at the closing brace (declaration.c:428-450) | C95 | `TagsProps.parameter_tag_violated` |
| tags | `struct T { int a; }; { struct T { struct T *next; } x; }`: `next` points to the outer `T` | C95 | `TagsProps.inner_tag_violated` |
| tags | `struct T { int a; }; { struct T; }`: the inner declaration refers to the outer `T` | C95 | `TagsProps.forward_tag_violated` |
| tags | `enum T { A }; enum T { B };` and `enum T x;` without a definition are accepted: `is_complete` of an enumeration is never set | C95 | `TagsProps.enum_twice_violated`, `enum_unknown_violated` |
| specifiers | `int struct S x;` is accepted as `int`, `struct A struct B x;` as `struct B`, `T short double x;` as `T`: `specifiers_to_type` looks at the keywords and at `data_type` one after the other | C96 | `SpecNamesProps.keyword_and_tag_violated`, `two_tags_violated`, `name_and_keywords_violated` |
| assembler | the place of an empty value is `0(%rbp)`, which is encoded as `0(%rax)` | C97 | `function_in_image_violated` |
| assembler | `jmp label+4` is assembled as `jmp label` (never emitted by the code generator) | C97 | `jump_offset_violated` |
| calls (Microsoft) | `va_start` ignores the address of the result: in `struct S f(int n, ...)` with a large S the first `va_arg` yields n | C98 | `va_start_violated` |
| calls (Microsoft) | a function returning a structure by address does not return the address in %rax, which callers compiled by others use | C98 | `returns_address_violated` |
| calls (Microsoft) | `double f(); f(1.0)` passes the argument in %rcx only | C98 | `unprototyped_violated` |
| calls (Microsoft) | the address for a `long double` result is passed in %rcx and looked for in %xmm2 | C98 | `long_double_result_violated` |
| assembler | `-S` of a string with the byte 127 reads past the end of the escape tables; the object is fine | C99 | `AsmText.text_written_violated` |
| constants | `constant_is_zero` reads a double as a float: `0.5 ? 3 : 4` is 4, `!1.0` is 1, `1.0 && 1` is 0 | C100 | `double_condition_violated` |
| constants | `1 ? 2 : 1/0` is no constant expression; `1 ? 2 : 1 % 0` makes the compiler divide by zero | C100 | `unevaluated_violated`, `unevaluated_crash_violated` |
| constants | `(_Bool)2` is 2 in constants | C100 | `bool_cast_violated` |
| constants | comma operators are accepted in constant expressions | C100 | `comma_accepted` |
| declarations | `enum { A = 5u }` gives A the type unsigned int | C101 | `enumerator_type_violated` |
| declarations | `enum { A = sizeof(int), B }` stops the compiler | C101 | `increment_violated` |
| declarations | `enum { A = 2147483647, B }`, `enum { A = 1.0 }` and `enum { }` are accepted | C101 | `enumerators_accepted` |
| declarations | an array size that is an unsigned zero is accepted | C102 | `array_size_violated` |
| declarations | widths of bit-fields are not checked; `int x : -1` is an ordinary member | C102 | `bit_width_violated` |
| -E | `-NEG` with `#define NEG -x` is printed as `--x`: no space is put between tokens that come together by macro replacement | C103 | `output_violated` |
| -E | character constants are printed as `Character constant`, wide strings as `wchar_t String` etc. | C103 | `literals_violated` |
| -E | an identifier of 99 characters or more loses its last character: `snprintf` is given one byte less than the buffer has | C103 | `long_names_violated` |
| -E | strings are printed without escape sequences: `"\""` as three quotes | C103 | `quoted_violated` |
| literals | for Windows `L"ab"` has the element type `unsigned short` but is written with four bytes for each character: six elements, every second of them zero | C104 | `wide_strings_violated` |
| literals | `u'ab'` is the value 0x610062 of type `unsigned short`; `L'abc'` shifts out of an `intmax_t` | C104 | `range_violated`, `three_wide_ub` |
| literals | constants of type `long double` stop the compiler | C104 | `long_double_violated` |
| structures | `_Alignas` on a member is read and forgotten (declaration.c:368, `s.as` is not used) | C105 | `alignas_violated` |
| structures | `const struct { int a; };` as a member: `a` is not const (declaration.c:419 takes the type without the qualifiers) | C105 | `const_anonymous_violated` |
| structures | `struct { int; }` dereferences NULL; `int *p : 3` and `int a b;` are accepted | C105 | `no_declarator_ub`, `pointer_width_accepted`, `missing_comma_accepted` |
| driver | static variables of earlier files on the command line are defined again in the objects of later ones: `cc a.c b.c` with `int g` in a.c links, but b.c uses its own copy of `g`; with `-c` another linker reports a double definition; a `static` variable of a.c captures references of b.c to an external variable of that name | C106 | `objects_violated`, `two_copies_violated` |
| driver | `parser_reset` frees `packs` and keeps the pointer: two files, the first with `#pragma pack(push)`, is a double free | C106 | `pack_violated` |
| code generator | `int a[n]; while (*p) { int b[*p]; *b = *p; if (*p) *a = *p; }`: the allocation of `a` is moved into the `if`, after that of `b`, and gets the greater number; when `b` is declared again with a greater length it overlaps `a`, and `a` moves with every pass (codegen.c:605-613, global_code_motion.c:61-89) | C108 | `Vla.arrays_apart_violated` |
| types | lengths in type names are evaluated when they are read: (n = 10, sizeof(int[n])) uses the old n, and n changes in a branch that is not taken | C109 | `SizeOf.order_violated`, `SizeOf.branch_violated` |
| types | the operand of sizeof is not evaluated though it is a variable length array | C109 | `SizeOf.operand_violated` |
| types | sizes are computed as int: sizeof(char[2147483648]) is 2^64 - 2^31; sizeof(void), of a function type and of int[] are accepted | C109 | `SizeOf.large_violated`, `SizeOf.incomplete_violated` |
| types | the test for variable length arrays outside of functions is the wrong way round; using such a type fails an assertion | C109 | `SizeOf.file_scope_violated` |
| calls | arguments that must not be assigned to their parameter are accepted: an `int` for a structure of 16 bytes | C110 | `Args.constraint_violated` |
| calls | `void f(double); signed char c = -1; f(c);` passes 4294967295.0 | C110 | `Args.narrow_violated` |
| calls | a `const unsigned x : 3` passed to `...` has type `unsigned int`, since `E_CONST_REMOVE` hides the bit-field | C110 | `Args.const_bitfield_violated` |
| calls | `int *p; p(1);` is not rejected, `args[-1]` is read | C110 | `Args.not_function_violated` |
| initialisers | `char s[3] = "abc";` in a function writes a zero behind the array (ir.c:379-387) | C111 | `AutoInit.string_violated` |
| initialisers | `int x = a < b;` with `long` operands stores eight bytes | C111 | `AutoInit.node_size_violated` |
| initialisers | `again: p = &(struct s){ p->i + 1 };` with `goto again`: the object is set to zero before the expression is evaluated | C111 | `AutoInit.old_value_violated` |
| driver | `-E -UX` and `-s` stop with "not implemented" | C112 | undefine_E_violated, strip_violated |
| driver | `-MD` when linking or with an output not named `.o`/`.s`: fopen(NULL); with `-E` no dependency file | C112 | depend_link_violated, depend_name_violated, depend_E_violated |
| driver | `-S -c` overwrites the assembly text by an empty object | C112 | assembly_object_violated |
| driver | results of fopen are not tested when objects are written or read | C112 | unwritable_violated, missing_object_violated |
| driver | `.o` operands with `-c` are an assertion failure; `-l`, `-L` are ignored | C112 | object_c_violated, libraries_violated |
| driver | `NULL` is predefined; `__STDC_NO_COMPLEX__`, `__STDC_NO_ATOMICS__`, `__STDC_NO_THREADS__` are not; `__int8` is `int` | C112 | null_violated, no_complex_violated, int8_violated |
| static initialisers | `&a[1u]`, `a + 1L`, `a + sizeof x` are taken for no constants and the pointer is silently zero | C113 | index_type_violated, other_is_zero |
| static initialisers | `(char *)4 + 1`, `((struct s *)0)->a` likewise | C113 | absolute_violated, member_of_null_violated |
| static initialisers | `int **p = (int *[]){(int[]){1}}`: the inner literal is not emitted, its address is silently zero | C113 | nested_literal_violated |
| expressions | `offsetof(struct s, a[1u])` is no constant; on Windows `offsetof` has a type of four bytes | C113 | offsetof_index_violated, offsetof_type_violated |
| preprocessor | `#include` resets the effect of an earlier `#line`: `#line 100`, `#include "a.h"`, `y` in line 3 gives `y` the line 3 instead of 101 | C114 | line_before_include_violated |
| preprocessor | a `#line` in a header changes the line numbers and the file name of the including file; the first token after the `#include` is adjusted twice | C114 | line_in_header_violated |
| preprocessor | `#define H <a.h>`, `#include H` is rejected; tokens after a header name are not diagnosed and come after the contents of the file | C114 | computed_header_violated, extra_tokens_violated |
| preprocessor | `#include H` in the last line of a header is searched beside the wrong file; in the last line of the source file it is an endless loop | C114 | computed_last_line_violated, computed_at_end_violated |
| pragmas | a pragma that is not recognised skips tokens until one that is first of its line; the tokens of an expansion are not marked, so that `#pragma x`, `T y;` with `#define T int` loses the declaration | C116 | `macro_violated` |
| pragmas | `if (x)`, `#pragma y`, `z;` makes the pragma the statement of the `if`; `z` is always executed | C116 | `lead_violated` |
| pragmas | `#pragma` alone is rejected | C116 | `empty_violated` |
| conditional directives | a header that leaves a section open is accepted, and the including file continues in the group; text is dropped silently up to its next `#endif` | C117 | `Guard.unclosed_header_violated` |
| conditional directives | an `#endif` in a header closes a section of the including file | C117 | `Guard.header_endif_violated` |
| statements | a loop inside a switch works on a copy of `jump_blocks`, so the case labels and the default placed inside the loop are lost for the switch: `switch (1) { do { default: return 5; } while (0); } return 7;` returns 7 (Duff's device) | C89 | `Statement.case_in_loop_violated` |
| statements | `switch` also works on a copy, so `continue` inside a switch inside a while statement adds a third predecessor to the control block and the assertion in `ir_connect` stops the compiler | C89 | `Statement.continue_in_switch_violated` |
| statements | `parse_labeled_statement` returns 0 after a default label: `switch (x) default: break; return 7;` reads the return statement as part of the switch | C89 | `Statement.default_alone_violated` |
| statements | for the same reason `case 1: default: a(); l: b();` is rejected | C89 | `Statement.default_label_violated` |
| statements | a function with a value that reaches its closing brace runs into `ud2`, although C17 6.9.1p12 makes this valid if the value is not used | C89 | `Statement.fall_off_violated` |
| statements | `goto` to a label that does not exist is accepted without a diagnostic, `break` outside loops follows a null pointer | C89 | `Statement.goto_undefined_violated`, `Statement.break_outside_violated` |
| instruction order | `int f(int x) { l: x = x * 3 + 1; if (x < 10) goto l; return x; }`: the addition is computed before the multiplication | C86 | `Ir.instruction_order_violated` |
| instruction order | `int *q = p + 1, x = *q; *p = c; if (c) { *q = c; if (d) return x; return c; }`: the load is moved in front of the store, the computation of its address is not | C86 | `Ir.operands_available_violated` |
| Microsoft convention | `va_start` ignores the hidden result pointer | – | not modelled |

## Wrong programs

`seeded/LOG.jsonl` records edits of the models, made one at a time in a scratch copy and rebuilt.  `failed` lists
the declarations that Lean reported.  These are often helper lemmas: the build of the modules above
them stops there, so the property theorems that depend on them are not checked in that run.  A failing
helper shows that the proof no longer goes through, not that the property became false.

## Status

| id | property | status | result |
|---|---|---|---|
| C01 | UTF-8 encode/decode round trip | proved | RFC 3629 table as an independent spec; decoder inverts encoder on all code points below 0x110000. |
| C02 | Printing then re-reading a string literal byte preserves it | partial | Round trip for every byte except 127, for which the printer indexes its table out of bounds (proved UB). |
| C03 | Hexadecimal, octal and simple escapes denote the C17 6.4.4.4 value | partial | Violated for hexadecimal escapes of two or more digits (base 8 is used); all other escapes proved. |
| C04 | Little-endian integer serialisation round trip | proved | In-memory writers/readers, file writers, round_up; out-of-bounds is UB in the model. |
| C05 | Value of a character constant | partial | Single-character constants proved; multi-character constants violate the stated value. |
| C06 | Macro table behaves as a finite map | proved | Any history of define/undef, any hash function; lookups return the last definition with surrounding whitespace stripped. |
| C07 | #pragma push_macro / pop_macro save and restore | partial | push/pop of a macro that was undefined when pushed does not undefine it again (witness); otherwise restores. |
| C08 | Conditional inclusion keeps exactly the selected groups | proved | Tree-grammar specification of conditional sections, arbitrary nesting; #if evaluation is a parameter (C11, C12). EndsSafely excludes only the last-line defect recorded as C65. |
| C09 | Malformed conditionals are diagnosed | partial | None of the malformed cases is diagnosed: stray #endif is UB, stray #else and an unclosed false section never terminate, an unclosed true section is accepted. Balanced files are safe. |
| C10 | #line sets the presumed line number | partial | Tokens read ahead while a shift is in force are shifted twice (witnesses); exact otherwise, file names always exact. |
| C100 | Constant expressions have the type and value C says | partial | For all expressions of any size on LP64 whose unevaluated operands have values, whose casts to _Bool are of 0 or 1, and whose double conditions are zero exactly if their lower halves are. Violated beyond: 1 ? 2 : 1/0 is not constant, 1 ? 2 : 1%0 divides by zero in the compiler, 0.5 ? 3 : 4 is 4, (_Bool)2 is 2. The type is right for all expressions that are built, constant or not; undeclared names are rejected everywhere. Constants with addresses are the subject of C48. |
| C101 | Enumerators have type int and the values C says | partial | For all lists whose expressions have type int. Violated beyond: A = 5u has type unsigned int, A = sizeof(int), B is rejected; values outside int, floating values and empty lists are accepted. |
| C102 | Sizes of arrays and widths of bit-fields are the values of their expressions | partial | Sizes: all constants but unsigned zeros, for which an array of no elements is made. Widths: every value representable as int is taken as it is, so allowed widths are right; the constraint on them is not checked: 40 for an int, 0 with a name and 4294967297 (as 1) are accepted, and -1 declares an ordinary member. |
| C103 | Preprocessed output is the same program | partial | For all sequences of identifiers, numbers, keywords, punctuators and strings without special characters, of at most 98 bytes, kept apart by white space wherever they would run together; and from the source on for texts without directives and macros. Violated beyond: -NEG with #define NEG -x prints --x, character constants print the words Character constant, wide strings likewise, "\"" prints as three quotes, and names of 99 characters or more lose their last one. |
| C104 | Literals in expressions have their C types and values | partial | Floating constants: all spellings for float and double; the conversion by strtod is the C library's. Violated: long double constants stop the compiler. Characters: all but hexadecimal escapes of more than one digit (C03). Violated: u'ab' is 0x610062 of type unsigned short; L'abc' is undefined. Strings: all for System V, all but wide ones for Windows, apart from the escapes of C03 and the characters of C62. Violated: for Windows L"ab" is six elements, as the encoder writes four bytes for each character and the type is of two. |
| C105 | The members of structures and unions are those that C says | partial | For every list of member declarations with the declarators of C93. Violated: _Alignas on a member is read and forgotten; const before an anonymous structure is dropped. Invalid lists that are accepted: int *p : 3, int a b. struct { int; } dereferences NULL. |
| C106 | Each file of a command is compiled as if it were alone | partial | False as stated: labels and static variables are never reset, so the object of every file also defines the static variables of all the files before it (objects_violated); compiled and linked by one command, two files use two copies of one variable (two_copies_violated). A #pragma pack(push) in a file that is not the last is undefined: the freed stack is freed again (pack_only_last, pack_violated). Proved: what each object contains exactly (objects_actual); one file on its own (one_file); any list of files of which only the last has static variables and pack pushes (alone_partial). Initialisers with compound literals are left out. |
| C107 | Assignments are accepted exactly for modifiable lvalues | partial | Proved for =: every lvalue of a const type (but members of const objects) is rejected, every expression that is no lvalue is rejected (but comma, assignment, unary plus, casts), every modifiable lvalue (but compound literals and numeric addresses) is accepted with any right operand that has a value. Compound assignment: const pointers and const arithmetic objects at file scope are rejected. Violated beyond: const int c; c += 1; const struct members; (0, c) = 1; +c = 1; (int)c = 1; (a = b) = 1; (x ? a : b) += 1; (int){1} = 2 and *(int *)4096 = 5 rejected; x = s with a structure accepted. |
| C108 | Variable length arrays that are alive together are different objects | partial | Proved for the machine code: what one allocation does to registers, the words in the frame and memory; the same end of storage when a declaration is executed again; arrays alive are apart, on the stack and aligned for every history in which the outer array has the smaller number. Violated in general: numbers follow the order of the blocks after placement, and an allocation sinks to where its array is used, so that in the scheduled graph of a loop that declares b and uses an outer a in a branch only, b runs over a. Other code is assumed to keep the stack pointer and the words of the allocations; arrays are assumed to fit on the stack. |
| C109 | Sizes and lengths of variable length arrays are evaluated as C says | partial | Proved for every block in which the lengths in type names assign nothing and do not depend on what the same statement assigns, operands of sizeof that are variable length arrays assign nothing, and constant sizes are below 2^31; lengths in declarations may be any expressions. Violated: lengths in type names are evaluated when they are read, before the rest of the expression ((n = 10, sizeof(int[n])) uses the old n) and in branches not taken; sizeof *(p = p + 1) does not move p; sizeof(char[2147483648]) is 2^64 - 2^31; sizeof(void), of a function type and of int[] are accepted; char (*p)[n] is accepted outside of functions and sizeof *p then ends the compiler. |
| C11 | #if expressions follow C precedence and associativity | partial | Every C conditional expression without ~ is evaluated as the grammar parses it, for all lengths; ~ has no entry among the prefix operators and is rejected (witness). |
| C110 | A call passes converted or promoted arguments to the function | partial | Proved for all argument lists below 128 arguments whose values are converted by the conversions that are right (C34, C74), and whose promoted arguments are no const bit-fields and no long of 32 bits. Violated beyond: int f(double) called with (signed char)-1 gets 4294967295.0; a const bit-field of 3 bits is promoted to unsigned int; f(5) is accepted for a parameter of structure type; a call through int * reads args[-1]. |
| C111 | Automatic objects and compound literals are initialised as C says | partial | Proved for all types and initialisers whose parts do not overlap (C91 has the other ones), with strings no longer than their arrays, nodes of the size of their types, and expressions that do not depend on the object itself. Violated beyond: char s[3] = "abc" in a function writes a zero behind the array; int x = a < b with long operands stores eight bytes; a compound literal that is reached again by goto is set to zero before its initialiser reads the old value. |
| C112 | The driver produces what the options ask for | partial | For every command line of C64 in the four modes. Violated: -U with -E and -s are not implemented; -MD without a name ending in .o or .s passes NULL to fopen; -MD with -E writes nothing; -S -c overwrites the assembly by an empty object; files that cannot be opened are undefined behaviour; .o with -c is an assertion; -l and -L are ignored; NULL is predefined; the __STDC_NO_ macros are missing; __int8 is int. What the translation of one source does is a parameter here (other properties). |
| C113 | Address constants, offsetof and compound literals in static initialisers | partial | Proved for all address constants whose indices have types promoted to int, absolute addresses that are only cast, and compound literals without further literals whose addresses are used; the compiler silently emits zero for the other ones. |
| C114 | Includes are replaced by the contents of the file | partial | Proved for files with #include, #pragma and null directives; the macro and conditional directives are in C10 for one file and in C117 for several files. Violated: #line before an #include is forgotten and #line in a header leaks into the including file; a macro that expands to <...> is rejected; tokens after the header name are accepted; a computed #include in the last line of a file uses the wrong directory or loops. |
| C115 | Phis with one side are replaced by their value without changing what the function computes | proved | That the graph of a function is in SSA form is a hypothesis of the part about values; it is what the parser and the pass for variables (C88) make. |
| C116 | Unrecognised pragmas are ignored and #pragma pack applies to the declarations after it | partial | Proved for pragmas between external declarations and between the items of blocks, without pop, where the line after the pragma does not begin with a macro. Violated beyond: a pragma swallows the next line if that begins with a macro; a pragma in front of the statement of an if or a loop is taken for the statement; pack(pop) does not restore; an empty #pragma is rejected. |
| C117 | Conditional sections work across included files, and include guards keep a header from contributing twice | partial | Proved for complete sections with any conditional directives (#if with defined; the value of the expression is that of an evaluator that is a parameter, C08 to C12), #define, #undef, #include and pragmas. The code violates the syntax of 6.10: the stack of conditions is one for all files, so a section may begin in a header and end in the including file, without a diagnostic. Missing: #line, push_macro and pop_macro, and a #define in the last line of a file other than that of an object-like macro in a header. |
| C12 | #if arithmetic follows intmax_t/uintmax_t semantics | partial | Values are those of (u)intmax_t arithmetic except for four constructs: unsuffixed hex/octal literals in [2^31,2^32), ! of unsigned, shift by unsigned, branches of mixed signedness (witnesses). |
| C13 | Hide-set operations are set union and intersection | partial | Union, insertion and membership are exact; intersection loses members when the lists are not sorted the way the merge expects (witness), exact for sorted lists. |
| C14 | A macro name is not re-expanded inside its own expansion | partial | Object-like macros, any table: expansion ends, and its result is exactly that of an independent relational specification of 6.10.3.4. With function-like macros hide-set intersection loses names and expansion can run for ever (witness table). |
| C15 | Integer constants get the value and the type of C17 6.4.4.1 | partial | Value and type proved for every digit string whose value fits 64 bits; larger constants wrap silently (witness); some malformed suffixes are accepted. |
| C16 | Constant casts between integer types are reduction modulo 2^N | partial | Exact for every integer source and every target except _Bool, where the low byte is kept instead of comparing with zero (witness). |
| C17 | Constant folding agrees with run-time evaluation | partial | Every folded value is right whenever C defines one. The compiler itself divides by zero for signed %, unsigned / and %, and overflows for LONG_MIN / -1 (witnesses). |
| C18 | Usual arithmetic conversions | partial | Proved on LP64 including bit-field operands; on LLP64 long is promoted to int (witness), right without long operands. |
| C19 | Struct and union layout | proved | Any member list of ordinary members (flexible array at the end allowed), any packing: offsets are the least ones, size and alignment exact; layout is defined up to 2^30 bytes; unions including bit-fields. |
| C20 | Bit-field packing | partial | struct {int a:9; char b:3; char c;} puts c on top of a (witness); zero-width fields misplace what follows (witness). Sound when adjacent bit-fields do not go from a larger to a smaller type and no width is zero. |
| C21 | Bit-field store/load | proved | All storage widths, positions, widths, contents and values; also the static initialiser path. Machine code of the 64-bit operations is C32/C34. |
| C22 | Type identity is structural | proved | Any hash function, any sequence of constructor calls: results coincide exactly when the requested trees do; every call returns. |
| C23 | Composite type | partial | int a[3]/char a[] and int f()/char f(int) are merged; int (*)[3]/int (*)[] are rejected; result depends on order for two f() (witnesses). Otherwise the result is one of the two, completes both, and success is symmetric. |
| C24 | Member lookup through anonymous records | proved | Any nesting of records. |
| C25 | Scoped symbol table | proved | Any hash function and history, including file-scope declarations made inside inner scopes (array shifting). |
| C26 | #pragma pack push/pop | partial | pop never restores the packing (witness); every history without pop is right. |
| C27 | Declaration specifiers denote the C17 6.7.2 type | partial | All keyword sequences in any order with other specifiers interleaved; long double denotes double (witness). |
| C28 | _Generic selects the matching association | partial | Every allowed list, any order; duplicate types after a default and second defaults are accepted (witness), without a default duplicates stop the compiler. |
| C29 | Expression parsing follows the C grammar | partial | Full grammar of 6.5 except _Generic, any depth. sizeof (T){...} is misparsed and a ? b : c = d accepted (witnesses); calls with more than 127 arguments are rejected. |
| C30 | Conditions are tested against zero | partial | if, ?:, !, &&, &#124;&#124;: every scalar but -0.0. Loops first convert to int: right unless the value is a non-zero multiple of 2^32 (or a fraction below 1); witnesses 1L<<32, 0.5, a 4 GiB aligned pointer. |
| C31 | switch dispatch | partial | Machine-level: control expression, chain of tests, default, any number of cases. 64-bit controlling expressions are truncated to int (witness). |
| C32 | Integer operator code computes the C result | proved | All operand values, both widths, any machine state; the emitted instructions are run on a machine model (trusted base). Frame condition included. |
| C33 | Unsigned and signed operators select the right instruction | partial | Unsigned division is emitted as signed division (0xffffffffu/2u = 0; 0x80000000u/0xffffffffu traps); every other operator and type is right. |
| C34 | Integer conversions in generated code | partial | Integer to integer and to _Bool: every pair and value. To floating: right except negative values narrower than int ((double)(signed char)-1 = 4294967295.0) and unsigned values from 2^63 on (witnesses). |
| C35 | Floating comparisons handle unordered operands | partial | Ordered operands: all six operators right. NaN: > and >= right, <, <=, ==, != wrong for every NaN operand. |
| C36 | Block copy and clear touch exactly their bytes | proved | Any size up to 2^63; every access stays within the two objects; source and destination either equal or disjoint for loads and stores. |
| C37 | Stack frame slots are disjoint and aligned | proved | Counters are natural numbers (frame below 2 GiB). |
| C38 | Control-flow joins assign all merged values simultaneously | partial | Right when no source is written by an earlier copy of the same join; a loop that swaps two variables loses one (witness). |
| C39 | Calls restore the stack pointer | partial | Right for calls without stack arguments; otherwise each call leaves %rsp lower by twice the argument area (same negative change added twice). |
| C40 | System V argument classification | partial | Right for naturally aligned members unless a member ending at byte 8 changes the second eightbyte (struct{long;double} becomes INTEGER,INTEGER), 17-32 byte structs starting with SSE go to registers, packed members are not sent to memory (witnesses). |
| C41 | Caller and callee agree on argument locations | partial | Any return type, any argument list with at most 6 integer and 6 SSE register eightbytes counted by the code; seven doubles overflow reg_variables[6] (witness) and 16-byte aligned stack arguments are placed at 8-byte alignment (witness). |
| C42 | va_arg walks the variadic arguments in order | partial | Any split and number of integer-class or memory arguments, machine-level for va_start, va_arg and the save area; named parameters may be SSE as long as a call uses at most 6 registers. Functions with over-aligned locals are excluded (C80). va_arg of a floating type is not implemented. |
| C43 | Encoded instructions decode to the requested instruction | partial | All 130 rows of the table against an independent decoder, any operands and label address. Excluded and refuted by witnesses: registers 8-15 in the opcode byte or in 32-bit register forms, 0(%rbp)/0(%r13), index registers (scale and REX.x dropped), high byte registers. |
| C44 | The shortest matching encoding is chosen | partial | Any table whose rows encode the operands they describe. Unsigned 8/16-bit immediates accept negative numbers (witness); an operand too many stops the compiler instead of being reported (witness). |
| C45 | Object sections accumulate output in order | partial | Content, symbols and references: proved for any sequence of calls. Section alignment holds only if the largest request is made at an unaligned position; a request at an aligned position is forgotten (witness: 16-byte alignment at the start of .data). |
| C46 | Symbol names are interned one-to-one | proved | Any history of registrations and calls; names are identifiers or the names made for block-scope statics. Names of 64 or more characters stop the compiler (long_name_rejected). |
| C47 | String constants are interned by content | proved | Any history; content stated on the view, which object_accumulates carries over to the object. |
| C48 | Static initialisers emit exactly the object representation | partial | Any initialiser tree with constants, bit-fields, strings, nested literals and addresses that lies inside the object without overlap. A string that fills its array without room for the NUL is written out of bounds (witness). Non-constant initialisers are silently zero. |
| C49 | Relocations patch the right bytes with the right value | proved | For any linkable objects; the value of symbols of other objects is C50. Symbols in empty sections are taken relative to the start of the image. |
| C50 | Linking resolves a reference to the defining object's symbol | partial | Definitions at the start of a non-empty section; at any other offset a cross-object reference resolves to the start of the section (witness). |
| C51 | Linked sections do not overlap and keep their content | proved | For any linkable objects. |
| C52 | ELF object write/read round trip | partial | Round trip up to the order of the symbols for every object whose names exist and contain no NUL and whose symbol-table indices fit in 16 bits. Violated beyond that: object_from_elf masks the symbol index of a relocation to 16 bits, so that the relocation is read as one for another symbol. Section alignments are written but not read. |
| C53 | ELF file layout is consistent | proved | Every header and content is where the headers say, areas in increasing order, for every file whose sizes and counts fit in their fields; instances for executables (page-aligned offset congruent to the address) and for objects (section, symbol and relocation tables as the ELF specification describes them). The int parameters of round_up_to_nearest are modelled as unbounded. |
| C54 | COFF file layout is consistent | partial | For every object that can be written and whose section names have at most 8 bytes, the file is a COFF file of the object: all headers, symbols, strings, contents with addends in their fields, and relocations at their places. A section with a longer name gets a string table offset that lacks the 4 bytes of the size field; the negation is proved on such an object. |
| C55 | Use lists mirror operand lists | proved | For every graph built by any sequence of node creations, operand updates (with the sealing of blocks and the construction of phis that they trigger), replacements, reads of the state and sealings. Replacement is exact for every graph whose regions are sealed, as they are after parsing. |
| C56 | Dead-code elimination keeps everything live | partial | Exactly what reachable returns and joins depend on is kept, with its operands; calls in a loop without exit are removed (violated). |
| C57 | Dominator computation | proved | For every graph of functions whose branches and projections are linked as the builder links them, including irreducible control flow: the search and the iteration end, the lists hold exactly the reachable blocks, and every reachable block gets its immediate dominator and its depth. |
| C58 | Punctuator tokenisation is maximal munch | partial | The tokenizer is modelled character by character, with the splicing of lines, push-back and restart. tokens_partial: every text that C17's phases 1-3 (stated as the relation Lexes: longest token at each position, comments as white space) split into items is split by the compiler into the same items, with type, text, line, first-of-line and white-space flags, for every length. Missing are the pieces excluded by Supported: digraphs, two periods in a row, universal character names, vertical tab and form feed, and others; munch_violated, dots_violated and name_violated show concrete texts on which the compiler differs. |
| C59 | Comments and line splices are removed | partial | tokens_partial covers spliced lines and both kinds of comments at any place. It excludes comments that end in an even number of asterisks before the slash and splices with a carriage return: /***/ does not end (comment_violated, comment_swallows), a comment cut off after an asterisk makes the tokenizer read past the end of the file (comment_end_violated), and backslash CR LF stays in the text of a token (splice_violated). |
| C60 | Token push-back is transparent | proved | For every source of tokens (none of type T_NONE, which no lexer stage produces) and every sequence of t_next and t_push in which a push is followed by a read before the next push: T0, T1, T2 are the first three tokens of the list on which next drops the head and push conses. Two pushes in a row stop the compiler. The parser's two uses are of the required kind. |
| C61 | #pragma once and include search | proved | For every file system, include path list, including file and name the file opened is the first of the prescribed places; for every history of includes, #pragma once and ends of files an include that resolves to p is skipped exactly if #pragma once was seen in a file with the path p. Paths are compared as text, as the statement says; links and different spellings are not identified. |
| C62 | Adjacent string literals concatenate | partial | Supplementary code points in u"" are truncated rather than encoded as surrogates (witness). |
| C63 | Stringification round trip | partial | The literal denotes the text for any token list; literals containing byte 127 make the compiler index out of bounds (witness). |
| C64 | Command-line options are parsed position-independently | partial | Every command line made of operands, known flags, options with values (attached or separate in any mixture), levels and ignored options is read with the meaning of its items. Violated beyond: a lone - is read past its end, -cx as last argument prints a null pointer, an operand of one letter is read before its start; unknown options and missing values are accepted silently. |
| C65 | A directive may be the last line of a file | partial | A #define on the last line makes the preprocessor run for ever; any following text line makes it work. |
| C66 | Macro arguments are collected by the grammar | partial | Arguments are collected as the grammar says, any nesting; too few diagnosed; too many diagnosed except that a single extra empty argument, f(1,), is accepted (witness). |
| C67 | Function-like macro substitution | proved | macro_call_substitution: replacement lists without # and ##; arguments may contain object-like macros of any recursion. The _partial theorems extend it to # and ## and to variadic macros, see C68. |
| C68 | Token pasting | partial | Substitution of every replacement list with # and ## (any chains), operands of ## unexpanded and non-empty; violated by the argument on the left of a chain, whose tokens but the last are expanded (F(F(2) 3) with a ## 1). All pairs of punctuators; spelling of every successful paste. Placemarkers paste across to the preceding token, prefixes do not paste to strings, and # in object-like macros is rejected (witnesses). |
| C69 | Unterminated macro calls are diagnosed | partial | Violated: the expander reads the end-of-input token for ever. The positive case (complete calls) is C66/C67. |
| C70 | Bit-fields follow the System V layout | partial | Exact for structures of bit-fields of one type; members after a bit-field, and bit-fields after an ordinary member, are placed differently (witnesses). |
| C71 | Typedef names are hidden by inner declarations | partial | Violated for every table: typedef names and objects are kept in separate name spaces (witness typedef int T; { int T;). No positive part beyond C25. |
| C72 | Repeated qualifiers | partial | Right for at most one const; const const int is unqualified (witness). |
| C73 | An assignment writes exactly the bytes of its target | partial | A comparison of 8-byte operands has an 8-byte node, so storing it into an int writes 4 bytes past the object (witness); every other operator and type is right. |
| C74 | Floating conversions | partial | Right for results below 2^63 and for every value but -0.0 to _Bool; witnesses for the rest. Rounding of cvtss2sd/cvtsd2ss is the machine's (trusted base). |
| C75 | Constants are materialised exactly | proved | Scalar constants of sizes 1, 2, 4, 8. The path for aggregate constants is not reached by the front end and not modelled. |
| C76 | Function entry and exit restore the caller's stack | proved | Alignments are powers of two up to 2^30 (what _Alignas yields for valid programs). |
| C77 | Arguments and results of a call are in place | proved | Assumes slots and argument objects lie outside the outgoing area (C37). |
| C78 | Callee-saved registers are preserved | proved | The body is required to keep the save slot. |
| C79 | Returned values arrive | partial | Right for memory, one register, and exactly 16 bytes INTEGER,INTEGER. struct{int;double}: second half lost; 12-byte struct: 4 bytes written past the result; {double,double} not implemented; %rax does not get the hidden pointer (witnesses). |
| C80 | Parameters on the stack are read from the argument area | partial | Right unless a local needs more than 16-byte alignment, when %rbp is aligned down and the parameter is read from the wrong place (witness). |
| C81 | The va_list conforms to the psABI | partial | fp_offset is always 0 and the vector registers are not saved (witness); the other fields are right. |
| C82 | Static variables are aligned and lie where their symbol says | partial | Without compound literals in the initialiser; with one, the variable can be misaligned (witness). |
| C83 | Linking respects the alignment of sections | partial | Only if all section sizes are multiples of the alignment: the linker ignores alignments (witness). |
| C84 | Instructions are placed in the last block that dominates their uses | partial | For every graph that is built, sealed and acyclic apart from phis, with any control flow, the result of the recursive search with its marks is characterised exactly: last common dominator of all demands, none without demand. Missing: graphs where a join that control can reach has an operand that it cannot reach (code after a return); there the compiler dereferences a null pointer (placement_violated). |
| C85 | Floating arithmetic | proved | The IEEE operations of the machine are a parameter; that addss etc. implement them is part of the trusted machine model. |
| C86 | Instructions are listed after what they need | partial | For tame graphs (no instruction waits for itself through a phi of its own block; users of a state that is replaced in its block are in this block) the recursion with its marks lists every block in a right order. Violated beyond: in a loop made with goto the addition is put before the multiplication it depends on although a right order exists; a load that is moved in front of a store is computed before its address. Operands that are phis are left out of operands_available. |
| C87 | Loads read the memory they were written to read | partial | For tame graphs in which every instruction is placed in a block through which its state goes, every way through the lists meets the states that the instructions name. Violated beyond: int f(int c) { int a = 1, *p = &a, b = a; if (c) a = 2; return b; } loads b behind the assignment. |
| C88 | Variables kept in registers keep their values | partial | Proved per variable (try_remove_alloc), both directions of the simulation, if no store to the variable stores just what a load of the same variable yields. Violated otherwise: int f(int x) { int y; while (x) { x = x; y = x; } return y; } stores a load of memory that is no longer written, because the table of found values keeps a load that has been replaced. Missing: the composition over all variables in one semantics. |
| C89 | Statements are executed as C says | partial | Both directions, for every accepted body in which labels of a switch do not stand inside a loop inside it, default stands directly in a block, and the end of a function with a value is not reached. Violated beyond: a default in a loop in a switch is lost; continue in a switch in a while statement fails an assertion; `switch (x) default: break;` swallows the next statement; a named label behind `case 1: default:` is rejected; falling off the end executes ud2. Expressions are one token each; the blocks made by && &#124;&#124; ?: are part of the expression. |
| C90 | Objects are defined exactly once | partial | For every accepted unit and every name whose declarations are valid: exactly one variable with the right initialiser, linkage, type and alignment, or none. Violated beyond: int x; extern int x; loses the definition, extern int x = 1; is rejected, int x[]; does not become an array of one element. |
| C91 | Initialisers initialise the parts of the object that C says | partial | For every type and every initialiser, with any nesting, designators and braces left out, that does not override earlier initialisers of other parts: the parser takes exactly the initialiser and each part gets the value C says; unknown sizes are completed. Violated beyond: `{ .s.b = 1, 2 }` is rejected when b is the last member of s; `int x = { 1, };` is rejected; `char x[] = { "abc", };` stores an address; `{ .s = { 1, 2 }, .s = { 3 } }` merges the lists; `{ .s = v, .s.a = 3 }` fails an assertion; of a union the last member wins instead of the last initialiser; an expression of structure type for a part of the same type initialises only its first member, and what follows goes to the others, if only one of the two is const. An assignment expression is one token. |
| C92 | Expressions are translated as C says | partial | For all expressions of integers, pointers, arrays, structures, bit-fields and calls, from the construction of the typed tree to the nodes and their meaning, under the restrictions of `lim`: unsigned division below half the range (C33), comparisons of eight bytes not used where their size matters (C73), values that fit in assigned bit-fields, no cast of a bit-field to its own type, compound shifts whose type is the common type, and no change of the object an assigned value was read from before the value is used. Violated beyond: x >>= 1u shifts in unsigned, s.f = 9 has the value 9 for a field of three bits, (x = y) + g() reads y again after g changed it, (unsigned)s.f is promoted to int. Missing: floating types, variable-length arrays, calls of variadic functions and of functions that return structures. |
| C93 | Declarators denote the types that C says | partial | For every declarator and every parameter list of any nesting, concrete or abstract, parsed from tokens. Violated beyond: int a[*p] is rejected, int f(V) with typedef void V has a parameter, const A with typedef int A[3] qualifies the pointer instead of the elements, int (T); with a typedef name T of an outer scope is rejected, int (*f(void))(int b) { } keeps b in scope. Missing: storage classes in parameters; structure members are C105. |
| C94 | The code of a function does what its blocks of instructions say | partial | Proved as a simulation of the whole function, block by block, on a machine that runs the lines of assembly, with arbitrary callees, for functions in which no join exchanges values (C38) and which do not both read arguments on the stack and have an object with an alignment of more than 16. Violated in the latter case: the function returns the caller's frame pointer instead of its argument. Floating instructions have meaning except where their code is wrong: comparisons other than > and >= of unordered operands (C35), conversions of negative one- and two-byte integers and of unsigned integers from 2^63 on to floating types (C34). Missing: calls that pass arguments on the stack (C39), variable-length arrays, variadic functions, constants that are structures. |
| C95 | Tags denote the types that C says | partial | Both directions, as a simulation with a one-to-one renaming of types, for every text in which a tag being defined (and not declared in its scope before) is not used in a scope inside its members first, nor at all if an outer declaration is visible, and in which a lone `struct T;` hides nothing; rejection for texts without enumerations. Violated beyond: struct T { void (*f)(struct T *); } makes another T in the parameter list; an inner struct T { struct T *next; } points to the outer T; an inner `struct T;` refers to the outer T; enumerations may be defined twice and used before their definition. |
| C96 | Specifiers name one type | partial | Every valid sequence (but long double) gets its type and the parser stops where C says; sequences without the name of a type are rejected exactly if C has no type for them. Violated: int struct S x, struct A struct B x and T short double x are accepted. |
| C97 | The image of a function's code decodes to its assembly | partial | Joins C94 (code of functions), C43 (encoder), C46 (object) and C49/C50 (linker). For every function whose sizes and offsets fit in the machine's fields and in which no empty value has its address taken. Violated beyond: the place of an empty value is 0(%rbp), encoded as 0(%rax). Labels are assumed to have distinct names and immediate labels addresses below 2 GiB. |
| C98 | Microsoft calling convention: caller, callee and variadic functions agree with it and with each other | partial | Caller and callee follow the convention for all argument lists; end to end on the machine the parameters fetched are the bytes passed. Violated: va_start in a variadic function that returns a structure starts one position too early; a function that returns a structure does not return its address in %rax; a double passed to a function without prototype goes to %rcx only; a long double result's address is looked for in %xmm2. Copies of objects passed by address are made by the callee, not by the caller. |
| C99 | The assembly text says what the object would contain | partial | Reading back is proved for every text that is written; jumps go to labels whose names do not begin with $ (the compiler jumps only to .L labels). Violated: a string with the byte 127 makes the printer read past its tables, so -S is undefined where the object is written. |
