{"id": "C01", "title": "UTF-8 encode/decode round trip", "statement": "Writing a Unicode scalar as UTF-8 and reading it back yields the same code point and consumes exactly the bytes written; the bytes written are the ones RFC 3629 prescribes (shortest form, lead byte length, continuation bytes 10xxxxxx).", "quantifier": "for every code point 0..0x10FFFF, and for every string formed by concatenating encodings", "why_tests_cant": "1.1 million code points times arbitrary surrounding text; tests sample a handful of characters.", "anchors": ["src/utf8.c: utf8_encode, utf8_decode", "src/utf8.h"]}
{"id": "C02", "title": "Printing then re-reading a string literal byte preserves it", "statement": "Every byte of a string constant, when printed as escape text into the assembly/dump output, is read back as exactly that one byte by the compiler's own escape reader (and therefore a whole string is read back byte for byte, whatever follows each escape).", "quantifier": "for all 256 byte values (those for which printing is defined) and all byte strings / following characters", "why_tests_cant": "The ambiguity of escapes depends on the following character; the pairs and strings are unbounded.", "anchors": ["src/escape_sequence.c: character_to_escape_sequence, escape_sequence_read", "src/assembler/assembler.c: asm_string"]}
{"id": "C03", "title": "Hexadecimal, octal and simple escapes denote the C17 6.4.4.4 value", "statement": "In a character constant or string literal, \\ooo denotes the octal number, \\xh..h denotes the hexadecimal number and the eleven simple escapes denote their fixed values; the whole escape and nothing after it is consumed.", "quantifier": "for every digit sequence of every length and every suffix text", "why_tests_cant": "Digit sequences are unbounded; the tests only use one-digit hex escapes, which hides a wrong multiplier.", "anchors": ["src/escape_sequence.c: escape_sequence_read"]}
{"id": "C04", "title": "Little-endian integer serialisation round trip", "statement": "Every integer field written to an output file or section buffer is read back as the same value modulo 2^width, using exactly width/8 bytes, least significant first, and writing at one offset does not disturb bytes outside that field.", "quantifier": "for all values, widths 8/16/32/64, offsets and buffers", "why_tests_cant": "2^64 values times offsets; each output file exercises only a few.", "anchors": ["src/common.c: write_8..write_64, read_8..read_64, file_write_*", "src/linker/object.c: object_write_byte/word/long/quad"]}
{"id": "C05", "title": "Value of a character constant", "statement": "An integer character constant has the value C17 and the documented implementation choice give it: a single character is its value converted from char to int, and a multi-character constant is the base-256 combination of its characters.", "quantifier": "for every sequence of 1..4 (and more) characters of every byte value", "why_tests_cant": "2^32 multi-character constants; sign interactions only appear for bytes >= 0x80.", "anchors": ["src/common.c: character_constant_to_int", "src/preprocessor/string_concat.c: escaped_character_constant_to_int"]}
{"id": "C06", "title": "Macro table behaves as a finite map", "statement": "After any sequence of #define / #undef (and -D / -U) operations, looking up a name finds exactly the most recent definition not since undefined, independent of hash collisions; unrelated names are never affected.", "quantifier": "for every sequence of define/undefine/lookup operations and every set of names", "why_tests_cant": "Histories are unbounded and collisions depend on a hash of arbitrary strings.", "anchors": ["src/preprocessor/macro_expander.c: define_map_add, define_map_get, define_map_remove, define_map_find"]}
{"id": "C07", "title": "#pragma push_macro / pop_macro save and restore", "statement": "pop_macro restores for that name the definition (or absence of definition) current at the matching push_macro, with stack discipline per name and without touching other names.", "quantifier": "for every well-nested history of push/pop/define/undef over all names", "why_tests_cant": "Unbounded histories with interleaved names.", "anchors": ["src/preprocessor/directives.c: push_macro, pop_macro, directiver_handle_pragma"]}
{"id": "C08", "title": "Conditional inclusion keeps exactly the selected groups", "statement": "For each #if..#elif..#else..#endif section at most one group is kept: the first whose condition is true, or the #else group when none is; everything nested in a group that is not kept is dropped and its conditions are not evaluated.", "quantifier": "for every nesting of conditional sections of any depth and length and all condition values", "why_tests_cant": "Nesting depth and chain length are unbounded.", "anchors": ["src/preprocessor/directives.c: directiver_next, directiver_evaluate_conditional, cond_stack"]}
{"id": "C09", "title": "Malformed conditionals are diagnosed", "statement": "A source whose #if is never closed, or with an #elif/#else/#endif that has no open #if, is reported as an error: the preprocessor neither runs forever nor accesses memory outside its state.", "quantifier": "for every directive sequence", "why_tests_cant": "Needs reasoning about all malformed inputs including non-termination.", "anchors": ["src/preprocessor/directives.c: directiver_next, cond_stack_n"]}
{"id": "C10", "title": "#line sets the presumed line number", "statement": "After `#line N` the line following the directive is reported as N, the k-th following line as N+k, until the next #line; earlier #line directives have no residual effect.", "quantifier": "for every history of #line directives and physical lines and every N", "why_tests_cant": "Histories are unbounded; the offset bookkeeping accumulates.", "anchors": ["src/preprocessor/directives.c: directiver_next, next, line_diff"]}
{"id": "C11", "title": "#if expressions follow C precedence and associativity", "statement": "An integer constant expression in #if is parsed as the C grammar prescribes: binary operators associate to the left according to the standard precedence levels, ?: to the right, unary operators bind tighter, parentheses override, and the whole operand list is consumed.", "quantifier": "for every well-formed expression of unbounded depth over all binary, unary and conditional operators", "why_tests_cant": "Infinitely many expressions; tests check a few operator pairs.", "anchors": ["src/preprocessor/directives.c: evaluate_expression, evaluate_until_newline", "src/precedence.c: precedence_get"]}
{"id": "C12", "title": "#if arithmetic follows intmax_t/uintmax_t semantics", "statement": "Each operator in a #if expression yields the value 6.10.1 requires: operands are converted to uintmax_t if either is unsigned, results wrap for unsigned, comparisons and logical operators give 0/1 of signed type, division by zero is diagnosed unless it is in an operand that is not evaluated.", "quantifier": "for every operator and every pair of 64-bit operands of either signedness", "why_tests_cant": "2^129 operand combinations per operator.", "anchors": ["src/preprocessor/directives.c: evaluate_expression, check_div_overflow, result_is_zero"]}
{"id": "C13", "title": "Hide-set operations are set union and intersection", "statement": "The hide set of a token produced by macro expansion is the union (for object-like) or intersection-then-union (for function-like) of the hide sets involved, as sets of names; in particular no name is lost.", "quantifier": "for every pair of hide sets reachable by expansion", "why_tests_cant": "Loss depends on the relative order of names in unboundedly long sets.", "anchors": ["src/preprocessor/string_set.c: string_set_insert, string_set_union, string_set_intersection, string_set_contains"]}
{"id": "C14", "title": "A macro name is not re-expanded inside its own expansion", "statement": "Rescanning the replacement of a macro never expands that macro's name again, so expansion of object-like macros always terminates.", "quantifier": "for every macro table (including mutually recursive ones) and every token sequence", "why_tests_cant": "Termination over all macro tables is not testable.", "anchors": ["src/preprocessor/macro_expander.c: expand_buffer, subs_buffer, expander_next"]}
{"id": "C15", "title": "Integer constants get the value and the type of C17 6.4.4.1", "statement": "The value of a decimal/octal/hexadecimal/binary integer constant is the number it spells, and its type is the first in the standard's list for its suffix and base in which the value fits.", "quantifier": "for every digit string of any length, every base and every suffix, on LP64 and LLP64", "why_tests_cant": "Boundaries exist at 2^31, 2^32, 2^63, 2^64 for each base/suffix; digit strings unbounded.", "anchors": ["src/arch/x64.c: integer_constant_from_string, constant_from_string, is_float, get_type_max"]}
{"id": "C16", "title": "Constant casts between integer types are reduction modulo 2^N", "statement": "Casting an integer constant to an integer type at compile time gives the unique value of the target type congruent to the source value (and 0/1 for _Bool), the same value the generated code computes at run time.", "quantifier": "for all source and target integer types and all source values", "why_tests_cant": "2^64 values times 13x13 types.", "anchors": ["src/arch/x64.c: constant_cast, constant_normalize, simple_cast, conv_ui, conv_iu, conv_uu, conv_ii, get_range"]}
{"id": "C17", "title": "Constant folding agrees with run-time evaluation", "statement": "Whenever the compiler folds a binary or unary operator on integer constants, the result is the value of the C expression; division or remainder by zero is never folded and never crashes the compiler.", "quantifier": "for every operator, type and pair of constants", "why_tests_cant": "2^128 operand pairs; crash only for particular operator/type/zero combinations.", "anchors": ["src/ir/operators.c: operators_constant, operators_constant_unary"]}
{"id": "C18", "title": "Usual arithmetic conversions", "statement": "The common type of a binary arithmetic expression is the one 6.3.1.8 prescribes after the integer promotions of 6.3.1.1 on both LP64 and LLP64.", "quantifier": "for all pairs of arithmetic types on both data models", "why_tests_cant": "The type pairs are finite but the statement quantifies over values: the promoted type must represent all values of the original.", "anchors": ["src/parser/expression.c: get_arithmetic_type, do_integer_promotion, convert_arithmetic", "src/arch/x64.c: is_contained_in, type_rank, to_unsigned"]}
{"id": "C19", "title": "Struct and union layout", "statement": "Members of a structure are laid out in declaration order at increasing, non-overlapping offsets that are multiples of their (packing-limited) alignment; the size covers all members and is a multiple of the alignment of the structure; union members are all at offset 0 and the size covers the largest.", "quantifier": "for every list of member sizes/alignments of any length and every packing", "why_tests_cant": "Unbounded member lists.", "anchors": ["src/arch/x64.c: calculate_offsets"]}
{"id": "C20", "title": "Bit-field packing", "statement": "Bit-fields in the same storage unit occupy disjoint bit ranges that lie inside a storage unit of the declared type; a zero-width bit-field closes the current unit; every member has a defined offset.", "quantifier": "for every list of bit-field and ordinary members", "why_tests_cant": "Unbounded member lists and width combinations.", "anchors": ["src/arch/x64.c: calculate_offsets"]}
{"id": "C21", "title": "Bit-field store/load", "statement": "Storing v into a bit-field and loading it back yields v reduced to the width (sign- or zero-extended per the type), and every bit outside the field is unchanged.", "quantifier": "for every width, offset, storage size, old content and stored value", "why_tests_cant": "2^128 combinations.", "anchors": ["src/ir/ir.c: ir_set_bits, ir_get_bits", "src/arch/x64.c: constant_to_buffer"]}
{"id": "C22", "title": "Type identity is structural", "statement": "Two type expressions built through the type constructors denote the same type object if and only if they are structurally identical (same constructor, qualifiers, length, record and component types), so pointer comparison of types is a correct type-equality test.", "quantifier": "for every sequence of type constructions", "why_tests_cant": "Unbounded type nesting and hash collisions.", "anchors": ["src/types.c: type_create, compare_types, type_hash"]}
{"id": "C23", "title": "Composite type", "statement": "Forming the composite of two declarations' types succeeds exactly when the types are compatible, is symmetric up to identity, and completes incomplete arrays.", "quantifier": "for all pairs of types", "why_tests_cant": "Types are unbounded trees.", "anchors": ["src/types.c: type_make_composite"]}
{"id": "C24", "title": "Member lookup through anonymous records", "statement": "Looking up a member name in a structure with nested anonymous structures/unions finds a path to a member of that name whenever one exists, and following the returned path from the outermost record ends at a member with that name.", "quantifier": "for every nesting of anonymous members", "why_tests_cant": "Unbounded nesting.", "anchors": ["src/types.c: type_search_member", "src/parser/expression.c: expr_dot_operator"]}
{"id": "C25", "title": "Scoped symbol table", "statement": "Looking up an identifier, tag or typedef yields the declaration from the innermost open scope that declares it; leaving a scope restores exactly the bindings visible when it was entered (plus file-scope functions added meanwhile); the three name spaces do not interfere.", "quantifier": "for every sequence of scope entry/exit, declaration and lookup", "why_tests_cant": "Unbounded histories; hash chains interleave scopes.", "anchors": ["src/parser/symbols.c: add_entry, add_entry_with_block, get_entry, symbols_push_scope, symbols_pop_scope"]}
{"id": "C26", "title": "#pragma pack push/pop", "statement": "#pragma pack(pop) restores the packing in force at the matching #pragma pack(push[,n]).", "quantifier": "for every nested history of pack pragmas", "why_tests_cant": "Unbounded histories.", "anchors": ["src/parser/parser.c: parse_handle_pragma, get_current_packing"]}
{"id": "C27", "title": "Declaration specifiers denote the C17 6.7.2 type", "statement": "Every multiset of type-specifier keywords that 6.7.2p2 allows, in any order, denotes the type listed there, and every other multiset of keywords is rejected.", "quantifier": "for every sequence of type-specifier keywords", "why_tests_cant": "Keyword sequences are unbounded and order must not matter.", "anchors": ["src/parser/declaration.c: parse_specifier, set_sbit, specifiers_to_type"]}
{"id": "C28", "title": "_Generic selects the matching association", "statement": "A generic selection yields the association whose type equals the (decayed, unqualified) controlling type, otherwise the default association, otherwise an error; two matching associations are an error; the position of default is irrelevant.", "quantifier": "for every association list of any length and order", "why_tests_cant": "All orders of unbounded lists.", "anchors": ["src/parser/expression.c: parse_prefix"]}
{"id": "C29", "title": "Expression parsing follows the C grammar", "statement": "The expression parser builds the tree the C17 expression grammar prescribes for binary, assignment, conditional, comma and prefix operators and parentheses: precedence and associativity of all levels.", "quantifier": "for every well-formed operator expression of any depth", "why_tests_cant": "Infinitely many expressions.", "anchors": ["src/parser/expression.c: parse_pratt, parse_pratt_with_lhs, parse_prefix", "src/precedence.c"]}
{"id": "C30", "title": "Conditions are tested against zero", "statement": "The controlling expression of if/while/for/do/?: selects the true branch exactly when its value compares unequal to 0 in its own type.", "quantifier": "for every value of every scalar type", "why_tests_cant": "2^64 values; errors only in the upper half or for special floating values.", "anchors": ["src/parser/function_parser.c: parse_while_statement, parse_for_statement, parse_do_while_statement, parse_selection_statement", "src/parser/expression_to_ir.c: expression_to_int", "src/codegen/codegen.c: codegen_block", "src/parser/expression.c: constant_is_zero"]}
{"id": "C31", "title": "switch dispatch", "statement": "A switch transfers control to the unique case label whose constant equals the controlling value in its promoted type, else to default, else past the switch.", "quantifier": "for every list of case constants and every controlling value", "why_tests_cant": "Unbounded lists, 2^64 values.", "anchors": ["src/parser/function_parser.c: parse_switch, parse_labeled_statement"]}
{"id": "C32", "title": "Integer operator code computes the C result", "statement": "The instruction sequence emitted for each integer IR operator (add, sub, mul, div, mod, shifts, bit operations, comparisons, negation, complement) leaves in the result slot the value C defines for operands of that width and signedness.", "quantifier": "for all 32- and 64-bit operand pairs", "why_tests_cant": "2^128 operand pairs per operator.", "anchors": ["src/codegen/binary_operators.h: codegen_asm_table", "src/codegen/codegen.c: codegen_instruction", "src/codegen/registers.c: scalar_to_reg, reg_to_scalar"]}
{"id": "C33", "title": "Unsigned and signed operators select the right instruction", "statement": "For every arithmetic operator the IR operation chosen matches the signedness of the operand type: unsigned division, remainder, right shift and ordering use the unsigned operation.", "quantifier": "for every operator and operand type", "why_tests_cant": "A wrong choice only shows for operands with the top bit set.", "anchors": ["src/parser/expression_to_ir.c: ir_from_type_and_op", "src/ir/ir.c: ir_binary_op"]}
{"id": "C34", "title": "Integer conversions in generated code", "statement": "The code emitted for integer-to-integer, integer-to-_Bool and integer-to-floating conversions produces the C17 6.3.1 value of the operand for every operand width.", "quantifier": "for all operand values and all width pairs", "why_tests_cant": "2^64 values per width pair.", "anchors": ["src/codegen/codegen.c: IR_INT_CAST_ZERO/SIGN, IR_BOOL_CAST, IR_INT_FLOAT_CAST, IR_UINT_FLOAT_CAST", "src/parser/expression_to_ir.c: variable_cast"]}
{"id": "C35", "title": "Floating comparisons handle unordered operands", "statement": "A floating comparison <, >, <=, >=, == is false and != is true when an operand is NaN, and otherwise agrees with the ordering.", "quantifier": "for all outcome classes of the comparison (less, equal, greater, unordered) and all six operators", "why_tests_cant": "NaN paths are not covered by tests.", "anchors": ["src/codegen/binary_operators.h: BINARY_COMP_FLT"]}
{"id": "C36", "title": "Block copy and clear touch exactly their bytes", "statement": "Copying or clearing n bytes of memory writes exactly the n target bytes (with the source bytes or zero), leaves all other memory unchanged and never reads outside the source.", "quantifier": "for every n and all memory contents (non-overlapping operands for copy)", "why_tests_cant": "Unbounded sizes and contents.", "anchors": ["src/codegen/codegen.c: codegen_memcpy, codegen_memzero"]}
{"id": "C37", "title": "Stack frame slots are disjoint and aligned", "statement": "Every value, local variable, VLA slot and register-save area of a function gets its own byte range inside the frame; no two overlap; each local is aligned as requested; the frame size is a multiple of 16 and covers all of them.", "quantifier": "for every list of values and locals of any sizes and alignments", "why_tests_cant": "Unbounded functions.", "anchors": ["src/codegen/codegen.c: codegen_function"]}
{"id": "C38", "title": "Control-flow joins assign all merged values simultaneously", "statement": "On a jump to a join point every merged (phi) variable receives the value its source had before the jump, independent of the order in which the copies are emitted.", "quantifier": "for every set of phi nodes at a join, including cyclic ones", "why_tests_cant": "Failure needs particular cyclic dependencies and emission orders.", "anchors": ["src/codegen/codegen.c: codegen_phi_node"]}
{"id": "C39", "title": "Calls restore the stack pointer", "statement": "After a call returns, the stack pointer has the value it had before the outgoing arguments were allocated.", "quantifier": "for every number and size of stack-passed arguments", "why_tests_cant": "The effect is invisible in functions that only leave; needs loops or VLAs.", "anchors": ["src/codegen/codegen.c: codegen_call_stack_chain, codegen_instruction (IR_CALL)"]}
{"id": "C40", "title": "System V argument classification", "statement": "Aggregates up to 16 bytes are classified per eightbyte as in the AMD64 psABI (INTEGER dominates SSE; larger than 16 bytes or unaligned goes to memory).", "quantifier": "for every list of member offsets/sizes/classes", "why_tests_cant": "Unbounded aggregates.", "anchors": ["src/arch/calling.c: classify, combine_class, classify_recursively"]}
{"id": "C41", "title": "Caller and callee agree on argument locations", "statement": "For every parameter list, each argument is assigned to its own registers or its own stack bytes; the sequence of registers used is the psABI's; the assignment depends only on the types so both sides agree; no register is used twice; arguments in memory do not overlap.", "quantifier": "for every list of argument types of any length", "why_tests_cant": "Unbounded parameter lists.", "anchors": ["src/abi/sysv.c: get_calling_convention, sysv_expr_call, sysv_expr_function"]}
{"id": "C42", "title": "va_arg walks the variadic arguments in order", "statement": "Successive va_arg reads of integer-class arguments return the variadic arguments in order, first from the register save area and then from the overflow area, for any split between named and variadic arguments.", "quantifier": "for every number of named and variadic integer arguments", "why_tests_cant": "Unbounded argument counts.", "anchors": ["src/abi/sysv.c: sysv_emit_va_start, sysv_emit_va_arg, sysv_emit_function_preamble, get_calling_convention"]}
{"id": "C43", "title": "Encoded instructions decode to the requested instruction", "statement": "The bytes produced for an instruction decode, under the x86-64 encoding rules, to the requested operation with the requested registers, memory operand, displacement and immediate, and occupy exactly the reported length.", "quantifier": "for all registers, displacements and immediates of each instruction form", "why_tests_cant": "16 registers x 2^32 displacements x 2^64 immediates.", "anchors": ["src/assembler/encode.c: assemble_instruction, assemble_encoding, encode_sib, does_match", "src/assembler/instructions.h: encodings"]}
{"id": "C44", "title": "The shortest matching encoding is chosen", "statement": "Among the table encodings that accept the operands the emitted one has minimal length, its relocations are those of the emitted encoding, and failure is reported exactly when none accepts.", "quantifier": "for every mnemonic, operand tuple and table", "why_tests_cant": "All operand tuples.", "anchors": ["src/assembler/encode.c: assemble_instruction, does_match"]}
{"id": "C45", "title": "Object sections accumulate output in order", "statement": "Emitting data appends to the current section only, section content is the concatenation of everything emitted to it, symbols mark the position current at their definition, and a requested alignment is honoured both for the position and for the section.", "quantifier": "for every sequence of emit/align/section/label operations", "why_tests_cant": "Unbounded sequences.", "anchors": ["src/linker/object.c: object_write, object_set_section, object_symbol_set, object_align, object_symbol_relocate"]}
{"id": "C46", "title": "Symbol names are interned one-to-one", "statement": "Referring twice to the same symbol name yields the same symbol and different names different symbols; the assembler-level names generated for numbered, string and named labels never collide.", "quantifier": "for every sequence of names and label numbers", "why_tests_cant": "Unbounded label numbers and names.", "anchors": ["src/linker/object.c: get_symbol", "src/codegen/rodata.c: register_label, register_label_name, rodata_get_label"]}
{"id": "C47", "title": "String constants are interned by content", "statement": "Registering equal byte strings yields the same label, different byte strings different labels, and the emitted read-only data for each label is exactly the string's bytes.", "quantifier": "for every sequence of byte strings", "why_tests_cant": "Unbounded histories.", "anchors": ["src/codegen/rodata.c: rodata_register, rodata_codegen"]}
{"id": "C48", "title": "Static initialisers emit exactly the object representation", "statement": "The bytes emitted for a static object are exactly sizeof bytes, equal to the initialised value with unmentioned bytes zero, with addresses of labels emitted at their offsets.", "quantifier": "for every list of initialised sub-objects in increasing offset order", "why_tests_cant": "Unbounded initialiser lists.", "anchors": ["src/codegen/rodata.c: codegen_initializer, codegen_static_var"]}
{"id": "C49", "title": "Relocations patch the right bytes with the right value", "statement": "Applying relocations writes S+A (absolute) or S+A-P (relative) into exactly the relocated field, little-endian, truncated to its width, leaving all other bytes unchanged; fields at distinct places commute.", "quantifier": "for all addresses, addends, offsets and section contents", "why_tests_cant": "2^64 addresses.", "anchors": ["src/linker/linker.c: linker_link"]}
{"id": "C50", "title": "Linking resolves a reference to the defining object's symbol", "statement": "A reference in one object to a symbol defined in another resolves to the address of that definition.", "quantifier": "for every list of objects, sections and symbol offsets", "why_tests_cant": "Tests only reference symbols at section offset 0.", "anchors": ["src/linker/linker.c: combine_objects, linker_link"]}
{"id": "C51", "title": "Linked sections do not overlap and keep their content", "statement": "In the linked image the content of every input section appears unchanged (before relocation) at the address its symbols refer to, and distinct sections occupy disjoint address ranges.", "quantifier": "for every list of objects with any section sizes", "why_tests_cant": "Unbounded inputs.", "anchors": ["src/linker/linker.c: combine_objects, linker_link"]}
{"id": "C52", "title": "ELF object write/read round trip", "statement": "Reading back an ELF object file written by the compiler yields the same sections, symbols (name, section, value, binding) and relocations (offset, kind, symbol, addend).", "quantifier": "for every object", "why_tests_cant": "Unbounded objects; index remapping depends on symbol order.", "anchors": ["src/linker/elf.c: elf_write_object, elf_read_object"]}
{"id": "C53", "title": "ELF file layout is consistent", "statement": "The file offsets and sizes recorded in section headers are exactly where the contents are written; the areas are disjoint, in increasing order, and writing never has to move backwards.", "quantifier": "for every list of section sizes", "why_tests_cant": "Unbounded lists.", "anchors": ["src/linker/elf.c: elf_allocate_sections, elf_write_object, elf_write_executable", "src/common.c: file_write_skip"]}
{"id": "C54", "title": "COFF file layout is consistent", "statement": "Every file pointer recorded in COFF headers (raw data, relocations, symbol table, string table) is the position at which that table is written, and every long name's recorded string-table offset points at that name.", "quantifier": "for every list of sections, relocations, symbols and names", "why_tests_cant": "Unbounded lists.", "anchors": ["src/linker/coff.c: coff_write_object"]}
{"id": "C55", "title": "Use lists mirror operand lists", "statement": "In the intermediate representation a node appears in another node's list of users exactly as often as that other node is one of its operands, after any sequence of operand updates and replacements.", "quantifier": "for every sequence of operand updates", "why_tests_cant": "Unbounded graphs and histories.", "anchors": ["src/ir/ir.c: node_set_argument, ir_replace_node"]}
{"id": "C56", "title": "Dead-code elimination keeps everything live", "statement": "Dead-node removal keeps every node reachable from the observable roots and only removes unreachable nodes.", "quantifier": "for every graph", "why_tests_cant": "Unbounded graphs.", "anchors": ["src/optimize/remove_dead.c"]}
{"id": "C57", "title": "Dominator computation", "statement": "The immediate dominator computed for each reachable block is its immediate dominator in the control-flow graph.", "quantifier": "for every control-flow graph", "why_tests_cant": "Unbounded graphs, including irreducible ones.", "anchors": ["src/ir/dominator_tree.c"]}
{"id": "C58", "title": "Punctuator tokenisation is maximal munch", "statement": "At each position the tokenizer takes the longest punctuator that the remaining characters start with (6.4p4), and reports its spelling's token kind.", "quantifier": "for every input text", "why_tests_cant": "Unbounded texts.", "anchors": ["src/preprocessor/tokenizer.c: tokenizer_next"]}
{"id": "C59", "title": "Comments and line splices are removed", "statement": "A block comment extends to the first following */ and a // comment to the end of the line; a backslash-newline is removed wherever it occurs; nothing else is removed.", "quantifier": "for every text", "why_tests_cant": "Unbounded texts; parity of trailing asterisks matters.", "anchors": ["src/preprocessor/tokenizer.c: tokenizer_next, next_char, remove_escape_sequences"]}
{"id": "C60", "title": "Token push-back is transparent", "statement": "Pushing a token back and reading again returns that token, and the remaining token sequence is unchanged, for any interleaving the parser performs.", "quantifier": "for every interleaving of next/push within the window", "why_tests_cant": "Unbounded interleavings.", "anchors": ["src/preprocessor/preprocessor.c: t_next, t_push, T0/T1/T2"]}
{"id": "C61", "title": "#pragma once and include search", "statement": "A file marked #pragma once is not included again under the same resolved path; #include \"x\" prefers the including file's directory and then the include path in order.", "quantifier": "for every include history and path list", "why_tests_cant": "Unbounded histories.", "anchors": ["src/preprocessor/input.c: input_open, input_disable_path, input_add_include_path"]}
{"id": "C62", "title": "Adjacent string literals concatenate", "statement": "A run of adjacent string literals is one literal whose content is the concatenation with one terminating NUL, with the encoding prefix given by the operands; a literal is unaffected by what its neighbour starts with.", "quantifier": "for every run of any length and prefix mix", "why_tests_cant": "Unbounded runs.", "anchors": ["src/preprocessor/string_concat.c"]}
{"id": "C63", "title": "Stringification round trip", "statement": "#x produces a string literal which, read as a C string literal, spells the argument's tokens (with inner quotes and backslashes escaped).", "quantifier": "for every token sequence", "why_tests_cant": "Unbounded token sequences.", "anchors": ["src/preprocessor/macro_expander.c: stringify_*"]}
{"id": "C64", "title": "Command-line options are parsed position-independently", "statement": "An option's value may be attached or separate with the same effect; operands and option values are collected in order; parsing never reads past the argument vector.", "quantifier": "for every argument vector", "why_tests_cant": "Unbounded vectors.", "anchors": ["src/arguments.c: arguments_parse", "src/main.c: add_definition, dependency_path_from_outfile"]}
{"id": "C65", "title": "A directive may be the last line of a file", "statement": "A file whose last line is a directive, such as #define, is processed like any other file: preprocessing terminates and delivers the text of the preceding lines.", "quantifier": "for every file prefix and every #define line", "why_tests_cant": "Non-termination on a whole family of inputs; a test suite whose files all end in ordinary text never sees it.", "anchors": ["src/preprocessor/directives.c: next, directiver_define, evaluate_until_newline", "src/preprocessor/tokenizer.c: tokenize_input"]}
{"id": "C66", "title": "Macro arguments are collected by the grammar", "statement": "The arguments of a function-like macro call are the token sequences between commas outside nested parentheses, up to the matching parenthesis; a variadic macro takes the rest including commas; a wrong number of arguments is diagnosed.", "quantifier": "for every macro, every balanced argument text of any length and any following text", "why_tests_cant": "Unbounded argument texts and nesting.", "anchors": ["src/preprocessor/macro_expander.c: input_buffer_parse_argument, subs_buffer"]}
{"id": "C67", "title": "Function-like macro substitution", "statement": "A call is replaced by the replacement list in which every parameter is replaced by the complete expansion of its argument, nothing else changes, and the result carries the macro's name in its hide sets.", "quantifier": "for every macro without # and ##, every argument list and every following text", "why_tests_cant": "Unbounded bodies, arguments and tables.", "anchors": ["src/preprocessor/macro_expander.c: subs_buffer, expand_argument"]}
{"id": "C68", "title": "Token pasting", "statement": "a ## b is the single token spelled by the two spellings together, operands of ## are the arguments as written and not expanded, chains paste all their operands, and an empty argument next to ## disappears without affecting other tokens.", "quantifier": "for every replacement list, every chain of ## in it, every call, every pair of punctuators and every pair of tokens", "why_tests_cant": "The table has thousands of pairs; the placemarker case depends on neighbouring tokens.", "anchors": ["src/preprocessor/macro_expander.c: glue, subs_buffer"]}
{"id": "C69", "title": "Unterminated macro calls are diagnosed", "statement": "A function-like macro call that is not closed before the end of the input is diagnosed.", "quantifier": "for every macro and every unclosed argument text", "why_tests_cant": "Non-termination cannot be observed by a test.", "anchors": ["src/preprocessor/macro_expander.c: input_buffer_parse_argument, input_buffer_take"]}
{"id": "C70", "title": "Bit-fields follow the System V layout", "statement": "Bit-fields are placed where the System V psABI puts them: at the next free bit unless that would cross a boundary of the declared type, with following members at the next free suitably aligned byte.", "quantifier": "for every member list", "why_tests_cant": "Unbounded member lists; interoperability with other compilers' objects.", "anchors": ["src/arch/x64.c: calculate_offsets"]}
{"id": "C71", "title": "Typedef names are hidden by inner declarations", "statement": "Ordinary identifiers and typedef names share one name space (C17 6.2.3): after a typedef name is redeclared as an object in an inner scope, the name is no longer a typedef name there.", "quantifier": "for every history of declarations and scopes", "why_tests_cant": "Depends on arbitrary nesting of scopes.", "anchors": ["src/parser/symbols.c: symbols_get_typedef", "src/parser/declaration.c: parse_specifier"]}
{"id": "C72", "title": "Repeated qualifiers", "statement": "A type is const-qualified exactly if const appears (at least once, 6.7.3p5) among the specifiers, in any position.", "quantifier": "for every sequence of specifier keywords", "why_tests_cant": "Sequences are unbounded.", "anchors": ["src/parser/declaration.c: parse_specifier, apply_tq"]}
{"id": "C73", "title": "An assignment writes exactly the bytes of its target", "statement": "Storing a scalar value into an object of type T writes exactly sizeof(T) bytes: no byte outside the object is changed.", "quantifier": "for every scalar operator, operand type and machine state", "why_tests_cant": "Only visible as corruption of whatever lies next to the object.", "anchors": ["src/ir/ir.c: ir_binary_op, ir_store", "src/codegen/codegen.c: IR_STORE"]}
{"id": "C74", "title": "Floating conversions", "statement": "Generated code converts floating values as 6.3.1.4, 6.3.1.5 and 6.3.1.2 say: to an integer type by truncation when the result is representable, to _Bool by comparison with zero, between float and double by the machine conversion.", "quantifier": "for all encodings and all integer types", "why_tests_cant": "2^64 operands per pair of types.", "anchors": ["src/codegen/codegen.c: IR_FLOAT_INT_CAST, IR_FLOAT_CAST, IR_BOOL_CAST", "src/parser/expression_to_ir.c: variable_cast"]}
{"id": "C75", "title": "Constants are materialised exactly", "statement": "The code for an integer, floating or pointer constant leaves exactly the constant's bytes in the slot of the node, for every 64-bit pattern, and changes no other memory.", "quantifier": "for every constant, every size 1, 2, 4, 8 and every machine state", "why_tests_cant": "2^64 constants; immediates have width limits that only bite for particular values.", "anchors": ["src/codegen/codegen.c: codegen_constant_to_rdi, IR_CONSTANT"]}
{"id": "C76", "title": "Function entry and exit restore the caller's stack", "statement": "The entry code of a function gives it a frame below an aligned %rbp without touching anything from the return address up, and the exit code returns to the caller with the caller's %rsp and %rbp, provided the body keeps %rbp, the saved registers and the saved stack pointer.", "quantifier": "for every function, every power-of-two alignment of its locals and every machine state", "why_tests_cant": "A wrong frame shows only for particular stack addresses and alignments.", "anchors": ["src/codegen/codegen.c: codegen_function, IR_RETURN"]}
{"id": "C77", "title": "Arguments and results of a call are in place", "statement": "At the call instruction every register argument is in its register, every stack argument's bytes are at their offset from %rsp, the callee's address is in its register and no memory outside the outgoing area has changed; after the call each result register has been stored in the slot of its node.", "quantifier": "for every list of register and stack arguments of any size and every machine state", "why_tests_cant": "Copies could clobber each other's registers or sources for particular argument mixes.", "anchors": ["src/codegen/codegen.c: codegen_call_stack_chain, codegen_set_reg_chain, codegen_get_reg_uses, IR_CALL"]}
{"id": "C78", "title": "Callee-saved registers are preserved", "statement": "A function returns with the callee-saved registers (%rbx, %r12-%r15) it was entered with: call sequences touch none but the one used for the callee's address, and that one is saved at entry and restored on return.", "quantifier": "for every call, every function and every machine state", "why_tests_cant": "Only visible when a caller compiled elsewhere keeps a value in such a register.", "anchors": ["src/codegen/codegen.c: codegen_call", "src/abi/sysv.c: sysv_expr_function, sysv_expr_return"]}
{"id": "C79", "title": "Returned values arrive", "statement": "A value returned by a function is the value its caller reads, whether it travels in memory, in one register or in two, and receiving it writes no byte behind the result object; for results in memory the callee also returns the hidden pointer in %rax.", "quantifier": "for every returnable type (scalar, structure, union) and every value", "why_tests_cant": "A wrong second register or an overrun shows only for particular structure shapes and neighbouring objects.", "anchors": ["src/abi/sysv.c: get_calling_convention, sysv_expr_call, sysv_expr_return"]}
{"id": "C80", "title": "Parameters on the stack are read from the argument area", "statement": "In every function, the code that fetches a parameter passed on the stack copies exactly the bytes the caller put behind the return address at the parameter's offset.", "quantifier": "for every frame layout, every offset and size, every machine state at entry", "why_tests_cant": "The base register is realigned for over-aligned locals; whether this shifts the area depends on the stack pointer at run time.", "anchors": ["src/codegen/codegen.c: codegen_function, IR_LOAD_BASE_RELATIVE_ADDRESS", "src/abi/sysv.c: sysv_expr_function"]}
{"id": "C81", "title": "The va_list conforms to the psABI", "statement": "va_start leaves gp_offset, fp_offset, overflow_arg_area and reg_save_area as psABI 3.5.7 prescribes, so that a va_list can be handed to separately compiled code.", "quantifier": "for every number of named arguments in registers and on the stack", "why_tests_cant": "Code compiled by the same compiler shares the deviation.", "anchors": ["src/abi/sysv.c: sysv_emit_va_start, sysv_emit_function_preamble"]}
{"id": "C82", "title": "Static variables are aligned and lie where their symbol says", "statement": "Emitting a static variable defines its symbol, with the variable's binding, in the data section at a position that is a multiple of the required alignment; the bytes and references of its initialiser (zeros if there is none) follow from there.", "quantifier": "for every alignment, size, initialiser and earlier content of the section", "why_tests_cant": "Misalignment is invisible on x86 unless the object's address is inspected; tests have few literals in initialisers.", "anchors": ["src/codegen/rodata.c: codegen_static_var, codegen_pre_initializer, codegen_compound_literals"]}
{"id": "C83", "title": "Linking respects the alignment of sections", "statement": "In the linked image every section starts at an address that is a multiple of its alignment.", "quantifier": "for every list of objects, section sizes and alignments", "why_tests_cant": "Misaligned code usually still runs; only some instructions fault.", "anchors": ["src/linker/linker.c: combine_objects, linker_link"]}
{"id": "C84", "title": "Instructions are placed in the last block that dominates their uses", "statement": "Placing instructions in blocks ends for every graph, and puts every movable instruction in the last block through which control goes on every way to every block that needs it (for a value of a phi: the predecessor it comes from). Instructions that nothing needs get no block; branches, returns and phis stay; projections go with their instruction.", "quantifier": "for every graph of the middle end, with any control flow", "why_tests_cant": "A block that does not dominate a use leaves a stale stack slot that often holds the right value by accident; whether it does depends on the path taken.", "anchors": ["src/ir/global_code_motion.c: schedule_late, schedule_user_late, ir_schedule_instructions_to_blocks", "src/ir/dominator_tree.c: intersect"]}
{"id": "C85", "title": "Floating arithmetic", "statement": "The code for a + b, a - b, a * b and a / b on float and double operands applies the IEEE operation of the operands' format to the two values in source order and stores exactly the result; -a changes the sign and nothing else, also for zeros, infinities and NaN.", "quantifier": "for every machine state, both types, all four operators, every placement of operands and result, every interpretation of the IEEE operations", "why_tests_cant": "Swapped operands or a wrong bit show for few values only, and commutative tests hide them.", "anchors": ["src/codegen/binary_operators.h: BINARY_INS_FLT_32, BINARY_INS_FLT_64", "src/codegen/codegen.c: codegen_instruction (IR_NEGATE_FLOAT)"]}
{"id": "C86", "title": "Instructions are listed after what they need", "statement": "The list of the instructions of a block contains each instruction of the block once, after its operands, and an instruction that replaces the state of memory after the others that use this state; so that wherever an instruction is computed its operands have been computed, in its block or in a block that control has gone through.", "quantifier": "for every graph of the middle end, with any control flow and any number of instructions", "why_tests_cant": "A wrong order reads a stack slot before it is written; the slot often holds the right value from an earlier iteration, or zero.", "anchors": ["src/ir/ir.c: ir_local_schedule_recursive, ir_local_schedule, node_get_prev_state, ir_add_instructions_to_block_children"]}
{"id": "C87", "title": "Loads read the memory they were written to read", "statement": "When the lists of instructions of the blocks are executed, on whatever way through the function, memory is at every load, store, call and return in the state that this instruction names, where a state is replaced by stores and calls and merged at joins.", "quantifier": "for every graph of the middle end and every way through its blocks", "why_tests_cant": "A load that has moved behind a store differs only if the two addresses are equal and control takes the way with the store.", "anchors": ["src/ir/ir.c: ir_load, ir_store, get_state, ir_local_schedule_recursive", "src/ir/global_code_motion.c: schedule_late"]}
{"id": "C88", "title": "Variables kept in registers keep their values", "statement": "A local variable that is only loaded, stored to and set to zero as a whole, and whose address is not stored, is removed from memory: afterwards no node uses a load, store or clearing of this variable, the other nodes keep their kinds, and every execution of the new graph, whatever the other nodes mean, goes through the same blocks with the same values as an execution of the old graph, and conversely for every execution of the old graph in which the variable initially contains what an undefined node yields. All other variables stay in memory and the graph is unchanged.", "quantifier": "for all graphs built by the IR constructors, all variables, all meanings of the other nodes and all executions", "why_tests_cant": "A value that was found for one state and has since been replaced is only used by a second load in a loop; a wrong phi only shows on one way around the loop.", "anchors": ["src/optimize/mem2reg.c: recursive_find, try_remove_alloc, optimize_mem2reg", "src/ir/ir.c: ir_replace_node, node_set_argument"]}
{"id": "C89", "title": "Statements are executed as C says", "statement": "For every function body that the parser accepts, the graph of blocks it builds (with its tests, jumps and returns) evaluates the same expressions in the same order and states as the statements of the body do by C17 6.8 (if, while, do, for, switch with its case labels and default, goto and labels, break, continue, return), and returns the same value in the same state, exactly when the body returns; every valid body is accepted.", "quantifier": "for all function bodies, whatever their size and nesting, and all meanings of the expressions in them", "why_tests_cant": "Nested jumps combine in unboundedly many ways; a break, continue or case label that is remembered in the wrong place only shows for particular nestings, and with particular values.", "anchors": ["src/parser/function_parser.c: parse_labeled_statement, parse_compound_statement, parse_switch, parse_selection_statement, parse_iteration_statement, parse_jump_statement, parse_statement, parse_function", "src/ir/ir.c: ir_goto, ir_connect, ir_if_selection, ir_block_start"]}
{"id": "C90", "title": "Objects are defined exactly once", "statement": "The objects that a translation unit defines are exactly those C17 6.9.2 says it defines: a name with a definition or a tentative definition at file scope gets one definition, with its initialiser or zero, with the linkage of its first declaration and with the completed type; a name that is only declared extern gets none. Static variables of blocks get labels of their own, and no label is defined twice.", "quantifier": "for all sequences of declarations, of any number of names in any order", "why_tests_cant": "Declarations of a name combine in any order with extern, static and initialisers; most orders behave alike and headers hide the rare ones.", "anchors": ["src/parser/declaration.c: parse_init_declarator, generate_tentative_definitions", "src/codegen/rodata.c: data_register_static_var"]}
{"id": "C91", "title": "Initialisers initialise the parts of the object that C says", "statement": "An initialiser gives each part of the object the value that C17 6.7.9 says: initialisers in a list go to the parts in order, through nested structures, unions and arrays whose braces are left out; designators choose any part, also through anonymous members, and the list goes on behind it; an expression of structure type initialises a whole structure; a string literal initialises a character array; parts not mentioned get no value of their own; and an array of unknown size becomes as long as its largest initialised index.", "quantifier": "for all types, all initialisers with any nesting, any designators and any braces left out, and any tokens that follow", "why_tests_cant": "The position in the object is kept on the stack of recursive calls and commas are read at several levels; mistakes show only for particular combinations of nesting, designators and last members.", "anchors": ["src/parser/declaration.c: parse_initializer_recursive, parse_brace_initializer, match_string, initializer_add_entry", "src/types.c: type_search_member, type_select"]}
{"id": "C92", "title": "Expressions are translated as C says", "statement": "Every expression that C17 6.5 allows (of integers, pointers, arrays, structures, bit-fields and functions) is accepted, gets the type that C gives it, and is translated; the nodes it is translated to compute the value that C gives it, in a node of the size of its type, call the same functions with the same arguments in an order C allows, and leave memory as C says. An lvalue is translated to the address of the object it designates.", "quantifier": "for all declarations, all expressions of whatever size and nesting, all contents of memory, all behaviours of called functions, and all graphs in which the expression stands", "why_tests_cant": "Conversions are inserted for every combination of operand types and depend on values only at the borders of the ranges; the order of loads and stores shows only when operands share objects.", "anchors": ["src/parser/expression.c: expr_new, do_integer_promotion, calculate_type, cast_conditional, fix_binary_operator, fix_assignment_operators, decay_array, parse_pratt_with_lhs, parse_prefix", "src/parser/expression_to_ir.c: expression_evaluate, evaluate_binary_operator, evaluate_assignment, evaluate_assignment_op, evaluate_conditional, evaluate_call, evaluated_expression_cast, assign_ee_to_ee, expression_to_ir", "src/ir/ir.c: ir_load, ir_store, ir_if_selection, ir_phi, ir_get_bits, ir_set_bits"]}
{"id": "C93", "title": "Declarators denote the types that C says", "statement": "A declarator, however pointers, arrays, functions and parentheses are nested in it, gives its identifier the type that C17 6.7.6 says, with const where C puts it, with parameters adjusted as 6.7.6.3p7-8 says, and ends where C says; an abstract declarator gives a type name its type (6.7.7); a declaration without a name and a type name with one are rejected. In the definition of a function the parameters, and the names in the scope of the body, are those of the function that is defined, also if it returns a pointer to a function.", "quantifier": "for all declarators of any size and nesting, all types of the specifiers, all typedef names, and all tokens that may follow", "why_tests_cant": "Declarators nest without bound, inside each other and in parameter lists; a type that is built inside out in the wrong order only shows for mixed nestings, and abstract declarators differ from parameters by one token of lookahead.", "anchors": ["src/parser/declaration.c: parse_declarator, parse_function_parameters, parse_parameter_list, ast_to_type, apply_tq, ast_get_parameters, parse_type_name, parse_init_declarator, parse_specifiers", "src/types.c: type_adjust_parameter, type_make_const"]}
{"id": "C94", "title": "The code of a function does what its blocks of instructions say", "statement": "For every function that the scheduler leaves (blocks of instructions, phi nodes, jumps, branches, calls, returns), code is generated; called with enough stack, the code gives every object a place of its own with its alignment, goes through the blocks in the order that the values of the conditions say, gives every node the value its instruction says, leaves memory as the instructions say, and returns to its caller with the results in their registers and the caller's stack and frame pointers.", "quantifier": "for all functions with any blocks, instructions and phi nodes, all programs around them, all contents of registers and memory, all behaviours of called functions", "why_tests_cant": "Whether two values share a place, a copy at a join clobbers another, or a jump falls through to the wrong block depends on the whole function; tests see few functions and no adversarial contents of the rest of memory.", "anchors": ["src/codegen/codegen.c: codegen_instruction, codegen_phi_node, codegen_block, codegen_function, codegen_set_regs, codegen_get_reg_uses", "src/codegen/registers.c: scalar_to_reg, reg_to_scalar"]}
{"id": "C95", "title": "Tags denote the types that C says", "statement": "For every text of specifiers with struct, union and enum, nested in each other and in blocks and parameter lists, the compiler makes two specifiers stand for the same type exactly if C says so (a tag is visible from its appearance to the end of its scope, a definition or a lone `struct T;` declares it in the current scope, any other use refers to the visible declaration or makes one), a type is complete exactly where C says, has the members of its one definition, and texts that define a type twice or use another keyword are rejected.", "quantifier": "for all texts: any number and nesting of specifiers, members, blocks and parameter lists, any tags", "why_tests_cant": "Whether a use inside the members refers to the type being defined, to an outer type or to a new one depends on what the enclosing scopes declare; the wrong type usually has the same layout, so programs run and only type identity is lost.", "anchors": ["src/parser/declaration.c: parse_struct, parse_enum", "src/parser/symbols.c: symbols_add_struct, symbols_get_struct, symbols_get_struct_in_current_scope, symbols_push_scope, symbols_pop_scope"]}
{"id": "C96", "title": "Specifiers name one type", "statement": "For every text, the declaration specifiers in front of it (type keywords, structure, union and enumeration specifiers, typedef names where no type specifier precedes, and other specifiers in between, in any order) are exactly what the parser takes, the type is the one of C17 6.7.2p2, and specifiers that name no type or more than one are rejected.", "quantifier": "for every sequence of tokens", "why_tests_cant": "Sequences are unbounded, and which identifier is a typedef name and which is declared depends on all specifiers before it.", "anchors": ["src/parser/declaration.c: parse_specifier, parse_specifiers, specifiers_to_type"]}
{"id": "C97", "title": "The image of a function's code decodes to its assembly", "statement": "The lines of assembly that the code generator emits for a function are all accepted by the assembler, and whatever else is written before and after them and whatever other objects are linked, the linked image holds them one after the other: every instruction decodes, by an independent decoder, to what its line says, with the addresses that the labels have in the image; jumps and calls go relative to the following instruction, to where the label stands.", "quantifier": "for all functions (any blocks, instructions, frames), all output around them, all lists of objects that can be linked", "why_tests_cant": "An instruction with a wrong byte, a relocation one byte off or a label that moves shows only for particular combinations of registers, displacements, sizes and positions; the number of instruction forms times operands times positions is unbounded.", "anchors": ["src/assembler/assembler.c: asm_ins_impl, asm_label", "src/assembler/encode.c: assemble_instruction", "src/linker/object.c: object_write, object_symbol_relocate, object_symbol_set", "src/codegen/codegen.c: codegen_function, codegen_block, codegen_instruction", "src/linker/linker.c: linker_link"]}
{"id": "C98", "title": "Microsoft calling convention: caller, callee and variadic functions agree with it and with each other", "statement": "With the Microsoft x64 convention every argument takes one position of 8 bytes: the caller puts it in the register (integer or SSE) or at the stack offset of its position, values of 1, 2, 4 and 8 bytes directly and others by address, leaves home space for four registers and keeps the stack aligned; the callee fetches from there exactly what the caller's slots held; small results go through %rax or %xmm0 and others through the address passed first; %rbx, %rdi and %rsi are preserved; in a variadic function the unnamed arguments are in their homes, va_start points at the first and va_arg yields them in order, leaving everything else unchanged.", "quantifier": "for all result types, all lists of up to 128 arguments of any sizes and kinds, any number of named parameters, all machine states", "why_tests_cant": "Mistakes show only at particular mixtures of integer, floating and large arguments, counts around four, and states of memory; the combinations are unbounded, and the tests of the repository run on System V only.", "anchors": ["src/abi/microsoft.c: ms_expr_call, ms_expr_function, ms_expr_return", "src/abi/microsoft.c: ms_emit_function_preamble, ms_emit_va_start, ms_emit_va_arg", "src/codegen/codegen.c: codegen_set_reg_chain, codegen_stack_store_chain, codegen_get_reg_uses"]}
{"id": "C99", "title": "The assembly text says what the object would contain", "statement": "The text that -S writes for any sequence of assembler calls, read by a reader of GNU assembler syntax, is exactly the statements of the calls, each in its section: every instruction with its mnemonic, registers, sizes, immediates, displacements and symbols, every label and its visibility, every string, number, zero fill and alignment; assembled with the compiler's own instruction encodings it has the sections, symbols and references of the object the compiler writes for the same calls.", "quantifier": "for all lists of calls (instructions with any operands, labels, sections, comments, strings of any bytes, data), all tables of label names that are assembler symbols", "why_tests_cant": "Text and object come from separate branches of every emitting function; a difference shows only for particular registers, sizes, offsets, escapes or section orders, and the repository's tests never compare the two.", "anchors": ["src/assembler/assembler.c: asm_emit_operand, asm_ins_impl, asm_label, asm_section, asm_string, asm_quad, asm_byte, asm_zero, asm_align", "src/codegen/registers.c: registers, size_to_idx, get_reg_name", "src/codegen/rodata.c: rodata_get_label"]}
{"id": "C100", "title": "Constant expressions have the type and value C says", "statement": "An expression built from integer, character and enumeration constants, sizeof values, casts to integer types and the unary, binary, logical and conditional operators that has a type and a value by C17 6.5 and 6.6 is folded by the parser to the constant of exactly that type and value; every expression, constant or not, has its type by C17; an expression with an undeclared name is rejected; an expression in which an object is read is never folded to a constant; a static assertion is accepted if and only if its expression has a value other than zero.", "quantifier": "for all expressions of any depth over all operators and integer types, and all sets of visible enumeration constants", "why_tests_cant": "Types and values depend on every combination of operand types, promotions, signs and boundaries at every level of the tree; the expressions are unbounded and tests only ever see a few.", "anchors": ["src/parser/expression.c: expression_finalize, expression_to_constant, constant_is_zero, expr_make_cast", "src/arch/x64.c: constant_binary_op, constant_unary_op, constant_cast", "src/parser/declaration.c: parse_static_assert"]}
{"id": "C101", "title": "Enumerators have type int and the values C says", "statement": "Every list of enumerators that C17 6.7.2.2 allows, with or without a trailing comma, is read up to its closing brace and declares each name, visible from the next enumerator on, as a constant of type int with the value given, 0 for the first, or one more than the one before; names already declared in the scope, values that depend on objects and lists without a closing brace are rejected.", "quantifier": "for all lists of enumerators of any length, all constant expressions in them, all scopes", "why_tests_cant": "Values depend on all enumerators before, including references to them, and on the types of the expressions; the lists are unbounded.", "anchors": ["src/parser/declaration.c: parse_enumerator, parse_enum", "src/arch/x64.c: constant_increment", "src/parser/symbols.c: symbols_add_identifier"]}
{"id": "C102", "title": "Sizes of arrays and widths of bit-fields are the values of their expressions", "statement": "A constant array size greater than zero gives an array of exactly that many elements and another constant is diagnosed; a size that depends on an object gives a variable-length array; a constant bit-field width between 0 (1 if the member has a name) and the width of its type is taken and every other one diagnosed.", "quantifier": "for all size and width expressions of C100, all types and values, all sets of visible enumeration constants", "why_tests_cant": "The conversions from the type of the expression to the types of length and width go wrong only for particular types and values, and a wrong size shows only in the layout of objects.", "anchors": ["src/parser/declaration.c: ast_to_type (ARR_EXPRESSION), parse_struct", "src/parser/expression.c: expression_cast, expression_to_constant", "src/abi/sysv.c: abi_info.size_type"]}
{"id": "C103", "title": "Preprocessed output is the same program", "statement": "What -E prints, split into tokens as C17 5.1.1.2 prescribes, is the sequence of tokens that the compiler itself would parse: every keyword, identifier, number, punctuator, string and character constant, in order, none joined, split, cut or altered; a source without directives and macros is printed as the same tokens.", "quantifier": "for all sources, macro tables and token sequences of any length, all spellings", "why_tests_cant": "Whether two neighbouring tokens run together depends on every pair of spellings and on the white space that macro replacement leaves; tokens are cut only beyond a length.", "anchors": ["src/main.c: preprocess_file", "src/debug.c: dbg_token, dbg_token_type", "src/preprocessor/string_concat.c: string_concat_next, get_ident", "src/preprocessor/macro_expander.c: expander_next"]}
{"id": "C104", "title": "Literals in expressions have their C types and values", "statement": "Every floating constant of C17 6.4.4.2, decimal or hexadecimal, is recognised as one, and its type is the one of its suffix. A character constant of one character with the prefix L, u or U has the type that belongs to the prefix and the value of the character. Adjacent string literals are one array whose element type belongs to the prefix, whose length is the number of elements plus one, and whose bytes hold these elements in order followed by a zero.", "quantifier": "every spelling of a floating constant; every character and escape sequence; every run of string literals of any length, with every prefix, under both ABIs", "why_tests_cant": "Literals are unbounded in number and length; the combinations of prefix, encoding, escape and ABI differ in element size, and a mismatch between the encoder and the element type shows only in some of them", "anchors": ["src/parser/expression.c: parse_primary_expression", "src/parser/expression.h: EXPR_STR", "src/common.c: character_constant_wchar_to_int", "src/common.c: character_constant_char16_to_int", "src/arch/x64.c: floating_point_constant_from_string", "src/arch/x64.c: is_float", "src/preprocessor/string_concat.c: string_concat_next"]}
{"id": "C105", "title": "The members of structures and unions are those that C says", "statement": "For every list of member declarations of C17 6.7.2.1, with any number of declarations, declarators and bit-fields, the fields that parse_struct collects are the declared members in their order: each with the type that its declarator denotes, its name, and its width if it is a bit-field; a structure specifier without declarators adds one unnamed member of its type.", "quantifier": "all lists of member declarations of any length, with declarators of any nesting, whatever follows the closing brace", "why_tests_cant": "Member lists and the declarators in them are unbounded; a declarator that is mistaken for a part of the next one, or a width that goes to the wrong member, shows only in particular combinations", "anchors": ["src/parser/declaration.c: parse_struct", "src/parser/declaration.c: parse_specifier", "src/parser/declaration.c: parse_declarator", "src/parser/declaration.c: ast_to_type"]}
{"id": "C106", "title": "Each file of a command is compiled as if it were alone", "statement": "When several C files are named in one command, the object made for each of them contains the functions, the static variables and the string constants that this file uses, with its symbols and references, and nothing that belongs to another file; so a name defined in one file is defined in one object. No file makes the compilation of another undefined.", "quantifier": "all lists of files, each with any registered strings, identifiers, static variables in blocks and temporary labels, any code with references, any static variables with any images, and any number of #pragma pack(push)", "why_tests_cant": "Tests compile one file per command; what is left in global state after a file shows only in the objects of later files, and only for particular combinations of definitions.", "anchors": ["src/main.c:122-219", "src/main.c:306-318", "src/codegen/rodata.c:25-106", "src/codegen/rodata.c:304-332", "src/parser/parser.c:21-26", "src/linker/object.c:11-55"]}
{"id": "C107", "title": "Assignments are accepted exactly for modifiable lvalues", "statement": "An assignment a = b is accepted if and only if a is an lvalue of a modifiable type (C17 6.3.2.1p1: no array, not const and without const members) and the types of the operands fit; the same holds for compound assignments and the operators ++ and --. An lvalue is a variable, a compound literal, a dereferenced pointer, or a member of an lvalue or of what a pointer points to.", "quantifier": "all left operands with any nesting of members, pointers, address arithmetic, casts and decayed arrays; all right operands; all declarations of structures; whatever constants are folded or null", "why_tests_cant": "Expressions are unbounded, and acceptance depends on the combination of const, decay, constant folding and the form each subexpression is evaluated to; tests contain valid programs and do not notice that an invalid one is accepted", "anchors": ["src/parser/expression.c:54-471", "src/parser/expression.c:903-1093", "src/parser/expression_to_ir.c:60-732", "src/types.c:301-304"]}
{"id": "C108", "title": "Variable length arrays that are alive together are different objects", "statement": "The storage that IR_VLA_ALLOC reserves for a variable length array has the size asked for, is aligned, lies in the part of the stack that the function has taken and shares no byte with any other array that is alive; a declaration that is executed again, as in a loop, gives back the storage of its former array, so that the stack does not grow.", "quantifier": "all functions with any number of allocations in any order, all lengths that fit on the stack, all sequences of executed allocations with arrays ending in between, any other code that keeps the stack pointer and the frame", "why_tests_cant": "The number of arrays, their lengths and the order in which loops execute declarations are unbounded; overlap shows only if an array in an outer block is first used in a branch of a loop that declares another one of growing length", "anchors": ["src/codegen/codegen.c:438-460", "src/codegen/codegen.c:605-616", "src/codegen/codegen.c:687-688", "src/ir/ir.c:576-578", "src/ir/global_code_motion.c:61-126"]}
{"id": "C109", "title": "Sizes and lengths of variable length arrays are evaluated as C says", "statement": "sizeof yields the size of the type of its operand, for constant and for variable length arrays of any number of dimensions, and is rejected for types without a size. A length is evaluated where it stands: in a declaration once, when it is reached, after which the array, the type name or the pointed-to type keeps it; in a type name when the expression around it is evaluated. The operand of sizeof is evaluated if and only if it is a variable length array. Address arithmetic uses these sizes. Outside of functions no type depends on a length that is not constant.", "quantifier": "all blocks of type definitions, declarations and expression statements of any length; types of any nesting of pointers, constant and variable length arrays; lengths that are arbitrary expressions, also with sizeof and assignments in them; all values of the variables; any number of executions", "why_tests_cant": "Types and expressions nest without bound, and a length that is evaluated too early, twice or never shows only if the expression changes what the length depends on", "anchors": ["src/types.c:346-431", "src/arch/x64.c:166-193", "src/parser/expression.c:558-573", "src/parser/declaration.c:653-696", "src/parser/declaration.c:1187-1202", "src/parser/declaration.c:1247-1256", "src/parser/declaration.c:1361-1385", "src/parser/expression_to_ir.c:309-334"]}
{"id": "C110", "title": "A call passes converted or promoted arguments to the function", "statement": "A call of a function, or of a pointer to one, with as many arguments as the function takes (at least as many if it is variadic), each allowed for its parameter, is accepted; the control goes to that function, every argument that has a parameter arrives with the value converted to the type of the parameter, every other argument after the default argument promotions. Calls with another number of arguments, with an argument that must not be assigned to its parameter, or of something that is no function are rejected.", "quantifier": "all function types with any number of parameters of any types, variadic or not; all lists of arguments of arithmetic, pointer, structure, array and function type, const or not, bit-fields of any width, with any values; both ABIs; any floating point unit", "why_tests_cant": "Argument lists are unbounded and each argument combines a source type, a parameter type and a value; a conversion that is wrong for some of them, or a promotion that depends on a qualifier, shows only for particular combinations", "anchors": ["src/parser/expression.c:92-134", "src/parser/expression.c:420-506", "src/parser/expression.c:852-858", "src/parser/expression_to_ir.c:129-171", "src/parser/expression_to_ir.c:264-280", "src/codegen/codegen.c:304-417"]}
{"id": "C111", "title": "Automatic objects and compound literals are initialised as C says", "statement": "When a declaration with an initialiser or a compound literal is reached in a function, then afterwards every part of the object that the initialiser names has the value of its expression or the bytes of its string (as far as there is room), every other bit of the object is zero, and no memory outside of the object has changed except by the evaluation of the expressions, each of which is evaluated once, whatever the object contained before.", "quantifier": "all types with any nesting of arrays, structures, unions and bit-fields, all initialisers with any parts left out, all expressions with any effects on other memory, all contents of memory, all addresses", "why_tests_cant": "Initialisers nest without bound and the expressions are arbitrary; a store of a wrong size or in a wrong order shows only in the memory next to the object, or for particular contents of memory", "anchors": ["src/ir/ir.c:313-397", "src/parser/expression_to_ir.c:60-127", "src/parser/expression_to_ir.c:422-430", "src/parser/expression_to_ir.c:757-770", "src/arch/x64.c:195-207", "src/parser/declaration.c:1373-1378"]}
{"id": "C112", "title": "The driver produces what the options ask for", "statement": "The command translates every source operand with the include directories of -I followed by the standard ones, with the macros that the predefined ones, -D (the last one counts) and -U (wins) mean, and with the flags of the -f options. With -c it writes each object, with -S each assembly text, to the file of -o or to the base name with the suffix .o or .s; with -MD the dependency file follows; with -E it prints the preprocessed sources; otherwise it links the objects in the order of the operands into the file of -o or a.out. A source that is rejected is never passed over.", "quantifier": "all command lines, all lists of operands in any directory, all lists of -D, -U, -I and -f options, all surroundings (which sources are accepted, which files exist or can be written)", "why_tests_cant": "the options combine in any number and order; tests try the few combinations that a build uses", "anchors": ["src/main.c:main", "src/main.c:compile_file", "src/main.c:preprocess_file", "src/main.c:set_flags", "src/main.c:get_basename", "src/main.c:add_implementation_defs"]}
{"id": "C113", "title": "Address constants, offsetof and compound literals in static initialisers", "statement": "For every address constant (C17 6.6p9: &, *, ., ->, [], pointer casts, and pointer plus or minus an integer, over static objects, functions, string literals and file-scope compound literals) the parser folds the expression to the label and byte offset it denotes; in a static initialiser the compiler emits that reference in the right place, and emits, in order and at fresh labels, one object for every compound literal whose address is used, of its size and with the meaning of its initialiser; offsetof is the constant offset of the member designated.", "quantifier": "all address constants and initialisers of any depth, all record layouts, both ABIs, all offsets in the 64-bit address space, all states of the label counter", "why_tests_cant": "address expressions nest without bound, and a constant that is not recognised is silently emitted as zero, which only shows when the program follows the pointer", "anchors": ["src/parser/expression.c:82-106", "src/parser/expression.c:404-471", "src/parser/expression.c:744-768", "src/parser/expression.c:899-1093", "src/codegen/rodata.c:82-85", "src/codegen/rodata.c:163-250", "src/arch/x64.c:574-616"]}
{"id": "C114", "title": "Includes are replaced by the contents of the file", "statement": "For every source file, the tokens that the later phases get are those of the file in which each #include directive has been replaced, at any depth, by the tokens of the file it names (nothing if that path has been marked by #pragma once), with the positions that the tokens have in their own file; the list of dependencies is the list of the files in the order in which they were opened. An #include of a file that does not exist stops the compiler.", "quantifier": "all file systems, include paths, tokens of the files, nestings of includes, header names in both forms and macros that expand to a string literal", "why_tests_cant": "Tests include a few headers to a small depth; that tokens pushed back at the border of two files are neither lost nor doubled depends on the nesting and on what stands at the end of each file.", "anchors": ["src/preprocessor/directives.c:73-126", "src/preprocessor/directives.c:366-387", "src/preprocessor/directives.c:443-639"]}
{"id": "C115", "title": "Phis with one side are replaced by their value without changing what the function computes", "statement": "The peephole pass comes to an end on every graph that has been built. If the graph of a function is in SSA form, then every run of the function before the pass has a run afterwards through the same blocks with the same values in all nodes whose block dominates the block where control is, and every run afterwards has such a run before; the graph is still in SSA form. Afterwards no phi that has a value for one side only is used by another node, and operands that are no such phi are kept.", "quantifier": "all graphs that can be built from the IR primitives, all meanings of nodes, all runs of all lengths, all SSA functions", "why_tests_cant": "A phi that is replaced by the value of the wrong side, or one that is needed in a loop, shows up only on particular paths through particular control flow; tests run a few paths of a few functions.", "anchors": ["src/optimize/peephole.c:14-47", "src/ir/ir.c:824-836"]}
{"id": "C116", "title": "Unrecognised pragmas are ignored and #pragma pack applies to the declarations after it", "statement": "A line with a pragma that is not recognised changes nothing, wherever it stands among declarations and statements (6.10.6p1): the declarations and the code are those of the text without the line. Every declaration is read with the packing that the #pragma pack lines before it have set, with push and pop saving and restoring it.", "quantifier": "all texts of declarations, statements of any nesting and pragma lines; all parsers of declarations and expressions", "why_tests_cant": "A pragma that swallows the line after it or becomes the body of an if shows only for particular lines at particular places, and the program still compiles; tests contain few pragmas.", "anchors": ["src/parser/parser.c:28-93", "src/parser/function_parser.c:126-223", "src/parser/function_parser.c:276-316", "src/parser/function_parser.c:481-491"]}
{"id": "C117", "title": "Conditional sections work across included files, and include guards keep a header from contributing twice", "statement": "When the sections of every file are complete in the file, the tokens that reach the later phases are those of the selected groups, with every #include replaced by what the named file yields; skipped groups have no effect whatever they contain; macros defined or undefined in a header decide the conditions that come after it, in any file; and the #include of a file with an include guard whose macro is defined contributes no tokens.", "quantifier": "for all files, all token sequences, all nestings of sections and of included files, and all sets of defined macros", "why_tests_cant": "Sections, files and macros can be nested and combined in unboundedly many ways; the stack of conditions is shared by all files, so a test of one file says nothing about what a header leaves on the stack for the including file.", "anchors": ["src/preprocessor/directives.c:488-638", "src/preprocessor/directives.c:329-363", "src/preprocessor/directives.c:389-404", "src/preprocessor/directives.c:128-171"]}
