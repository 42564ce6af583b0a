{
 "claims": [
  {
   "property": "C01",
   "status": "proved",
   "theorems": [
    "Verif.Utf8.encode_is_rfc3629",
    "Verif.Utf8.encode_too_large",
    "Verif.Utf8.decode_rfc3629",
    "Verif.Utf8.decode_encode",
    "Verif.Utf8.decode_string",
    "Verif.Utf8.encoding_prefix_free",
    "Verif.Utf8.decode_bad_lead"
   ],
   "note": "RFC 3629 table as an independent spec; decoder inverts encoder on all code points below 0x110000."
  },
  {
   "property": "C02",
   "status": "partial",
   "theorems": [
    "Verif.Escape.read_print_char",
    "Verif.Escape.read_print_string",
    "Verif.Escape.print_del_ub"
   ],
   "note": "Round trip for every byte except 127, for which the printer indexes its table out of bounds (proved UB)."
  },
  {
   "property": "C03",
   "status": "partial",
   "theorems": [
    "Verif.Escape.escapes_denote_violated",
    "Verif.Escape.hex_escape_actual",
    "Verif.Escape.escapes_denote_partial",
    "Verif.Escape.bad_escape_diagnosed"
   ],
   "note": "Violated for hexadecimal escapes of two or more digits (base 8 is used); all other escapes proved."
  },
  {
   "property": "C04",
   "status": "proved",
   "theorems": [
    "Verif.Bytes.write8_wrote",
    "Verif.Bytes.write16_wrote",
    "Verif.Bytes.write32_wrote",
    "Verif.Bytes.write64_wrote",
    "Verif.Bytes.read8_write8",
    "Verif.Bytes.read16_write16",
    "Verif.Bytes.read32_write32",
    "Verif.Bytes.read64_write64",
    "Verif.Bytes.read16_fileWord",
    "Verif.Bytes.read32_fileLong",
    "Verif.Bytes.read64_fileQuad",
    "Verif.Bytes.file_write_le",
    "Verif.Bytes.le_roundtrip",
    "Verif.Bytes.write16_oob",
    "Verif.Bytes.write32_oob",
    "Verif.Bytes.write64_oob",
    "Verif.Bytes.fileSkip_spec",
    "Verif.Bytes.roundUp_spec"
   ],
   "note": "In-memory writers/readers, file writers, round_up; out-of-bounds is UB in the model."
  },
  {
   "property": "C05",
   "status": "partial",
   "theorems": [
    "Verif.Escape.char_const_single",
    "Verif.Escape.char_const_ascii_partial",
    "Verif.Escape.char_const_multi_violated",
    "Verif.Escape.char_const_negative_ub"
   ],
   "note": "Single-character constants proved; multi-character constants violate the stated value."
  },
  {
   "property": "C06",
   "status": "proved",
   "theorems": [
    "Verif.DefineMap.lookup_is_last_definition",
    "Verif.DefineMap.lookup_is_last_definition_djb2",
    "Verif.DefineMap.lookup_frame"
   ],
   "note": "Any history of define/undef, any hash function; lookups return the last definition with surrounding whitespace stripped."
  },
  {
   "property": "C07",
   "status": "partial",
   "theorems": [
    "Verif.DefineMap.push_pop_violated",
    "Verif.DefineMap.push_pop_restores_partial",
    "Verif.DefineMap.push_pop_actual"
   ],
   "note": "push/pop of a macro that was undefined when pushed does not undefine it again (witness); otherwise restores."
  },
  {
   "property": "C08",
   "status": "proved",
   "theorems": [
    "Verif.Directives.conditional_inclusion",
    "Verif.Directives.conditional_inclusion_in_context",
    "Verif.Directives.kept_unknown_fails"
   ],
   "note": "Tree-grammar specification of conditional sections, arbitrary nesting; #if evaluation is a parameter (C11, C12). EndsSafely excludes only the last-line defect recorded as C65."
  },
  {
   "property": "C09",
   "status": "partial",
   "theorems": [
    "Verif.Directives.malformed_diagnosed_violated",
    "Verif.Directives.stray_endif_ub",
    "Verif.Directives.unterminated_skipped_diverges",
    "Verif.Directives.stray_else_diverges",
    "Verif.Directives.unterminated_kept_accepted",
    "Verif.Directives.balanced_accepted_partial"
   ],
   "note": "None of the malformed cases is diagnosed: stray #endif is UB, stray #else and an unclosed false section never terminate, an unclosed true section is accepted. Balanced files are safe."
  },
  {
   "property": "C10",
   "status": "partial",
   "theorems": [
    "Verif.Directives.line_directive_violated",
    "Verif.Directives.line_after_define_violated",
    "Verif.Directives.line_directive_partial",
    "Verif.Directives.line_directive_file_partial"
   ],
   "note": "Tokens read ahead while a shift is in force are shifted twice (witnesses); exact otherwise, file names always exact."
  },
  {
   "property": "C100",
   "status": "partial",
   "theorems": [
    "Verif.ConstExpr.constant_expressions_partial",
    "Verif.ConstExpr.expression_types",
    "Verif.ConstExpr.undeclared_rejected",
    "Verif.ConstExpr.objects_not_constant",
    "Verif.ConstExpr.static_assert_partial",
    "Verif.ConstExpr.unevaluated_violated",
    "Verif.ConstExpr.unevaluated_crash_violated",
    "Verif.ConstExpr.double_condition_violated",
    "Verif.ConstExpr.bool_cast_violated",
    "Verif.ConstExpr.comma_accepted"
   ],
   "note": "For all expressions of any size on LP64 whose unevaluated operands have values, whose casts to _Bool are of 0 or 1, and whose double conditions are zero exactly if their lower halves are. Violated beyond: 1 ? 2 : 1/0 is not constant, 1 ? 2 : 1%0 divides by zero in the compiler, 0.5 ? 3 : 4 is 4, (_Bool)2 is 2. The type is right for all expressions that are built, constant or not; undeclared names are rejected everywhere. Constants with addresses are the subject of C48."
  },
  {
   "property": "C101",
   "status": "partial",
   "theorems": [
    "Verif.Enumerators.enumerators_read_partial",
    "Verif.Enumerators.sample_read",
    "Verif.Enumerators.enumerator_type_violated",
    "Verif.Enumerators.increment_violated",
    "Verif.Enumerators.enumerators_accepted",
    "Verif.Enumerators.enumerators_end",
    "Verif.Enumerators.object_rejected",
    "Verif.Enumerators.redeclaration_rejected"
   ],
   "note": "For all lists whose expressions have type int. Violated beyond: A = 5u has type unsigned int, A = sizeof(int), B is rejected; values outside int, floating values and empty lists are accepted."
  },
  {
   "property": "C102",
   "status": "partial",
   "theorems": [
    "Verif.Enumerators.array_sizes_partial",
    "Verif.Enumerators.array_size_violated",
    "Verif.Enumerators.variable_size",
    "Verif.Enumerators.bit_widths_partial",
    "Verif.Enumerators.bit_width_violated"
   ],
   "note": "Sizes: all constants but unsigned zeros, for which an array of no elements is made. Widths: every value representable as int is taken as it is, so allowed widths are right; the constraint on them is not checked: 40 for an int, 0 with a name and 4294967297 (as 1) are accepted, and -1 declares an ordinary member."
  },
  {
   "property": "C103",
   "status": "partial",
   "theorems": [
    "Verif.Preprocessed.output_partial",
    "Verif.Preprocessed.source_kept_partial",
    "Verif.Preprocessed.output_violated",
    "Verif.Preprocessed.literals_violated",
    "Verif.Preprocessed.long_names_violated",
    "Verif.Preprocessed.quoted_violated"
   ],
   "note": "For all sequences of identifiers, numbers, keywords, punctuators and strings without special characters, of at most 98 bytes, kept apart by white space wherever they would run together; and from the source on for texts without directives and macros. Violated beyond: -NEG with #define NEG -x prints --x, character constants print the words Character constant, wide strings likewise, \"\\\"\" prints as three quotes, and names of 99 characters or more lose their last one."
  },
  {
   "property": "C104",
   "status": "partial",
   "theorems": [
    "Verif.Literals.floating_partial",
    "Verif.Literals.long_double_rejected",
    "Verif.Literals.long_double_violated",
    "Verif.Literals.integer_constants",
    "Verif.Literals.characters_partial",
    "Verif.Literals.characters_violated",
    "Verif.Literals.range_violated",
    "Verif.Literals.three_wide_ub",
    "Verif.Literals.strings_partial",
    "Verif.Literals.wide_strings_actual",
    "Verif.Literals.wide_strings_violated"
   ],
   "note": "Floating constants: all spellings for float and double; the conversion by strtod is the C library's. Violated: long double constants stop the compiler. Characters: all but hexadecimal escapes of more than one digit (C03). Violated: u'ab' is 0x610062 of type unsigned short; L'abc' is undefined. Strings: all for System V, all but wide ones for Windows, apart from the escapes of C03 and the characters of C62. Violated: for Windows L\"ab\" is six elements, as the encoder writes four bytes for each character and the type is of two."
  },
  {
   "property": "C105",
   "status": "partial",
   "theorems": [
    "Verif.Members.members_partial",
    "Verif.Members.members_read",
    "Verif.Members.alignas_violated",
    "Verif.Members.const_anonymous_violated",
    "Verif.Members.pointer_width_accepted",
    "Verif.Members.missing_comma_accepted",
    "Verif.Members.no_declarator_ub",
    "Verif.Members.abstract_member_rejected"
   ],
   "note": "For every list of member declarations with the declarators of C93. Violated: _Alignas on a member is read and forgotten; const before an anonymous structure is dropped. Invalid lists that are accepted: int *p : 3, int a b. struct { int; } dereferences NULL."
  },
  {
   "property": "C106",
   "status": "partial",
   "theorems": [
    "Verif.Session.one_file",
    "Verif.Session.alone_partial",
    "Verif.Session.defines_exactly",
    "Verif.Session.objects_actual",
    "Verif.Session.objects_violated",
    "Verif.Session.two_copies_violated",
    "Verif.Session.pack_only_last",
    "Verif.Session.pack_violated"
   ],
   "note": "False as stated: labels and static variables are never reset, so the object of every file also defines the static variables of all the files before it (objects_violated); compiled and linked by one command, two files use two copies of one variable (two_copies_violated). A #pragma pack(push) in a file that is not the last is undefined: the freed stack is freed again (pack_only_last, pack_violated). Proved: what each object contains exactly (objects_actual); one file on its own (one_file); any list of files of which only the last has static variables and pack pushes (alone_partial). Initialisers with compound literals are left out."
  },
  {
   "property": "C107",
   "status": "partial",
   "theorems": [
    "Verif.Lvalue.const_assignment_rejected_partial",
    "Verif.Lvalue.const_pointer_compound_rejected_partial",
    "Verif.Lvalue.const_global_compound_rejected_partial",
    "Verif.Lvalue.nonlvalue_rejected_partial",
    "Verif.Lvalue.modifiable_accepted_partial",
    "Verif.Lvalue.value_accepted",
    "Verif.Lvalue.copy_accepted_partial",
    "Verif.Lvalue.const_compound_violated",
    "Verif.Lvalue.const_member_violated",
    "Verif.Lvalue.const_inside_violated",
    "Verif.Lvalue.comma_violated",
    "Verif.Lvalue.plus_violated",
    "Verif.Lvalue.cast_violated",
    "Verif.Lvalue.assign_violated",
    "Verif.Lvalue.conditional_compound_violated",
    "Verif.Lvalue.cast_compound_violated",
    "Verif.Lvalue.compound_literal_violated",
    "Verif.Lvalue.numeric_address_violated",
    "Verif.Lvalue.mismatch_violated",
    "Verif.Lvalue.conditional_const_violated"
   ],
   "note": "Proved for =: every lvalue of a const type (but members of const objects) is rejected, every expression that is no lvalue is rejected (but comma, assignment, unary plus, casts), every modifiable lvalue (but compound literals and numeric addresses) is accepted with any right operand that has a value. Compound assignment: const pointers and const arithmetic objects at file scope are rejected. Violated beyond: const int c; c += 1; const struct members; (0, c) = 1; +c = 1; (int)c = 1; (a = b) = 1; (x ? a : b) += 1; (int){1} = 2 and *(int *)4096 = 5 rejected; x = s with a structure accepted."
  },
  {
   "property": "C108",
   "status": "partial",
   "theorems": [
    "Verif.Vla.allocations_numbered",
    "Verif.Vla.allocation_code",
    "Verif.Vla.arrays_apart_partial",
    "Verif.Vla.space_again",
    "Verif.Vla.arrays_apart_violated"
   ],
   "note": "Proved for the machine code: what one allocation does to registers, the words in the frame and memory; the same end of storage when a declaration is executed again; arrays alive are apart, on the stack and aligned for every history in which the outer array has the smaller number. Violated in general: numbers follow the order of the blocks after placement, and an allocation sinks to where its array is used, so that in the scheduled graph of a loop that declares b and uses an outer a in a branch only, b runs over a. Other code is assumed to keep the stack pointer and the words of the allocations; arrays are assumed to fit on the stack."
  },
  {
   "property": "C109",
   "status": "partial",
   "theorems": [
    "Verif.SizeOf.sizes_partial",
    "Verif.SizeOf.order_violated",
    "Verif.SizeOf.branch_violated",
    "Verif.SizeOf.operand_violated",
    "Verif.SizeOf.large_violated",
    "Verif.SizeOf.incomplete_violated",
    "Verif.SizeOf.file_scope_violated"
   ],
   "note": "Proved for every block in which the lengths in type names assign nothing and do not depend on what the same statement assigns, operands of sizeof that are variable length arrays assign nothing, and constant sizes are below 2^31; lengths in declarations may be any expressions. Violated: lengths in type names are evaluated when they are read, before the rest of the expression ((n = 10, sizeof(int[n])) uses the old n) and in branches not taken; sizeof *(p = p + 1) does not move p; sizeof(char[2147483648]) is 2^64 - 2^31; sizeof(void), of a function type and of int[] are accepted; char (*p)[n] is accepted outside of functions and sizeof *p then ends the compiler."
  },
  {
   "property": "C11",
   "status": "partial",
   "theorems": [
    "Verif.PPExpr.if_parses_grammar_partial",
    "Verif.PPExpr.if_parsing_violated"
   ],
   "note": "Every C conditional expression without ~ is evaluated as the grammar parses it, for all lengths; ~ has no entry among the prefix operators and is rejected (witness)."
  },
  {
   "property": "C110",
   "status": "partial",
   "theorems": [
    "Verif.Args.calls_partial",
    "Verif.Args.wrong_count",
    "Verif.Args.not_function_partial",
    "Verif.Args.not_function_violated",
    "Verif.Args.constraint_violated",
    "Verif.Args.narrow_violated",
    "Verif.Args.const_bitfield_violated"
   ],
   "note": "Proved for all argument lists below 128 arguments whose values are converted by the conversions that are right (C34, C74), and whose promoted arguments are no const bit-fields and no long of 32 bits. Violated beyond: int f(double) called with (signed char)-1 gets 4294967295.0; a const bit-field of 3 bits is promoted to unsigned int; f(5) is accepted for a parameter of structure type; a call through int * reads args[-1]."
  },
  {
   "property": "C111",
   "status": "partial",
   "theorems": [
    "Verif.AutoInit.automatic_initialised_partial",
    "Verif.AutoInit.string_violated",
    "Verif.AutoInit.node_size_violated",
    "Verif.AutoInit.old_value_violated"
   ],
   "note": "Proved for all types and initialisers whose parts do not overlap (C91 has the other ones), with strings no longer than their arrays, nodes of the size of their types, and expressions that do not depend on the object itself. Violated beyond: char s[3] = \"abc\" in a function writes a zero behind the array; int x = a < b with long operands stores eight bytes; a compound literal that is reached again by goto is set to zero before its initialiser reads the old value."
  },
  {
   "property": "C112",
   "status": "partial",
   "theorems": [
    "Verif.Driver.objects_written_partial",
    "Verif.Driver.assembly_written_partial",
    "Verif.Driver.preprocessed_partial",
    "Verif.Driver.linked_partial",
    "Verif.Driver.errors_reported",
    "Verif.Driver.undefine_E_violated",
    "Verif.Driver.strip_violated",
    "Verif.Driver.depend_link_violated",
    "Verif.Driver.depend_name_violated",
    "Verif.Driver.depend_E_violated",
    "Verif.Driver.assembly_object_violated",
    "Verif.Driver.unwritable_violated",
    "Verif.Driver.missing_object_violated",
    "Verif.Driver.object_c_violated",
    "Verif.Driver.libraries_violated",
    "Verif.Driver.null_violated",
    "Verif.Driver.no_complex_violated",
    "Verif.Driver.int8_violated"
   ],
   "note": "For every command line of C64 in the four modes. Violated: -U with -E and -s are not implemented; -MD without a name ending in .o or .s passes NULL to fopen; -MD with -E writes nothing; -S -c overwrites the assembly by an empty object; files that cannot be opened are undefined behaviour; .o with -c is an assertion; -l and -L are ignored; NULL is predefined; the __STDC_NO_ macros are missing; __int8 is int. What the translation of one source does is a parameter here (other properties)."
  },
  {
   "property": "C113",
   "status": "partial",
   "theorems": [
    "Verif.AddrConstProps.static_parts_partial",
    "Verif.AddrConstProps.address_constant_partial",
    "Verif.AddrConstProps.offsetof_partial",
    "Verif.AddrConstProps.other_is_zero",
    "Verif.AddrConstProps.value_no_constant",
    "Verif.AddrConstProps.index_type_violated",
    "Verif.AddrConstProps.absolute_violated",
    "Verif.AddrConstProps.member_of_null_violated",
    "Verif.AddrConstProps.nested_literal_violated",
    "Verif.AddrConstProps.offsetof_index_violated",
    "Verif.AddrConstProps.offsetof_type_violated"
   ],
   "note": "Proved for all address constants whose indices have types promoted to int, absolute addresses that are only cast, and compound literals without further literals whose addresses are used; the compiler silently emits zero for the other ones."
  },
  {
   "property": "C114",
   "status": "partial",
   "theorems": [
    "Verif.Include.include_partial",
    "Verif.Include.include_missing_stops",
    "Verif.Include.computed_other_stops",
    "Verif.Include.line_before_include_violated",
    "Verif.Include.line_in_header_violated",
    "Verif.Include.computed_header_violated",
    "Verif.Include.extra_tokens_violated",
    "Verif.Include.computed_last_line_violated",
    "Verif.Include.computed_at_end_violated"
   ],
   "note": "Proved for files with #include, #pragma and null directives; the macro and conditional directives are in C10 for one file and in C117 for several files. Violated: #line before an #include is forgotten and #line in a header leaks into the including file; a macro that expands to <...> is rejected; tokens after the header name are accepted; a computed #include in the last line of a file uses the wrong directory or loops."
  },
  {
   "property": "C115",
   "status": "proved",
   "theorems": [
    "Verif.Peephole.peephole_keeps",
    "Verif.Peephole.no_one_sided",
    "Verif.Peephole.others_stay"
   ],
   "note": "That the graph of a function is in SSA form is a hypothesis of the part about values; it is what the parser and the pass for variables (C88) make."
  },
  {
   "property": "C116",
   "status": "partial",
   "theorems": [
    "Verif.Pragma.unit_partial",
    "Verif.Pragma.statements_partial",
    "Verif.Pragma.other_ignored",
    "Verif.Pragma.pack_in_block",
    "Verif.Pragma.pack_malformed_stops",
    "Verif.Pragma.pop_violated",
    "Verif.Pragma.lead_violated",
    "Verif.Pragma.macro_violated",
    "Verif.Pragma.empty_violated"
   ],
   "note": "Proved for pragmas between external declarations and between the items of blocks, without pop, where the line after the pragma does not begin with a macro. Violated beyond: a pragma swallows the next line if that begins with a macro; a pragma in front of the statement of an if or a loop is taken for the statement; pack(pop) does not restore; an empty #pragma is rejected."
  },
  {
   "property": "C117",
   "status": "partial",
   "theorems": [
    "Verif.Guard.sections_partial",
    "Verif.Guard.guard_partial",
    "Verif.Guard.define_last_line",
    "Verif.Guard.unclosed_header_violated",
    "Verif.Guard.header_endif_violated"
   ],
   "note": "Proved for complete sections with any conditional directives (#if with defined; the value of the expression is that of an evaluator that is a parameter, C08 to C12), #define, #undef, #include and pragmas. The code violates the syntax of 6.10: the stack of conditions is one for all files, so a section may begin in a header and end in the including file, without a diagnostic. Missing: #line, push_macro and pop_macro, and a #define in the last line of a file other than that of an object-like macro in a header."
  },
  {
   "property": "C12",
   "status": "partial",
   "theorems": [
    "Verif.PPExpr.if_arithmetic_partial",
    "Verif.PPExpr.if_arithmetic_violated",
    "Verif.PPExpr.division_by_zero_diagnosed"
   ],
   "note": "Values are those of (u)intmax_t arithmetic except for four constructs: unsuffixed hex/octal literals in [2^31,2^32), ! of unsigned, shift by unsigned, branches of mixed signedness (witnesses)."
  },
  {
   "property": "C13",
   "status": "partial",
   "theorems": [
    "Verif.StringSet.contains_spec",
    "Verif.StringSet.mem_insert",
    "Verif.StringSet.mem_union",
    "Verif.StringSet.inter_sound",
    "Verif.StringSet.inter_exact_violated",
    "Verif.StringSet.insert_desc",
    "Verif.StringSet.inter_exact_partial",
    "Verif.StringSet.inter_self"
   ],
   "note": "Union, insertion and membership are exact; intersection loses members when the lists are not sorted the way the merge expects (witness), exact for sorted lists."
  },
  {
   "property": "C14",
   "status": "partial",
   "theorems": [
    "Verif.Macro.object_like_terminates",
    "Verif.Macro.object_like_exact",
    "Verif.Macro.expansion_terminates_violated"
   ],
   "note": "Object-like macros, any table: expansion ends, and its result is exactly that of an independent relational specification of 6.10.3.4. With function-like macros hide-set intersection loses names and expansion can run for ever (witness table)."
  },
  {
   "property": "C15",
   "status": "partial",
   "theorems": [
    "Verif.Simple.integer_constant_partial",
    "Verif.Simple.integer_constant_violated",
    "Verif.Simple.bad_suffix_accepted",
    "Verif.Simple.integer_not_float"
   ],
   "note": "Value and type proved for every digit string whose value fits 64 bits; larger constants wrap silently (witness); some malformed suffixes are accepted."
  },
  {
   "property": "C16",
   "status": "partial",
   "theorems": [
    "Verif.Simple.cast_is_conversion_partial",
    "Verif.Simple.conversion_unique",
    "Verif.Simple.cast_to_bool_violated"
   ],
   "note": "Exact for every integer source and every target except _Bool, where the low byte is kept instead of comparing with zero (witness)."
  },
  {
   "property": "C17",
   "status": "partial",
   "theorems": [
    "Verif.Simple.fold_correct",
    "Verif.Simple.fold_unary_correct",
    "Verif.Simple.fold_crashes_violated",
    "Verif.Simple.fold_no_crash_partial"
   ],
   "note": "Every folded value is right whenever C defines one. The compiler itself divides by zero for signed %, unsigned / and %, and overflows for LONG_MIN / -1 (witnesses)."
  },
  {
   "property": "C18",
   "status": "partial",
   "theorems": [
    "Verif.Simple.usual_conversions_lp64",
    "Verif.Simple.usual_conversions_llp64_violated",
    "Verif.Simple.usual_conversions_llp64_partial"
   ],
   "note": "Proved on LP64 including bit-field operands; on LLP64 long is promoted to int (witness), right without long operands."
  },
  {
   "property": "C19",
   "status": "proved",
   "theorems": [
    "Verif.Layout.struct_layout_exact",
    "Verif.Layout.struct_layout_sound",
    "Verif.Layout.struct_layout_defined",
    "Verif.Layout.union_layout"
   ],
   "note": "Any member list of ordinary members (flexible array at the end allowed), any packing: offsets are the least ones, size and alignment exact; layout is defined up to 2^30 bytes; unions including bit-fields."
  },
  {
   "property": "C20",
   "status": "partial",
   "theorems": [
    "Verif.Layout.bitfields_sound_violated",
    "Verif.Layout.bitfields_overlap",
    "Verif.Layout.zero_width_violated",
    "Verif.Layout.bitfields_sound_partial",
    "Verif.Layout.bitfields_aligned_partial"
   ],
   "note": "struct {int a:9; char b:3; char c;} puts c on top of a (witness); zero-width fields misplace what follows (witness). Sound when adjacent bit-fields do not go from a larger to a smaller type and no width is zero."
  },
  {
   "property": "C21",
   "status": "proved",
   "theorems": [
    "Verif.Bitfield.set_bits_spec",
    "Verif.Bitfield.get_bits_spec",
    "Verif.Bitfield.store_load",
    "Verif.Bitfield.store_frame",
    "Verif.Bitfield.to_buffer_spec"
   ],
   "note": "All storage widths, positions, widths, contents and values; also the static initialiser path. Machine code of the 64-bit operations is C32/C34."
  },
  {
   "property": "C22",
   "status": "proved",
   "theorems": [
    "Verif.Types.type_identity"
   ],
   "note": "Any hash function, any sequence of constructor calls: results coincide exactly when the requested trees do; every call returns."
  },
  {
   "property": "C23",
   "status": "partial",
   "theorems": [
    "Verif.Types.composite_sound_violated",
    "Verif.Types.composite_return_violated",
    "Verif.Types.composite_complete_violated",
    "Verif.Types.composite_symmetric_violated",
    "Verif.Types.composite_symmetric_partial",
    "Verif.Types.composite_sound_partial",
    "Verif.Types.composite_completes_partial"
   ],
   "note": "int a[3]/char a[] and int f()/char f(int) are merged; int (*)[3]/int (*)[] are rejected; result depends on order for two f() (witnesses). Otherwise the result is one of the two, completes both, and success is symmetric."
  },
  {
   "property": "C24",
   "status": "proved",
   "theorems": [
    "Verif.Types.member_lookup_sound",
    "Verif.Types.member_lookup_complete"
   ],
   "note": "Any nesting of records."
  },
  {
   "property": "C25",
   "status": "proved",
   "theorems": [
    "Verif.Symbols.symbol_table",
    "Verif.Symbols.scope_restores"
   ],
   "note": "Any hash function and history, including file-scope declarations made inside inner scopes (array shifting)."
  },
  {
   "property": "C26",
   "status": "partial",
   "theorems": [
    "Verif.PragmaPack.pack_pop_violated",
    "Verif.PragmaPack.pack_partial",
    "Verif.PragmaPack.pop_keeps_packing"
   ],
   "note": "pop never restores the packing (witness); every history without pop is right."
  },
  {
   "property": "C27",
   "status": "partial",
   "theorems": [
    "Verif.Specifiers.specifiers_accepted_partial",
    "Verif.Specifiers.specifiers_rejected",
    "Verif.Specifiers.specifiers_violated"
   ],
   "note": "All keyword sequences in any order with other specifiers interleaved; long double denotes double (witness)."
  },
  {
   "property": "C28",
   "status": "partial",
   "theorems": [
    "Verif.Generic.generic_selection",
    "Verif.Generic.generic_order",
    "Verif.Generic.generic_duplicate_partial",
    "Verif.Generic.generic_duplicate_violated"
   ],
   "note": "Every allowed list, any order; duplicate types after a default and second defaults are accepted (witness), without a default duplicates stop the compiler."
  },
  {
   "property": "C29",
   "status": "partial",
   "theorems": [
    "Verif.Pratt.expression_parsing_partial",
    "Verif.Pratt.assignment_parsing_partial",
    "Verif.Pratt.expression_unambiguous",
    "Verif.Pratt.sizeof_compound_violated",
    "Verif.Pratt.conditional_assignment_violated"
   ],
   "note": "Full grammar of 6.5 except _Generic, any depth. sizeof (T){...} is misparsed and a ? b : c = d accepted (witnesses); calls with more than 127 arguments are rejected."
  },
  {
   "property": "C30",
   "status": "partial",
   "theorems": [
    "Verif.Cond.if_condition_partial",
    "Verif.Cond.if_condition_violated",
    "Verif.Cond.loop_condition_int_partial",
    "Verif.Cond.loop_condition_pointer_partial",
    "Verif.Cond.loop_condition_float_partial",
    "Verif.Cond.loop_condition_violated",
    "Verif.Cond.loop_half_violated",
    "Verif.Cond.loop_pointer_violated"
   ],
   "note": "if, ?:, !, &&, ||: every scalar but -0.0. Loops first convert to int: right unless the value is a non-zero multiple of 2^32 (or a fraction below 1); witnesses 1L<<32, 0.5, a 4 GiB aligned pointer."
  },
  {
   "property": "C31",
   "status": "partial",
   "theorems": [
    "Verif.Cond.switch_partial",
    "Verif.Cond.switch_violated"
   ],
   "note": "Machine-level: control expression, chain of tests, default, any number of cases. 64-bit controlling expressions are truncated to int (witness)."
  },
  {
   "property": "C32",
   "status": "proved",
   "theorems": [
    "Verif.Codegen.operator_code",
    "Verif.Codegen.unary_code"
   ],
   "note": "All operand values, both widths, any machine state; the emitted instructions are run on a machine model (trusted base). Frame condition included."
  },
  {
   "property": "C33",
   "status": "partial",
   "theorems": [
    "Verif.Codegen.selects_operator_partial",
    "Verif.Codegen.selects_operator_violated",
    "Verif.Codegen.pointer_comparison"
   ],
   "note": "Unsigned division is emitted as signed division (0xffffffffu/2u = 0; 0x80000000u/0xffffffffu traps); every other operator and type is right."
  },
  {
   "property": "C34",
   "status": "partial",
   "theorems": [
    "Verif.Cast.int_to_int",
    "Verif.Cast.pointer_to_bool",
    "Verif.Cast.int_to_float_partial",
    "Verif.Cast.int_to_float_violated",
    "Verif.Cast.ulong_to_double_violated"
   ],
   "note": "Integer to integer and to _Bool: every pair and value. To floating: right except negative values narrower than int ((double)(signed char)-1 = 4294967295.0) and unsigned values from 2^63 on (witnesses)."
  },
  {
   "property": "C35",
   "status": "partial",
   "theorems": [
    "Verif.Codegen.float_comparison_code",
    "Verif.Codegen.float_comparison_partial",
    "Verif.Codegen.nan_comparison_violated",
    "Verif.Codegen.float_comparison_violated"
   ],
   "note": "Ordered operands: all six operators right. NaN: > and >= right, <, <=, ==, != wrong for every NaN operand."
  },
  {
   "property": "C36",
   "status": "proved",
   "theorems": [
    "Verif.Memory.memcpy_copies",
    "Verif.Memory.memzero_clears",
    "Verif.Memory.memcpy_within",
    "Verif.Memory.memzero_within",
    "Verif.Memory.load_code",
    "Verif.Memory.store_code",
    "Verif.Memory.set_zero_code",
    "Verif.Memory.copy_memory_code",
    "Verif.Codegen.load_part_code",
    "Verif.Codegen.store_part_code"
   ],
   "note": "Any size up to 2^63; every access stays within the two objects; source and destination either equal or disjoint for loads and stores."
  },
  {
   "property": "C37",
   "status": "proved",
   "theorems": [
    "Verif.Frame.frame_good"
   ],
   "note": "Counters are natural numbers (frame below 2 GiB)."
  },
  {
   "property": "C38",
   "status": "partial",
   "theorems": [
    "Verif.Phi.join_partial",
    "Verif.Phi.join_violated"
   ],
   "note": "Right when no source is written by an earlier copy of the same join; a loop that swaps two variables loses one (witness)."
  },
  {
   "property": "C39",
   "status": "partial",
   "theorems": [
    "Verif.Call.call_restores_partial",
    "Verif.Call.call_restores_violated",
    "Verif.Call.call_leaks"
   ],
   "note": "Right for calls without stack arguments; otherwise each call leaves %rsp lower by twice the argument area (same negative change added twice)."
  },
  {
   "property": "C40",
   "status": "partial",
   "theorems": [
    "Verif.Classify.classify_partial",
    "Verif.Classify.classify_violated",
    "Verif.Classify.classify_large_violated",
    "Verif.Classify.classify_packed_violated"
   ],
   "note": "Right for naturally aligned members unless a member ending at byte 8 changes the second eightbyte (struct{long;double} becomes INTEGER,INTEGER), 17-32 byte structs starting with SSE go to registers, packed members are not sent to memory (witnesses)."
  },
  {
   "property": "C41",
   "status": "partial",
   "theorems": [
    "Verif.Convention.follows_abi_partial",
    "Verif.Convention.registers_once",
    "Verif.Convention.stack_disjoint",
    "Verif.Convention.transfer_partial",
    "Verif.Convention.transfer_violated",
    "Verif.Convention.follows_abi_violated"
   ],
   "note": "Any return type, any argument list with at most 6 integer and 6 SSE register eightbytes counted by the code; seven doubles overflow reg_variables[6] (witness) and 16-byte aligned stack arguments are placed at 8-byte alignment (witness)."
  },
  {
   "property": "C42",
   "status": "partial",
   "theorems": [
    "Verif.VaArg.walks_arguments",
    "Verif.VaArg.walks_integer_arguments",
    "Verif.VaArg.va_arg_code",
    "Verif.VaArg.va_arg_value",
    "Verif.VaArg.preamble_code",
    "Verif.VaArg.va_start_code",
    "Verif.VaArg.va_arg_double_violated"
   ],
   "note": "Any split and number of integer-class or memory arguments, machine-level for va_start, va_arg and the save area; named parameters may be SSE as long as a call uses at most 6 registers. Functions with over-aligned locals are excluded (C80). va_arg of a floating type is not implemented."
  },
  {
   "property": "C43",
   "status": "partial",
   "theorems": [
    "Verif.Encode.encode_partial",
    "Verif.Encode.encode_push_violated",
    "Verif.Encode.encode_movabs_violated",
    "Verif.Encode.encode_rex_b_violated",
    "Verif.Encode.encode_rbp_violated",
    "Verif.Encode.encode_scale_violated",
    "Verif.Encode.encode_index_violated",
    "Verif.Encode.encode_upper_violated"
   ],
   "note": "All 130 rows of the table against an independent decoder, any operands and label address. Excluded and refuted by witnesses: registers 8-15 in the opcode byte or in 32-bit register forms, 0(%rbp)/0(%r13), index registers (scale and REX.x dropped), high byte registers."
  },
  {
   "property": "C44",
   "status": "partial",
   "theorems": [
    "Verif.Encode.choose_partial",
    "Verif.Encode.choose_returns_partial",
    "Verif.Encode.choose_unsigned_violated",
    "Verif.Encode.choose_extra_violated"
   ],
   "note": "Any table whose rows encode the operands they describe. Unsigned 8/16-bit immediates accept negative numbers (witness); an operand too many stops the compiler instead of being reported (witness)."
  },
  {
   "property": "C45",
   "status": "partial",
   "theorems": [
    "Verif.Object.object_accumulates",
    "Verif.Object.align_position",
    "Verif.Object.section_alignment_partial",
    "Verif.Object.section_alignment_violated"
   ],
   "note": "Content, symbols and references: proved for any sequence of calls. Section alignment holds only if the largest request is made at an unaligned position; a request at an aligned position is forgotten (witness: 16-byte alignment at the start of .data)."
  },
  {
   "property": "C46",
   "status": "proved",
   "theorems": [
    "Verif.Object.symbols_interned",
    "Verif.Object.label_names_distinct",
    "Verif.Object.local_names_distinct",
    "Verif.Object.long_name_rejected"
   ],
   "note": "Any history of registrations and calls; names are identifiers or the names made for block-scope statics. Names of 64 or more characters stop the compiler (long_name_rejected)."
  },
  {
   "property": "C47",
   "status": "proved",
   "theorems": [
    "Verif.Object.strings_interned",
    "Verif.Object.strings_emitted",
    "Verif.Object.object_accumulates"
   ],
   "note": "Any history; content stated on the view, which object_accumulates carries over to the object."
  },
  {
   "property": "C48",
   "status": "partial",
   "theorems": [
    "Verif.StaticInit.static_initialiser_partial",
    "Verif.StaticInit.static_string_violated",
    "Verif.StaticInit.nonconstant_ignored"
   ],
   "note": "Any initialiser tree with constants, bit-fields, strings, nested literals and addresses that lies inside the object without overlap. A string that fills its array without room for the NUL is written out of bounds (witness). Non-constant initialisers are silently zero."
  },
  {
   "property": "C49",
   "status": "proved",
   "theorems": [
    "Verif.Linker.relocations_applied",
    "Verif.Linker.relocations_commute"
   ],
   "note": "For any linkable objects; the value of symbols of other objects is C50. Symbols in empty sections are taken relative to the start of the image."
  },
  {
   "property": "C50",
   "status": "partial",
   "theorems": [
    "Verif.Linker.reference_resolves_partial",
    "Verif.Linker.reference_resolves_violated"
   ],
   "note": "Definitions at the start of a non-empty section; at any other offset a cross-object reference resolves to the start of the section (witness)."
  },
  {
   "property": "C51",
   "status": "proved",
   "theorems": [
    "Verif.Linker.sections_placed"
   ],
   "note": "For any linkable objects."
  },
  {
   "property": "C52",
   "status": "partial",
   "theorems": [
    "Verif.Elf.elf_round_trip_partial",
    "Verif.Elf.elf_round_trip_violated",
    "Verif.Elf.elf_alignment_lost"
   ],
   "note": "Round trip up to the order of the symbols for every object whose names exist and contain no NUL and whose symbol-table indices fit in 16 bits. Violated beyond that: object_from_elf masks the symbol index of a relocation to 16 bits, so that the relocation is read as one for another symbol. Section alignments are written but not read."
  },
  {
   "property": "C53",
   "status": "proved",
   "theorems": [
    "Verif.Elf.elf_layout",
    "Verif.Elf.executable_layout",
    "Verif.Elf.object_layout"
   ],
   "note": "Every header and content is where the headers say, areas in increasing order, for every file whose sizes and counts fit in their fields; instances for executables (page-aligned offset congruent to the address) and for objects (section, symbol and relocation tables as the ELF specification describes them). The int parameters of round_up_to_nearest are modelled as unbounded."
  },
  {
   "property": "C54",
   "status": "partial",
   "theorems": [
    "Verif.Coff.coff_layout_partial",
    "Verif.Coff.coff_layout_violated"
   ],
   "note": "For every object that can be written and whose section names have at most 8 bytes, the file is a COFF file of the object: all headers, symbols, strings, contents with addends in their fields, and relocations at their places. A section with a longer name gets a string table offset that lacks the 4 bytes of the size field; the negation is proved on such an object."
  },
  {
   "property": "C55",
   "status": "proved",
   "theorems": [
    "Verif.Ir.use_lists_mirror",
    "Verif.Ir.set_operand_never_fails",
    "Verif.Ir.replace_exact"
   ],
   "note": "For every graph built by any sequence of node creations, operand updates (with the sealing of blocks and the construction of phis that they trigger), replacements, reads of the state and sealings. Replacement is exact for every graph whose regions are sealed, as they are after parsing."
  },
  {
   "property": "C56",
   "status": "partial",
   "theorems": [
    "Verif.Ir.dead_code_partial",
    "Verif.Ir.dead_code_operands",
    "Verif.Ir.dead_code_violated"
   ],
   "note": "Exactly what reachable returns and joins depend on is kept, with its operands; calls in a loop without exit are removed (violated)."
  },
  {
   "property": "C57",
   "status": "proved",
   "theorems": [
    "Verif.Ir.dominator_trees",
    "Verif.Ir.immediate_dominator_unique"
   ],
   "note": "For every graph of functions whose branches and projections are linked as the builder links them, including irreducible control flow: the search and the iteration end, the lists hold exactly the reachable blocks, and every reachable block gets its immediate dominator and its depth."
  },
  {
   "property": "C58",
   "status": "partial",
   "theorems": [
    "Verif.Tokenizer.tokens_partial",
    "Verif.Tokenizer.munch_violated",
    "Verif.Tokenizer.dots_violated",
    "Verif.Tokenizer.name_violated"
   ],
   "note": "The tokenizer is modelled character by character, with the splicing of lines, push-back and restart. tokens_partial: every text that C17's phases 1-3 (stated as the relation Lexes: longest token at each position, comments as white space) split into items is split by the compiler into the same items, with type, text, line, first-of-line and white-space flags, for every length. Missing are the pieces excluded by Supported: digraphs, two periods in a row, universal character names, vertical tab and form feed, and others; munch_violated, dots_violated and name_violated show concrete texts on which the compiler differs."
  },
  {
   "property": "C59",
   "status": "partial",
   "theorems": [
    "Verif.Tokenizer.tokens_partial",
    "Verif.Tokenizer.comment_violated",
    "Verif.Tokenizer.comment_swallows",
    "Verif.Tokenizer.comment_end_violated",
    "Verif.Tokenizer.splice_violated"
   ],
   "note": "tokens_partial covers spliced lines and both kinds of comments at any place. It excludes comments that end in an even number of asterisks before the slash and splices with a carriage return: /***/ does not end (comment_violated, comment_swallows), a comment cut off after an asterisk makes the tokenizer read past the end of the file (comment_end_violated), and backslash CR LF stays in the text of a token (splice_violated)."
  },
  {
   "property": "C60",
   "status": "proved",
   "theorems": [
    "Verif.Window.push_back_transparent",
    "Verif.Window.push_back_overfull",
    "Verif.Window.parser_alternates",
    "Verif.Window.push_back_undoes"
   ],
   "note": "For every source of tokens (none of type T_NONE, which no lexer stage produces) and every sequence of t_next and t_push in which a push is followed by a read before the next push: T0, T1, T2 are the first three tokens of the list on which next drops the head and push conses. Two pushes in a row stop the compiler. The parser's two uses are of the required kind."
  },
  {
   "property": "C61",
   "status": "proved",
   "theorems": [
    "Verif.Input.include_search",
    "Verif.Input.include_missing",
    "Verif.Input.include_once"
   ],
   "note": "For every file system, include path list, including file and name the file opened is the first of the prescribed places; for every history of includes, #pragma once and ends of files an include that resolves to p is skipped exactly if #pragma once was seen in a file with the path p. Paths are compared as text, as the statement says; links and different spellings are not identified."
  },
  {
   "property": "C62",
   "status": "partial",
   "theorems": [
    "Verif.Escape.concat_strings_partial",
    "Verif.Escape.concat_mixed_prefix_diagnosed",
    "Verif.Escape.utf16_supplementary_violated"
   ],
   "note": "Supplementary code points in u\"\" are truncated rather than encoded as surrogates (witness)."
  },
  {
   "property": "C63",
   "status": "partial",
   "theorems": [
    "Verif.Macro.stringify_exact_partial",
    "Verif.Macro.stringify_exact_violated"
   ],
   "note": "The literal denotes the text for any token list; literals containing byte 127 make the compiler index out of bounds (witness)."
  },
  {
   "property": "C64",
   "status": "partial",
   "theorems": [
    "Verif.Arguments.command_line_partial",
    "Verif.Arguments.lone_dash_violated",
    "Verif.Arguments.message_violated",
    "Verif.Arguments.unknown_option_accepted",
    "Verif.Arguments.missing_value_accepted",
    "Verif.Arguments.definition_split",
    "Verif.Arguments.dependency_file",
    "Verif.Arguments.short_operand_violated"
   ],
   "note": "Every command line made of operands, known flags, options with values (attached or separate in any mixture), levels and ignored options is read with the meaning of its items. Violated beyond: a lone - is read past its end, -cx as last argument prints a null pointer, an operand of one letter is read before its start; unknown options and missing values are accepted silently."
  },
  {
   "property": "C65",
   "status": "partial",
   "theorems": [
    "Verif.Directives.last_define_violated",
    "Verif.Directives.last_define_diverges",
    "Verif.Directives.define_then_text_partial"
   ],
   "note": "A #define on the last line makes the preprocessor run for ever; any following text line makes it work."
  },
  {
   "property": "C66",
   "status": "partial",
   "theorems": [
    "Verif.Macro.arguments_collected",
    "Verif.Macro.variadic_arguments_collected",
    "Verif.Macro.too_few_arguments_diagnosed",
    "Verif.Macro.too_many_arguments_diagnosed_partial",
    "Verif.Macro.too_many_arguments_diagnosed_violated"
   ],
   "note": "Arguments are collected as the grammar says, any nesting; too few diagnosed; too many diagnosed except that a single extra empty argument, f(1,), is accepted (witness)."
  },
  {
   "property": "C67",
   "status": "proved",
   "theorems": [
    "Verif.Macro.macro_call_substitution",
    "Verif.Macro.argument_expansion",
    "Verif.Macro.macro_call_pasting_partial",
    "Verif.Macro.variadic_call_pasting_partial"
   ],
   "note": "macro_call_substitution: replacement lists without # and ##; arguments may contain object-like macros of any recursion. The _partial theorems extend it to # and ## and to variadic macros, see C68."
  },
  {
   "property": "C68",
   "status": "partial",
   "theorems": [
    "Verif.Macro.macro_call_pasting_partial",
    "Verif.Macro.variadic_call_pasting_partial",
    "Verif.Macro.object_like_pasting",
    "Verif.Macro.pasting_exact_violated",
    "Verif.Macro.paste_punctuators",
    "Verif.Macro.paste_spelling",
    "Verif.Macro.placemarker_violated",
    "Verif.Macro.hash_in_object_like_violated"
   ],
   "note": "Substitution of every replacement list with # and ## (any chains), operands of ## unexpanded and non-empty; violated by the argument on the left of a chain, whose tokens but the last are expanded (F(F(2) 3) with a ## 1). All pairs of punctuators; spelling of every successful paste. Placemarkers paste across to the preceding token, prefixes do not paste to strings, and # in object-like macros is rejected (witnesses)."
  },
  {
   "property": "C69",
   "status": "partial",
   "theorems": [
    "Verif.Macro.unterminated_call_loops",
    "Verif.Macro.unterminated_diagnosed_violated"
   ],
   "note": "Violated: the expander reads the end-of-input token for ever. The positive case (complete calls) is C66/C67."
  },
  {
   "property": "C70",
   "status": "partial",
   "theorems": [
    "Verif.Layout.sysv_bitfields_partial",
    "Verif.Layout.sysv_bitfields_violated"
   ],
   "note": "Exact for structures of bit-fields of one type; members after a bit-field, and bit-fields after an ordinary member, are placed differently (witnesses)."
  },
  {
   "property": "C71",
   "status": "partial",
   "theorems": [
    "Verif.Symbols.typedef_hidden_violated"
   ],
   "note": "Violated for every table: typedef names and objects are kept in separate name spaces (witness typedef int T; { int T;). No positive part beyond C25."
  },
  {
   "property": "C72",
   "status": "partial",
   "theorems": [
    "Verif.Specifiers.const_qualified_partial",
    "Verif.Specifiers.const_qualified_violated"
   ],
   "note": "Right for at most one const; const const int is unqualified (witness)."
  },
  {
   "property": "C73",
   "status": "partial",
   "theorems": [
    "Verif.Memory.assignment_exact_partial",
    "Verif.Memory.assignment_exact_violated",
    "Verif.Codegen.store_slot_exact",
    "Verif.Codegen.store_memory_exact"
   ],
   "note": "A comparison of 8-byte operands has an 8-byte node, so storing it into an int writes 4 bytes past the object (witness); every other operator and type is right."
  },
  {
   "property": "C74",
   "status": "partial",
   "theorems": [
    "Verif.Cast.float_to_int_partial",
    "Verif.Cast.float_to_int_violated",
    "Verif.Cast.float_to_bool_partial",
    "Verif.Cast.float_to_bool_violated",
    "Verif.Cast.float_to_float"
   ],
   "note": "Right for results below 2^63 and for every value but -0.0 to _Bool; witnesses for the rest. Rounding of cvtss2sd/cvtsd2ss is the machine's (trusted base)."
  },
  {
   "property": "C75",
   "status": "proved",
   "theorems": [
    "Verif.Memory.constant_code"
   ],
   "note": "Scalar constants of sizes 1, 2, 4, 8. The path for aggregate constants is not reached by the front end and not modelled."
  },
  {
   "property": "C76",
   "status": "proved",
   "theorems": [
    "Verif.Frame.entry_exit"
   ],
   "note": "Alignments are powers of two up to 2^30 (what _Alignas yields for valid programs)."
  },
  {
   "property": "C77",
   "status": "proved",
   "theorems": [
    "Verif.Call.call_set_up",
    "Verif.Call.call_results"
   ],
   "note": "Assumes slots and argument objects lie outside the outgoing area (C37)."
  },
  {
   "property": "C78",
   "status": "proved",
   "theorems": [
    "Verif.Call.call_keeps",
    "Verif.Call.saved_restored"
   ],
   "note": "The body is required to keep the save slot."
  },
  {
   "property": "C79",
   "status": "partial",
   "theorems": [
    "Verif.Convention.returns_partial",
    "Verif.Convention.returns_violated",
    "Verif.Convention.returns_overrun_violated",
    "Verif.Convention.returns_sse_violated",
    "Verif.Convention.returns_pointer_violated"
   ],
   "note": "Right for memory, one register, and exactly 16 bytes INTEGER,INTEGER. struct{int;double}: second half lost; 12-byte struct: 4 bytes written past the result; {double,double} not implemented; %rax does not get the hidden pointer (witnesses)."
  },
  {
   "property": "C80",
   "status": "partial",
   "theorems": [
    "Verif.StackParam.reads_param_partial",
    "Verif.StackParam.reads_param_violated"
   ],
   "note": "Right unless a local needs more than 16-byte alignment, when %rbp is aligned down and the parameter is read from the wrong place (witness)."
  },
  {
   "property": "C81",
   "status": "partial",
   "theorems": [
    "Verif.VaArg.va_list_partial",
    "Verif.VaArg.va_list_violated"
   ],
   "note": "fp_offset is always 0 and the vector registers are not saved (witness); the other fields are right."
  },
  {
   "property": "C82",
   "status": "partial",
   "theorems": [
    "Verif.StaticInit.static_var_partial",
    "Verif.StaticInit.static_var_violated"
   ],
   "note": "Without compound literals in the initialiser; with one, the variable can be misaligned (witness)."
  },
  {
   "property": "C83",
   "status": "partial",
   "theorems": [
    "Verif.Linker.sections_aligned_partial",
    "Verif.Linker.sections_aligned_violated"
   ],
   "note": "Only if all section sizes are multiples of the alignment: the linker ignores alignments (witness)."
  },
  {
   "property": "C84",
   "status": "partial",
   "theorems": [
    "Verif.Ir.placement_partial",
    "Verif.Ir.operands_dominate_partial",
    "Verif.Ir.placement_violated"
   ],
   "note": "For every graph that is built, sealed and acyclic apart from phis, with any control flow, the result of the recursive search with its marks is characterised exactly: last common dominator of all demands, none without demand. Missing: graphs where a join that control can reach has an operand that it cannot reach (code after a return); there the compiler dereferences a null pointer (placement_violated)."
  },
  {
   "property": "C85",
   "status": "proved",
   "theorems": [
    "Verif.Codegen.float_arithmetic_code",
    "Verif.Codegen.float_negation_code"
   ],
   "note": "The IEEE operations of the machine are a parameter; that addss etc. implement them is part of the trusted machine model."
  },
  {
   "property": "C86",
   "status": "partial",
   "theorems": [
    "Verif.Ir.instruction_order_partial",
    "Verif.Ir.operands_available_partial",
    "Verif.Ir.instruction_order_violated",
    "Verif.Ir.operands_available_violated"
   ],
   "note": "For tame graphs (no instruction waits for itself through a phi of its own block; users of a state that is replaced in its block are in this block) the recursion with its marks lists every block in a right order. Violated beyond: in a loop made with goto the addition is put before the multiplication it depends on although a right order exists; a load that is moved in front of a store is computed before its address. Operands that are phis are left out of operands_available."
  },
  {
   "property": "C87",
   "status": "partial",
   "theorems": [
    "Verif.Ir.states_respected_partial",
    "Verif.Ir.states_respected_violated"
   ],
   "note": "For tame graphs in which every instruction is placed in a block through which its state goes, every way through the lists meets the states that the instructions name. Violated beyond: int f(int c) { int a = 1, *p = &a, b = a; if (c) a = 2; return b; } loads b behind the assignment."
  },
  {
   "property": "C88",
   "status": "partial",
   "theorems": [
    "Verif.Ir.promotion_partial",
    "Verif.Ir.others_stay",
    "Verif.Ir.self_store_violated"
   ],
   "note": "Proved per variable (try_remove_alloc), both directions of the simulation, if no store to the variable stores just what a load of the same variable yields. Violated otherwise: int f(int x) { int y; while (x) { x = x; y = x; } return y; } stores a load of memory that is no longer written, because the table of found values keeps a load that has been replaced. Missing: the composition over all variables in one semantics."
  },
  {
   "property": "C89",
   "status": "partial",
   "theorems": [
    "Verif.Statement.function_returns_partial",
    "Verif.Statement.function_evaluates_partial",
    "Verif.Statement.case_in_loop_violated",
    "Verif.Statement.continue_in_switch_violated",
    "Verif.Statement.default_alone_violated",
    "Verif.Statement.default_label_violated",
    "Verif.Statement.fall_off_violated",
    "Verif.Statement.goto_undefined_violated",
    "Verif.Statement.break_outside_violated"
   ],
   "note": "Both directions, for every accepted body in which labels of a switch do not stand inside a loop inside it, default stands directly in a block, and the end of a function with a value is not reached. Violated beyond: a default in a loop in a switch is lost; continue in a switch in a while statement fails an assertion; `switch (x) default: break;` swallows the next statement; a named label behind `case 1: default:` is rejected; falling off the end executes ud2. Expressions are one token each; the blocks made by && || ?: are part of the expression."
  },
  {
   "property": "C90",
   "status": "partial",
   "theorems": [
    "Verif.Tentative.objects_defined_partial",
    "Verif.Tentative.labels_distinct",
    "Verif.Tentative.tentative_then_extern_violated",
    "Verif.Tentative.extern_initialiser_violated",
    "Verif.Tentative.unsized_array_violated"
   ],
   "note": "For every accepted unit and every name whose declarations are valid: exactly one variable with the right initialiser, linkage, type and alignment, or none. Violated beyond: int x; extern int x; loses the definition, extern int x = 1; is rejected, int x[]; does not become an array of one element."
  },
  {
   "property": "C91",
   "status": "partial",
   "theorems": [
    "Verif.Initial.initialiser_parts_partial",
    "Verif.Initial.initialiser_forms",
    "Verif.Initial.initialiser_meaning",
    "Verif.Initial.comma_after_designator_violated",
    "Verif.Initial.scalar_comma_violated",
    "Verif.Initial.string_comma_violated",
    "Verif.Initial.override_list_violated",
    "Verif.Initial.override_value_violated",
    "Verif.Initial.override_member_violated",
    "Verif.Initial.const_structure_violated"
   ],
   "note": "For every type and every initialiser, with any nesting, designators and braces left out, that does not override earlier initialisers of other parts: the parser takes exactly the initialiser and each part gets the value C says; unknown sizes are completed. Violated beyond: `{ .s.b = 1, 2 }` is rejected when b is the last member of s; `int x = { 1, };` is rejected; `char x[] = { \"abc\", };` stores an address; `{ .s = { 1, 2 }, .s = { 3 } }` merges the lists; `{ .s = v, .s.a = 3 }` fails an assertion; of a union the last member wins instead of the last initialiser; an expression of structure type for a part of the same type initialises only its first member, and what follows goes to the others, if only one of the two is const. An assignment expression is one token."
  },
  {
   "property": "C92",
   "status": "partial",
   "theorems": [
    "Verif.ExprIr.values_computed_partial",
    "Verif.ExprIr.effects_computed_partial",
    "Verif.ExprIr.objects_found_partial",
    "Verif.ExprIr.types_computed_partial",
    "Verif.ExprIr.compound_shift_violated",
    "Verif.ExprIr.bitfield_assignment_violated",
    "Verif.ExprIr.assigned_value_violated",
    "Verif.ExprIr.bitfield_cast_violated"
   ],
   "note": "For all expressions of integers, pointers, arrays, structures, bit-fields and calls, from the construction of the typed tree to the nodes and their meaning, under the restrictions of `lim`: unsigned division below half the range (C33), comparisons of eight bytes not used where their size matters (C73), values that fit in assigned bit-fields, no cast of a bit-field to its own type, compound shifts whose type is the common type, and no change of the object an assigned value was read from before the value is used. Violated beyond: x >>= 1u shifts in unsigned, s.f = 9 has the value 9 for a field of three bits, (x = y) + g() reads y again after g changed it, (unsigned)s.f is promoted to int. Missing: floating types, variable-length arrays, calls of variadic functions and of functions that return structures."
  },
  {
   "property": "C93",
   "status": "partial",
   "theorems": [
    "Verif.DeclaratorProps.declared_type_partial",
    "Verif.DeclaratorProps.type_name_partial",
    "Verif.DeclaratorProps.abstract_declaration_rejected",
    "Verif.DeclaratorProps.named_type_rejected",
    "Verif.DeclaratorProps.definition_scope_partial",
    "Verif.DeclaratorProps.unambiguous",
    "Verif.DeclaratorProps.deref_size_violated",
    "Verif.DeclaratorProps.void_typedef_violated",
    "Verif.DeclaratorProps.const_array_violated",
    "Verif.DeclaratorProps.typedef_in_parentheses_violated",
    "Verif.DeclaratorProps.scope_violated"
   ],
   "note": "For every declarator and every parameter list of any nesting, concrete or abstract, parsed from tokens. Violated beyond: int a[*p] is rejected, int f(V) with typedef void V has a parameter, const A with typedef int A[3] qualifies the pointer instead of the elements, int (T); with a typedef name T of an outer scope is rejected, int (*f(void))(int b) { } keeps b in scope. Missing: storage classes in parameters; structure members are C105."
  },
  {
   "property": "C94",
   "status": "partial",
   "theorems": [
    "Verif.FuncCode.function_partial",
    "Verif.FuncCode.returns_once",
    "Verif.FuncCode.function_violated"
   ],
   "note": "Proved as a simulation of the whole function, block by block, on a machine that runs the lines of assembly, with arbitrary callees, for functions in which no join exchanges values (C38) and which do not both read arguments on the stack and have an object with an alignment of more than 16. Violated in the latter case: the function returns the caller's frame pointer instead of its argument. Floating instructions have meaning except where their code is wrong: comparisons other than > and >= of unordered operands (C35), conversions of negative one- and two-byte integers and of unsigned integers from 2^63 on to floating types (C34). Missing: calls that pass arguments on the stack (C39), variable-length arrays, variadic functions, constants that are structures."
  },
  {
   "property": "C95",
   "status": "partial",
   "theorems": [
    "Verif.TagsProps.tags_partial",
    "Verif.TagsProps.tags_rejected_partial",
    "Verif.TagsProps.inner_tag_violated",
    "Verif.TagsProps.parameter_tag_violated",
    "Verif.TagsProps.forward_tag_violated",
    "Verif.TagsProps.enum_twice_violated",
    "Verif.TagsProps.enum_unknown_violated"
   ],
   "note": "Both directions, as a simulation with a one-to-one renaming of types, for every text in which a tag being defined (and not declared in its scope before) is not used in a scope inside its members first, nor at all if an outer declaration is visible, and in which a lone `struct T;` hides nothing; rejection for texts without enumerations. Violated beyond: struct T { void (*f)(struct T *); } makes another T in the parameter list; an inner struct T { struct T *next; } points to the outer T; an inner `struct T;` refers to the outer T; enumerations may be defined twice and used before their definition."
  },
  {
   "property": "C96",
   "status": "partial",
   "theorems": [
    "Verif.SpecNamesProps.specifiers_named_partial",
    "Verif.SpecNamesProps.specifiers_unnamed_partial",
    "Verif.SpecNamesProps.keyword_and_tag_violated",
    "Verif.SpecNamesProps.two_tags_violated",
    "Verif.SpecNamesProps.name_and_keywords_violated"
   ],
   "note": "Every valid sequence (but long double) gets its type and the parser stops where C says; sequences without the name of a type are rejected exactly if C has no type for them. Violated: int struct S x, struct A struct B x and T short double x are accepted."
  },
  {
   "property": "C97",
   "status": "partial",
   "theorems": [
    "Verif.Assemble.lines_in_image",
    "Verif.Assemble.function_in_image_partial",
    "Verif.Assemble.function_in_image_violated",
    "Verif.Assemble.jump_offset_violated"
   ],
   "note": "Joins C94 (code of functions), C43 (encoder), C46 (object) and C49/C50 (linker). For every function whose sizes and offsets fit in the machine's fields and in which no empty value has its address taken. Violated beyond: the place of an empty value is 0(%rbp), encoded as 0(%rax). Labels are assumed to have distinct names and immediate labels addresses below 2 GiB."
  },
  {
   "property": "C98",
   "status": "partial",
   "theorems": [
    "Verif.Ms.caller_follows",
    "Verif.Ms.callee_follows",
    "Verif.Ms.arguments_arrive",
    "Verif.Ms.result_arrives",
    "Verif.Ms.registers_kept",
    "Verif.Ms.preamble_code",
    "Verif.Ms.unnamed_homed",
    "Verif.Ms.va_start_partial",
    "Verif.Ms.va_arg_code",
    "Verif.Ms.va_start_violated",
    "Verif.Ms.returns_address_violated",
    "Verif.Ms.unprototyped_violated",
    "Verif.Ms.long_double_result_violated"
   ],
   "note": "Caller and callee follow the convention for all argument lists; end to end on the machine the parameters fetched are the bytes passed. Violated: va_start in a variadic function that returns a structure starts one position too early; a function that returns a structure does not return its address in %rax; a double passed to a function without prototype goes to %rcx only; a long double result's address is looked for in %xmm2. Copies of objects passed by address are made by the callee, not by the caller."
  },
  {
   "property": "C99",
   "status": "partial",
   "theorems": [
    "Verif.AsmText.text_reads",
    "Verif.AsmText.text_same_object",
    "Verif.AsmText.text_written_partial",
    "Verif.AsmText.text_written_violated"
   ],
   "note": "Reading back is proved for every text that is written; jumps go to labels whose names do not begin with $ (the compiler jumps only to .L labels). Violated: a string with the byte 127 makes the printer read past its tables, so -S is undefined where the object is written."
  }
 ]
}
