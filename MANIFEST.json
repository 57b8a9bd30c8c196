{"claims": [
{"property": "C01", "status": "proved", "theorems": ["Dice.span_add_least_upper_bound", "Dice.span_add_semilattice", "Dice.span_fold_perm", "Dice.span_add_wf"], "note": "Span union is the least upper bound, a semilattice, and folding is order independent."},
{"property": "C02", "status": "proved", "theorems": ["Dice.position_of_exact", "Dice.position_of_covers", "Dice.position_of_total", "Dice.position_of_line_monotone"], "note": ""},
{"property": "C03", "status": "proved", "theorems": ["Dice.lines_exact", "Dice.lineSpans_tile", "Dice.lines_cover", "Dice.lines_empty_at_line_start"], "note": ""},
{"property": "C04", "status": "proved", "theorems": ["Dice.position_of_exact"], "note": "The UTF-16 column is a component of position_of_exact."},
{"property": "C05", "status": "proved", "theorems": ["Dice.opcode_roundtrip", "Dice.opcode_toByte_injective", "Dice.opcode_ofByte_sound", "Dice.opcode_reject_iff"], "note": ""},
{"property": "C06", "status": "proved", "theorems": ["Dice.forward_jump_lands_iff", "Dice.backward_jump_lands"], "note": "Assembler-level; distances within the 16-bit offset."},
{"property": "C07", "status": "partial", "theorems": ["Dice.forward_jump_lands_iff", "Dice.oversized_jump_silently_wrong", "Dice.oversized_jump_changes_program"], "note": "The property is false of the code: an oversized jump is encoded modulo 2^16 without an error. The negation is proved at assembler level and for a whole program: it is compiled, the source semantics gives true, and every run divides by zero."},
{"property": "C08", "status": "proved", "theorems": ["Dice.constant_pool_faithful", "Dice.constant_pool_stable", "Dice.constant_pool_error_iff"], "note": ""},
{"property": "C09", "status": "proved", "theorems": ["Dice.decodeAt_bytes", "Dice.disassemble_bytes", "Dice.emitted_bytes", "Dice.disassemble_emitted"], "note": ""},
{"property": "C10", "status": "proved", "theorems": ["Dice.live_slots_distinct_and_reserved"], "note": ""},
{"property": "C11", "status": "proved", "theorems": ["Dice.lookup_refines_spec", "Dice.scope_close_restores"], "note": ""},
{"property": "C12", "status": "proved", "theorems": ["Dice.resolveUpvalue_correct", "Dice.capture_at_most_once", "Dice.resolveUpvalue_index_lt"], "note": ""},
{"property": "C13", "status": "proved", "theorems": ["Dice.assigned_variables_are_mutable", "Dice.reassignment_rejected", "Dice.undeclared_rejected"], "note": "OccursIn (Static.lean) is an independent description of which expressions occur where and what names mean there. Both directions: in accepted programs every assigned name stands for a mutable variable, and the two errors of assignments are reported only when some assignment stands where the name is immutable or unknown."},
{"property": "C14", "status": "partial", "theorems": ["Dice.reads_follow_declaration_partial", "Dice.Findings.captured_read_before_init"], "note": "Proved for names of the same function. False for captured names: captured_read_before_init is an accepted program whose closure reads a variable before its declaration."},
{"property": "C15", "status": "partial", "theorems": ["Dice.breaks_in_loops", "Dice.continues_in_loops", "Dice.returns_in_functions", "Dice.errProps_in_functions", "Dice.exports_at_top_level", "Dice.superAccesses_in_methods", "Dice.superCalls_see_self_partial", "Dice.super_call_in_plain_function", "Dice.Findings.continue_in_for_rejected", "Dice.rejected_for_a_reason", "Dice.break_rejected", "Dice.continue_rejected", "Dice.return_rejected", "Dice.errProp_rejected", "Dice.export_rejected", "Dice.superAccess_rejected"], "note": "Illegal uses are rejected, and each of these errors is reported only for a program with such an illegal use. Two gaps, both proved as negations: super(...) in a plain function with a parameter named self is accepted (super_call_in_plain_function), and continue in a for loop is rejected, with an internal error (continue_in_for_rejected)."},
{"property": "C16", "status": "partial", "theorems": ["Dice.panic_causes_partial", "Dice.internal_causes_partial", "Dice.Findings.compiler_panics_variable_and_function", "Dice.Findings.compiler_panics_function_and_class", "Dice.Findings.compiler_panics_super_call", "Dice.Findings.compiler_panics_export_destructured"], "note": "False as stated: four accepted-by-the-grammar programs make the compiler panic. Proved: the complete list of causes of panics and of internal errors, for every syntax tree; no other panic site of the compiler is reachable."},
{"property": "C17", "status": "partial", "theorems": ["Dice.expression_pushes_one_partial", "Dice.subexpression_pushes_one_partial", "Dice.run_restores_stack_partial", "Dice.run_good", "Dice.compile_good", "Dice.Gen.tf", "Dice.Findings.break_under_operand_leaks", "Dice.Findings.inner_chain_exits_outer", "Dice.Findings.break_in_iterator_loop_underflows"], "note": "Proved for every accepted program that is `balanced` (a syntactic check: no break/continue/return/!!/null exit under a pending operand that the compiler does not account for, no break in an iterator loop, literal counts below 256) and within the limits of the encoding, on any initial stack and for any run length. Missing: the unbalanced programs, for which the property is false; the findings prove it."},
{"property": "C18", "status": "partial", "theorems": ["Dice.Sim.compiled_program_agrees_partial", "Dice.Sim.compiled_value_partial", "Dice.Sim.machine_value_partial", "Dice.Sim.machine_error_partial", "Dice.Sim.session_agrees_partial", "Dice.runtime_natives", "Dice.runtime_start", "Dice.runtime_program_agrees_partial", "Dice.Findings.return_loses_captured_variable", "Dice.Findings.break_aliases_captured_variable", "Dice.prelude_evaluates", "Dice.tool_ready", "Dice.tool_program_agrees_partial", "Dice.parseFloat_ne", "Dice.Src.program_bound", "Dice.Src.program_unique"], "note": "A reference evaluator on syntax trees (Verif/Eval.lean: environments, a store, no bytecode, no stack slots) and a simulation with the compiled code on the machine: every value and every runtime error of the evaluator is the machine's, heap, globals and variables included, up to overflow of the machine's stack; the evaluator's bounds on nested calls and iterations do not matter, so a program has at most one meaning (Verif/Bounds.lean); and conversely an answer of the machine is the evaluator's. Any budget, any starting machine with a clean heap, all functions nested to any depth; functions, closures, declared types, classes with bases, constructors, methods and `super`, overloaded operators, objects, lists, `is`, chains with `?`, `!!`, loops over ranges and iterators, modules with imports and exports (the evaluator is given their sources; a module that imports a module that is still being loaded included), and sessions of scripts on one machine (Verif/SimSession.lean). Native functions are a parameter: those that treat the program's functions as opaque are covered, and the native functions of the runtime's classes are proved to be such (Verif/SimNative.lean), so the result holds for programs in a new runtime that use lists, iterators of lists, numbers, texts and reflection. The prelude is covered too: the evaluator evaluates it, the runtime after loading it corresponds to the evaluator's state, and so the result holds for the scripts of the command line tool (Verif/SimPrelude.lean). Missing: the evaluator is stuck (no claim) on native functions that call back (`first`, `filter`, `map` with a function) or show references as text, and where the statement is false or the compiled code leaves the stack unbalanced: jumps out of the scope of a captured variable (two negations), jumps in the middle of an expression or out of a range or iterator loop, functions inside a constructor, `?` in an operand of another chain, `e is T?` for an `e` with effects, a result type that is a local variable (full list at the top of Verif/Eval.lean)."},
{"property": "C19", "status": "proved", "theorems": ["Dice.and_short_circuits", "Dice.or_short_circuits"], "note": "Equivalences between every non-panicking run of the generated code and a short-circuit specification over the operands' runs."},
{"property": "C20", "status": "partial", "theorems": ["Dice.coalesce_left_unless_null", "Dice.nullProp_exits_on_null", "Dice.null_skips_rest_of_chain", "Dice.inner_chain_exits_outer"], "note": "Proved for ?? and for chains that are not inside another chain. A chain nested in an operand of an outer chain exits the outer chain: inner_chain_exits_outer is the counterexample."},
{"property": "C21", "status": "partial", "theorems": ["Dice.operands_in_order_partial", "Dice.pipeline_right_to_left", "Dice.range_end_first", "Dice.is_nullable_twice"], "note": "Left to right for every construct listed in Expr.operands; the counterexamples show that the pipeline and the ranges evaluate the right operand first and that a nullable type test evaluates its operand twice."},
{"property": "C22", "status": "partial", "theorems": ["Dice.while_repeats", "Dice.loop_repeats", "Dice.loop_catches", "Dice.continue_in_for_rejected", "Dice.break_in_iterator_loop_underflows", "Dice.break_under_operand_leaks"], "note": "while and loop agree with the round specification; break and continue reach exactly the enclosing loop. Counterexamples: continue in a for loop is rejected, break in an iterator loop underflows, break under a pending operand leaks."},
{"property": "C23", "status": "partial", "theorems": ["Dice.range_loop_visits_source_partial", "Dice.range_loop_visits_partial", "Dice.range_to_largest_overflows"], "note": "range_loop_visits_source_partial: from source, a loop over an integer range in a balanced program whose body does not capture the loop variable visits exactly the numbers of the range, in order; that the body leaves the loop variable and the bound alone is derived (Gen.spares, runs_spares), not assumed. Missing: bodies that capture the loop variable (covered by agreement with the reference evaluator, C18), and unbalanced programs. range_to_largest_overflows: an inclusive range up to the largest integer overflows."},
{"property": "C24", "status": "partial", "theorems": ["Dice.call_keeps_frame_partial", "Dice.call_passes_arguments", "Dice.parameter_slot", "Dice.Findings.break_under_operand_leaks"], "note": "The frame part holds for all calls, whatever the nesting, once every function around is compiled from balanced source (GoodVM, preserved by all runs: run_good). Missing: unbalanced callees, for which it is false. The argument part has no restriction."},
{"property": "C25", "status": "partial", "theorems": ["Dice.missing_arguments_null_partial", "Dice.call_passes_arguments", "Dice.Findings.missing_argument_not_null", "Dice.call_surplus", "Dice.eval_surplus", "Dice.surplus_ignored_partial"], "note": "False in the code: a variable captured by a closure of a function left by return stays writable after its frame is gone, and a later frame starts with that value (missing_argument_not_null). Proved: a slot without an argument is null except at such positions; parameters see their arguments whatever the number passed; surplus arguments change nothing in a call of a function or class of the program (call_surplus, eval_surplus), and a program whose last call has surplus literals runs on the machine as the program without them, unless the stack overflows (surplus_ignored_partial). Missing: surplus arguments of native functions, which see their number."},
{"property": "C26", "status": "proved", "theorems": ["Dice.int_arith_exact", "Dice.int_arith_overflow", "Dice.int_div_rem", "Dice.int_div_zero", "Dice.int_div_overflow", "Dice.TruncDiv.unique"], "note": "Finding: minimum / -1 and minimum % -1 abort the process (panic) instead of reporting an error; int_div_overflow proves it and int_div_rem that it is the only such pair."},
{"property": "C27", "status": "proved", "theorems": ["Dice.neq_negates_eq", "Dice.eq_scalar_iff", "Dice.int_order", "Dice.bool_order", "Dice.eq_string_undefined"], "note": "Finding: strings have no equality; `==` on two strings is a run-time error unless a global operator #eq is registered (eq_string_undefined). Floats are opaque and excluded."},
{"property": "C28", "status": "partial", "theorems": ["Dice.captured_variable_shared", "Dice.VarRep.fresh", "Dice.capture_shares", "Dice.Findings.return_loses_captured_variable", "Dice.Findings.break_aliases_captured_variable"], "note": "Runtime level: all closures over one variable and its owner read and write one shared variable, across any interleaving of captures, reads, writes and the close. False of whole programs: leaving a function by return or a block by break does not close captured variables (two programs proved to misbehave)."},
{"property": "C29", "status": "proved", "theorems": ["Dice.one_open_capture", "Dice.capture_shares"], "note": "Invariant over all histories of runs."},
{"property": "C30", "status": "proved", "theorems": ["Dice.global_kept", "Dice.storeGlobal_fresh", "Dice.storeGlobal_again", "Dice.loadGlobal_defined", "Dice.loadGlobal_undefined", "Dice.global_write_once"], "note": "For all histories of runs, including failed ones; natives transform only the heap."},
{"property": "C31", "status": "partial", "theorems": ["Dice.import_yields_registered_partial", "Dice.module_yields_exports", "Dice.module_kept", "Dice.module_first", "Dice.module_again", "Dice.module_not_restarted", "Dice.module_not_restarted_inside", "Dice.failed_module_registered"], "note": "Started at most once, and every later importer gets the registered object. import_yields_registered_partial: the importer that runs the module gets the registered object too, for every source text that is balanced and within the limits of the encoding. Missing: unbalanced modules, and machines on which a captured variable of a scope left by a jump still points at the place of the module's first variable. Finding: a module whose body fails stays registered with its half-filled export object."},
{"property": "C32", "status": "proved", "theorems": ["Dice.isClass_iff", "Dice.ancestor_refl", "Dice.ancestor_trans", "Dice.ancestor_antisymm", "Dice.is_instruction", "Dice.classOf_iff", "Dice.heapInv_runAll", "Dice.heapLe_runAll", "Dice.ancestor_stable_iff"], "note": "Invariant HeapInv over all executions, assuming native functions keep it (NativesOk)."},
{"property": "C33", "status": "proved", "theorems": ["Dice.methods_refine", "Dice.inheritClass_derives", "Dice.storeMethod_sets"], "note": "Refinement of the class table to a mathematical method table over all sequences of declarations."},
{"property": "C34", "status": "partial", "theorems": ["Dice.static_fields_shared", "Dice.static_fields_partial", "Dice.Findings.static_member_on_unrelated_class"], "note": "False in the code: Class::with_base clones the base's object, sharing the field map; static_fields_shared proves that a static field stored on any derived class appears on its base, and static_member_on_unrelated_class runs a program. static_fields_partial is what holds: other hierarchies and objects are unaffected."},
{"property": "C35", "status": "proved", "theorems": ["Dice.field_writes_refine", "Dice.writeField_refines", "Dice.writeField_others", "Dice.storeField_writes", "Dice.assignField_writes", "Dice.getIndex_array", "Dice.putIndex_array", "Dice.putIndex_outside", "Dice.createArray_elements"], "note": "Finding: writing an array element out of range panics (putIndex_outside), reading gives null (getIndex_array)."},
{"property": "C36", "status": "proved", "theorems": ["Dice.member_total", "Dice.getField_member", "Dice.loadField_member", "Dice.call_enter", "Dice.enterMem_slots", "Dice.call_native"], "note": "Member is the independent specification of member lookup; call_enter shows the receiver reaches slot 0 of script functions, call_native that native functions get it as first argument."},
{"property": "C37", "status": "proved", "theorems": ["Dice.Grammar.print_parse", "Dice.Grammar.print_parse_source", "Dice.Grammar.print_parse_text", "Dice.Grammar.two_operators", "Dice.Parser.parse_iff", "Dice.Parser.program_unique"], "note": "print_parse prints a tree of operators with only the parentheses the precedence table asks for and parses it back; print_parse_text goes through the text and the lexer as well. parse_iff says the parser accepts exactly the grammar of Grammar.lean, in which each operator has one level, and program_unique that the grammar is unambiguous."},
{"property": "C38", "status": "partial", "theorems": ["Dice.Parser.parse_ends_partial", "Dice.Parser.parser_panics"], "note": "Parsing any token list returns a tree, a reported error, or the todo!() panic of rules.rs:229, and the panic needs a token without a rule (else, in, as, from, mut, arrow, a reserved word) in the input. The recursion bound of the model is never reached. The full statement is false: parser_panics shows the sources `in` and `1 else 2` panic."},
{"property": "C39", "status": "partial", "theorems": ["Dice.Grammar.parse_consumes_partial", "Dice.Grammar.stray_brace_hides", "Dice.Grammar.source_ignored", "Dice.Parser.parse_iff", "Dice.parsed_names", "Dice.Grammar.parsed_without_errors", "Dice.Grammar.errors_rejected"], "note": "If no closing brace of the source closes nothing, all tokens of a source that parses are read and by the grammar write the program. The full statement is false: stray_brace_hides shows that anything may follow a stray closing brace, source_ignored gives sources, and an else without a block is dropped. No token up to where the parser stops is an error token (parsed_without_errors)."},
{"property": "C40", "status": "proved", "theorems": ["Dice.tokens_tile_source", "Dice.spans_ordered", "Dice.token_text_is_slice"], "note": "Tiled/Gap/Found are the specification; spans are byte offsets. The scanner logos generates is modelled as longest match with priorities; an Error token is taken to cover one character (or what the pattern before a failing callback matched)."},
{"property": "C41", "status": "proved", "theorems": ["Dice.word_is_one_token", "Dice.token_is_longest", "Dice.tokens_tile_source", "Dice.lex_spells", "Dice.fixed_lexed", "Dice.fixed_patterns", "Dice.character_classes", "Dice.lexed_iff"], "note": "keywords, punctuation and wordKind are independent tables; Best in tokens_tile_source says that every token of a source is a longest match; lexed_iff says exactly which texts are split into which tokens, touching tokens included."},
{"property": "C42", "status": "partial", "theorems": ["Dice.string_accepted_iff", "Dice.Grammar.string_value_partial", "Dice.Grammar.escapes_not_replaced"], "note": "The acceptance half is proved. The value is the text between the quotes, and this is the value with escapes replaced exactly if there is no backslash; process_string never replaces escapes, so the value half is false in general (escapes_not_replaced)."},
{"property": "C43", "status": "proved", "theorems": ["Dice.symbols_equal_iff_texts_equal", "Dice.intern_fails_iff"], "note": "Over all histories of internings. The interner is a thin wrapper of an external crate, whose documented behaviour is modelled."},
{"property": "C44", "status": "partial", "theorems": ["Dice.global_kept", "Dice.module_kept", "Dice.run_restores_stack_partial", "Dice.run_good", "Dice.Findings.failed_run_leaks_stack"], "note": "False in the code: a run that fails never releases its frame, so the stack stays higher (failed_run_leaks_stack). Globals and modules survive failed runs; after any run, failed or not, the machine is again in a state to which all theorems apply (run_good); a successful run restores the stack."},
{"property": "C45", "status": "partial", "theorems": ["Dice.captures_counted_partial", "Dice.compiled_fits", "Dice.list_count", "Dice.list_count_partial", "Dice.Findings.list_literal_truncated", "Dice.Findings.call_arguments_truncated", "Dice.Findings.variables_truncated"], "note": "True for captures: no function of an accepted program, nested to any depth, captures more than 255 variables. False for lists, calls and variables: the array made for a list literal has the number of elements modulo 256, so it is right exactly up to 255; a call with 256 arguments calls its last argument; variable number 257 of a function overwrites number 1. For counts up to 255 calls and variables are covered by C18."},
{"property": "C46", "status": "partial", "theorems": ["Dice.errProp_returns_failure_partial", "Dice.errProp_failure_is_result", "Dice.error_propagation_leaks"], "note": "Equivalence between runs of e!! and its specification, with the counted pending values dropped. Counterexample: pending values that the compiler does not count stay on the stack."},
{"property": "C47", "status": "proved", "theorems": ["Dice.binDecide_builtin", "Dice.builtin_no_call", "Dice.operator_method", "Dice.operator_global", "Dice.operator_undefined"], "note": ""},
{"property": "C48", "status": "proved", "theorems": ["Dice.parameters_checked", "Dice.call_arguments_conform", "Dice.violated_argument_fails", "Dice.result_checked", "Dice.Gen.guarded", "Dice.call_result_conforms", "Dice.assertTypeOf_iff", "Dice.local_type_enforced", "Dice.result_type_enforced"], "note": "For every function that the compiler translates: its code checks the annotated parameters in order before the body, a failed check ends the call with a type error, every way out of a function with declared result type checks the result, and a call that succeeds leaves a conforming result. Passed checks change nothing but clear the free slot above the stack. Conforms is a separate specification (ancestry of the class of the value; T? admits null). The class is the one the name of the type denotes when it is read."},
{"property": "C49", "status": "partial", "theorems": ["Dice.spacing_ignored_partial", "Dice.lexed_iff", "Dice.lex_spells", "Dice.Grammar.parse_program", "Dice.Findings.empty_comment"], "note": "In every text that is split into tokens without an error, touching tokens included, any blanks, line breaks and comments with text may be put behind any token or in front of all (the insertion begins with a blank): tokens and tree stay the same. False for a comment without text (empty_comment), whose two slashes are tokens; texts with two such tokens in a row are therefore excluded."},
{"property": "C50", "status": "proved", "theorems": ["Dice.members_are_proper", "Dice.derived_constructors_call_super_first", "Dice.function_parameters_distinct", "Dice.operator_parameters_distinct", "Dice.accepted_is_blameless", "Dice.proper_iff", "Dice.duplicateArgs_rejected", "Dice.newMustCallSuper_rejected"], "note": "Closures are not checked for equal parameter names (closure_parameters_may_coincide); the claim is about declarations."},
{"property": "C51", "status": "proved", "theorems": ["Dice.position_shown", "Dice.source_shown", "Dice.report_shown", "Dice.ErrorFmt.trimEnd_trimmed", "Dice.ErrorFmt.number_of_line"], "note": "The specification numbers the lines of the text independently (splitLines, numberedLines, linesOf). Colours and localised messages are parameters. Empty spans are in C52 and C03."},
{"property": "C52", "status": "proved", "theorems": ["Dice.report_total", "Dice.report_reversed_panics", "Dice.ErrorFmt.lines_any"], "note": "Reversed spans do panic (report_reversed_panics)."},
{"property": "C53", "status": "partial", "theorems": ["Dice.trace_order", "Dice.pushed_traces_order", "Dice.trace_entry_shown", "Dice.trace_numbers_partial", "Dice.trace_numbers_wrong"], "note": "False of the code for spans over several lines: every line is shown with the number of the first (trace_numbers_wrong). Order, positions and spans inside one line are proved."},
{"property": "C54", "status": "partial", "theorems": ["Dice.error_codes_distinct_partial", "Dice.error_codes_clash", "Dice.error_codes_without_message"], "note": "False of the code: INVALID_SCRIPT_LOCATION and GLOBAL_ALREADY_EXISTS are both E4002, and E1009 and E4003 have no message. The table is finite, so the check over all of it is a proof."},
{"property": "C55", "status": "proved", "theorems": ["Dice.parsed_integers", "Dice.shown_integers", "Dice.integer_text", "Dice.integer_text_injective", "Dice.int_of_string", "Dice.int_of_text", "Dice.bool_of_string", "Dice.bool_of_text", "Dice.string_add"], "note": "Exact set of accepted texts; through the class and method names of the runtime to the native function."},
{"property": "C56", "status": "partial", "theorems": ["Dice.pow_exact_partial", "Dice.pow_wraps_partial", "Dice.pow_cuts_exponents", "Dice.pow_wrong", "Dice.abs_exact", "Dice.min_max_exact", "Dice.sign_exact"], "note": "pow is exact for exponents from 0 to 2^32-1. False for the others: the exponent is cut to 32 bits (pow_cuts_exponents), so 2.pow(4294967299) is 8 (pow_wrong)."},
{"property": "C57", "status": "proved", "theorems": ["Dice.array_new", "Dice.array_push", "Dice.array_pop", "Dice.array_length", "Dice.array_first", "Dice.pop_push", "Dice.array_iter", "Dice.iter_next", "Dice.iter_yields", "Dice.array_iterates"], "note": "iter_next also covers arrays that change between calls."},
{"property": "C58", "status": "proved", "theorems": ["Dice.map_exact", "Dice.map_length", "Dice.filter_exact", "Dice.first_exact", "Dice.callbacks_swallow_errors"], "note": "For any callback with any state. The connection of the callback to the interpreter (call_function) is not modelled."},
{"property": "C59", "status": "proved", "theorems": ["Dice.natives_keep_heap", "Dice.natives_good", "Dice.natives_never_fail", "Dice.runtime_good", "Dice.boot_good", "Dice.tool_restores_stack_partial"], "note": "Instances of the hypotheses NativesOk, GoodWorld, GoodVM, HeapInv of the other theorems for the real runtime. map, filter and first with a predicate are a panic in this world (see C58)."},
{"property": "C60", "status": "partial", "theorems": ["Dice.int_constants", "Dice.float_constants_partial", "Dice.float_limits_wrong", "Dice.constants_everywhere"], "note": "False: all classes share one map of fields, so Int overwrites Float.MAX and Float.MIN, and every class has the constants of Int and Float."},
{"property": "C61", "status": "partial", "theorems": ["Dice.prelude_loads", "Dice.prelude_evaluates", "Dice.boot_ranges", "Dice.stored_range_visits_partial", "Dice.direct_visits", "Dice.stored_range_sum_partial", "Dice.tool_range_sum_partial", "Dice.stored_inclusive_fails", "Dice.stored_range_overflows"], "note": "The prelude loads in every build. For all bounds below the greatest integer and any body that keeps the iterator, the loop over a stored exclusive range has the rounds of the numbers of the range, as the loop over the range itself has (evaluator after the prelude; the simulation carries programs to the machine, as for the sum of the numbers). False for inclusive ranges, whose loop is an error, and for exclusive ranges up to the greatest integer, whose loop panics at its end when overflow is checked."},
{"property": "C62", "status": "partial", "theorems": ["Dice.fields_exact", "Dice.methods_exact", "Dice.class_of_exact", "Dice.class_of_instance_partial", "Dice.null_class_wrong", "Dice.builtin_classes", "Dice.name_and_base"], "note": "False for null: class_of() says Any, but null is no instance of Any. All else is proved."},
{"property": "C63", "status": "partial", "theorems": ["Dice.make_result", "Dice.made_isResult", "Dice.errProp_result", "Dice.propagating_ok", "Dice.propagating_err", "Dice.map_ok", "Dice.map_err", "Dice.boot_results", "Dice.boot_storable", "Dice.tool_result_holds_partial", "Dice.results_hold_partial", "Dice.ok_goes_on_partial", "Dice.err_returns_partial", "Dice.result_map_partial"], "note": "In the reference evaluator after the prelude, for all values that are null or instances of Any (everything that exists after the prelude is, except symbols, which are no values of programs): Ok and Err hold the value, `!!` goes on with it or returns the Err itself, map calls the function for Ok only. tool_result_holds_partial carries this to the machine for any expression; for null, unit, booleans, integers, floats and strings all of it is also proved on the machine directly. Missing: that all values of later states are instances of Any is a hypothesis."},
{"property": "C64", "status": "partial", "theorems": ["Dice.iterator_loop_visits_partial", "Dice.array_loop_visits_partial"], "note": "For bodies without continue that keep the stack and the iterator; break and return are covered by the specification, but break in such a loop leaves the stack too low (C22)."},
{"property": "C65", "status": "proved", "theorems": ["Dice.compiled_verified", "Dice.Verified.disassembles", "Dice.Verified.jump_apart", "Dice.Verified.reaches_boundary", "Dice.Verified.fetches"], "note": "Every accepted program within the limits of the encoding (Sized: code of each function below 32768 bytes, at most 256 slots) passes the verifier of Verifier.lean, which reads the bytes and does not use the structured code. For any machine state and any calls the loop stands on instruction boundaries only. Beyond the limits the compiler truncates jump distances and slots without a report (C07, C45)."},
{"property": "C66", "status": "proved", "theorems": ["Dice.float_order", "Dice.nan_order", "Dice.float_same", "Dice.literal_value", "Dice.parseFloat_ne"], "note": "floatNumber reads the number off the bits as IEEE 754 lays them out and does not use Lean's comparison. float_same, literal_value and parseFloat_ne are the part about literals and shared constants. That Rust's f64 is Lean's Float is trusted."},
{"property": "C67", "status": "proved", "theorems": ["Dice.Files.import_confined", "Dice.Files.outside_unread", "Dice.Files.run_unread"], "note": "The file system is a parameter: what is found under each absolute path; realpath is modelled with ., .., links and a bound on the links followed. Changes of the file system between the check and the reading are not modelled, and whether directories outside exist can be seen (example in FileLoaderProps)."},
{"property": "C68", "status": "partial", "theorems": ["Dice.Files.same_file_same_code", "Dice.Files.dot_spelling", "Dice.Files.spellings_are_modules"], "note": "False: modules are registered under the text of the import, so m and ./m are two modules with their own variables (spellings_are_modules). Proved: names that lead to the same file give the same code. That one spelling is one module is C31."},
{"property": "C69", "status": "partial", "theorems": ["Dice.Repl.input_text", "Dice.Repl.two_lines_rejected", "Dice.Repl.three_lines_tokens", "Dice.Repl.three_lines_call"], "note": "False: the marks stay in the text. For all lines without comments: with one mark the input is rejected, with two the lines between them become the argument of a call."},
{"property": "C70", "status": "partial", "theorems": ["Dice.expand_compiled", "Dice.same_code", "Dice.Src.element_update", "Dice.Src.field_update", "Dice.field_update_value", "Dice.Src.keeps_env", "Dice.Src.while_is_loop"], "note": "Variables and missing else: same code for all programs. Elements a[i] of variables: equal evaluation. Fields x.f of variables: equal evaluation but for the value; that is false, the update gives () and the assignment the value (field_update_value). Receivers other than variables are evaluated once by the update and twice by its expansion, so the statement is about variables. While: equal evaluation if the condition declares no variable outside a block."},
{"property": "C71", "status": "partial", "theorems": ["Dice.Src.variable_kept", "Dice.Src.quiet_kept", "Dice.Src.safe_calls", "Dice.class_overwrites_variable"], "note": "The first sentence is proved for the reference evaluator (which C18 relates to the compiled code); the condition is by name, over the whole program and the functions in the state. The second sentence is false: a class declaration overwrites an immutable variable of its name in the same block (class_overwrites_variable)."},
{"property": "C72", "status": "partial", "theorems": ["Dice.Src.constructor_gives_receiver", "Dice.Src.construction_gives_instance", "Dice.Src.homes_eval", "Dice.constructor_gives_other", "Dice.constructor_gives_null"], "note": "Proved for the reference evaluator (which C18 relates to the compiled code) for constructors that do not declare self again. False otherwise: a constructor with let self = 5 gives 5 (constructor_gives_other), and one whose self is captured by a function gives null (constructor_gives_null)."},
{"property": "C73", "status": "partial", "theorems": ["Dice.mutable_assigned_partial", "Dice.destructured_not_mutable"], "note": "Proved for variables declared with let mut and a name, however nested or captured; false for let mut with a pattern: the compiler ignores mut there."},
{"property": "C74", "status": "proved", "theorems": ["Dice.Src.destructuring_reads_fields", "Dice.Src.destructuring_is_declarations", "Dice.Src.import_reads_fields"], "note": "On the reference evaluator, which compiled code follows (C18)."},
{"property": "C75", "status": "partial", "theorems": ["Dice.Src.object_literal_partial", "Dice.Src.nested_literal_partial", "Dice.text_key_keeps_quotes"], "note": "Proved for entries whose values are literals, variables, functions, and objects and arrays of them; values computed by operators and calls are missing. False for keys written as texts, which keep their quotation marks."},
{"property": "C76", "status": "partial", "theorems": ["Dice.missing_constructor_partial", "Dice.arguments_skip_constructors", "Dice.constructor_skipped_by_argument", "Dice.constructor_skipped_by_class"], "note": "Proved for calls without arguments and constructors of the direct base; false for every hierarchy with arguments, and for constructors of older ancestors."},
{"property": "C77", "status": "proved", "theorems": ["Dice.Src.export_sets_field"], "note": "On the reference evaluator, which compiled code follows (C18). Together with import_reads_fields (C74) this is what importers read."},
{"property": "C78", "status": "partial", "theorems": ["Dice.first_import_fails_partial", "Dice.failed_import_succeeds", "Dice.failed_import_stays"], "note": "Proved for the first import. False for later ones, which give the empty object registered before the module was loaded, whatever runs in between and even if the module can be loaded by then."}
]}
