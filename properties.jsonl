{"id": "C01", "title": "Span union is the smallest covering span", "statement": "Adding two source spans yields a span that contains both of them and is contained in every span that contains both; the operation is commutative, associative and idempotent, so the span reported for a syntax node does not depend on the order in which its parts were combined.", "quantifier": "all pairs and triples of spans and all candidate covering spans", "why_tests_cant": "The claim ranges over all machine integers and over every regrouping of a list of spans; tests see a handful.", "anchors": ["dice-core/src/span.rs: impl Add for Span"]}
{"id": "C02", "title": "Offset to line/column is exact", "statement": "For every source text and every byte offset not past its end, the reported line number is the number of line feeds before the offset and the reported column is the number of bytes since the last line feed (or the start); line start plus column gives back the offset, and positions are monotone in the offset.", "quantifier": "all UTF-8 source texts and all offsets in them", "why_tests_cant": "Line tables and binary search have boundary cases at every newline, at the end of file and on empty lines; a sample of texts cannot cover all boundary combinations.", "anchors": ["dice-core/src/source.rs: LineIndex::new, LineIndex::position_of, partition_point"]}
{"id": "C03", "title": "Line ranges of a span are exactly the lines it touches", "statement": "The line ranges listed for a span are non-empty, consecutive (each starts where the previous ends), begin at a line start, and together cover the whole span; no listed line lies wholly before or after the span.", "quantifier": "all source texts and all spans inside them", "why_tests_cant": "Depends on the relation of both endpoints to every newline position; unbounded text shapes.", "anchors": ["dice-core/src/source.rs: LineIndex::lines"]}
{"id": "C04", "title": "UTF-16 column conversion counts code units", "statement": "For every line and every byte column at a character boundary, the UTF-16 column computed from the line table equals the number of UTF-16 code units before that column in that line.", "quantifier": "all texts, lines and character-boundary columns", "why_tests_cant": "Mixed 1/2/3/4-byte characters in any order give an unbounded input space.", "anchors": ["dice-core/src/source.rs: LineIndex::new (utf16_lines), convert_to_utf16_column"]}
{"id": "C05", "title": "Opcode encoding is a bijection", "statement": "Every instruction written as a byte is read back as the same instruction, distinct instructions have distinct bytes, and a byte that is not the code of any instruction is rejected rather than misread.", "quantifier": "all instructions and all 256 byte values", "why_tests_cant": "Holds over the full table in both directions including the rejected bytes; the tests never enumerate it.", "anchors": ["dice-bytecode/src/instruction.rs: Instruction, From<u8>, Into<u8>"]}
{"id": "C06", "title": "Patched and backward jumps land on their target", "statement": "Whatever code is emitted between a forward jump and the point where it is patched, executing the jump moves the program counter exactly to the patch point; a backward jump moves exactly to the recorded loop start; both as long as the distance fits in a signed 16-bit operand.", "quantifier": "all code sizes and all jump distances representable in the operand", "why_tests_cant": "The operand is a big-endian two's-complement encoding with different bias for forward and backward jumps; the off-by-one and sign cases must hold for every distance.", "anchors": ["dice-compiler/src/assembler.rs: jump, jump_if_false, jump_if_true, patch_jump, jump_back", "dice-bytecode/src/cursor.rs: read_offset, offset_position"]}
{"id": "C07", "title": "Oversized jumps are never silently miscompiled", "statement": "A program whose control-flow construct is too long for the 16-bit jump operand is rejected at compile time; the compiler never emits a jump to the wrong place.", "quantifier": "all programs, in particular with bodies over 32 KiB of bytecode", "why_tests_cant": "Only very large generated programs reach the limit and there the behaviour depends on the exact size modulo 65536.", "anchors": ["dice-compiler/src/assembler.rs: patch_jump, jump_back"]}
{"id": "C08", "title": "Constant pool is faithful and stable", "statement": "Adding a constant returns an index at which an equal constant is stored, never changes the constant stored at an index handed out before, never stores two equal constants, keeps the pool at most 256 entries and reports an error exactly when a new constant would need an index over 255.", "quantifier": "all sequences of constant additions", "why_tests_cant": "It is an invariant over unbounded histories; truncating the index to a byte would only show with more than 256 constants.", "anchors": ["dice-compiler/src/assembler.rs: make_constant, push_const"]}
{"id": "C09", "title": "Decoding stays in step with emission", "statement": "For every sequence of emitted instructions, decoding the byte stream from the start yields exactly that sequence of instructions and operands; no operand byte is ever decoded as an opcode, so the disassembler and the interpreter see the same program as was compiled.", "quantifier": "all sequences of assembler calls with all operand values", "why_tests_cant": "Losing synchronisation needs a particular combination of instruction widths; closures have variable-width operands.", "anchors": ["dice-compiler/src/assembler.rs: emitters", "dice-bytecode/src/lib.rs: Display for Bytecode", "dice-bytecode/src/cursor.rs"]}
{"id": "C10", "title": "Live variables never share storage", "statement": "In every function, two variables whose scopes are open at the same time are stored in different stack slots, and every slot used is below the slot count reserved for the function's frame.", "quantifier": "all sequences of scope openings, closings and declarations", "why_tests_cant": "Slot reuse after closing a scope interacts with nested scopes in unboundedly many ways.", "anchors": ["dice-compiler/src/scope_stack.rs: push_scope, pop_scope, add_local, slots"]}
{"id": "C11", "title": "A name denotes its innermost latest declaration", "statement": "Name lookup finds the most recent declaration in the innermost enclosing scope that declares the name; declarations in closed scopes are never found; closing a scope restores exactly the visibility from before it was opened.", "quantifier": "all scope histories and names", "why_tests_cant": "Invariant over unbounded nesting and shadowing histories.", "anchors": ["dice-compiler/src/scope_stack.rs: local, add_local, push_scope, pop_scope"]}
{"id": "C12", "title": "Captured variables resolve to the same variable through every nesting level", "statement": "When a function at any nesting depth uses a variable of an enclosing function, following the chain of capture descriptors recorded at each level ends at exactly the slot of the innermost visible declaration of that name in the nearest enclosing function that declares it; each function captures a given variable at most once; the declaring function knows the variable is captured.", "quantifier": "all nestings of functions, any depth and any set of names", "why_tests_cant": "The descriptor chain is built recursively; correctness for all depths needs induction.", "anchors": ["dice-compiler/src/compiler_stack.rs: add_upvalue, resolve_upvalue, CompilerContext::upvalue", "dice-compiler/src/upvalue.rs"]}
{"id": "C13", "title": "Immutable variables cannot be reassigned", "statement": "No accepted program contains an assignment or compound assignment to a variable that was not declared mutable, whether the variable is local or captured from an enclosing function.", "quantifier": "all programs", "why_tests_cant": "A single missed path (captured, compound, nested) breaks it; the set of programs is infinite.", "anchors": ["dice-compiler/src/visitor/expr_assignment.rs", "dice-compiler/src/upvalue.rs: is_mutable"]}
{"id": "C14", "title": "Variables are never read before initialisation", "statement": "No accepted program reads a local variable before its declaration has been executed.", "quantifier": "all programs, including those where a nested function captures a variable declared later", "why_tests_cant": "Needs reasoning about all declaration orders and captures.", "anchors": ["dice-compiler/src/visitor/literal_variable.rs", "dice-compiler/src/decl_scan.rs", "dice-compiler/src/visitor/decl_var.rs"]}
{"id": "C15", "title": "Control-flow statements only where they are legal", "statement": "A program is rejected if break or continue is used outside a loop of the same function, return outside a function, export outside the top level of a module, or super outside a suitable method; conversely such uses in legal places are accepted.", "quantifier": "all programs and all nesting contexts", "why_tests_cant": "The context in which a statement occurs can be nested arbitrarily.", "anchors": ["dice-compiler/src/visitor/expr_break.rs", "dice-compiler/src/visitor/expr_continue.rs", "dice-compiler/src/visitor/expr_return.rs", "dice-compiler/src/visitor/decl_export.rs", "dice-compiler/src/visitor/expr_super_call.rs"]}
{"id": "C16", "title": "Compilation never panics", "statement": "Compiling any syntax tree that the parser can produce either yields bytecode or an error value; the compiler never aborts the process.", "quantifier": "all syntax trees", "why_tests_cant": "Panics hide in combinations of declarations that nobody thought to write as a test.", "anchors": ["dice-compiler/src/visitor/decl_fn.rs: emit_fn", "dice-compiler/src/visitor/decl_export.rs", "dice-compiler/src/visitor/expr_super_call.rs"]}
{"id": "C17", "title": "Evaluating an expression adds exactly one value to the stack", "statement": "For every accepted expression, running its bytecode on any stack leaves every value that was on the stack unchanged and pushes exactly one result; a block, an if in either branch, a loop and a declaration likewise produce exactly one value.", "quantifier": "all accepted programs and all initial stacks", "why_tests_cant": "Stack imbalance shows only on particular control paths; needs induction over programs and executions.", "anchors": ["dice-compiler/src/visitor/*", "dice-runtime/src/interpreter/mod.rs: execute"]}
{"id": "C18", "title": "Compiled code computes what the source says", "statement": "For every accepted program, running the compiled bytecode produces the value (or runtime error) that evaluating the syntax tree directly produces, with the same effects on variables.", "quantifier": "all programs of the modelled language fragment, all inputs and all run lengths", "why_tests_cant": "This is compiler correctness: infinitely many programs and unbounded executions.", "anchors": ["dice-compiler/src/visitor/*", "dice-runtime/src/interpreter/mod.rs: execute"]}
{"id": "C19", "title": "Logical operators short-circuit and are boolean", "statement": "In `a && b` the right side is evaluated iff the left is true, in `a || b` iff the left is false; the result is the boolean of the last operand evaluated, and a non-boolean operand that is evaluated gives an error instead of a value.", "quantifier": "all operand expressions, including ones with effects, errors and divergence", "why_tests_cant": "Unevaluated operands must have no effect whatever they are.", "anchors": ["dice-compiler/src/visitor/expr_binary_op.rs: logical_and, logical_or", "dice-runtime/src/interpreter/mod.rs: assert_bool, jump_if_false, jump_if_true"]}
{"id": "C20", "title": "Null coalescing and null propagation", "statement": "`a ?? b` is a when a is not null and otherwise b, and b is evaluated only in that case; in a chain `x?.y.z(...)` a null at a `?` skips the whole rest of the chain (including call arguments) and makes the chain null.", "quantifier": "all operand expressions and all chains of accesses and calls", "why_tests_cant": "Chains have unbounded length and the skip target depends on the nesting of calls inside arguments.", "anchors": ["dice-compiler/src/visitor/expr_null_propagate.rs", "dice-compiler/src/visitor/syntax_node.rs: enter_call, exit_call", "dice-compiler/src/visitor/expr_binary_op.rs: coalesce"]}
{"id": "C21", "title": "Operands are evaluated once, left to right", "statement": "Every operand of an operator, call, list, object literal or range is evaluated exactly once and in source order.", "quantifier": "all expressions with effects", "why_tests_cant": "Order of effects matters for every combination of effectful operands.", "anchors": ["dice-compiler/src/visitor/expr_binary_op.rs", "dice-compiler/src/visitor/expr_fn_call.rs", "dice-compiler/src/visitor/expr_is.rs", "dice-compiler/src/visitor/expr_range_loop.rs"]}
{"id": "C22", "title": "Loops run their body exactly as long as the condition holds", "statement": "`while c { b }` evaluates c, then b and again as long as c is true, stops at the first false, and yields unit; `loop` repeats until break; break leaves the innermost loop and continue starts its next iteration; the stack depth at loop exit equals the depth at entry plus the result.", "quantifier": "all loop bodies and all iteration counts", "why_tests_cant": "Unbounded iteration counts and arbitrary nesting of break/continue.", "anchors": ["dice-compiler/src/visitor/expr_while.rs", "dice-compiler/src/visitor/expr_loop.rs", "dice-compiler/src/visitor/expr_break.rs", "dice-compiler/src/visitor/expr_continue.rs"]}
{"id": "C23", "title": "Range loops iterate exactly over the range", "statement": "`for i in a..b` runs its body with i = a, a+1, ..., b-1 in that order (and `a..=b` up to b), not at all when the range is empty, and always terminates if the body does.", "quantifier": "all integer bounds, including the extremes of the integer type", "why_tests_cant": "Off-by-one and overflow at the extremes for all pairs of bounds.", "anchors": ["dice-compiler/src/visitor/expr_range_loop.rs"]}
{"id": "C24", "title": "Calls preserve the caller's frame", "statement": "Calling a function replaces the callee and its arguments by exactly one result and leaves every other value of the caller (locals and temporaries) unchanged unless the callee assigns a captured variable; the callee sees its arguments in order in its parameter variables.", "quantifier": "all functions, arguments and call depths", "why_tests_cant": "Needs an invariant over arbitrary call nesting.", "anchors": ["dice-runtime/src/interpreter/helper.rs: call_fn, call_fn_script, call_fn_native", "dice-runtime/src/stack/mod.rs", "dice-runtime/src/stack/frame.rs"]}
{"id": "C25", "title": "Missing arguments are null and surplus arguments are ignored", "statement": "A parameter for which no argument is passed is null whatever values were on the stack earlier; passing more arguments than parameters does not change what the function computes.", "quantifier": "all call histories, arities and argument counts", "why_tests_cant": "Frames reuse stack memory without clearing it; stale values could leak only after particular histories.", "anchors": ["dice-runtime/src/stack/mod.rs: reserve_slots, release_stack_frame, pop, pop_count", "dice-runtime/src/interpreter/helper.rs: call_fn_script"]}
{"id": "C26", "title": "Integer arithmetic is exact or an error", "statement": "On integers the operators + - * compute the mathematical result when it fits in 64 bits and otherwise wrap or abort (build setting), / truncates toward zero and % has the sign of the dividend with a = (a/b)*b + a%b whenever the quotient fits in 64 bits, division or remainder by zero is a reported error, and the one overflowing pair (minimum, -1) is the only one that aborts.", "quantifier": "all pairs of 64-bit integers", "why_tests_cant": "2^128 pairs, with corner cases at the minimum integer and zero.", "anchors": ["dice-runtime/src/interpreter/mod.rs: mul, div, rem, add, sub, neg"]}
{"id": "C27", "title": "Equality and comparison laws", "statement": "`!=` is always the negation of `==` on built-in values; `==` on null, unit, booleans and integers (also mixed) is total and holds exactly for identical values, hence is an equivalence, while strings have no built-in equality; on integers exactly one of <, ==, > holds, <= is the negation of > and >= the negation of <.", "quantifier": "all pairs and triples of values", "why_tests_cant": "Laws over all values of all kinds including mixed kinds.", "anchors": ["dice-runtime/src/interpreter/mod.rs: eq, neq, gt, gte, lt, lte", "dice-runtime/src/value.rs: PartialEq for Value"]}
{"id": "C28", "title": "Closures share captured variables", "statement": "A captured variable behaves as one shared cell: every closure capturing it and the declaring function see each other's assignments, before and after the declaring scope ends; closing the scope never changes the value seen, and later reuse of the stack slot never affects it.", "quantifier": "all interleavings of capture, read, write and scope exit over any number of closures", "why_tests_cant": "Aliasing bugs need particular interleavings of capture, assignment, scope exit and slot reuse.", "anchors": ["dice-runtime/src/interpreter/mod.rs: create_closure, load_upvalue, store_upvalue, assign_upvalue, close_upvalue", "dice-runtime/src/upvalue.rs", "dice-runtime/src/interpreter/helper.rs: find_open_upvalue"]}
{"id": "C29", "title": "At most one open capture per variable", "statement": "At any time there is at most one open capture record for a given stack slot, so that two closures capturing the same live variable always share it.", "quantifier": "all execution histories", "why_tests_cant": "Invariant over unbounded histories of captures and scope exits.", "anchors": ["dice-runtime/src/interpreter/mod.rs: create_closure, close_upvalue", "dice-runtime/src/interpreter/helper.rs: find_open_upvalue"]}
{"id": "C30", "title": "Globals are write-once", "statement": "After a global has been stored, every later read yields that value and every later store to the name is an error that leaves it unchanged; reading an undefined global is an error.", "quantifier": "all histories of global stores and loads", "why_tests_cant": "Invariant over unbounded histories.", "anchors": ["dice-runtime/src/interpreter/mod.rs: store_global, load_global"]}
{"id": "C31", "title": "A module is executed at most once and shared", "statement": "However often and from wherever a module is imported, its body is started at most once and all importers receive the same export object, including in import cycles.", "quantifier": "all import graphs and import histories", "why_tests_cant": "Import graphs and orders are unbounded; cycles are special.", "anchors": ["dice-runtime/src/interpreter/mod.rs: load_module", "dice-runtime/src/runtime.rs: run_module"]}
{"id": "C32", "title": "`is` agrees with the declared class hierarchy", "statement": "`x is C` is true exactly when C is the class of x or one of its ancestors, for every hierarchy; the relation on classes is reflexive, transitive and antisymmetric, and unrelated classes with equal names are distinguished.", "quantifier": "all class hierarchies of any depth", "why_tests_cant": "Induction over arbitrary inheritance histories.", "anchors": ["dice-runtime/src/value/class.rs: Class::new, with_base, is_class", "dice-runtime/src/value/object.rs: is_instance_of"]}
{"id": "C33", "title": "Method lookup follows inheritance", "statement": "A class declared with a base has exactly the base's methods at that time except the constructor, plus its own, its own taking precedence; later changes to the derived class never affect the base; constructors are never inherited.", "quantifier": "all hierarchies and method tables", "why_tests_cant": "Unbounded hierarchies and override histories.", "anchors": ["dice-runtime/src/value/class.rs: with_base, set_method, method", "dice-runtime/src/interpreter/mod.rs: store_method, inherit_class"]}
{"id": "C34", "title": "Static fields belong to one class", "statement": "Setting a static field on a class does not change static fields of its base class or of sibling classes.", "quantifier": "all hierarchies and field assignment histories", "why_tests_cant": "Aliasing between classes depends on the history.", "anchors": ["dice-runtime/src/value/class.rs: with_base", "dice-runtime/src/value/object.rs: deep_clone"]}
{"id": "C35", "title": "Object field and array element laws", "statement": "Reading a field or element after writing it gives the value written, other fields, elements and objects are unaffected, and reading outside an array's bounds gives null.", "quantifier": "all objects, arrays, keys, indices and write histories", "why_tests_cant": "Law over unbounded histories with aliasing.", "anchors": ["dice-runtime/src/value/object.rs: set_field, field", "dice-runtime/src/interpreter/mod.rs: load_field, store_field, assign_field, load_index, store_index, assign_index"]}
{"id": "C36", "title": "Fields shadow methods and method access binds the receiver", "statement": "Accessing a member yields the object's own field if it exists, else the class method bound to the object, else null; calling a bound method passes the object as self.", "quantifier": "all objects and member names", "why_tests_cant": "Depends on arbitrary field and method tables.", "anchors": ["dice-runtime/src/interpreter/helper.rs: get_field, get_method, call_fn"]}
{"id": "C37", "title": "Operator precedence and associativity", "statement": "For every expression tree, writing it with only the parentheses the precedence table requires and parsing the result gives the same tree: tighter operators group first and equal-precedence binary operators associate to the left.", "quantifier": "all expression trees over all unary, binary and postfix operators", "why_tests_cant": "Infinitely many operator combinations; a wrong entry shows only for particular pairs in particular positions.", "anchors": ["dice-syntax/src/parser/mod.rs: parse_precedence, binary_operator, prefix_operator", "dice-syntax/src/parser/rules.rs: ParserRules::new, RulePrecedence"]}
{"id": "C38", "title": "Parsing terminates without panic on every input", "statement": "For every token sequence the parser terminates with a tree or an error value; it never loops and never aborts.", "quantifier": "all token sequences", "why_tests_cant": "The input space is infinite and ill-formed inputs are rarely tested.", "anchors": ["dice-syntax/src/parser/mod.rs: parse, expression_sequence, parse_precedence", "dice-syntax/src/parser/rules.rs: for_token"]}
{"id": "C39", "title": "Parsing consumes the whole source", "statement": "If parsing succeeds, every token of the source is accounted for in the tree: no suffix of the program is silently ignored.", "quantifier": "all token sequences that parse", "why_tests_cant": "Silent truncation is invisible unless the ignored part is observable.", "anchors": ["dice-syntax/src/parser/mod.rs: parse, expression_sequence"]}
{"id": "C40", "title": "Tokens tile the source", "statement": "The spans of the tokens produced for any source are in order, disjoint, non-empty and inside the source, every token's text is the slice at its span, and everything between tokens is whitespace or a line comment.", "quantifier": "all source texts", "why_tests_cant": "Infinite inputs; slips occur at comment ends, end of file and error tokens.", "anchors": ["dice-syntax/src/lexer/mod.rs: Lexer::from_source", "dice-syntax/src/lexer/token.rs: TokenKind"]}
{"id": "C41", "title": "Longest match and keyword recognition", "statement": "At a token boundary, a maximal run of identifier characters starting with a letter or underscore is always one token: a keyword exactly when it equals a keyword, otherwise an identifier; multi-character operators are never split when a longer operator matches.", "quantifier": "all source texts", "why_tests_cant": "Every prefix/extension combination of keywords and operators must be right.", "anchors": ["dice-syntax/src/lexer/token.rs: TokenKind"]}
{"id": "C42", "title": "String literals denote their text", "statement": "A string literal is accepted iff every backslash starts a supported escape, and its value is the text between the quotes with escapes replaced by the characters they denote.", "quantifier": "all string literal contents", "why_tests_cant": "Escapes at any position and in any combination.", "anchors": ["dice-syntax/src/lexer/token.rs: lex_string", "dice-syntax/src/parser/mod.rs: process_string"]}
{"id": "C43", "title": "Symbols are equal iff their texts are equal", "statement": "Interning the same text always gives the same symbol, different texts give different symbols, and resolving a symbol gives back its text, at any later time.", "quantifier": "all interning histories", "why_tests_cant": "Invariant over unbounded histories.", "anchors": ["dice-runtime/src/value/symbol.rs: SymbolInterner"]}
{"id": "C44", "title": "Failed runs do not corrupt the runtime", "statement": "After a script ends with a runtime error, running another script on the same runtime behaves as if the failed script had stopped at the error: globals and modules stay, and stack depth returns to what it was before the run.", "quantifier": "all sequences of runs, failing at any instruction", "why_tests_cant": "The failure point is arbitrary; leftovers accumulate over histories.", "anchors": ["dice-runtime/src/runtime.rs: run, run_module", "dice-runtime/src/interpreter/helper.rs: call_fn_script", "dice-runtime/src/stack/mod.rs: release_stack_frame"]}
{"id": "C45", "title": "Operand counts are never truncated", "statement": "List literals, calls and functions with more elements, arguments, locals or captures than a byte can count are rejected or handled correctly; the compiler never emits a truncated count.", "quantifier": "all sizes", "why_tests_cant": "Only programs beyond 255 items expose truncation.", "anchors": ["dice-compiler/src/visitor/literal_list.rs", "dice-compiler/src/visitor/expr_fn_call.rs", "dice-compiler/src/assembler.rs: closure", "dice-compiler/src/visitor/literal_variable.rs"]}
{"id": "C46", "title": "Error propagation returns early with the failing value", "statement": "`e!!` yields the result of e when e is a success value and otherwise returns from the enclosing function immediately with the failing value, leaving the caller's stack as after a normal return.", "quantifier": "all functions and all positions of the operator inside expressions", "why_tests_cant": "Temporaries on the stack at the point of propagation vary without bound.", "anchors": ["dice-compiler/src/visitor/expr_error_propagate.rs", "dice-compiler/src/visitor/expr_return.rs"]}
{"id": "C47", "title": "User-defined operators", "statement": "Applying a binary operator to values without a built-in meaning calls the operator method of the left operand's class if there is one, else the global operator function, with the left operand first; built-in pairs never reach user code.", "quantifier": "all operand values and all operator definitions", "why_tests_cant": "Dispatch depends on arbitrary class tables and globals.", "anchors": ["dice-runtime/src/interpreter/helper.rs: call_binary_op", "dice-runtime/src/interpreter/mod.rs: mul..sub"]}
{"id": "C48", "title": "Declared types are enforced", "statement": "A call whose argument does not satisfy the declared parameter type, or whose result does not satisfy the declared return type, ends in a type error; otherwise the annotation has no effect; `T?` additionally admits null.", "quantifier": "all functions, annotations and argument values", "why_tests_cant": "Every return path of every body must be covered.", "anchors": ["dice-compiler/src/visitor/expr_block.rs: visit_return, function block", "dice-runtime/src/interpreter/mod.rs: assert_type_for_local, assert_type_and_return"]}
{"id": "C49", "title": "Blanks and comments do not matter", "statement": "However blanks, line breaks and comments are put between and around tokens, the source is split into the same tokens and parsed into the same tree.", "quantifier": "all token sequences and all ways of spacing and commenting them", "why_tests_cant": "Any comment text and any position; whether a comment swallows or leaks a token depends on what is around it.", "anchors": ["dice-syntax/src/lexer/token.rs: TokenKind (skip pattern)", "dice-syntax/src/lexer/token.rs: TokenIter"]}
{"id": "C50", "title": "Declarations in accepted programs are well formed", "statement": "In an accepted program the parameters of every declared function, method and operator have different names; the receiver of a method carries no type; a constructor has a receiver and no result type, and in a class with a base class its first statement calls the base constructor; an operator in a class has a receiver. Nothing for which the compiler reports an error occurs in an accepted program, apart from size limits and uses before a declaration.", "quantifier": "all programs, and all declarations anywhere in them", "why_tests_cant": "The declarations can be nested in any way in functions, classes and blocks; a missing check shows only in programs that should have been rejected, which a test would have to think of first.", "anchors": ["dice-compiler/src/visitor/decl_class.rs: NodeVisitor<&ClassDecl>", "dice-compiler/src/visitor/decl_fn.rs: assert_unique_params", "dice-compiler/src/visitor/decl_op.rs", "dice-compiler/src/visitor/expr_block.rs: assert_super_call"]}
{"id": "C51", "title": "Error reports point at the error", "statement": "The report of an error names the line and the column (in UTF-16 code units, both counted from 1) at which its span starts, and shows exactly the lines of the source that have a byte in common with the span, in order, each with its own number and without trailing white space; notes follow in the order in which they were attached.", "quantifier": "all sources, also with characters outside ASCII, all non-empty spans inside them, all codes, tags and notes", "why_tests_cant": "Off-by-one errors show only for particular positions of spans relative to line ends and characters of several bytes.", "anchors": ["dice-core/src/error/fmt.rs: HumanReadableErrorFormatter", "dice-core/src/source.rs: LineIndex::position_of, lines"]}
{"id": "C52", "title": "Reporting an error never panics", "statement": "Formatting an error gives a text, whatever its span, source, notes and trace, as long as no span is reversed: no slice of the source is out of range or cuts a character.", "quantifier": "all errors, sources and spans, also spans outside of the text or inside a character", "why_tests_cant": "A panic while reporting hides the error itself; spans and sources are unbounded.", "anchors": ["dice-core/src/error/fmt.rs: HumanReadableErrorFormatter", "dice-core/src/source.rs: LineIndex::lines"]}
{"id": "C53", "title": "Traces show where each call was", "statement": "The trace of an error lists its entries newest first, each with the position at which its span starts and the lines of its span, each line with its own number.", "quantifier": "all traces, sources and spans", "why_tests_cant": "Wrong numbers show only for calls over several lines.", "anchors": ["dice-core/src/error/fmt.rs: fmt_trace"]}
{"id": "C54", "title": "Error codes identify errors", "statement": "Different kinds of errors have different codes, and every code has a message.", "quantifier": "all pairs of declared error codes", "why_tests_cant": "A test sees one error at a time; a clash shows only when all codes are compared.", "anchors": ["dice-core/src/error/codes.rs", "data/locales/en-US/errors.ftl"]}
{"id": "C55", "title": "Text of values reads back", "statement": "Converting an integer to a string gives its decimal notation; Int(s) gives the number that s denotes when s is the decimal notation of a 64-bit integer, with an optional sign, and null otherwise, so Int(String(n)) is n. Likewise Bool(String(b)) is b and no other text is a boolean. Adding strings concatenates them.", "quantifier": "all 64-bit integers, booleans and strings", "why_tests_cant": "2^64 integers and infinitely many strings; the interesting ones are at the limits.", "anchors": ["dice-runtime/src/classes/int.rs: new", "dice-runtime/src/classes/string.rs: new, add", "dice-runtime/src/classes/bool.rs: new", "dice-runtime/src/value.rs: Display"]}
{"id": "C56", "title": "Methods of integers compute exactly", "statement": "abs, min, max, is_positive, is_negative and pow give the exact mathematical result when it fits into 64 bits; otherwise the debug build panics and the release build wraps.", "quantifier": "all pairs of 64-bit integers", "why_tests_cant": "2^128 pairs; wrong results appear at overflow and for exponents beyond 32 bits.", "anchors": ["dice-runtime/src/classes/int.rs"]}
{"id": "C57", "title": "Arrays behave as sequences", "statement": "Array(...), push, pop, length and first act on arrays as on mathematical sequences and leave other arrays alone; iter() gives an iterator whose next() gives each element once, in order, and then is done for good.", "quantifier": "all heaps, arrays and elements", "why_tests_cant": "Unbounded sequences of operations on unbounded arrays with aliases.", "anchors": ["dice-runtime/src/classes/array.rs", "dice-runtime/src/value/array.rs"]}
{"id": "C58", "title": "map, filter and first call back in order", "statement": "map calls its function on each element in order and collects the results; filter keeps the elements on which it gave true; first stops at the first such element. An error of the function is never an error of the method: it becomes null or counts as false.", "quantifier": "all arrays, all functions with any effects and outcomes", "why_tests_cant": "All functions with all effects.", "anchors": ["dice-runtime/src/classes/array.rs: first, filter, map"]}
{"id": "C59", "title": "The built-in runtime meets the assumptions", "statement": "The native functions of the built-in classes never give an error, keep the identity of objects and the class hierarchy, and bring in only functions that follow the stack discipline; a new runtime, also after loading the prelude, satisfies the invariants that the other properties assume.", "quantifier": "all native functions, argument lists and heaps", "why_tests_cant": "Invariants over all states.", "anchors": ["dice-runtime/src/classes", "dice-runtime/src/runtime.rs", "data/scripts/prelude.dm"]}
{"id": "C60", "title": "Constants of the built-in classes", "statement": "Each constant that a built-in class registers has the value that this class gave it, and a class has no constants of other classes.", "quantifier": "all constants of all built-in classes", "why_tests_cant": "A test of one constant of one class does not see that another class overwrites it.", "anchors": ["dice-runtime/src/classes/int.rs", "dice-runtime/src/classes/float.rs", "dice-runtime/src/value/class.rs: with_base"]}
{"id": "C61", "title": "Ranges of the prelude can be iterated", "statement": "The prelude loads, and a for loop over a range that was stored in a variable visits the same numbers as a loop over the range itself.", "quantifier": "all bounds, both kinds of ranges", "why_tests_cant": "All bounds; loops over literal ranges are compiled differently and hide the prelude.", "anchors": ["data/scripts/prelude.dm", "dice-compiler/src/visitor/expr_for.rs"]}
{"id": "C62", "title": "Reflection is exact", "statement": "For every value: fields() and methods() give a new array with each field or method name exactly once, class_of() gives the class of the value and the value is an instance of it, and a class reports its declared name and its base class.", "quantifier": "all values, all heaps", "why_tests_cant": "All heaps and class hierarchies; a shadowed or inherited name that is listed twice needs the right hierarchy.", "anchors": ["dice-runtime/src/classes/any.rs", "dice-runtime/src/classes/class.rs", "dice-runtime/src/value/class.rs"]}
{"id": "C63", "title": "Results of the prelude carry their value", "statement": "For every value v: Ok(v) is Ok with result v, Err(v) is an error with that value, `!!` continues with the value of Ok and returns Err to the caller unchanged, and map applies the function to the value of Ok only.", "quantifier": "all values", "why_tests_cant": "A test fixes the value; a confusion of the value with the result itself shows only for some values.", "anchors": ["data/scripts/prelude.dm", "dice-compiler/src/visitor/expr_error_propagate.rs"]}
{"id": "C64", "title": "Loops over iterators follow the protocol", "statement": "A for loop over a value that is not a literal range calls its iter() once and then next() before each round, stops when is_done is true, and otherwise runs the body with the loop variable set to the value that next() gave; over an array it visits the elements in order.", "quantifier": "all iterators, all arrays, all bodies that leave the iterator alone", "why_tests_cant": "Any number of rounds and any iterator, including ones written in dice.", "anchors": ["dice-compiler/src/visitor/expr_for.rs", "dice-runtime/src/classes/array.rs", "dice-runtime/src/interpreter/mod.rs: load_field_to_local"]}
{"id": "C65", "title": "Compiled code is valid bytecode", "statement": "For every accepted program within the limits of the encoding, every function passes an independent verifier: reading from the first byte, instruction after instruction decodes up to the end; constants exist and have the kind that the instruction expects; variables and captured variables are numbered below the counts of the function; closures capture what exists; jumps lead to the beginning of an instruction and never into one. Hence the disassembler prints it without a panic.", "quantifier": "all accepted programs of any size below the limits, all functions inside", "why_tests_cant": "The operands depend on the nesting of scopes, loops, chains and closures; a wrong slot or offset appears only for some combination of them.", "anchors": ["dice-compiler/src/assembler.rs", "dice-compiler/src/visitor/", "dice-compiler/src/scope_stack.rs", "dice-compiler/src/upvalue.rs", "dice-bytecode/src/lib.rs: Display", "dice-bytecode/src/cursor.rs"]}
{"id": "C66", "title": "Floats compare as the numbers they denote", "statement": "On floats that are not NaN the operators <, ==, >, <=, >= and != give the order and the equality of the numbers that the floats denote (infinities at the ends, both zeros the number 0): exactly one of <, ==, > is true, <= is the negation of >, >= that of <, != that of ==. If an operand is NaN all of them are false except !=. A float literal of a source text evaluates to its own number, although equal constants of a function are shared and 0 and 1 have instructions of their own.", "quantifier": "all pairs of floats; all literals in all functions", "why_tests_cant": "2^128 pairs, with subnormal numbers, zeros, infinities and NaN; sharing of constants depends on all other literals of the function.", "anchors": ["dice-runtime/src/interpreter/mod.rs: gt, gte, lt, lte, eq, neq", "dice-compiler/src/visitor/literal_float.rs", "dice-compiler/src/assembler.rs: make_constant"]}
{"id": "C67", "title": "Imports read no file outside the working directory", "statement": "Whatever name an import gives for a module (with .., from the root, through symbolic links), what is loaded is the module in a file that lies in the working directory or below it, and the texts of the files elsewhere have no influence on any import or run.", "quantifier": "all file systems, working directories, names and programs", "why_tests_cant": "Unboundedly many names, link structures and directory trees; that contents elsewhere have no influence compares pairs of file systems.", "anchors": ["dice-runtime/src/module/file_loader.rs: load_module"]}
{"id": "C68", "title": "One file is one module", "statement": "Imports whose names lead to the same file share one module: one execution of its body and one export object.", "quantifier": "all file systems, names and programs", "why_tests_cant": "A file has unboundedly many names.", "anchors": ["dice-runtime/src/module/file_loader.rs: load_module", "dice-runtime/src/interpreter/mod.rs: load_module"]}
{"id": "C69", "title": "Continued lines are one input", "statement": "In the command line tool a line that ends in a backslash is continued on the next line: what is run is the text of the lines without the backslashes.", "quantifier": "all sequences of lines", "why_tests_cant": "The backslash is also the notation of a call; what becomes of it depends on the text of all lines.", "anchors": ["dice-cli/src/main.rs: main", "dice-syntax/src/lexer/token.rs: lex_backslash_arg"]}
{"id": "C70", "title": "Abbreviations mean what they abbreviate", "statement": "A compound assignment x op= e does and gives what x = x op e does and gives, for variables, fields and elements; an if without else does what the if with else { } does; while a { .. } does what loop { if a { .. } else { break } } does. For variables and conditions, in any position of any program, the compiled code is the same, and so are the reasons for rejecting a program.", "quantifier": "all programs, operators, right sides and positions in a program", "why_tests_cant": "Compares pairs of programs of every shape, with every resolution of the variable (local, captured, global, undeclared, immutable).", "anchors": ["dice-compiler/src/visitor/expr_assignment.rs: visit, assign_ident, assign_field, assign_index", "dice-compiler/src/visitor/expr_if.rs: visit", "dice-compiler/src/visitor/expr_while.rs: visit"]}
{"id": "C71", "title": "A variable changes only when it is assigned", "statement": "After let x = e the variable has the value of e as long as nothing assigns to x or declares a function or class of that name: whatever expressions are evaluated, whether they succeed or fail, whatever functions are called, also those declared before, and whatever modules are imported. In particular a variable declared without mut never changes.", "quantifier": "all states, programs, modules, call depths and numbers of iterations", "why_tests_cant": "Aliasing: every function value and every environment that a program of any shape can build has to be kept off one location of the store.", "anchors": ["dice-compiler/src/visitor/decl_var.rs: visit, singular_var", "dice-compiler/src/visitor/expr_assignment.rs: assign_ident", "dice-compiler/src/visitor/decl_class.rs: visit", "dice-runtime/src/interpreter/mod.rs: store_local, store_upvalue, create_closure"]}
{"id": "C72", "title": "Calling a class gives the new instance", "statement": "If a class has a constructor and calling the class succeeds, the result is the new instance: whatever the constructor does, whether it comes to its end or returns early, and whatever functions it calls.", "quantifier": "all constructors, arguments, states, call depths and numbers of iterations", "why_tests_cant": "The result is read from a variable at every way out of a body of any shape; early returns in nested blocks and loops, and calls that could reach the variable, have to be covered.", "anchors": ["dice-compiler/src/visitor/expr_block.rs: visit (function blocks)", "dice-compiler/src/visitor/expr_return.rs: visit", "dice-runtime/src/interpreter/mod.rs: call"]}
{"id": "C73", "title": "Mutable variables can be reassigned", "statement": "A program is never rejected for assigning to a variable that is declared with `let mut`.", "quantifier": "all programs and names", "why_tests_cant": "The compiler keeps mutability in scopes, captured variables and hoisted names; any path that loses it rejects programs that no finite list contains.", "anchors": ["dice-compiler/src/visitor/decl_var.rs: singular_var, destructured_var", "dice-compiler/src/visitor/expr_assignment.rs", "dice-compiler/src/upvalue.rs: is_mutable"]}
{"id": "C74", "title": "Taking a value apart reads its fields", "statement": "`let { a, b } = e` evaluates e once and declares variables with the values of the accesses to the fields a and b of its value, as `let a = y.a` and `let b = y.b` one after the other would; all other names stand for what they did. `import { a, b }` does the same with the object of the module.", "quantifier": "all lists of names, expressions, environments and states", "why_tests_cant": "Any number of names, repeated or hiding others, and any value including ones with methods or missing fields.", "anchors": ["dice-compiler/src/visitor/decl_var.rs: destructured_var", "dice-compiler/src/visitor/decl_import.rs: visit"]}
{"id": "C75", "title": "Object literals have the fields they name", "statement": "`# { k: e, ... }` gives a new object whose field k, for each key k written as a name or as a text, has the value of the last entry with that key; it has no other fields, and the fields of other objects are not affected.", "quantifier": "all object literals, environments and states", "why_tests_cant": "Any number of entries, repeated keys and any state of the heap.", "anchors": ["dice-syntax/src/parser/mod.rs: object", "dice-compiler/src/visitor/literal_object.rs", "dice-runtime/src/interpreter/mod.rs: create_object, store_field"]}
{"id": "C76", "title": "Inherited constructors are not skipped", "statement": "Calling a class that has no constructor itself is an error if one of its ancestors has a constructor; otherwise it gives a new instance.", "quantifier": "all class hierarchies, machine states and numbers of arguments", "why_tests_cant": "The check depends on the hierarchy and on the number of arguments; tests cover the direct call without arguments.", "anchors": ["dice-runtime/src/interpreter/helper.rs: call_class_constructor", "dice-runtime/src/value/class.rs: with_base"]}
{"id": "C77", "title": "Exports are what importers read", "statement": "`export d` gives the object of the module a field with the name and the value of the declaration d and leaves its other fields as they are.", "quantifier": "all declarations, environments and states", "why_tests_cant": "Any declaration, including ones that run code while the module is half loaded, and any state of the heap.", "anchors": ["dice-compiler/src/visitor/decl_export.rs", "dice-runtime/src/interpreter/mod.rs: store_field, load_module"]}
{"id": "C78", "title": "Imports that failed fail again", "statement": "Importing a module that cannot be loaded fails with the error of the loader, whether or not the module was imported before.", "quantifier": "all loaders, module names and machine states", "why_tests_cant": "Shows only when an interpreter is used again after an error, as the terminal tool does; any state of the machine.", "anchors": ["dice-runtime/src/interpreter/mod.rs: load_module", "dice-runtime/src/module/file_loader.rs"]}
