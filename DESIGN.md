# Formal model of the dice language implementation

Subject: the Rust sources in /repo (dice-core, dice-syntax, dice-bytecode, dice-compiler,
dice-runtime) at the pinned commit.  Technique: a Lean 4 model written by reading the source,
and kernel-checked theorems about it (`lean/Verif`).  The code was neither built nor run.

State of the subject: `dice-runtime` is in the middle of a move to `gc_arena`; several
functions are commented out or use an older API (`is_value_of_type`, the built-in `classes`
module, `ErrorTrace::from_bytecode`).  The model follows the logic as it is written in the source
text; where a piece is only present as a call to something commented out, the comment on the
model definition says what was assumed.

## Trusted base

* Lean 4.33.0's kernel; the axioms `propext`, `Classical.choice`, `Quot.sound` (at most; checked by
  `#print axioms`).  No axioms of our own, no `sorry`, no `native_decide`/`bv_decide`.
* `lean/Verif/KernelRfl.lean` defines a tactic that closes an equation by `Eq.refl` without asking the
  elaborator; the kernel checks the resulting term like any other, so nothing is added to the base.
* The reading of the Rust source into the definitions under `lean/Verif`.  Every model definition
  cites file and lines and says where it simplifies.
* Rust's own semantics of `Vec`, `HashMap`, `Rc`, integer casts, as transcribed.
* External crates by contract only: `logos` (longest match lexing), `string_interner`,
  `uuid` (fresh identifiers), `gc_arena` (allocation gives a fresh address, memory safe),
  `bytes` (`put_u8`, `put_i16` big endian).

## Modelled and not modelled

Modelled: spans; line index; opcodes, cursor, assembler, disassembler walk; scope stack, compiler
contexts and upvalue resolution; the node visitors of the compiler; operand stack, frames, upvalues, globals,
modules, classes, objects, arrays and the instruction interpreter; tokens, lexer
and Pratt parser; the symbol interner; the text of error reports; the native functions of the built-in
classes, their registration, and the prelude; the loader of module files with `realpath`; how the command line tool reads
its input.

Floats are Lean's `Float`, which in this version of Lean is defined by the bits of IEEE 754 binary64 with one NaN; the
operators `+ - * /`, the comparisons and the reading of literals are Lean's, with the meaning that Lean gives them.  Trusted
here: that Rust's `f64` agrees with them, and that the bits of a NaN do not matter.  The remainder of floats and the
functions of the class `Float` are parameters.

Not modelled: garbage collection and memory safety; the calls from native functions back into the interpreter
(`map`, `filter`, `first` of arrays take the callback as a parameter); the file system (a parameter of the file loader)
and its changes during a run; the colours and the localised messages of error reports (parameters of the model); of the
command line tool all but the reading of its input and the prelude; performance; native stack depth of the recursive interpreter.  The syntax arena (`slotmap`-like
`SyntaxTree`) is replaced by an inductive tree.

## How the model is built

| layer | modules | source |
|-------|---------|--------|
| spans, line index | Span, Source | dice-core/src/span.rs, source.rs |
| error reports | ErrorFmt | dice-core/src/error |
| symbols | Symbol | dice-core interner |
| tokens, lexer | Lexer | dice-syntax/src/lexer |
| trees, parser | Ast, Parser | dice-syntax/src/ast, parser |
| opcodes, cursor, assembler | Bytecode, Assembler | dice-bytecode, dice-compiler/src/assembler.rs |
| scopes, contexts, upvalues | Scope | scope_stack.rs, compiler_stack.rs, upvalue.rs |
| compiler | Compiler | compiler.rs, decl_scan.rs, compile_fn.rs, visitor/* |
| machine | Vm | dice-runtime: stack, frames, upvalues, globals, modules, classes, dispatch |
| built-in classes, prelude | Natives, Prelude | dice-runtime/src/classes, runtime.rs, data/scripts/prelude.dm |
| module files | FileLoader | dice-runtime/src/module/file_loader.rs |
| input of the tool | Repl | dice-cli/src/main.rs |

Rust panics, arithmetic overflows and failed debug assertions are explicit results of the model, never
missing cases.  Loops that the Rust code runs without a bound (the interpreter, the recursive parser) take a
step budget; `Mono` and `ParseProps` prove that a result never depends on it.

## How the theorems about whole programs are proved

1. `Gen` describes, construct by construct, the structured code (`Struct`: sequences, branches, loops, chains,
   blocks) that a program stands for, without bytes or jump distances.  `GenProps` (with `Emit`, `Run*`) proves
   that the bytes which the compiler emits are a layout of exactly that code, patched jumps included.
2. `StructProps`/`ProgramRun` prove that the machine on such a layout does what the structured code does.
3. `BigStep`, `Steps` give the runs of structured code without budgets, as equivalences; the theorems on
   evaluation order, short circuits, chains, loops and error propagation are consequences
   (`OperatorProps`, `ChainProps`, `OrderProps`, `LoopProps`, `RangeProps`, `ErrorProps`).
4. `Balance*` is a static discipline on stack heights; `balanced` is the check on the source under which the
   compiled code keeps it.  `BalanceProps` has the consequences for whole runs.
5. `Static`, `StaticView`, `StaticProps` describe independently which expressions occur where in a program and
   what names mean there; accepted programs obey the rules.  `Blame`, `Wp`, `Grows`, `Errors*`,
   `RejectProps` prove the converse: every error of the compiler is explained by an expression of the program.
6. `Grammar` is the grammar as an inductive relation; `ParseSound` and `ParseComplete` prove that the parser
   computes exactly this relation, `PrintProps` that printed trees parse back, `LexPrint` that spelled tokens
   are lexed back.
7. `Findings`, `SyntaxFindings` run the models of lexer, parser, compiler and machine on source texts for which
   a property is false.
8. `Eval` is a reference evaluator on syntax trees: environments of names, a store of variables, no bytecode and no
   stack.  `Sim*` relate its states to states of the machine and prove that structured code follows it, by
   induction on the code (`SimGen`) and on the number of nested calls (`SimCall`); `SimProps` has the theorems on
   whole programs.  It covers functions, closures, declared types, classes with bases, constructors, methods and
   `super`, operators, objects, lists, `is`, `?`, `!!`, loops over ranges and iterators, and modules with imports and
   exports.  `SimImport`, `SimModule` prove that modules are loaded as the evaluator loads them; `SimSession` that
   scripts run one after the other on the same machine agree with the evaluator.  What the evaluator leaves open is
   listed at the top of `Eval`.
   The evaluator takes native functions as a parameter; `SimNative` proves that those of the runtime's classes treat the
   functions of a program as opaque, and so covers programs in a new runtime.  `SimPrelude` does the same after loading
   the prelude; `StoredRange` evaluates the prelude's classes for ranges symbolically, for all bounds.
9. `Within`, `Verifier`, `VerifiedRun` have a verifier of bytecode that reads the bytes only, the proof that compiled
   programs pass it, and that the machine then stays on instruction boundaries.

10. `Derived` has a relation between actions of the compiler that do the same in every state it reaches; `DerivedProps`
   uses it for programs with and without abbreviations.  `Examples` has programs that meet the hypotheses of the theorems.
11. `Pinned` shows that the evaluator keeps the value of a location that no function value reaches under another name, as
   long as nothing sets that name; `PinnedProps` concludes this for declared variables, and `Receiver` for the receiver of a
   constructor.

## Per property

The theorems of each property are in MANIFEST.json, with what is missing.

| id | status | model | result |
|----|--------|-------|--------|
| C01 | proved | Span | least upper bound and semilattice laws |
| C02 | proved | Source | `position_of` equals counting newlines and characters before the offset (`SourceSpec`) |
| C03 | proved | Source | the lines partition the source |
| C04 | proved | Source | UTF-16 columns, a component of the exact position |
| C05 | proved | Bytecode | the opcode table is a bijection with the defined bytes |
| C06 | proved | Assembler | for all distances within 16 bits a patched jump lands where it should |
| C07 | partial | Assembler, LargeJump | negation proved: a larger distance is truncated silently; at program level, `if false { 1 / 0 null … null } else { true }` with 32765 nulls is accepted and divides by zero when run, though the evaluator gives `true` |
| C08 | proved | Assembler | invariant over all histories of constants |
| C09 | proved | Bytecode, Assembler | decoding inverts encoding for all instruction lists |
| C10 | proved | Scope | invariant over all histories of scope operations |
| C11 | proved | Scope | refinement to a stack of association lists |
| C12 | proved | Scope | induction over the nesting of functions |
| C13 | proved | Compiler | against the independent static description, both directions |
| C14 | partial | Compiler | proved for variables of the same function; negation for captured ones |
| C15 | partial | Compiler | illegal uses are rejected and errors are reported only for them; two negations |
| C16 | partial | Compiler | the complete list of causes of panics; four programs that panic |
| C17 | partial | Compiler, Vm | for balanced programs; negations for the others |
| C18 | partial | Eval, Compiler, Vm, Bounds | simulation of a reference evaluator; two negations for captured variables; the evaluator's bounds do not matter (`program_bound`, `program_unique`), so a program has at most one meaning |
| C19 | proved | Compiler, Vm | equivalence of runs with a short-circuit specification |
| C20 | partial | Compiler, Vm | same; negation for a chain inside an operand of a chain |
| C21 | partial | Compiler, Vm | left to right for the listed constructs; three negations |
| C22 | partial | Compiler, Vm | rounds of loops; three negations |
| C23 | partial | Compiler, Vm | a loop over an integer range visits the numbers of the range, from source; negation at the largest integer |
| C24 | partial | Vm | frames of calls, for functions compiled from balanced source |
| C25 | partial | Vm, Surplus | slots of parameters; negation for missing arguments; surplus arguments change no call in the evaluator, hence no run on the machine (simulation) |
| C26 | proved | Vm | exact results or overflow, over all 64-bit integers |
| C27 | proved | Vm | equality and order of built-in values |
| C28 | partial | Vm | histories of captures refine shared cells; negations for `return` and `break` |
| C29 | proved | Vm | invariant: one open capture for each slot |
| C30 | proved | Vm | invariant over histories of runs |
| C31 | partial | Vm, Compiler, Parser | modules start at most once; every importer, also the first, gets the registered object (balanced modules) |
| C32 | proved | Vm | invariant of the class table |
| C33 | proved | Vm | refinement to a method table |
| C34 | partial | Vm | negation: static members are shared with the base |
| C35 | proved | Vm | laws of fields and elements |
| C36 | proved | Vm | independent specification of member lookup |
| C37 | proved | Parser | grammar, soundness, completeness, unambiguity, print/parse round trip |
| C38 | partial | Parser | termination; negation: tokens without a rule abort |
| C39 | partial | Parser, NoErrorTokens | without stray closing braces everything is read and no error token accepted; negation with them |
| C40 | proved | Lexer | tokens and gaps tile the source |
| C41 | proved | Lexer, Respace | longest match; words; spelled tokens are lexed back; `lexed_iff` characterises all texts of a token list |
| C42 | partial | Lexer, Parser | acceptance exact; negation: escapes are never replaced |
| C43 | proved | Symbol | invariant over histories |
| C44 | partial | Vm | negation: a failed run leaves the stack higher; what is kept |
| C45 | partial | Assembler, Compiler, Vm | captures are within the limit; exact count of lists; negations for lists, calls, variables |
| C46 | partial | Compiler, Vm | runs of `!!`; negation under uncounted operands |
| C47 | proved | Vm | decision logic of operators over all values |
| C48 | proved | Vm, Gen | compiled functions check every annotated parameter before the body and the result on every way out; a failed check is a type error, a passed one has no effect |
| C49 | partial | Lexer, Parser, Respace | blanks and comments inserted between any two tokens of any text; negation for an empty comment |
| C50 | proved | Compiler | the members of the classes and the parameters of the declarations that occur in an accepted program (`ProperMember`), no `Culprit` in an accepted program, and the converse for the errors about them |
| C51 | proved | Source, ErrorFmt | exact text of reports against independently numbered lines |
| C52 | proved | Source, ErrorFmt | totality for all spans that are not reversed |
| C53 | partial | Source, ErrorFmt | order, positions, single lines; negation for spans over several lines |
| C54 | partial | ErrorFmt | two codes clash and two have no message |
| C55 | proved | Natives | exact set of texts that are integers; round trips |
| C56 | partial | Natives | exact or overflow, by induction on the squaring loop; negation for exponents beyond 32 bits |
| C57 | proved | Natives | array methods against lists with frame conditions; iterators by induction on what is left |
| C58 | proved | Natives | exact outcomes against the sequence of callback outcomes |
| C59 | proved | Natives, Prelude | the hypotheses of the other theorems hold of the real runtime and prelude |
| C60 | partial | Natives | values of all constants; negation for `Float.MAX`, `Float.MIN` and for foreign constants |
| C61 | partial | Prelude, SimPrelude, StoredRange | prelude loads; loops over stored exclusive ranges by symbolic evaluation after the prelude, for all bounds and bodies; negations for stored inclusive ranges and at the greatest integer |
| C62 | partial | Natives | exact lists of names, classes and bases; negation for `null` |
| C63 | partial | Prelude, Results, SimPrelude, ResultObjects | symbolic evaluation after the prelude for all values, references included; values without references on the machine directly |
| C64 | partial | Compiler, Vm, Natives | loops over iterators against a specification of the protocol; arrays element by element |
| C65 | proved | Compiler, Assembler, Bytecode, Vm | an independent verifier (Verifier.lean) passes for all accepted code within the limits, by induction on generated code (Within.lean); the machine stays on instruction boundaries (VerifiedRun.lean) |
| C66 | proved | Vm, Floats, FloatProps | the comparisons against the numbers that the bits denote, in units of 2⁻¹⁰⁷⁴ (`floatNumber`); numbers equal under `==` are the same bits or both zeros, so sharing constants is harmless (`literal_value`), and no source text has the literal -0.0 (`parseFloat_ne`) |
| C67 | proved | FileLoader, FileLoaderProps | invariant of the resolution of names: its result leads through directories without links; two file systems that differ in texts outside only give equal loaders, hence equal runs |
| C68 | partial | FileLoader, FileLoaderProps | false: modules are registered under the spelling (`spellings_are_modules`, a program run on a file system with a link); equal paths give equal code |
| C69 | partial | Repl, ReplProps | false: the marks stay in the text (`input_text`); for all lines, one mark is an error token, two are a call with the lines between as its argument |
| C70 | partial | Derived, DerivedProps | `expand` writes out compound assignments to variables and missing `else`; relation `Same` between compiler actions, by induction on programs: same code (`expand_compiled`, `same_code`). In the evaluator: elements of variables are equal to their expansion (`element_update`), fields up to the value (`field_update`); the value differs (`field_update_value`); `while` is a `loop` (`while_is_loop`), since what declares nothing keeps the environment (`keeps_env`, Keeps) |
| C71 | partial | Pinned, PinnedProps | `unset x e`: nothing in `e` assigns to `x` or declares a function or class of that name. Invariant `Pinned` (pinned locations hold their values; no function value reaches them under another name) kept by every step of the evaluator, calls and modules included, by induction on programs inside induction on call depth (`safe_eval`, `safe_calls`); hence `variable_kept`. That a variable without `mut` never changes is false: a class declaration in its block overwrites it (`class_overwrites_variable`) |
| C72 | partial | Receiver | `free x e`: nothing in `e` declares `x` again. Two inductions on programs: `self` stays visible up to every early return, which gives its value (`homes_eval`), and its location keeps the instance (`Pinned` with that location); hence `constructor_gives_receiver`, `construction_gives_instance`. Without the condition it is false: a constructor that declares `self` again gives that variable (`constructor_gives_other`), one whose `self` is captured gives null (`constructor_gives_null`; such constructors are outside of the evaluator) |
| C73 | partial | Mutable | `onlyMut x root`: every declaration of `x` is `let mut x`. By induction over places (`occurs_changeable`) every visible `x` is then mutable, so with `reassignment_rejected` (C13) no program is rejected for assigning to it: `mutable_assigned_partial`. Missing and false: a mutable variable declared by taking an object apart is a constant (`destructured_not_mutable`, decl_var.rs:49-59 ignores `is_mutable`) |
| C74 | proved | Apart | on the reference evaluator (compiled code follows it by C18): `destructuring_reads_fields` (each name reads the field, other names stand for what they did, nothing older changes), `destructuring_is_declarations` (the same as `let x = y.x` for each name), `import_reads_fields` (the same for the object of a module) |
| C75 | partial | ObjectLit | on the reference evaluator: `object_literal_partial` for entries whose values are literals and variables (the new object has exactly the entries, the last one with a key counts), `nested_literal_partial` also for functions and nested objects and arrays. Missing: values computed by operators and calls, which needs that nothing else reaches the object under construction. False for keys written as texts: they keep their quotation marks (`text_key_keeps_quotes`) |
| C76 | partial | Ctor | `missing_constructor_partial`: on the machine, a class without `new` and without arguments is called with an error exactly if its base has `new`. False beyond that: with an argument the call gives an instance for which no constructor ran, in every hierarchy (`arguments_skip_constructors`; source in `constructor_skipped_by_argument`), and so it does without arguments if a class is in between (`constructor_skipped_by_class`) |
| C77 | proved | Exports | `export_sets_field`: if an export succeeds in the evaluator, the declaration was evaluated, and afterwards the object of the module has its value under its name and all other fields as before; with `import_reads_fields` (C74) this is what importers read |
| C78 | partial | Exports | `first_import_fails_partial`: on the machine, the first import of a module the loader rejects fails with the error of the loader. `failed_import_succeeds`: importing it again succeeds and gives an object without fields, for the object is registered before the module is loaded; `failed_import_stays`: so it is after any further programs, also if the module can be loaded by then |

Nothing in the list is inexpressible; parts that live in the runtime environment (native stack
overflow, I/O) are outside of the model.

## Tests of the theorems

`seeded/LOG.jsonl` records edits of the model like realistic bugs, made in a scratch copy, and the theorems that
fail after each.
