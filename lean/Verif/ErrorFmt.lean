import Verif.Source

/-!
# Error reports

Model of `/repo/dice-core/src/error/{mod,context,trace,tag,fmt}.rs`.  Text is a list of characters.  A
report is the list of the lines written with `writeln!`.  A panic is the result `none`.  The colours of
the `colored` crate are a parameter (`paint`), and so are the localised messages (`Locale`): which text
the `fluent` crate produces for a code is not modelled.
-/

namespace Dice

/-- `char::is_whitespace` (Rust standard library): the characters with the property White_Space. -/
def isWhitespace (c : Char) : Bool :=
  (0x09 ≤ c.toNat && c.toNat ≤ 0x0D) || c.toNat == 0x20 || c.toNat == 0x85 || c.toNat == 0xA0 ||
    c.toNat == 0x1680 || (0x2000 ≤ c.toNat && c.toNat ≤ 0x200A) || c.toNat == 0x2028 ||
    c.toNat == 0x2029 || c.toNat == 0x202F || c.toNat == 0x205F || c.toNat == 0x3000

/-- `str::trim_end` (Rust standard library). -/
def trimEnd (cs : List Char) : List Char := (cs.reverse.dropWhile isWhitespace).reverse

/-- `str::trim` (Rust standard library). -/
def trimBoth (cs : List Char) : List Char := trimEnd (cs.dropWhile isWhitespace)

/-- The text from byte `n` on; `none` when `n` is not a character boundary of the text. -/
def dropBytes : List Char → Nat → Option (List Char)
  | cs, 0 => some cs
  | [], _ + 1 => none
  | c :: cs, n + 1 => if lenUtf8 c ≤ n + 1 then dropBytes cs (n + 1 - lenUtf8 c) else none

/-- The first `n` bytes of the text; `none` when `n` is not a character boundary of the text. -/
def takeBytes : List Char → Nat → Option (List Char)
  | _, 0 => some []
  | [], _ + 1 => none
  | c :: cs, n + 1 =>
    if lenUtf8 c ≤ n + 1 then (takeBytes cs (n + 1 - lenUtf8 c)).map (c :: ·) else none

/-- `&text[span.range()]` (Rust standard library, `/repo/dice-core/src/span.rs`, `range`): panics when
the range is reversed or does not fall on character boundaries. -/
def sliceBytes (text : List Char) (span : Span) : Option (List Char) :=
  if span.start ≤ span.stop then
    (dropBytes text span.start).bind (fun rest => takeBytes rest (span.stop - span.start))
  else none

/-- The format `{:<4}` of a number: padded with blanks on the right to four characters. -/
def padNumber (n : Nat) : List Char :=
  let digits := Nat.toDigits 10 n
  digits ++ List.replicate (4 - digits.length) ' '

/-- `/repo/dice-core/src/source.rs:42-99` (`Source`).  The line index is computed from the text by both
constructors; the kind does not matter here and is left out. -/
structure SourceFile where
  path : Option (List Char)
  text : List Char
deriving DecidableEq, Repr

/-- `/repo/dice-core/src/source.rs:96-98` (`line_index`). -/
def SourceFile.index (s : SourceFile) : LineIndex := LineIndex.new s.text

/-- `/repo/dice-core/src/error/tag.rs:1-12` (`Tags`). -/
abbrev Tags := List (List Char × List Char)

/-- `/repo/dice-core/src/error/context.rs:5-10` (`ContextKind`). -/
inductive NoteKind
  | note
  | help
deriving DecidableEq, Repr

/-- `/repo/dice-core/src/error/context.rs:12-32` (`Context`). -/
structure Note where
  msgId : List Char
  tags : Tags
  kind : NoteKind
deriving DecidableEq, Repr

/-- `/repo/dice-core/src/error/trace.rs:4-8` (`ErrorTrace`). -/
structure TraceEntry where
  source : SourceFile
  span : Span
deriving DecidableEq, Repr

/-- `/repo/dice-core/src/error/mod.rs:23-31` (`Error`). -/
structure Report where
  code : List Char
  source : Option SourceFile
  span : Span
  tags : Tags
  trace : List TraceEntry
  context : List Note
deriving DecidableEq, Repr

/-- `/repo/dice-core/src/error/mod.rs:34-43` (`Error::new`). -/
def Report.new (code : List Char) : Report := ⟨code, none, ⟨0, 0⟩, [], [], []⟩

/-- `/repo/dice-core/src/error/mod.rs:49-52` (`with_span`). -/
def Report.withSpan (r : Report) (span : Span) : Report := { r with span := span }

/-- `/repo/dice-core/src/error/mod.rs:54-57` (`with_source`). -/
def Report.withSource (r : Report) (source : SourceFile) : Report := { r with source := some source }

/-- `/repo/dice-core/src/error/mod.rs:59-62` (`with_tags`). -/
def Report.withTags (r : Report) (tags : Tags) : Report := { r with tags := tags }

/-- `/repo/dice-core/src/error/mod.rs:64-67` (`push_trace`). -/
def Report.pushTrace (r : Report) (t : TraceEntry) : Report := { r with trace := r.trace ++ [t] }

/-- `/repo/dice-core/src/error/mod.rs:69-72` (`push_context`). -/
def Report.pushContext (r : Report) (c : Note) : Report := { r with context := r.context ++ [c] }

/-- `/repo/dice-core/src/error/localization.rs:22-44`: the message of an error code and the text of a
note, with their tags filled in.  Not modelled further. -/
structure Locale where
  message : List Char → Tags → List Char
  note : List Char → Tags → List Char

/-- The styles used with the `colored` crate in `/repo/dice-core/src/error/fmt.rs`. -/
inductive Style
  | cyanBold
  | red
  | bold
  | greenBold
  | yellowBold
deriving DecidableEq, Repr

/-- How a piece of text is decorated with a style; the identity when colours are off. -/
abbrev Paint := Style → List Char → List Char

/-- No colours. -/
def Paint.plain : Paint := fun _ cs => cs

namespace ErrorFmt

/-- The path of a source as it is shown (`/repo/dice-core/src/error/fmt.rs:68-85`, `137-152`). -/
def pathText (s : SourceFile) : List Char := s.path.getD "<Script>".toList

/-- `path:line:column` (`/repo/dice-core/src/error/fmt.rs:71-75`, `80-83`, `140-143`, `148-150`). -/
def place (s : SourceFile) (p : LineColumn) : List Char :=
  pathText s ++ ':' :: Nat.toDigits 10 (p.line + 1) ++ ':' :: Nat.toDigits 10 (p.columnUtf16 + 1)

/-- `/repo/dice-core/src/error/fmt.rs:64-86` (`fmt_position`). -/
def fmtPosition (paint : Paint) (r : Report) (s : SourceFile) : Option (List (List Char)) := do
  let position ← s.index.positionOf r.span.start
  some [paint .cyanBold "  -->".toList ++ ' ' :: place s position]

/-- `/repo/dice-core/src/error/fmt.rs:88-94` (`fmt_message`). -/
def fmtMessage (paint : Paint) (locale : Locale) (r : Report) : List (List Char) :=
  let code := paint .red ("error[".toList ++ r.code ++ "]: ".toList)
  [paint .bold (code ++ locale.message r.code r.tags)]

/-- `/repo/dice-core/src/error/fmt.rs:96-108` (`fmt_context`). -/
def fmtContext (paint : Paint) (locale : Locale) (r : Report) : List (List Char) :=
  r.context.map (fun c =>
    (match c.kind with
      | .note => paint .greenBold "note: ".toList
      | .help => paint .yellowBold "help: ".toList) ++ locale.note c.msgId c.tags)

/-- The body of the loop in `/repo/dice-core/src/error/fmt.rs:117-121`. -/
def fmtSourceLine (paint : Paint) (s : SourceFile) (line : Span) : Option (List Char) := do
  let position ← s.index.positionOf line.start
  let text ← sliceBytes s.text line
  some (paint .cyanBold (padNumber (position.line + 1) ++ " | ".toList) ++ ' ' :: trimEnd text)

/-- `/repo/dice-core/src/error/fmt.rs:110-127` (`fmt_source`). -/
def fmtSource (paint : Paint) (r : Report) (s : SourceFile) : Option (List (List Char)) := do
  let lines ← s.index.lines r.span
  let rule := paint .cyanBold "     |".toList
  if lines.isEmpty then some []
  else
    let shown ← lines.mapM (fmtSourceLine paint s)
    some (rule :: shown ++ [rule])

/-- The body of the inner loop in `/repo/dice-core/src/error/fmt.rs:154-161`: the number is that of the
start of the whole span. -/
def fmtTraceLine (s : SourceFile) (position : LineColumn) (line : Span) : Option (List Char) := do
  let text ← sliceBytes s.text line
  some ("    ".toList ++ padNumber (position.line + 1) ++ " | ".toList ++ trimBoth text)

/-- The body of the outer loop in `/repo/dice-core/src/error/fmt.rs:134-162`. -/
def fmtTraceEntry (t : TraceEntry) : Option (List (List Char)) := do
  let position ← t.source.index.positionOf t.span.start
  let lines ← t.source.index.lines t.span
  let shown ← lines.mapM (fmtTraceLine t.source position)
  some (("  Location: ".toList ++ place t.source position) :: shown)

/-- `/repo/dice-core/src/error/fmt.rs:129-166` (`fmt_trace`). -/
def fmtTrace (r : Report) : Option (List (List Char)) := do
  if r.trace.isEmpty then some []
  else
    let entries ← r.trace.reverse.mapM fmtTraceEntry
    some ([] :: "Trace:".toList :: entries.flatten)

/-- `/repo/dice-core/src/error/fmt.rs:30-38` (`fmt`, used by `Debug`). -/
def fmt (paint : Paint) (locale : Locale) (r : Report) : Option (List (List Char)) :=
  match r.source with
  | some s => do
    let position ← fmtPosition paint r s
    some (fmtMessage paint locale r ++ position)
  | none => some (fmtMessage paint locale r)

/-- `/repo/dice-core/src/error/fmt.rs:40-60` (`fmt_pretty`, used by `Display`); `should_colorize` has no
effect in the code (the calls that would use it are commented out). -/
def fmtPretty (paint : Paint) (locale : Locale) (r : Report) : Option (List (List Char)) := do
  let head ← match r.source with
    | some s => do
      let position ← fmtPosition paint r s
      let source ← fmtSource paint r s
      some (position ++ source)
    | none => some []
  let trace ← fmtTrace r
  some (fmtMessage paint locale r ++ head ++ fmtContext paint locale r ++ trace)

end ErrorFmt

/-- `/repo/dice-core/src/error/codes.rs:1-76`: every error code with the name of its constant. -/
def errorCodes : List (String × String) :=
  [("UNEXPECTED_TOKEN", "E1000"), ("INVALID_ESCAPE_SEQUENCE", "E1001"), ("UNTERMINATED_STRING", "E1002"),
   ("UNRECOGNIZED_INPUT", "E1003"), ("RESERVED_KEYWORD", "E1004"),
   ("FUNCTION_HAS_TOO_MANY_ARGUMENTS", "E1005"), ("OPERATOR_HAS_INCORRECT_ARGUMENT_COUNT", "E1006"),
   ("INVALID_INTEGER_VALUE", "E1007"), ("INVALID_FLOAT_VALUE", "E1008"),
   ("UNTERMINATED_BACKSLASH_ARG", "E1009"), ("INTERNAL_COMPILER_ERROR", "E2000"),
   ("TOO_MANY_UPVALUES", "E2100"), ("TOO_MANY_CONSTANTS", "E2101"),
   ("NEW_METHOD_CANNOT_HAVE_RETURN_TYPE", "E2200"), ("NEW_METHOD_MUST_HAVE_RECEIVER", "E2201"),
   ("OPERATOR_MUST_HAVE_RECEIVER", "E2202"), ("NEW_MUST_CALL_SUPER_FROM_SUBCLASS", "E2203"),
   ("NEW_RETURN_CANNOT_HAVE_EXPRESSION", "E2204"), ("INVALID_SUPER_CALL", "E2205"),
   ("METHOD_RECEIVER_CANNOT_HAVE_TYPE", "E2206"), ("FUNCTION_CANNOT_HAVE_DUPLICATE_ARGS", "E2207"),
   ("CLASS_ALREADY_DECLARED", "E2300"), ("FUNCTION_ALREADY_DECLARED", "E2301"),
   ("INVALID_ASSIGNMENT_TARGET", "E2400"), ("VARIABLE_NOT_DECLARED", "E2401"),
   ("VARIABLE_NOT_INITIALIZED", "E2402"), ("CANNOT_REASSIGN_IMMUTABLE_VARIABLE", "E2403"),
   ("INVALID_RETURN_USAGE", "E2500"), ("INVALID_BREAK_USAGE", "E2501"),
   ("INVALID_CONTINUE_USAGE", "E2502"), ("INVALID_ERROR_PROPAGATE_USAGE", "E2503"),
   ("INVALID_EXPORT_USAGE", "E2504"), ("INVALID_IMPORT_USAGE", "E2505"),
   ("INVALID_BOOL_CONVERSION", "E3000"), ("INVALID_INT_CONVERSION", "E3001"),
   ("INVALID_FLOAT_CONVERSION", "E3002"), ("INVALID_ARRAY_CONVERSION", "E3003"),
   ("INVALID_STRING_CONVERSION", "E3004"), ("INVALID_SYMBOL_CONVERSION", "E3005"),
   ("INVALID_OBJECT_CONVERSION", "E3006"), ("INVALID_CLASS_CONVERSION", "E3007"),
   ("TYPE_ASSERTION_FAILURE", "E3100"), ("TYPE_ASSERTION_NULLABILITY_FAILURE", "E3101"),
   ("TYPE_ASSERTION_BOOL_FAILURE", "E3102"), ("TYPE_ASSERTION_NUMBER_FAILURE", "E3103"),
   ("TYPE_ASSERTION_FUNCTION_FAILURE", "E3104"), ("TYPE_ASSERTION_SUPER_FAILURE", "E3105"),
   ("DIVIDE_BY_ZERO", "E3200"), ("GLOBAL_VARIABLE_ALREADY_DEFINED", "E3300"),
   ("GLOBAL_VARIABLE_UNDEFINED", "E3301"), ("GLOBAL_OPERATOR_UNDEFINED", "E3302"),
   ("NEW_FUNCTION_CANNOT_BE_ACCESS_DIRECTLY", "E3400"), ("CLASS_MUST_HAVE_NEW_IF_SUPER_HAS_NEW", "E3401"),
   ("CLASS_CANNOT_INHERIT_VALUE_TYPE", "E3402"), ("PANIC", "E4000"), ("IO_ERROR", "E4001"),
   ("INVALID_SCRIPT_LOCATION", "E4002"), ("MODULE_ALREADY_EXISTS", "E4003"),
   ("GLOBAL_ALREADY_EXISTS", "E4002")]

/-- `/repo/data/locales/en-US/errors.ftl`: the codes with a message. -/
def localisedCodes : List String :=
  ["E1000", "E1001", "E1002", "E1003", "E1004", "E1005", "E1006", "E1007", "E1008", "E2000", "E2100",
   "E2101", "E2200", "E2201", "E2202", "E2203", "E2204", "E2205", "E2206", "E2207", "E2300", "E2301",
   "E2400", "E2401", "E2402", "E2403", "E2500", "E2501", "E2502", "E2503", "E2504", "E2505", "E3000",
   "E3001", "E3002", "E3003", "E3004", "E3005", "E3006", "E3007", "E3100", "E3101", "E3102", "E3103",
   "E3104", "E3105", "E3200", "E3300", "E3301", "E3302", "E3400", "E3401", "E3402", "E4000", "E4001",
   "E4002"]

end Dice
