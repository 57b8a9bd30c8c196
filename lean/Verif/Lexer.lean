/-!
# Lexer

Model of dice-syntax/src/lexer.  The token patterns are the attributes of `TokenKind`; the scanner that
`logos` 0.12 generates from them is modelled by its documented rule: at each position the longest match
wins, and between matches of equal length the pattern with the higher priority wins, a literal having a
higher priority than an identifier.
-/

namespace Dice

/-- `TokenKind`, token.rs:81-227. -/
inductive Kind where
  | endOfInput
  | leftParen | rightParen | leftCurly | rightCurly | leftSquare | rightSquare | colon | comma | pipe
  | rangeExclusive | rangeInclusive | arrow | wideArrow | dot | questionMark | errorPropagate | coalesce
  | errorCoalesce | minus | plus | remainder | star | slash | not | notEqual | equal | greater
  | greaterEqual | less | lessEqual | assign | mulAssign | divAssign | addAssign | subAssign | lazyAnd
  | pipeline
  | object | false_ | true_ | null | if_ | else_ | while_ | loop | for_ | break_ | continue_ | return_
  | function | let_ | mut | in_ | operator | class_ | is | import_ | as | from_ | export | super | reserved
  | identifier | integer | float | string | backslashArg
  | error
  deriving DecidableEq, Repr

/-- `Token`, token.rs:20-25, without its span. -/
structure Token where
  kind : Kind
  text : String
  deriving DecidableEq, Repr

/-- The errors `lex_string` reports, token.rs:349-360. -/
inductive LexErr where
  | invalidEscape (c : Char)
  | unterminated
  deriving DecidableEq, Repr

/-- One item of `TokenIter`, token.rs:59-76.  `start` and `stop` are the byte offsets of the span. -/
structure Lexeme where
  start : Nat
  stop : Nat
  item : Except LexErr Token

/-- The patterns of the attributes of `TokenKind`, token.rs:85-225: `#[token]` literals and the regular
expressions.  The alternatives of `Reserved` (209) and of the skipped pattern (225) are listed apart. -/
inductive Pat where
  | lit (s : List Char)
  | ident
  | integer
  | float
  | blank
  | comment
  deriving DecidableEq, Repr

/-- The class `[_a-zA-Z]`, token.rs:213. -/
def isIdentStart (c : Char) : Bool :=
  c == '_' || ('a' ≤ c && c ≤ 'z') || ('A' ≤ c && c ≤ 'Z')

/-- The class `[0-9]`, token.rs:215. -/
def isDigitChar (c : Char) : Bool := '0' ≤ c && c ≤ '9'

/-- The class `[_a-zA-Z0-9]`, token.rs:213. -/
def isIdentChar (c : Char) : Bool := isIdentStart c || isDigitChar c

/-- The class `[ \t\r\n\f]`, token.rs:225. -/
def isBlank (c : Char) : Bool := c == ' ' || c == '\t' || c == '\r' || c == '\n' || c == '\x0c'

/-- The class `[^\r\n]`, token.rs:225. -/
def notNewline (c : Char) : Bool := !(c == '\r' || c == '\n')

/-- The length of a non-empty run of characters. -/
def runLength (p : Char → Bool) (cs : List Char) : Option Nat :=
  if cs.takeWhile p = [] then none else some (cs.takeWhile p).length

/-- The length of the longest prefix that the pattern matches. -/
def Pat.longest : Pat → List Char → Option Nat
  | .lit s, cs => if s.isPrefixOf cs then some s.length else none
  | .ident, c :: cs => if isIdentStart c then some ((cs.takeWhile isIdentChar).length + 1) else none
  | .ident, [] => none
  | .integer, cs => runLength isDigitChar cs
  | .float, cs =>
    match runLength isDigitChar cs with
    | none => none
    | some n =>
      match cs.drop n with
      | '.' :: rest => (runLength isDigitChar rest).map (n + 1 + ·)
      | _ => none
  | .blank, cs => runLength isBlank cs
  | .comment, '/' :: '/' :: rest => (runLength notNewline rest).map (2 + ·)
  | .comment, _ => none

/-- What is done with a match: the token kind, a callback (token.rs:219, 221) or `logos::skip` (225). -/
inductive Act where
  | tok (k : Kind)
  | lexString
  | lexBackslashArg
  | skip
  deriving DecidableEq, Repr

/-- The attributes of `TokenKind`, token.rs:81-227, in order of priority: the literals before the
identifier pattern.  No other two patterns match the same text. -/
def patterns : List (Pat × Act) :=
  let l (s : String) (k : Kind) : Pat × Act := (.lit s.toList, .tok k)
  [ l "(" .leftParen, l ")" .rightParen, l "{" .leftCurly, l "}" .rightCurly, l "[" .leftSquare,
    l "]" .rightSquare, l ":" .colon, l "," .comma, l "|" .pipe, l ".." .rangeExclusive,
    l "..=" .rangeInclusive, l "->" .arrow, l "=>" .wideArrow, l "." .dot, l "?" .questionMark,
    l "!!" .errorPropagate, l "??" .coalesce, l "or" .errorCoalesce, l "-" .minus, l "+" .plus,
    l "%" .remainder, l "*" .star, l "/" .slash, l "!" .not, l "!=" .notEqual, l "==" .equal,
    l ">" .greater, l ">=" .greaterEqual, l "<" .less, l "<=" .lessEqual, l "=" .assign,
    l "*=" .mulAssign, l "/=" .divAssign, l "+=" .addAssign, l "-=" .subAssign, l "&&" .lazyAnd,
    l "|>" .pipeline, l "#" .object, l "false" .false_, l "true" .true_, l "null" .null, l "if" .if_,
    l "else" .else_, l "while" .while_, l "loop" .loop, l "for" .for_, l "break" .break_,
    l "continue" .continue_, l "return" .return_, l "fn" .function, l "let" .let_, l "mut" .mut,
    l "in" .in_, l "op" .operator, l "class" .class_, l "is" .is, l "import" .import_, l "as" .as,
    l "from" .from_, l "export" .export, l "super" .super,
    l "await" .reserved, l "async" .reserved, l "yield" .reserved, l "do" .reserved,
    l "const" .reserved, l "match" .reserved, l "enum" .reserved, l "trait" .reserved,
    l "type" .reserved, l "try" .reserved, l "when" .reserved, l "default" .reserved,
    l "switch" .reserved,
    (.ident, .tok .identifier), (.integer, .tok .integer), (.float, .tok .float),
    (.lit "\"".toList, .lexString), (.lit "\\".toList, .lexBackslashArg),
    (.blank, .skip), (.comment, .skip) ]

/-- The longest match, and the first pattern in the list among the longest ones. -/
def longestMatch (cs : List Char) : List (Pat × Act) → Option (Nat × Act)
  | [] => none
  | (p, a) :: ps =>
    match p.longest cs, longestMatch cs ps with
    | none, r => r
    | some n, none => some (n, a)
    | some n, some (m, b) => if n < m then some (m, b) else some (n, a)

/-- The outcome of `lex_string`, token.rs:332-383, on the text after the opening quote: the number of
characters up to and including the closing quote, or why there is no token. -/
inductive StringEnd where
  | closed (n : Nat)
  | bad (e : LexErr)
  | open_
  deriving DecidableEq, Repr

/-- `lex_string`, token.rs:332-383.  The text with escapes replaced, which the Rust code collects in
`result`, is dropped there. -/
def lexString : List Char → StringEnd
  | [] => .open_
  | '"' :: _ => .closed 1
  | ['\\'] => .bad .unterminated
  | '\\' :: c :: cs =>
    if c = '"' ∨ c = '\\' ∨ c = 'n' ∨ c = 'r' ∨ c = 't' then
      match lexString cs with
      | .closed n => .closed (n + 2)
      | r => r
    else .bad (.invalidEscape c)
  | _ :: cs =>
    match lexString cs with
    | .closed n => .closed (n + 1)
    | r => r

/-- `lex_backslash_arg`, token.rs:305-330: the number of characters up to and including the next
backslash. -/
def lexBackslashArg : List Char → Option Nat
  | [] => none
  | '\\' :: _ => some 1
  | _ :: cs => (lexBackslashArg cs).map (· + 1)

/-- What happens at one position: how many characters are consumed and the item produced, if any. -/
structure Scan where
  length : Nat
  item : Option (Except LexErr Kind)

/-- One step of the generated scanner together with `TokenIter::next`, token.rs:62-75.  A character at
which no pattern matches gives an `Error` token of that character; the callbacks that return `false` give
an `Error` token of what the pattern matched, unless they set an error, which is then returned instead.
`logos` may let an `Error` token cover more than one character when a pattern matched only in part; that
is not modelled. -/
def scan (cs : List Char) : Scan :=
  match longestMatch cs patterns with
  | none => ⟨1, some (.ok .error)⟩
  | some (n, .tok k) => ⟨n, some (.ok k)⟩
  | some (n, .skip) => ⟨n, none⟩
  | some (n, .lexString) =>
    match lexString (cs.drop n) with
    | .closed m => ⟨n + m, some (.ok .string)⟩
    | .bad e => ⟨n, some (.error e)⟩
    | .open_ => ⟨n, some (.ok .error)⟩
  | some (n, .lexBackslashArg) =>
    match lexBackslashArg (cs.drop n) with
    | some m => ⟨n + m, some (.ok .backslashArg)⟩
    | none => ⟨n, some (.ok .error)⟩

/-- The number of bytes of the text. -/
def byteLength (cs : List Char) : Nat := (cs.map Char.utf8Size).sum

/-- The items `TokenIter` produces, token.rs:59-76, from the text `cs` that starts at byte `pos`.  The
first argument bounds the number of steps; `tokenize` gives one per character, which always suffices. -/
def tokens : Nat → Nat → List Char → List Lexeme
  | 0, _, _ => []
  | _, _, [] => []
  | fuel + 1, pos, cs =>
    let s := scan cs
    let text := cs.take s.length
    let stop := pos + byteLength text
    let rest := tokens fuel stop (cs.drop s.length)
    match s.item with
    | none => rest
    | some (.error e) => ⟨pos, stop, .error e⟩ :: rest
    | some (.ok k) => ⟨pos, stop, .ok ⟨k, String.ofList text⟩⟩ :: rest

/-- `Token::tokenize`, token.rs:28-30. -/
def tokenize (source : List Char) : List Lexeme := tokens source.length 0 source

end Dice
