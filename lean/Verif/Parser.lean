import Verif.Ast
import Verif.Lexer

/-!
# Parser

Model of dice-syntax/src/parser.  The parser is a Pratt parser over the token stream.  Spans are left out, so
`Lexer::current`, which is only asked for its span, is not modelled.  The Rust functions call each other
recursively; here the recursion is bounded by a number, and `Fail.fuel` is the answer when it is too small,
which `parse` never gives.  Overflowing the native stack on deeply nested input is not modelled.
-/

namespace Dice.Parser

/-- The errors of the parser, with the codes of dice-core/src/error/codes.rs; the lists of expected tokens are
left out. -/
inductive SyntaxErr where
  | lex (e : LexErr)
  | unexpected (actual : Kind)
  | importUsage
  | tooManyArguments
  | integerValue (text : String)
  deriving DecidableEq, Repr

/-- How parsing can fail: an error value, the `todo!()` of rules.rs:229, or the recursion bound of the model. -/
inductive Fail where
  | error (e : SyntaxErr)
  | panic
  | fuel
  deriving DecidableEq, Repr

/-- The rest of the token stream. -/
abbrev Input := List (Except LexErr Token)

/-- Parsing functions. -/
def P (α : Type) : Type := Input → Except Fail (α × Input)

namespace P

def pure {α : Type} (a : α) : P α := fun ts => .ok (a, ts)

def bind {α β : Type} (x : P α) (f : α → P β) : P β := fun ts =>
  match x ts with
  | .ok (a, ts) => f a ts
  | .error e => .error e

instance : Monad P where
  pure := P.pure
  bind := P.bind

def fail {α : Type} (e : SyntaxErr) : P α := fun _ => .error (.error e)

def panic {α : Type} : P α := fun _ => .error .panic

def outOfFuel {α : Type} : P α := fun _ => .error .fuel

end P

/-- `Token::end_of_input`, token.rs:32-38. -/
def eoi : Token := ⟨.endOfInput, ""⟩

/-- `Lexer::peek`, lexer/mod.rs:46-51. -/
def peekToken : P Token := fun ts =>
  match ts with
  | [] => .ok (eoi, [])
  | .error e :: _ => .error (.error (.lex e))
  | .ok t :: _ => .ok (t, ts)

/-- `Lexer::next`, lexer/mod.rs:37-44. -/
def nextToken : P Token := fun ts =>
  match ts with
  | [] => .ok (eoi, [])
  | .error e :: _ => .error (.error (.lex e))
  | .ok t :: ts => .ok (t, ts)

/-- `Lexer::consume`, lexer/mod.rs:53-68. -/
def consume (k : Kind) : P Unit := do
  let t ← nextToken
  if t.kind = k then pure () else P.fail (.unexpected t.kind)

/-- `Lexer::consume_ident`, lexer/mod.rs:70-86. -/
def consumeIdent : P String := do
  let t ← nextToken
  if t.kind = .identifier then pure t.text else P.fail (.unexpected t.kind)

/-- `Lexer::consume_string`, lexer/mod.rs:88-105. -/
def consumeString : P String := do
  let t ← nextToken
  if t.kind = .string then pure t.text else P.fail (.unexpected t.kind)

/-- `process_string`, parser/mod.rs:1132-1136: everything but the first and the last character.  The token
has at least these two (`string_token_text`), so the slice is in bounds. -/
def processString (s : String) : String := String.ofList (s.toList.drop 1).dropLast

/-- `Precedence`, rules.rs:262-279. -/
inductive Precedence where
  | none | assignment | pipeline | coalesce | range | or | and | comparison | term | factor | unary
  | propagate | call | object | primary
  deriving DecidableEq, Repr

/-- The derived order of `Precedence`, rules.rs:261. -/
def Precedence.rank : Precedence → Nat
  | .none => 0 | .assignment => 1 | .pipeline => 2 | .coalesce => 3 | .range => 4 | .or => 5 | .and => 6
  | .comparison => 7 | .term => 8 | .factor => 9 | .unary => 10 | .propagate => 11 | .call => 12
  | .object => 13 | .primary => 14

/-- `Precedence::increment`, rules.rs:282-302. -/
def Precedence.increment : Precedence → Precedence
  | .none => .assignment | .assignment => .pipeline | .pipeline => .coalesce | .coalesce => .range
  | .range => .or | .or => .and | .and => .comparison | .comparison => .term | .term => .factor
  | .factor => .unary | .unary => .propagate | .propagate => .call | .call => .object
  | .object => .primary | .primary => .primary

/-- The prefix parsers named in rules.rs:53-205. -/
inductive PrefixRule where
  | literal | variable | ifExpression | object | list | superAccess | grouping | blockExpression
  | anonymousFn | prefixOperator
  deriving DecidableEq, Repr

/-- The infix parsers named in rules.rs:53-205. -/
inductive InfixRule where
  | indexAccess | fieldAccess | fnCall | binaryOperator | errorCoalesce | isOperator
  deriving DecidableEq, Repr

/-- The postfix parsers named in rules.rs:206-213. -/
inductive PostfixRule where
  | nullPropagate | errorPropagate
  deriving DecidableEq, Repr

/-- `Rule`, rules.rs:234-238.  The precedence of a prefix rule is never used. -/
structure Rule where
  prefix_ : Option PrefixRule := none
  infix_ : Option (InfixRule × Precedence) := none
  postfix_ : Option (PostfixRule × Precedence) := none
  deriving DecidableEq, Repr

/-- `ParserRules::new` and `ParserRules::for_token`, rules.rs:21-230; `none` is the `todo!()` of 229. -/
def ruleFor : Kind → Option Rule
  | .rightSquare | .rightParen | .rightCurly | .comma | .colon | .assign | .mulAssign | .divAssign
  | .addAssign | .subAssign | .while_ | .loop | .for_ | .let_ | .function | .operator | .class_ | .import_
  | .export | .return_ | .break_ | .continue_ => some {}
  | .integer | .float | .string | .null | .false_ | .true_ => some { prefix_ := some .literal }
  | .identifier => some { prefix_ := some .variable }
  | .if_ => some { prefix_ := some .ifExpression }
  | .object => some { prefix_ := some .object }
  | .leftSquare => some { prefix_ := some .list, infix_ := some (.indexAccess, .call) }
  | .dot => some { infix_ := some (.fieldAccess, .call) }
  | .super => some { prefix_ := some .superAccess }
  | .leftParen => some { prefix_ := some .grouping, infix_ := some (.fnCall, .call) }
  | .backslashArg => some { infix_ := some (.fnCall, .call) }
  | .leftCurly => some { prefix_ := some .blockExpression }
  | .pipeline => some { infix_ := some (.binaryOperator, .pipeline) }
  | .coalesce => some { infix_ := some (.binaryOperator, .coalesce) }
  | .errorCoalesce => some { infix_ := some (.errorCoalesce, .coalesce) }
  | .rangeExclusive | .rangeInclusive => some { infix_ := some (.binaryOperator, .range) }
  | .lazyAnd => some { infix_ := some (.binaryOperator, .and) }
  | .pipe => some { prefix_ := some .anonymousFn, infix_ := some (.binaryOperator, .or) }
  | .equal | .notEqual | .greater | .greaterEqual | .less | .lessEqual =>
    some { infix_ := some (.binaryOperator, .comparison) }
  | .is => some { infix_ := some (.isOperator, .comparison) }
  | .star | .slash | .remainder => some { infix_ := some (.binaryOperator, .factor) }
  | .plus => some { infix_ := some (.binaryOperator, .term) }
  | .minus => some { prefix_ := some .prefixOperator, infix_ := some (.binaryOperator, .term) }
  | .not => some { prefix_ := some .prefixOperator }
  | .questionMark => some { postfix_ := some (.nullPropagate, .propagate) }
  | .errorPropagate => some { postfix_ := some (.errorPropagate, .propagate) }
  | .endOfInput => some {}
  | .arrow | .wideArrow | .else_ | .mut | .in_ | .as | .from_ | .reserved | .error => none

/-- `self.rules.for_token(&token)?`. -/
def ruleOf (k : Kind) : P Rule :=
  match ruleFor k with
  | some r => pure r
  | none => P.panic

/-! ## Parts without expressions -/

/-- `parse_type_annotation`, parser/mod.rs:525-546. -/
def parseTypeAnnotation (delimiter : Kind) : P TypeAnn := do
  consume delimiter
  let name ← consumeIdent
  if (← peekToken).kind = .questionMark then do
    consume .questionMark
    pure ⟨name, true⟩
  else pure ⟨name, false⟩

/-- `parse_return`, parser/mod.rs:484-490. -/
def parseReturn : P (Option TypeAnn) := do
  if (← peekToken).kind = .arrow then some <$> parseTypeAnnotation .arrow else pure none

/-- After an element of a list, parser/mod.rs:513-518 and alike: a comma, or the closing token follows. -/
def separator (close : Kind) : P Unit := do
  let next ← peekToken
  if next.kind = .comma then do
    let _ ← nextToken
    pure ()
  else if next.kind ≠ close then P.fail (.unexpected next.kind)
  else pure ()

/-- The optional type of an argument, parser/mod.rs:501-505. -/
def parseArgType : P (Option TypeAnn) := do
  if (← peekToken).kind = .colon then some <$> parseTypeAnnotation .colon else pure none

/-- The loop of `parse_args`, parser/mod.rs:497-519. -/
def argsLoop : Nat → Kind → P (List FnArg)
  | 0, _ => P.outOfFuel
  | n + 1, close => do
    if (← peekToken).kind = close then pure []
    else do
      let name ← consumeIdent
      let type_ ← parseArgType
      separator close
      let rest ← argsLoop n close
      pure (⟨name, type_⟩ :: rest)

/-- `parse_args`, parser/mod.rs:492-523. -/
def parseArgs (n : Nat) (open_ close : Kind) : P (List FnArg) := do
  consume open_
  let args ← argsLoop n close
  consume close
  pure args

/-- The loop of `parse_fields`, parser/mod.rs:553-563. -/
def fieldsLoop : Nat → Kind → P (List String)
  | 0, _ => P.outOfFuel
  | n + 1, close => do
    if (← peekToken).kind = close then pure []
    else do
      let name ← consumeIdent
      separator close
      let rest ← fieldsLoop n close
      pure (name :: rest)

/-- `parse_fields`, parser/mod.rs:548-567. -/
def parseFields (n : Nat) (open_ close : Kind) : P (List String) := do
  consume open_
  let names ← fieldsLoop n close
  consume close
  pure names

/-- The value of a digit. -/
def digitValue (c : Char) : Nat := c.toNat - '0'.toNat

/-- The number a run of digits denotes. -/
def digitsValue (cs : List Char) : Nat := cs.foldl (fun n c => 10 * n + digitValue c) 0

/-- `str::parse::<i64>`, parser/mod.rs:1015, on the text of an integer token, which has only digits: it fails
when the number does not fit. -/
def parseInt (s : String) : Option Int :=
  if s.toList ≠ [] ∧ s.toList.all isDigitChar = true ∧ digitsValue s.toList < 2 ^ 63 then
    some (digitsValue s.toList)
  else none

/-- `str::parse::<f64>`, parser/mod.rs:1026, on the text of a float token, which is of the form
`digits.digits`: the nearest float, and it never fails. -/
def parseFloat (s : String) : Float :=
  let whole := s.toList.takeWhile isDigitChar
  let frac := (s.toList.drop whole.length).drop 1
  Float.ofScientific (digitsValue (whole ++ frac)) true frac.length

/-- `literal`, parser/mod.rs:1009-1060. -/
def literal : P Expr := do
  let t ← nextToken
  match t.kind with
  | .integer =>
    match parseInt t.text with
    | some i => pure (.int i)
    | none => P.fail (.integerValue t.text)
  | .float => pure (.float (parseFloat t.text))
  | .string => pure (.str (processString t.text))
  | .false_ => pure (.bool false)
  | .true_ => pure (.bool true)
  | .null => pure .null
  | k => P.fail (.unexpected k)

/-- The optional module import, parser/mod.rs:267-280. -/
def importModule : P (Option String) := do
  if (← peekToken).kind = .star then do
    consume .star
    consume .as
    let name ← consumeIdent
    if (← peekToken).kind = .comma then consume .comma else pure ()
    pure (some name)
  else pure none

/-- The optional list of imported items, parser/mod.rs:282-286. -/
def importItems (n : Nat) : P (List String) := do
  if (← peekToken).kind = .leftCurly then parseFields n .leftCurly .rightCurly else pure []

/-- `import_decl`, parser/mod.rs:265-313. -/
def importDecl (n : Nat) : P Expr := do
  consume .import_
  let module_ ← importModule
  let items ← importItems n
  if module_ = none ∧ items = [] then P.fail .importUsage
  else do
    consume .from_
    let path ← consumeString
    pure (.importDecl module_ items (processString path))

/-- The operator of `op_decl`, parser/mod.rs:434-469. -/
def overloadedOp : Kind → Option OverOp
  | .star => some .multiply
  | .slash => some .divide
  | .remainder => some .remainder
  | .plus => some .add
  | .minus => some .subtract
  | .greater => some .greaterThan
  | .greaterEqual => some .greaterThanEquals
  | .less => some .lessThan
  | .lessEqual => some .lessThanEquals
  | .equal => some .equals
  | .notEqual => some .notEquals
  | .rangeExclusive => some .rangeExclusive
  | .rangeInclusive => some .rangeInclusive
  | _ => none

/-- The operator of `binary_operator`, parser/mod.rs:619-641; the `unreachable!()` is `none`. -/
def binaryOp : Kind → Option BinaryOp
  | .pipeline => some .pipeline
  | .coalesce => some .coalesce
  | .rangeExclusive => some .rangeExclusive
  | .rangeInclusive => some .rangeInclusive
  | .lazyAnd => some .logicalAnd
  | .pipe => some .logicalOr
  | .equal => some .equals
  | .notEqual => some .notEquals
  | .greater => some .greaterThan
  | .greaterEqual => some .greaterThanEquals
  | .less => some .lessThan
  | .lessEqual => some .lessThanEquals
  | .plus => some .add
  | .minus => some .subtract
  | .star => some .multiply
  | .slash => some .divide
  | .remainder => some .remainder
  | _ => none

/-- The operator of `parse_assignment`, parser/mod.rs:1063-1091; `none` when the token is not one. -/
def assignOp : Kind → Option AssignOp
  | .assign => some .assign
  | .mulAssign => some .mul
  | .divAssign => some .div
  | .addAssign => some .add
  | .subAssign => some .sub
  | _ => none

/-! ## Expressions and statements

The functions below take the parsers they call recursively as a record. -/

/-- The recursive calls: `parse_precedence`, `expression_sequence` and `if_expression`. -/
structure Rec where
  prec : Precedence → P Expr
  sequence : P Expr
  ifExpr : P Expr

variable (n : Nat) (r : Rec)

/-- `expression`, parser/mod.rs:101-103. -/
def Rec.expr : P Expr := r.prec .assignment

/-- `block_expression`, parser/mod.rs:244-250. -/
def block : P Expr := do
  consume .leftCurly
  let e ← r.sequence
  consume .rightCurly
  pure e

/-- The part of an `if` after its first block, parser/mod.rs:150-160. -/
def elseBranch : P (Option Expr) := do
  if (← peekToken).kind = .else_ then do
    consume .else_
    let next ← peekToken
    if next.kind = .if_ then some <$> r.ifExpr
    else if next.kind = .leftCurly then some <$> block r
    else pure none
  else pure none

/-- `if_expression`, parser/mod.rs:146-170. -/
def ifExpression : P Expr := do
  consume .if_
  let cond ← r.expr
  let thenE ← block r
  let elseE ← elseBranch r
  pure (.ifExpr cond thenE elseE)

/-- `loop_statement`, parser/mod.rs:172-182. -/
def loopStatement : P Expr := do
  consume .loop
  let body ← block r
  pure (.loop body)

/-- `while_statement`, parser/mod.rs:184-196. -/
def whileStatement : P Expr := do
  consume .while_
  let cond ← r.expr
  let body ← block r
  pure (.whileLoop cond body)

/-- `for_statement`, parser/mod.rs:198-213. -/
def forStatement : P Expr := do
  consume .for_
  let var ← consumeIdent
  consume .in_
  let source ← r.expr
  let body ← block r
  pure (.forLoop var source body)

/-- `control_flow`, parser/mod.rs:215-242. -/
def controlFlow : P Expr := do
  let t ← nextToken
  match t.kind with
  | .break_ => pure .break_
  | .continue_ => pure .continue_
  | .return_ =>
    if (← peekToken).kind ≠ .rightCurly then do
      let e ← r.expr
      pure (.return_ (some e))
    else pure (.return_ none)
  | k => P.fail (.unexpected k)

/-- `parse_assignment`, parser/mod.rs:1062-1106. -/
def parseAssignment (lhs : Expr) (canAssign : Bool) : P Expr := do
  let t ← peekToken
  match canAssign, assignOp t.kind with
  | true, some op => do
    let _ ← nextToken
    let rhs ← r.expr
    pure (.assign op lhs rhs)
  | _, _ => pure lhs

/-- `variable`, parser/mod.rs:252-263. -/
def variable_ (canAssign : Bool) : P Expr := do
  let t ← nextToken
  if t.kind = .identifier then parseAssignment r (.ident t.text) canAssign
  else P.fail (.unexpected t.kind)

/-- The pattern of a `let`, parser/mod.rs:357-367. -/
def varKind : P VarKind := do
  let t ← peekToken
  match t.kind with
  | .identifier => do
    let _ ← nextToken
    pure (.singular t.text)
  | .leftCurly => VarKind.destructured <$> parseFields n .leftCurly .rightCurly
  | k => P.fail (.unexpected k)

/-- The optional `mut` of a `let`, parser/mod.rs:350-355. -/
def optMut : P Bool := do
  if (← peekToken).kind = .mut then do
    consume .mut
    pure true
  else pure false

/-- `var_decl`, parser/mod.rs:347-381. -/
def varDecl : P Expr := do
  consume .let_
  let isMutable ← optMut
  let kind ← varKind n
  consume .assign
  let e ← r.expr
  pure (.varDecl kind isMutable e none)

/-- `anonymous_fn`, parser/mod.rs:383-404. -/
def anonymousFn : P Expr := do
  let args ← parseArgs n .pipe .pipe
  if args.length > 255 then P.fail .tooManyArguments
  else do
    let body ← r.expr
    pure (.anonFn args none body)

/-- `fn_decl`, parser/mod.rs:406-430. -/
def fnDecl : P Expr := do
  consume .function
  let name ← consumeIdent
  let args ← parseArgs n .leftParen .rightParen
  if args.length > 255 then P.fail .tooManyArguments
  else do
    let ret ← parseReturn
    let body ← block r
    pure (.fnDecl name args ret body)

/-- `op_decl`, parser/mod.rs:432-482. -/
def opDecl : P Expr := do
  consume .operator
  let t ← nextToken
  match overloadedOp t.kind with
  | none => P.fail (.unexpected t.kind)
  | some op => do
    let args ← parseArgs n .leftParen .rightParen
    let ret ← parseReturn
    let body ← block r
    pure (.opDecl op args ret body)

/-- The loop of `class_decl`, parser/mod.rs:588-602. -/
def classLoop : Nat → P (List Expr)
  | 0 => P.outOfFuel
  | k + 1 => do
    let t ← peekToken
    match t.kind with
    | .rightCurly => pure []
    | .function => do
      let e ← fnDecl n r
      let rest ← classLoop k
      pure (e :: rest)
    | .operator => do
      let e ← opDecl n r
      let rest ← classLoop k
      pure (e :: rest)
    | kind => P.fail (.unexpected kind)

/-- The optional base of a class, parser/mod.rs:576-581. -/
def classBase : P (Option Expr) := do
  if (← peekToken).kind = .colon then do
    consume .colon
    some <$> r.expr
  else pure none

/-- `class_decl`, parser/mod.rs:569-615. -/
def classDecl : P Expr := do
  consume .class_
  let name ← consumeIdent
  let base ← classBase r
  consume .leftCurly
  let items ← classLoop n r n
  consume .rightCurly
  pure (.classDecl name base items)

/-- What is exported, parser/mod.rs:318-336.  The identifier of `export x` is looked at but not consumed. -/
def exported : P Expr := do
  let t ← peekToken
  match t.kind with
  | .let_ => varDecl n r
  | .function => fnDecl n r
  | .class_ => classDecl n r
  | .identifier => pure (.ident t.text)
  | k => P.fail (.unexpected k)

/-- `export_decl`, parser/mod.rs:315-345. -/
def exportDecl : P Expr := do
  consume .export
  let e ← exported n r
  pure (.exportDecl e)

/-- The `match` of `expression_sequence`, parser/mod.rs:67-79. -/
def statement : P Expr := do
  let t ← peekToken
  match t.kind with
  | .loop => loopStatement r
  | .while_ => whileStatement r
  | .for_ => forStatement r
  | .let_ => varDecl n r
  | .function => fnDecl n r
  | .operator => opDecl n r
  | .class_ => classDecl n r
  | .import_ => importDecl n
  | .export => exportDecl n r
  | .return_ | .break_ | .continue_ => controlFlow r
  | _ => r.expr

/-- The end of a sequence, parser/mod.rs:66 and 83. -/
def endsSequence (k : Kind) : Bool := k == .endOfInput || k == .rightCurly

/-- The loop of `expression_sequence`, parser/mod.rs:66-89. -/
def sequenceLoop : Nat → P (List Expr × Option Expr)
  | 0 => P.outOfFuel
  | k + 1 => do
    if endsSequence (← peekToken).kind then pure ([], none)
    else do
      let e ← statement n r
      if endsSequence (← peekToken).kind then pure ([], some e)
      else do
        let rest ← sequenceLoop k
        pure (e :: rest.1, rest.2)

/-- `expression_sequence`, parser/mod.rs:60-99. -/
def sequence : P Expr := do
  let rest ← sequenceLoop n r n
  pure (.block rest.1 rest.2)

/-- `grouping`, parser/mod.rs:828-844. -/
def grouping : P Expr := do
  consume .leftParen
  if (← peekToken).kind = .rightParen then do
    consume .rightParen
    pure .unit
  else do
    let e ← r.expr
    consume .rightParen
    pure e

/-- The loops over comma-separated expressions in `fn_call`, `super_call` and `list`,
parser/mod.rs:865-875, 895-905, 986-997. -/
def itemsLoop (close : Kind) : Nat → P (List Expr)
  | 0 => P.outOfFuel
  | k + 1 => do
    if (← peekToken).kind = close then pure []
    else do
      let e ← r.prec .assignment
      separator close
      let rest ← itemsLoop close k
      pure (e :: rest)

/-- The key of an object field, parser/mod.rs:949-957: the text of the token as it is. -/
def objectKey : P String := do
  let t ← nextToken
  if t.kind = .string ∨ t.kind = .integer ∨ t.kind = .identifier then pure t.text
  else P.fail (.unexpected t.kind)

/-- The loop of `object`, parser/mod.rs:948-969. -/
def objectLoop : Nat → P (List (String × Expr))
  | 0 => P.outOfFuel
  | k + 1 => do
    if (← peekToken).kind = .rightCurly then pure []
    else do
      let key ← objectKey
      consume .colon
      let e ← r.prec .assignment
      separator .rightCurly
      let rest ← objectLoop k
      pure ((key, e) :: rest)

/-- `object`, parser/mod.rs:942-979. -/
def object : P Expr := do
  consume .object
  consume .leftCurly
  let items ← objectLoop r n
  consume .rightCurly
  pure (.object items)

/-- `list`, parser/mod.rs:981-1007. -/
def list : P Expr := do
  consume .leftSquare
  let items ← itemsLoop r .rightSquare n
  consume .rightSquare
  pure (.list items)

/-- `fn_call`, parser/mod.rs:846-888. -/
def fnCall (lhs : Expr) : P Expr := do
  if (← peekToken).kind = .backslashArg then do
    let t ← nextToken
    pure (.call lhs [.str (processString t.text)])
  else do
    consume .leftParen
    let args ← itemsLoop r .rightParen n
    consume .rightParen
    pure (.call lhs args)

/-- `super_call`, parser/mod.rs:890-914. -/
def superCall : P Expr := do
  consume .leftParen
  let args ← itemsLoop r .rightParen n
  consume .rightParen
  pure (.superCall args)

/-- The optional class of a super access, parser/mod.rs:917-925. -/
def superClass : P (Option String) := do
  if (← peekToken).kind = .leftSquare then do
    consume .leftSquare
    let name ← consumeIdent
    consume .rightSquare
    pure (some name)
  else pure none

/-- `super_method_access`, parser/mod.rs:916-940. -/
def superMethodAccess : P Expr := do
  let cls ← superClass
  consume .dot
  let field ← consumeIdent
  pure (.superAccess field cls)

/-- `super_access`, parser/mod.rs:813-826. -/
def superAccess : P Expr := do
  consume .super
  let t ← peekToken
  match t.kind with
  | .dot | .leftSquare => superMethodAccess
  | .leftParen => superCall n r
  | k => P.fail (.unexpected k)

/-- `prefix_operator`, parser/mod.rs:668-683; the `unreachable!()` is a panic. -/
def prefixOperator : P Expr := do
  let t ← nextToken
  let e ← r.prec .unary
  match t.kind with
  | .minus => pure (.unary .negate e)
  | .not => pure (.unary .not e)
  | _ => P.panic

/-- The second token of `||`, parser/mod.rs:625-628. -/
def secondPipe (k : Kind) : P Unit :=
  if k = .pipe then consume .pipe else pure ()

/-- `binary_operator`, parser/mod.rs:617-655; `unreachable!()` and `expect` are panics. -/
def binaryOperator (lhs : Expr) : P Expr := do
  let t ← nextToken
  match binaryOp t.kind with
  | none => P.panic
  | some op => do
    secondPipe t.kind
    let rule ← ruleOf t.kind
    match rule.infix_ with
    | none => P.panic
    | some (_, p) => do
      let rhs ← r.prec p.increment
      pure (.binary op lhs rhs)

/-- `is_operator`, parser/mod.rs:657-666. -/
def isOperator (lhs : Expr) : P Expr := do
  let t ← parseTypeAnnotation .is
  pure (.is lhs t)

/-- The tree that `error_coalesce` builds, parser/mod.rs:721-781.  The node `#result.result`, which occurs in
it twice, is shared in the arena. -/
def coalesceTree (e : Expr) (name : String) (body : Expr) : Expr :=
  .block [.varDecl (.singular "#result") false e (some ⟨"Result", false⟩)]
    (some (.ifExpr (.field (.ident "#result") "is_ok") (.field (.ident "#result") "result")
      (some (.block [.varDecl (.singular name) false (.field (.ident "#result") "result") none] (some body)))))

/-- `error_coalesce`, parser/mod.rs:706-781. -/
def errorCoalesce (lhs : Expr) : P Expr := do
  consume .errorCoalesce
  let name ← consumeIdent
  let body ← block r
  pure (coalesceTree lhs name body)

/-- `index_access`, parser/mod.rs:783-796. -/
def indexAccess (lhs : Expr) (canAssign : Bool) : P Expr := do
  consume .leftSquare
  let idx ← r.expr
  consume .rightSquare
  parseAssignment r (.index lhs idx) canAssign

/-- `field_access`, parser/mod.rs:798-811. -/
def fieldAccess (lhs : Expr) (canAssign : Bool) : P Expr := do
  consume .dot
  let field ← consumeIdent
  parseAssignment r (.field lhs field) canAssign

/-- The call of a prefix parser, parser/mod.rs:109-115. -/
def runPrefix : PrefixRule → Bool → P Expr
  | .literal, _ => literal
  | .variable, c => variable_ r c
  | .ifExpression, _ => ifExpression r
  | .object, _ => object n r
  | .list, _ => list n r
  | .superAccess, _ => superAccess n r
  | .grouping, _ => grouping r
  | .blockExpression, _ => block r
  | .anonymousFn, _ => anonymousFn n r
  | .prefixOperator, _ => prefixOperator r

/-- The call of an infix parser, parser/mod.rs:137. -/
def runInfix : InfixRule → Expr → Bool → P Expr
  | .indexAccess, e, c => indexAccess r e c
  | .fieldAccess, e, c => fieldAccess r e c
  | .fnCall, e, _ => fnCall n r e
  | .binaryOperator, e, _ => binaryOperator r e
  | .errorCoalesce, e, _ => errorCoalesce r e
  | .isOperator, e, _ => isOperator e

/-- The call of a postfix parser, parser/mod.rs:127; `null_propagate` and `error_propagate`,
parser/mod.rs:686-705. -/
def runPostfix : PostfixRule → Expr → P Expr
  | .nullPropagate, e => do
    consume .questionMark
    pure (.nullProp e)
  | .errorPropagate, e => do
    consume .errorPropagate
    pure (.errProp e)

/-- `precedence <= Precedence::Assignment`, parser/mod.rs:111, 127, 137. -/
def canAssign (p : Precedence) : Bool := decide (p.rank ≤ Precedence.assignment.rank)

/-- The loop of `parse_precedence`, parser/mod.rs:117-141. -/
def precLoop (p : Precedence) : Nat → Expr → P Expr
  | 0, _ => P.outOfFuel
  | k + 1, node => do
    let t ← peekToken
    let rule ← ruleOf t.kind
    match rule.postfix_ with
    | some (f, q) =>
      if q.rank < p.rank then pure node
      else do
        let node ← runPostfix f node
        precLoop p k node
    | none =>
      match rule.infix_ with
      | some (f, q) =>
        if q.rank < p.rank then pure node
        else do
          let node ← runInfix n r f node (canAssign p)
          precLoop p k node
      | none => pure node

/-- `parse_precedence`, parser/mod.rs:105-144. -/
def parsePrecedence (p : Precedence) : P Expr := do
  let t ← peekToken
  let rule ← ruleOf t.kind
  match rule.prefix_ with
  | none => P.fail (.unexpected t.kind)
  | some f => do
    let node ← runPrefix n r f (canAssign p)
    precLoop n r p n node

/-- The parsers with the recursion bounded by the argument. -/
def parser : Nat → Rec
  | 0 => ⟨fun _ => P.outOfFuel, P.outOfFuel, P.outOfFuel⟩
  | n + 1 => ⟨parsePrecedence n (parser n), sequence n (parser n), ifExpression (parser n)⟩

/-- A recursion bound that suffices. -/
def enough (ts : Input) : Nat := 2 * ts.length + 3

/-- `Parser::parse`, parser/mod.rs:54-58.  What is left of the token stream is thrown away. -/
def parseTokens (ts : Input) : Except Fail Expr :=
  ((parser (enough ts)).sequence ts).map (·.1)

/-- Lexing and parsing a source text. -/
def parseSource (source : String) : Except Fail Expr :=
  parseTokens ((tokenize source.toList).map (·.item))

end Dice.Parser
