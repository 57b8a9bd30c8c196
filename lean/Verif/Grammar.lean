import Verif.Ast
import Verif.Lexer

/-!
# Grammar

What token sequences mean, stated without reference to the parser: a table of how tightly operators bind, and
rules saying which tokens write which tree.  An expression that ends in an operand or a body without a closing
token takes in whatever binds to that operand, so every rule also says which tokens may come next.
-/

namespace Dice.Grammar

/-- How tightly a token binds the expression before it; 0 when it does not continue an expression. -/
def binds : Kind → Nat
  | .pipeline => 2
  | .coalesce | .errorCoalesce => 3
  | .rangeExclusive | .rangeInclusive => 4
  | .pipe => 5
  | .lazyAnd => 6
  | .equal | .notEqual | .greater | .greaterEqual | .less | .lessEqual | .is => 7
  | .plus | .minus => 8
  | .star | .slash | .remainder => 9
  | .questionMark | .errorPropagate => 11
  | .dot | .leftSquare | .leftParen | .backslashArg => 12
  | _ => 0

/-- The level of a prefix operator: its operand is made of operators that bind at least as tightly. -/
def unaryLevel : Nat := 10

/-- The level of an expression that is not made of operators. -/
def closedLevel : Nat := 14

/-- The first token of a binary operator. -/
def opKind : BinaryOp → Kind
  | .multiply => .star
  | .divide => .slash
  | .remainder => .remainder
  | .add => .plus
  | .subtract => .minus
  | .greaterThan => .greater
  | .lessThan => .less
  | .greaterThanEquals => .greaterEqual
  | .lessThanEquals => .lessEqual
  | .equals => .equal
  | .notEquals => .notEqual
  | .logicalAnd => .lazyAnd
  | .logicalOr => .pipe
  | .rangeInclusive => .rangeInclusive
  | .rangeExclusive => .rangeExclusive
  | .coalesce => .coalesce
  | .pipeline => .pipeline

/-- The other tokens of a binary operator: there is no token for `||`. -/
def opRest : BinaryOp → List Kind
  | .logicalOr => [.pipe]
  | _ => []

/-- The level of a binary operator. -/
def level (op : BinaryOp) : Nat := binds (opKind op)

/-- The token of a prefix operator. -/
def unaryKind : UnaryOp → Kind
  | .negate => .minus
  | .not => .not

/-- The token of an assignment. -/
def assignKind : AssignOp → Kind
  | .assign => .assign
  | .mul => .mulAssign
  | .div => .divAssign
  | .add => .addAssign
  | .sub => .subAssign

/-- The token of an operator that a class can define. -/
def overKind : OverOp → Kind
  | .multiply => .star
  | .divide => .slash
  | .remainder => .remainder
  | .add => .plus
  | .subtract => .minus
  | .greaterThan => .greater
  | .lessThan => .less
  | .greaterThanEquals => .greaterEqual
  | .lessThanEquals => .lessEqual
  | .equals => .equal
  | .notEquals => .notEqual
  | .rangeInclusive => .rangeInclusive
  | .rangeExclusive => .rangeExclusive

/-- Decimal notation. -/
inductive Decimal : List Char → Nat → Prop where
  | one (c : Char) : '0' ≤ c → c ≤ '9' → Decimal [c] (c.toNat - '0'.toNat)
  | snoc (cs : List Char) (n : Nat) (c : Char) : Decimal cs n → '0' ≤ c → c ≤ '9' →
      Decimal (cs ++ [c]) (10 * n + (c.toNat - '0'.toNat))

/-- A text without its first and its last character. -/
def inner (s : String) : String := String.ofList s.toList.tail.dropLast

/-- The float that a text with a decimal point denotes. -/
def floatOf (s : String) : Float :=
  let digits := fun cs : List Char => cs.foldl (fun n c => 10 * n + (c.toNat - '0'.toNat)) 0
  let whole := s.toList.takeWhile fun c => '0' ≤ c && c ≤ '9'
  let frac := (s.toList.drop whole.length).drop 1
  Float.ofScientific (digits (whole ++ frac)) true frac.length

/-- Literals. -/
inductive Lit : Token → Expr → Prop where
  | int (t : Token) (n : Nat) : t.kind = .integer → Decimal t.text.toList n → n < 2 ^ 63 → Lit t (.int n)
  | float (t : Token) : t.kind = .float → Lit t (.float (floatOf t.text))
  | str (t : Token) : t.kind = .string → Lit t (.str (inner t.text))
  | true_ (t : Token) : t.kind = .true_ → Lit t (.bool true)
  | false_ (t : Token) : t.kind = .false_ → Lit t (.bool false)
  | null (t : Token) : t.kind = .null → Lit t .null

/-- Type annotations. -/
inductive Ann : TypeAnn → List Token → Prop where
  | plain (n : Token) : n.kind = .identifier → Ann ⟨n.text, false⟩ [n]
  | nullable (n q : Token) : n.kind = .identifier → q.kind = .questionMark → Ann ⟨n.text, true⟩ [n, q]

/-- Parameters. -/
inductive Param : FnArg → List Token → Prop where
  | untyped (n : Token) : n.kind = .identifier → Param ⟨n.text, none⟩ [n]
  | typed (n c : Token) (a : TypeAnn) (us : List Token) : n.kind = .identifier → c.kind = .colon →
      Ann a us → Param ⟨n.text, some a⟩ (n :: c :: us)

/-- Comma-separated parameters; a comma may also come after the last one. -/
inductive Params : List FnArg → List Token → Prop where
  | nil : Params [] []
  | last (a : FnArg) (us : List Token) : Param a us → Params [a] us
  | cons (a : FnArg) (as : List FnArg) (c : Token) (us vs : List Token) : Param a us → c.kind = .comma →
      Params as vs → Params (a :: as) (us ++ c :: vs)

/-- Comma-separated names; a comma may also come after the last one. -/
inductive Names : List String → List Token → Prop where
  | nil : Names [] []
  | last (n : Token) : n.kind = .identifier → Names [n.text] [n]
  | cons (n c : Token) (ns : List String) (us : List Token) : n.kind = .identifier → c.kind = .comma →
      Names ns us → Names (n.text :: ns) (n :: c :: us)

/-- Return types. -/
inductive Ret : Option TypeAnn → List Token → Prop where
  | none : Ret none []
  | some (t : Token) (a : TypeAnn) (us : List Token) : t.kind = .arrow → Ann a us → Ret (some a) (t :: us)

/-- What a `let` declares. -/
inductive Pattern : VarKind → List Token → Prop where
  | name (n : Token) : n.kind = .identifier → Pattern (.singular n.text) [n]
  | names (o c : Token) (ns : List String) (us : List Token) : o.kind = .leftCurly → c.kind = .rightCurly →
      Names ns us → Pattern (.destructured ns) (o :: us ++ [c])

/-- The optional `mut`. -/
inductive Mut : Bool → List Token → Prop where
  | no : Mut false []
  | yes (t : Token) : t.kind = .mut → Mut true [t]

/-- The optional module import. -/
inductive ImportModule : Option String → List Token → Prop where
  | none : ImportModule none []
  | some (s a n : Token) : s.kind = .star → a.kind = .as → n.kind = .identifier →
      ImportModule (some n.text) [s, a, n]
  | comma (s a n c : Token) : s.kind = .star → a.kind = .as → n.kind = .identifier → c.kind = .comma →
      ImportModule (some n.text) [s, a, n, c]

/-- The optional list of imported items. -/
inductive ImportItems : List String → List Token → Prop where
  | none : ImportItems [] []
  | some (o c : Token) (ns : List String) (us : List Token) : o.kind = .leftCurly → c.kind = .rightCurly →
      Names ns us → ImportItems ns (o :: us ++ [c])

/-- The block of a sequence of statements: the last one is its value. -/
def blockOf (es : List Expr) : Expr := .block es.dropLast es.getLast?

/-- The tree of `e or name body`. -/
def orElse (e : Expr) (name : String) (body : Expr) : Expr :=
  .block [.varDecl (.singular "#result") false e (some ⟨"Result", false⟩)]
    (some (.ifExpr (.field (.ident "#result") "is_ok") (.field (.ident "#result") "result")
      (some (.block [.varDecl (.singular name) false (.field (.ident "#result") "result") none] (some body)))))

/-- What tokens can write.  `next` says which kinds of token may come next. -/
inductive Item where
  /-- An expression whose loosest operator has this level. -/
  | expr (e : Expr) (level : Nat) (next : Kind → Prop)
  /-- An expression starting with `if`. -/
  | ifExpr (e : Expr) (next : Kind → Prop)
  /-- Statements in braces. -/
  | block (e : Expr)
  /-- Comma-separated expressions before a closing token. -/
  | items (close : Kind) (es : List Expr)
  /-- Comma-separated fields of an object. -/
  | fields (fs : List (String × Expr))
  /-- A declaration starting with a keyword. -/
  | decl (keyword : Kind) (e : Expr) (next : Kind → Prop)
  /-- The members of a class. -/
  | members (es : List Expr)
  /-- A statement. -/
  | stmt (e : Expr) (next : Kind → Prop)
  /-- Consecutive statements. -/
  | seq (es : List Expr) (next : Kind → Prop)

/-- No restriction on the next token. -/
abbrev any : Kind → Prop := fun _ => True

/-- The tokens write the item. -/
inductive Writes : Item → List Token → Prop where
  -- expressions
  | lit (t : Token) (e : Expr) : Lit t e → Writes (.expr e closedLevel any) [t]
  | ident (n : Token) : n.kind = .identifier → Writes (.expr (.ident n.text) closedLevel any) [n]
  | unit (o c : Token) : o.kind = .leftParen → c.kind = .rightParen →
      Writes (.expr .unit closedLevel any) [o, c]
  | group (o c : Token) (e : Expr) (l : Nat) (f : Kind → Prop) (us : List Token) : o.kind = .leftParen →
      c.kind = .rightParen → Writes (.expr e l f) us → f .rightParen →
      Writes (.expr e closedLevel any) (o :: us ++ [c])
  | ifExpr (e : Expr) (f : Kind → Prop) (us : List Token) : Writes (.ifExpr e f) us →
      Writes (.expr e closedLevel f) us
  | block (e : Expr) (us : List Token) : Writes (.block e) us → Writes (.expr e closedLevel any) us
  | list (o c : Token) (es : List Expr) (us : List Token) : o.kind = .leftSquare → c.kind = .rightSquare →
      Writes (.items .rightSquare es) us → Writes (.expr (.list es) closedLevel any) (o :: us ++ [c])
  | object (t o c : Token) (fs : List (String × Expr)) (us : List Token) : t.kind = .object →
      o.kind = .leftCurly → c.kind = .rightCurly → Writes (.fields fs) us →
      Writes (.expr (.object fs) closedLevel any) (t :: o :: us ++ [c])
  | superField (t d n : Token) : t.kind = .super → d.kind = .dot → n.kind = .identifier →
      Writes (.expr (.superAccess n.text none) closedLevel any) [t, d, n]
  | superClassField (t o m c d n : Token) : t.kind = .super → o.kind = .leftSquare → m.kind = .identifier →
      c.kind = .rightSquare → d.kind = .dot → n.kind = .identifier →
      Writes (.expr (.superAccess n.text (some m.text)) closedLevel any) [t, o, m, c, d, n]
  | superCall (t o c : Token) (es : List Expr) (us : List Token) : t.kind = .super → o.kind = .leftParen →
      c.kind = .rightParen → Writes (.items .rightParen es) us →
      Writes (.expr (.superCall es) closedLevel any) (t :: o :: us ++ [c])
  | anonFn (o c : Token) (ps : List FnArg) (us : List Token) (e : Expr) (l : Nat) (f : Kind → Prop)
      (vs : List Token) : o.kind = .pipe → c.kind = .pipe → Params ps us → ps.length ≤ 255 →
      Writes (.expr e l f) vs →
      Writes (.expr (.anonFn ps none e) closedLevel fun k => f k ∧ binds k = 0) (o :: us ++ c :: vs)
  | unary (op : UnaryOp) (t : Token) (e : Expr) (l : Nat) (f : Kind → Prop) (us : List Token) :
      t.kind = unaryKind op → Writes (.expr e l f) us → unaryLevel ≤ l →
      Writes (.expr (.unary op e) closedLevel fun k => f k ∧ binds k < unaryLevel) (t :: us)
  | binary (op : BinaryOp) (t : Token) (ts : List Token) (a b : Expr) (l m : Nat) (f g : Kind → Prop)
      (us vs : List Token) : t.kind = opKind op → ts.map (·.kind) = opRest op →
      Writes (.expr a l f) us → f (opKind op) → Writes (.expr b m g) vs → level op < m →
      Writes (.expr (.binary op a b) (min l (level op)) fun k => g k ∧ binds k ≤ level op)
        (us ++ t :: ts ++ vs)
  | isType (t n : Token) (a : Expr) (l : Nat) (f : Kind → Prop) (us : List Token) : t.kind = .is →
      n.kind = .identifier → Writes (.expr a l f) us → f .is →
      Writes (.expr (.is a ⟨n.text, false⟩) (min l (binds .is)) fun k => k ≠ .questionMark) (us ++ [t, n])
  | isNullable (t n q : Token) (a : Expr) (l : Nat) (f : Kind → Prop) (us : List Token) : t.kind = .is →
      n.kind = .identifier → q.kind = .questionMark → Writes (.expr a l f) us → f .is →
      Writes (.expr (.is a ⟨n.text, true⟩) (min l (binds .is)) any) (us ++ [t, n, q])
  | nullProp (t : Token) (a : Expr) (l : Nat) (f : Kind → Prop) (us : List Token) :
      t.kind = .questionMark → Writes (.expr a l f) us → f .questionMark →
      Writes (.expr (.nullProp a) (min l (binds .questionMark)) any) (us ++ [t])
  | errProp (t : Token) (a : Expr) (l : Nat) (f : Kind → Prop) (us : List Token) :
      t.kind = .errorPropagate → Writes (.expr a l f) us → f .errorPropagate →
      Writes (.expr (.errProp a) (min l (binds .errorPropagate)) any) (us ++ [t])
  | field (t n : Token) (a : Expr) (l : Nat) (f : Kind → Prop) (us : List Token) : t.kind = .dot →
      n.kind = .identifier → Writes (.expr a l f) us → f .dot →
      Writes (.expr (.field a n.text) (min l (binds .dot)) any) (us ++ [t, n])
  | index (o c : Token) (a b : Expr) (l m : Nat) (f g : Kind → Prop) (us vs : List Token) :
      o.kind = .leftSquare → c.kind = .rightSquare → Writes (.expr a l f) us → f .leftSquare →
      Writes (.expr b m g) vs → g .rightSquare →
      Writes (.expr (.index a b) (min l (binds .leftSquare)) any) (us ++ o :: vs ++ [c])
  | call (o c : Token) (a : Expr) (l : Nat) (f : Kind → Prop) (es : List Expr) (us vs : List Token) :
      o.kind = .leftParen → c.kind = .rightParen → Writes (.expr a l f) us → f .leftParen →
      Writes (.items .rightParen es) vs →
      Writes (.expr (.call a es) (min l (binds .leftParen)) any) (us ++ o :: vs ++ [c])
  | callBackslash (t : Token) (a : Expr) (l : Nat) (f : Kind → Prop) (us : List Token) :
      t.kind = .backslashArg → Writes (.expr a l f) us → f .backslashArg →
      Writes (.expr (.call a [.str (inner t.text)]) (min l (binds .backslashArg)) any) (us ++ [t])
  | orElse (t n : Token) (a b : Expr) (l : Nat) (f : Kind → Prop) (us vs : List Token) :
      t.kind = .errorCoalesce → n.kind = .identifier → Writes (.expr a l f) us → f .errorCoalesce →
      Writes (.block b) vs →
      Writes (.expr (orElse a n.text b) (min l (binds .errorCoalesce)) any) (us ++ t :: n :: vs)
  | assignIdent (op : AssignOp) (n t : Token) (b : Expr) (m : Nat) (g : Kind → Prop) (vs : List Token) :
      n.kind = .identifier → t.kind = assignKind op → Writes (.expr b m g) vs →
      Writes (.expr (.assign op (.ident n.text) b) 1 fun k => g k ∧ binds k = 0) (n :: t :: vs)
  | assignField (op : AssignOp) (d n t : Token) (a b : Expr) (l m : Nat) (f g : Kind → Prop)
      (us vs : List Token) : d.kind = .dot → n.kind = .identifier → t.kind = assignKind op →
      Writes (.expr a l f) us → f .dot → Writes (.expr b m g) vs →
      Writes (.expr (.assign op (.field a n.text) b) 1 fun k => g k ∧ binds k = 0)
        (us ++ d :: n :: t :: vs)
  | assignIndex (op : AssignOp) (o c t : Token) (a i b : Expr) (l j m : Nat) (f h g : Kind → Prop)
      (us is vs : List Token) : o.kind = .leftSquare → c.kind = .rightSquare → t.kind = assignKind op →
      Writes (.expr a l f) us → f .leftSquare → Writes (.expr i j h) is → h .rightSquare →
      Writes (.expr b m g) vs →
      Writes (.expr (.assign op (.index a i) b) 1 fun k => g k ∧ binds k = 0)
        (us ++ o :: is ++ c :: t :: vs)
  -- conditionals and blocks
  | ifNoElse (t : Token) (c b : Expr) (l : Nat) (f : Kind → Prop) (us vs : List Token) : t.kind = .if_ →
      Writes (.expr c l f) us → f .leftCurly → Writes (.block b) vs →
      Writes (.ifExpr (.ifExpr c b none) fun k => k ≠ .else_) (t :: us ++ vs)
  | ifElse (t e : Token) (c b d : Expr) (l : Nat) (f : Kind → Prop) (us vs ws : List Token) :
      t.kind = .if_ → e.kind = .else_ → Writes (.expr c l f) us → f .leftCurly → Writes (.block b) vs →
      Writes (.block d) ws → Writes (.ifExpr (.ifExpr c b (some d)) any) (t :: us ++ vs ++ e :: ws)
  | ifElseIf (t e : Token) (c b d : Expr) (l : Nat) (f g : Kind → Prop) (us vs ws : List Token) :
      t.kind = .if_ → e.kind = .else_ → Writes (.expr c l f) us → f .leftCurly → Writes (.block b) vs →
      Writes (.ifExpr d g) ws → Writes (.ifExpr (.ifExpr c b (some d)) g) (t :: us ++ vs ++ e :: ws)
  | ifLooseElse (t e : Token) (c b : Expr) (l : Nat) (f : Kind → Prop) (us vs : List Token) :
      t.kind = .if_ → e.kind = .else_ → Writes (.expr c l f) us → f .leftCurly → Writes (.block b) vs →
      Writes (.ifExpr (.ifExpr c b none) fun k => k ≠ .if_ ∧ k ≠ .leftCurly) (t :: us ++ vs ++ [e])
  | braces (o c : Token) (es : List Expr) (f : Kind → Prop) (us : List Token) : o.kind = .leftCurly →
      c.kind = .rightCurly → Writes (.seq es f) us → f .rightCurly →
      Writes (.block (blockOf es)) (o :: us ++ [c])
  -- comma-separated parts
  | itemsNil (close : Kind) : Writes (.items close []) []
  | itemsLast (close : Kind) (e : Expr) (l : Nat) (f : Kind → Prop) (us : List Token) :
      Writes (.expr e l f) us → f close → Writes (.items close [e]) us
  | itemsCons (close : Kind) (c : Token) (e : Expr) (l : Nat) (f : Kind → Prop) (es : List Expr)
      (us vs : List Token) : c.kind = .comma → Writes (.expr e l f) us → f .comma →
      Writes (.items close es) vs → Writes (.items close (e :: es)) (us ++ c :: vs)
  | fieldsNil : Writes (.fields []) []
  | fieldsLast (k d : Token) (e : Expr) (l : Nat) (f : Kind → Prop) (us : List Token) :
      k.kind ∈ [Kind.string, .integer, .identifier] → d.kind = .colon → Writes (.expr e l f) us →
      f .rightCurly → Writes (.fields [(k.text, e)]) (k :: d :: us)
  | fieldsCons (k d c : Token) (e : Expr) (l : Nat) (f : Kind → Prop) (fs : List (String × Expr))
      (us vs : List Token) : k.kind ∈ [Kind.string, .integer, .identifier] → d.kind = .colon →
      c.kind = .comma → Writes (.expr e l f) us → f .comma → Writes (.fields fs) vs →
      Writes (.fields ((k.text, e) :: fs)) (k :: d :: us ++ c :: vs)
  -- declarations
  | letDecl (t a : Token) (m : Bool) (k : VarKind) (e : Expr) (l : Nat) (f : Kind → Prop)
      (ms ps us : List Token) : t.kind = .let_ → a.kind = .assign → Mut m ms → Pattern k ps →
      Writes (.expr e l f) us →
      Writes (.decl .let_ (.varDecl k m e none) fun k => f k ∧ binds k = 0) (t :: ms ++ ps ++ a :: us)
  | fnDecl (t n o c : Token) (ps : List FnArg) (ret : Option TypeAnn) (b : Expr) (us rs vs : List Token) :
      t.kind = .function → n.kind = .identifier → o.kind = .leftParen → c.kind = .rightParen →
      Params ps us → ps.length ≤ 255 → Ret ret rs → Writes (.block b) vs →
      Writes (.decl .function (.fnDecl n.text ps ret b) any) (t :: n :: o :: us ++ c :: rs ++ vs)
  | opDecl (op : OverOp) (t n o c : Token) (ps : List FnArg) (ret : Option TypeAnn) (b : Expr)
      (us rs vs : List Token) : t.kind = .operator → n.kind = overKind op → o.kind = .leftParen →
      c.kind = .rightParen → Params ps us → Ret ret rs → Writes (.block b) vs →
      Writes (.decl .operator (.opDecl op ps ret b) any) (t :: n :: o :: us ++ c :: rs ++ vs)
  | classDecl (t n o c : Token) (es : List Expr) (us : List Token) : t.kind = .class_ →
      n.kind = .identifier → o.kind = .leftCurly → c.kind = .rightCurly → Writes (.members es) us →
      Writes (.decl .class_ (.classDecl n.text none es) any) (t :: n :: o :: us ++ [c])
  | subclassDecl (t n d o c : Token) (b : Expr) (l : Nat) (f : Kind → Prop) (es : List Expr)
      (vs us : List Token) : t.kind = .class_ → n.kind = .identifier → d.kind = .colon →
      o.kind = .leftCurly → c.kind = .rightCurly → Writes (.expr b l f) vs → f .leftCurly →
      Writes (.members es) us →
      Writes (.decl .class_ (.classDecl n.text (some b) es) any) (t :: n :: d :: vs ++ o :: us ++ [c])
  | membersNil : Writes (.members []) []
  | membersCons (k : Kind) (e : Expr) (es : List Expr) (us vs : List Token) :
      k = .function ∨ k = .operator → Writes (.decl k e any) us → Writes (.members es) vs →
      Writes (.members (e :: es)) (us ++ vs)
  -- statements
  | exprStmt (e : Expr) (l : Nat) (f : Kind → Prop) (us : List Token) : Writes (.expr e l f) us →
      Writes (.stmt e fun k => f k ∧ binds k = 0) us
  | declStmt (k : Kind) (e : Expr) (f : Kind → Prop) (us : List Token) : Writes (.decl k e f) us →
      Writes (.stmt e f) us
  | export (t : Token) (k : Kind) (e : Expr) (f : Kind → Prop) (us : List Token) : t.kind = .export →
      k = .let_ ∨ k = .function ∨ k = .class_ → Writes (.decl k e f) us →
      Writes (.stmt (.exportDecl e) f) (t :: us)
  | «import» (t o p : Token) (m : Option String) (ns : List String) (ms is : List Token) :
      t.kind = .import_ → o.kind = .from_ → p.kind = .string → ImportModule m ms → ImportItems ns is →
      ¬(m = none ∧ ns = []) →
      Writes (.stmt (.importDecl m ns (inner p.text)) any) (t :: ms ++ is ++ [o, p])
  | loop (t : Token) (b : Expr) (us : List Token) : t.kind = .loop → Writes (.block b) us →
      Writes (.stmt (.loop b) any) (t :: us)
  | whileLoop (t : Token) (c b : Expr) (l : Nat) (f : Kind → Prop) (us vs : List Token) :
      t.kind = .while_ → Writes (.expr c l f) us → f .leftCurly → Writes (.block b) vs →
      Writes (.stmt (.whileLoop c b) any) (t :: us ++ vs)
  | forLoop (t n i : Token) (c b : Expr) (l : Nat) (f : Kind → Prop) (us vs : List Token) :
      t.kind = .for_ → n.kind = .identifier → i.kind = .in_ → Writes (.expr c l f) us → f .leftCurly →
      Writes (.block b) vs → Writes (.stmt (.forLoop n.text c b) any) (t :: n :: i :: us ++ vs)
  | break_ (t : Token) : t.kind = .break_ → Writes (.stmt .break_ any) [t]
  | continue_ (t : Token) : t.kind = .continue_ → Writes (.stmt .continue_ any) [t]
  | returnUnit (t : Token) : t.kind = .return_ → Writes (.stmt (.return_ none) fun k => k = .rightCurly) [t]
  | return_ (t : Token) (e : Expr) (l : Nat) (f : Kind → Prop) (us : List Token) : t.kind = .return_ →
      Writes (.expr e l f) us → Writes (.stmt (.return_ (some e)) fun k => f k ∧ binds k = 0) (t :: us)
  -- sequences
  | seqNil : Writes (.seq [] any) []
  | seqLast (e : Expr) (f : Kind → Prop) (us : List Token) : Writes (.stmt e f) us →
      Writes (.seq [e] f) us
  | seqCons (e : Expr) (f : Kind → Prop) (es : List Expr) (g : Kind → Prop) (us : List Token) (t : Token)
      (vs : List Token) : Writes (.stmt e f) us → f t.kind → Writes (.seq es g) (t :: vs) →
      Writes (.seq (e :: es) g) (us ++ t :: vs)
  | seqExport (t n : Token) (es : List Expr) (g : Kind → Prop) (us : List Token) : t.kind = .export →
      n.kind = .identifier → Writes (.seq es g) (n :: us) →
      Writes (.seq (.exportDecl (.ident n.text) :: es) g) (t :: n :: us)

/-- The tokens write a program. -/
def Program (e : Expr) (us : List Token) : Prop :=
  ∃ es f, Writes (.seq es f) us ∧ f .endOfInput ∧ e = blockOf es

end Dice.Grammar
