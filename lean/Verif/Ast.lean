import Verif.Scope

/-!
# Syntax trees

Model of dice-syntax/src/ast.  The Rust tree is an arena of nodes referring to each other by id; here
it is an ordinary inductive tree, and spans are left out.  Every tree that the parser can build is such a
tree, because a node only refers to ids allocated before it.
-/

namespace Dice

/-- `UnaryOperator`, node.rs:77-80. -/
inductive UnaryOp where
  | negate | not
  deriving DecidableEq, Repr

/-- `BinaryOperator`, node.rs:151-169. -/
inductive BinaryOp where
  | multiply | divide | remainder | add | subtract
  | greaterThan | lessThan | greaterThanEquals | lessThanEquals | equals | notEquals
  | logicalAnd | logicalOr | rangeInclusive | rangeExclusive | coalesce | pipeline
  deriving DecidableEq, Repr

/-- `AssignmentOperator`, node.rs:180-186. -/
inductive AssignOp where
  | assign | mul | div | add | sub
  deriving DecidableEq, Repr

/-- `OverloadedOperator`, node.rs:250-264. -/
inductive OverOp where
  | multiply | divide | remainder | add | subtract
  | greaterThan | lessThan | greaterThanEquals | lessThanEquals | equals | notEquals
  | rangeInclusive | rangeExclusive
  deriving DecidableEq, Repr

/-- `FnArg`, node.rs:222-226. -/
structure FnArg where
  name : String
  type_ : Option TypeAnn
  deriving DecidableEq, Repr

/-- `VarDeclKind`, node.rs:198-201. -/
inductive VarKind where
  | singular (name : String)
  | destructured (names : List String)
  deriving DecidableEq, Repr

/-- `SyntaxNode`, ast/mod.rs:45-100, with the payloads of node.rs inlined. -/
inductive Expr where
  | ident (name : String)
  | unit
  | null
  | bool (b : Bool)
  | int (i : Int)
  | float (f : Float)
  | str (s : String)
  | anonFn (args : List FnArg) (ret : Option TypeAnn) (body : Expr)
  | object (items : List (String × Expr))
  | list (items : List Expr)
  | assign (op : AssignOp) (lhs rhs : Expr)
  | unary (op : UnaryOp) (e : Expr)
  | binary (op : BinaryOp) (lhs rhs : Expr)
  | is (value : Expr) (type_ : TypeAnn)
  | varDecl (kind : VarKind) (isMutable : Bool) (e : Expr) (type_ : Option TypeAnn)
  | fnDecl (name : String) (args : List FnArg) (ret : Option TypeAnn) (body : Expr)
  | opDecl (op : OverOp) (args : List FnArg) (ret : Option TypeAnn) (body : Expr)
  | classDecl (name : String) (base : Option Expr) (items : List Expr)
  | importDecl (moduleImport : Option String) (items : List String) (path : String)
  | exportDecl (e : Expr)
  | ifExpr (cond thenE : Expr) (elseE : Option Expr)
  | loop (body : Expr)
  | whileLoop (cond body : Expr)
  | forLoop (var : String) (source body : Expr)
  | break_
  | continue_
  | block (exprs : List Expr) (trailing : Option Expr)
  | return_ (result : Option Expr)
  | nullProp (e : Expr)
  | errProp (e : Expr)
  | field (e : Expr) (field : String)
  | superAccess (field : String) (superClass : Option String)
  | call (target : Expr) (args : List Expr)
  | superCall (args : List Expr)
  | index (e idx : Expr)

end Dice
