import Verif.Ast
import Verif.Compiler

/-!
# Lexical scoping of the source language

A specification of where the parts of a program stand: in which functions and blocks, and which names are visible there.
It knows nothing about slots, bytes, captured variables or jumps.  C13, C14, C15 and C16 are stated with it.

Only syntax and the kinds of functions and variables are taken from the model.
-/

namespace Dice

/-- A declared name.  The state tells whether it is a variable (mutable or not), a function or a class, and whether its
declaration has been passed. -/
structure Name where
  name : String
  state : VarState
  deriving DecidableEq, Repr

/-- A block.  `loop` is `none` for a plain block; otherwise it tells whether `continue` may be used in the loop.  `depth`
is the number of blocks of the function around it. -/
structure BlockSite where
  depth : Nat := 0
  loop : Option Bool := none
  names : List Name := []
  deriving DecidableEq, Repr

/-- A function with the blocks around the place, innermost first. -/
structure FnSite where
  kind : CompilerKind
  blocks : List BlockSite := [{}]
  deriving DecidableEq, Repr

/-- A place in a program: the functions around it, innermost first. -/
abbrev Site := List FnSite

/-- The first of several names. -/
def findName (x : String) (ns : List Name) : Option Name := ns.find? (fun n => n.name == x)

namespace Site

/-- Into a block. -/
def enter (loop : Option Bool) : Site → Site
  | [] => []
  | f :: p => { f with blocks := { depth := f.blocks.length, loop } :: f.blocks } :: p

/-- Out of a block. -/
def leave : Site → Site
  | [] => []
  | f :: p => { f with blocks := f.blocks.tail } :: p

/-- Past the declaration of a name. -/
def declare (x : String) (state : VarState) : Site → Site
  | [] => []
  | f :: p =>
    { f with blocks := match f.blocks with
      | [] => []
      | b :: bs => { b with names := ⟨x, state⟩ :: b.names } :: bs } :: p

/-- Past the declarations of some constants. -/
def declareAll : List String → Site → Site
  | [], p => p
  | x :: xs, p => declareAll xs (p.declare x (.local false true))

/-- The names visible in a function, innermost first. -/
def _root_.Dice.FnSite.names (f : FnSite) : List Name := f.blocks.flatMap (·.names)

/-- What a name stands for in the function. -/
def lookupHere (x : String) : Site → Option Name
  | [] => none
  | f :: _ => findName x f.names

/-- What a name stands for. -/
def lookup (x : String) (p : Site) : Option Name := findName x (p.flatMap FnSite.names)

/-- Changes the state of the first occurrence of a name. -/
def markNames (x : String) (state : VarState) : List Name → List Name
  | [] => []
  | n :: ns => if n.name == x then { n with state } :: ns else n :: markNames x state ns

def markBlocks (x : String) (state : VarState) : List BlockSite → List BlockSite
  | [] => []
  | b :: bs =>
    if b.names.any (fun n => n.name == x) then { b with names := markNames x state b.names } :: bs
    else b :: markBlocks x state bs

/-- Changes the state of what a name stands for in the function. -/
def mark (x : String) (state : VarState) : Site → Site
  | [] => []
  | f :: p => { f with blocks := markBlocks x state f.blocks } :: p

/-- The kind of the function. -/
def kind : Site → Option CompilerKind
  | [] => none
  | f :: _ => some f.kind

/-- The innermost loop of the function, if any. -/
def innerLoop : Site → Option Bool
  | [] => none
  | f :: _ => f.blocks.findSome? (·.loop)

/-- How many blocks deep in the function. -/
def depth : Site → Nat
  | [] => 0
  | f :: _ => match f.blocks with
    | [] => 0
    | b :: _ => b.depth

end Site

/-- Functions and classes are visible in the whole block that declares them. -/
def hoistOne : Expr → Site → Site
  | .fnDecl name _ _ _, p => p.declare name (.function false)
  | .classDecl name _ _, p => p.declare name (.class false)
  | .exportDecl e, p => hoistOne e p
  | _, p => p

def hoist : List Expr → Site → Site
  | [], p => p
  | e :: es, p => hoist es (hoistOne e p)

/-- The parameters of a function are constants. -/
def declareParams (k : FnKind) (args : List FnArg) (p : Site) : Site :=
  Site.declareAll (args.map (·.name)) (match k with
    | .function | .staticMethod => p.declare "" (.local false true)
    | _ => p)

mutual

/-- The place behind an expression. -/
def afterExpr : Expr → Site → Site
  | .ident _, p => p
  | .unit, p => p
  | .null, p => p
  | .bool _, p => p
  | .int _, p => p
  | .float _, p => p
  | .str _, p => p
  | .anonFn _ _ _, p => p
  | .object fs, p => afterFields fs p
  | .list es, p => afterAll es p
  | .assign _ (.ident _) rhs, p => afterExpr rhs p
  | .assign _ (.field e _) rhs, p => afterExpr rhs (afterExpr e p)
  | .assign _ (.index e i) rhs, p => afterExpr rhs (afterExpr i (afterExpr e p))
  | .assign _ _ _, p => p
  | .unary _ e, p => afterExpr e p
  | .binary .pipeline a b, p => afterExpr a (afterExpr b p)
  | .binary _ a b, p => afterExpr b (afterExpr a p)
  | .is e t, p => if t.isNullable then afterExpr e (afterExpr e p) else afterExpr e p
  | .varDecl (.singular x) m e _, p => (afterExpr e p).declare x (.local m true)
  | .varDecl (.destructured xs) _ e _, p => (afterExpr e p).declareAll xs
  | .fnDecl name _ _ _, p => p.mark name (.function true)
  | .opDecl _ _ _ _, p => p
  | .classDecl name base _, p =>
    let q := (afterOpt base (p.enter none)).declare nameSuper (.local true true)
    (if (q.lookupHere name).map (·.state) = some (.class false) then q.mark name (.class true) else q).leave
  | .importDecl m xs _, p => (p.declareAll xs).declareAll m.toList
  | .exportDecl e, p => afterExpr e p
  | .ifExpr c t e, p => afterOpt e (afterExpr t (afterExpr c p))
  | .loop (.block es t), p => (afterOpt t (afterAll es (hoist (es ++ t.toList) ((p.enter (some true)).enter none)))).leave.leave
  | .loop _, p => p
  | .whileLoop c (.block es t), p =>
    (afterOpt t (afterAll es (hoist (es ++ t.toList) ((afterExpr c (p.enter (some true))).enter none)))).leave.leave
  | .whileLoop _ _, p => p
  | .forLoop x (.binary .rangeInclusive a b) body, p =>
    (afterExpr body (((afterExpr a (afterExpr b p)).enter (some false)).declare x (.local false true))).leave
  | .forLoop x (.binary .rangeExclusive a b) body, p =>
    (afterExpr body (((afterExpr a (afterExpr b p)).enter (some false)).declare x (.local false true))).leave
  | .forLoop x source body, p =>
    (afterExpr body (((afterExpr source p).enter (some false)).declare x (.local false true))).leave
  | .break_, p => p
  | .continue_, p => p
  | .block es t, p => (afterOpt t (afterAll es (hoist (es ++ t.toList) (p.enter none)))).leave
  | .return_ r, p => afterOpt r p
  | .nullProp e, p => afterExpr e p
  | .errProp e, p => afterExpr e p
  | .field e _, p => afterExpr e p
  | .superAccess _ _, p => p
  | .call e args, p => afterAll args (afterExpr e p)
  | .superCall args, p => afterAll args p
  | .index e i, p => afterExpr i (afterExpr e p)

/-- The place behind several expressions. -/
def afterAll : List Expr → Site → Site
  | [], p => p
  | e :: es, p => afterAll es (afterExpr e p)

def afterOpt : Option Expr → Site → Site
  | none, p => p
  | some e, p => afterExpr e p

def afterFields : List (String × Expr) → Site → Site
  | [], p => p
  | (_, e) :: fs, p => afterFields fs (afterExpr e p)

end

/-- Several expressions one after the other, the first at `p`: one of them is `e`, standing at `q`. -/
inductive InList : Site → List Expr → Site → Expr → Prop where
  | head {p : Site} {e : Expr} {es : List Expr} : InList p (e :: es) p e
  | tail {p q : Site} {d e : Expr} {es : List Expr} (h : InList (afterExpr d p) es q e) : InList p (d :: es) q e

/-- A function with the given parameters and body at `p`: an expression of its body is `e`, standing at `q`. -/
inductive InFn (p : Site) (k : FnKind) (args : List FnArg) (ret : Option TypeAnn) (body : Expr) (q : Site)
    (e : Expr) : Prop where
  | intro (h : InList (hoist (bodyExprs body ++ (bodyTrailing body).toList)
      (declareParams k args (Site.enter none (⟨fnCompilerKind k ret, [{}]⟩ :: p))))
      (bodyExprs body ++ (bodyTrailing body).toList) q e)

/-- The kind of a member function of a class. -/
def memberKind (derived : Bool) (name : String) (args : List FnArg) : FnKind :=
  match args with
  | a :: _ =>
    if a.name = nameSelf then
      if name = nameNew then .constructor (if derived then .derived else .base) else .method
    else .staticMethod
  | [] => .staticMethod

/-- `Inside p e q e'`: the expression `e` stands at `p`, and `e'` is one of its immediate parts, standing at `q`. -/
inductive Inside : Site → Expr → Site → Expr → Prop where
  | anonFn {p q args ret body e} (h : InFn p .function args ret body q e) : Inside p (.anonFn args ret body) q e
  | object {p q fs e} (h : InList p (fs.map (·.2)) q e) : Inside p (.object fs) q e
  | list {p q es e} (h : InList p es q e) : Inside p (.list es) q e
  | assignIdent {p op x rhs} : Inside p (.assign op (.ident x) rhs) p rhs
  | assignField {p q op e f rhs e'} (h : InList p [e, rhs] q e') : Inside p (.assign op (.field e f) rhs) q e'
  | assignIndex {p q op e i rhs e'} (h : InList p [e, i, rhs] q e') : Inside p (.assign op (.index e i) rhs) q e'
  | unary {p op e} : Inside p (.unary op e) p e
  | binary {p q op a b e} (hop : op ≠ .pipeline) (h : InList p [a, b] q e) : Inside p (.binary op a b) q e
  | pipeline {p q a b e} (h : InList p [b, a] q e) : Inside p (.binary .pipeline a b) q e
  | is {p e t} : Inside p (.is e t) p e
  /-- The operand of a nullable type test occurs twice, expr_is.rs:9-20. -/
  | isAgain {p e t} (hn : t.isNullable = true) : Inside p (.is e t) (afterExpr e p) e
  | varDecl {p k m e t} : Inside p (.varDecl k m e t) p e
  | fnDecl {p q name args ret body e} (h : InFn p .function args ret body q e) : Inside p (.fnDecl name args ret body) q e
  | opDecl {p q op args ret body e} (h : InFn p .function args ret body q e) : Inside p (.opDecl op args ret body) q e
  | base {p name e items} : Inside p (.classDecl name (some e) items) (p.enter none) e
  | memberFn {p p' q name base items fname args ret body e} (hm : .fnDecl fname args ret body ∈ items)
      (hp : p' = (afterOpt base (p.enter none)).declare nameSuper (.local true true))
      (h : InFn (if (p'.lookupHere name).map (·.state) = some (.class false) then p'.mark name (.class true) else p')
        (memberKind base.isSome fname args) args ret body q e) :
      Inside p (.classDecl name base items) q e
  | memberOp {p p' q name base items op args ret body e} (hm : .opDecl op args ret body ∈ items)
      (hp : p' = (afterOpt base (p.enter none)).declare nameSuper (.local true true))
      (h : InFn (if (p'.lookupHere name).map (·.state) = some (.class false) then p'.mark name (.class true) else p')
        .method args ret body q e) :
      Inside p (.classDecl name base items) q e
  | exportDecl {p e} : Inside p (.exportDecl e) p e
  | ifExpr {p q c t e e'} (h : InList p (c :: t :: e.toList) q e') : Inside p (.ifExpr c t e) q e'
  | loop {p q es t e} (h : InList (hoist (es ++ t.toList) ((p.enter (some true)).enter none)) (es ++ t.toList) q e) :
      Inside p (.loop (.block es t)) q e
  | whileCond {p c es t} : Inside p (.whileLoop c (.block es t)) (p.enter (some true)) c
  | whileBody {p q c es t e}
      (h : InList (hoist (es ++ t.toList) ((afterExpr c (p.enter (some true))).enter none)) (es ++ t.toList) q e) :
      Inside p (.whileLoop c (.block es t)) q e
  | rangeBound {p q x op a b body e} (hop : op = .rangeInclusive ∨ op = .rangeExclusive) (h : InList p [b, a] q e) :
      Inside p (.forLoop x (.binary op a b) body) q e
  | rangeBody {p x op a b body} (hop : op = .rangeInclusive ∨ op = .rangeExclusive) :
      Inside p (.forLoop x (.binary op a b) body)
        (((afterExpr a (afterExpr b p)).enter (some false)).declare x (.local false true)) body
  | forSource {p x source body}
      (hns : ∀ a b, source ≠ .binary .rangeInclusive a b ∧ source ≠ .binary .rangeExclusive a b) :
      Inside p (.forLoop x source body) p source
  | forBody {p x source body}
      (hns : ∀ a b, source ≠ .binary .rangeInclusive a b ∧ source ≠ .binary .rangeExclusive a b) :
      Inside p (.forLoop x source body)
        (((afterExpr source p).enter (some false)).declare x (.local false true)) body
  | block {p q es t e} (h : InList (hoist (es ++ t.toList) (p.enter none)) (es ++ t.toList) q e) :
      Inside p (.block es t) q e
  | return_ {p e} : Inside p (.return_ (some e)) p e
  | nullProp {p e} : Inside p (.nullProp e) p e
  | errProp {p e} : Inside p (.errProp e) p e
  | field {p e f} : Inside p (.field e f) p e
  | call {p q e args e'} (h : InList p (e :: args) q e') : Inside p (.call e args) q e'
  | superCall {p q args e} (h : InList p args q e) : Inside p (.superCall args) q e
  | index {p q e i e'} (h : InList p [e, i] q e') : Inside p (.index e i) q e'

/-- `Occurs p e q e'`: the expression `e` stands at `p`; `e'` occurs somewhere in it, standing at `q`. -/
inductive Occurs (p : Site) (e : Expr) : Site → Expr → Prop where
  | here : Occurs p e p e
  | step {q r : Site} {d d' : Expr} (h : Occurs p e q d) (hi : Inside q d r d') : Occurs p e r d'

/-- Where a program starts: in a module the object of the exports is visible. -/
def startSite (kind : CompilerKind) : Site :=
  [{ kind, blocks := [{ names := if kind = .module then [⟨nameExport, .local false true⟩] else [] }] }]

/-- `e` occurs in the program `root` at `q`. -/
def OccursIn (kind : CompilerKind) (root : Expr) (q : Site) (e : Expr) : Prop := Occurs (startSite kind) root q e

end Dice
