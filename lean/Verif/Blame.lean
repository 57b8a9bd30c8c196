import Verif.Static

/-!
# What can be wrong with a program

`Culprit q e err`: the compiler may report `err` because the expression `e` stands at the place `q`.
-/

namespace Dice

/-- Variables declared with `let mut` (and the hidden variable of the base class). -/
def Name.isMutable (n : Name) : Bool :=
  match n.state with
  | .local m _ => m
  | _ => false

/-- The declaration of the name has been passed. -/
def Name.isReady (n : Name) : Bool :=
  match n.state with
  | .local _ i => i
  | .function i => i
  | .class i => i

/-- The result type of a function. -/
def CompilerKind.result : CompilerKind → Option TypeAnn
  | .function t => t
  | .method t => t
  | _ => none

def signatureNames (args : List FnArg) (ret : Option TypeAnn) : List String :=
  (args.filterMap (·.type_) ++ ret.toList).map (·.name)

/-- The names that an expression uses by itself, not in one of its parts. -/
def Expr.uses (q : Site) : Expr → List String
  | .ident x => [x]
  | .is _ t => [t.name]
  | .varDecl _ _ _ t => t.toList.map (·.name)
  | .anonFn args ret _ => signatureNames args ret
  | .fnDecl _ args ret _ => signatureNames args ret
  | .opDecl _ args ret _ => signatureNames args ret
  | .classDecl _ _ items => nameAny :: items.flatMap fun
    | .fnDecl _ args ret _ => signatureNames args ret
    | .opDecl _ args ret _ => signatureNames args ret
    | _ => []
  | .return_ _ => (q.kind.bind CompilerKind.result).toList.map (·.name)
  | .errProp _ => (q.kind.bind CompilerKind.result).toList.map (·.name)
  | .superAccess _ c => [c.getD nameSuper, nameSelf]
  | .superCall _ => [nameSuper]
  | _ => []

/-- Expressions that contain jumps back to their start. -/
def Expr.jumpsBack : Expr → Bool
  | .loop _ | .whileLoop _ _ | .forLoop _ _ _ | .continue_ => true
  | _ => false

/-- What can follow `export`. -/
def Expr.exportable : Expr → Bool
  | .varDecl (.singular _) _ _ _ | .fnDecl .. | .classDecl .. | .ident _ => true
  | _ => false

/-- What can be assigned to. -/
def Expr.assignable : Expr → Bool
  | .ident _ | .field .. | .index .. => true
  | _ => false

def Expr.isBlock : Expr → Bool
  | .block .. => true
  | _ => false

/-- The block that is a function body starts by calling the base constructor. -/
def Expr.startsWithSuper : Expr → Bool
  | .block (.superCall _ :: _) _ => true
  | .block [] (some (.superCall _)) => true
  | .superCall _ => true
  | _ => false

/-- The first parameter is `self`. -/
def hasReceiver : List FnArg → Bool
  | a :: _ => a.name == nameSelf
  | [] => false

/-- Where the members of a class stand. -/
def classSite (name : String) (base : Option Expr) (p : Site) : Site :=
  let q := (afterOpt base (p.enter none)).declare nameSuper (.local true true)
  if (q.lookupHere name).map (·.state) = some (.class false) then q.mark name (.class true) else q

/-- What can be wrong with a member of a class. -/
inductive BadMember (derived : Bool) : Expr → CErr → Prop where
  | duplicate {name args ret body} (h : ¬ (args.map FnArg.name).Nodup) : BadMember derived (.fnDecl name args ret body) .duplicateArgs
  | duplicateOp {op args ret body} (h : ¬ (args.map FnArg.name).Nodup) : BadMember derived (.opDecl op args ret body) .duplicateArgs
  | receiverType {name a args ret body} (h : a.name = nameSelf) (ht : a.type_.isSome) :
      BadMember derived (.fnDecl name (a :: args) ret body) .receiverCannotHaveType
  | receiverTypeOp {op a args ret body} (h : a.name = nameSelf) (ht : a.type_.isSome) :
      BadMember derived (.opDecl op (a :: args) ret body) .receiverCannotHaveType
  | noReceiver {args ret body} (h : hasReceiver args = false) :
      BadMember derived (.fnDecl nameNew args ret body) .newMustHaveReceiver
  | noReceiverOp {op args ret body} (h : hasReceiver args = false) :
      BadMember derived (.opDecl op args ret body) .operatorMustHaveReceiver
  | newResult {args ret body} (h : hasReceiver args = true) (hr : ret.isSome) :
      BadMember derived (.fnDecl nameNew args ret body) .newCannotHaveReturnType
  | newSuper {args ret body} (hd : derived = true) (h : hasReceiver args = true) (hs : body.startsWithSuper = false) :
      BadMember derived (.fnDecl nameNew args ret body) .newMustCallSuper
  | other {e} (hf : ∀ n a r b, e ≠ .fnDecl n a r b) (ho : ∀ n a r b, e ≠ .opDecl n a r b) :
      BadMember derived e (.panic "Unexpected node kind encountered.")

inductive Culprit (q : Site) : Expr → CErr → Prop where
  /-- More than 256 constants in one function. -/
  | constants {e} : Culprit q e .tooManyConstants
  /-- More than 255 captured variables. -/
  | upvalues {e} : Culprit q e .tooManyUpvalues
  | notReady {e x} (h : x ∈ e.uses q) (hi : e = .ident x → ∃ n, q.lookupHere x = some n ∧ n.isReady = false) :
      Culprit q e (.notInitialized x)
  /-- The distance of a jump is exactly 32768. -/
  | jumpBack {e} (h : e.jumpsBack = true) : Culprit q e (.panic "jump_back")
  | break_ (h : q.innerLoop = none) : Culprit q .break_ .invalidBreak
  | continue_ (h : q.innerLoop = none) : Culprit q .continue_ .invalidContinue
  | continueFor (h : q.innerLoop = some false) : Culprit q .continue_ .internal
  | return_ {r} (hf : ∀ t, q.kind ≠ some (.function t)) (hm : ∀ t, q.kind ≠ some (.method t))
      (hc : q.kind ≠ some .constructor) : Culprit q (.return_ r) .invalidReturn
  | returnValue {e} (h : q.kind = some .constructor) : Culprit q (.return_ (some e)) .newReturnCannotHaveExpression
  | returnSelf (h : q.kind = some .constructor) (hs : q.lookupHere nameSelf = none) :
      Culprit q (.return_ none) (.panic "The self parameter should always be declared in constructors.")
  | errProp {e} (hf : ∀ t, q.kind ≠ some (.function t)) (hm : ∀ t, q.kind ≠ some (.method t)) :
      Culprit q (.errProp e) .invalidErrorPropagate
  | export_ {e} (h : q.kind = some .module → 1 < q.depth) : Culprit q (.exportDecl e) .invalidExport
  | exportObject {e} (h : q.kind = some .module) (hx : q.lookupHere nameExport = none) :
      Culprit q (.exportDecl e) (.panic "#export should always be defined in modules.")
  | exportNode {e} (h : e.exportable = false) :
      Culprit q (.exportDecl e) (.panic "Invalid export node type encountered.")
  | superAccess {f c} (hm : ∀ t, q.kind ≠ some (.method t)) (hc : q.kind ≠ some .constructor) :
      Culprit q (.superAccess f c) .invalidSuperCall
  | superCall {es} (h : q.lookupHere nameSelf = none) :
      Culprit q (.superCall es) (.panic "self should always be declared in constructors.")
  | immutable {op x rhs n} (h : q.lookup x = some n) (hm : n.isMutable = false) :
      Culprit q (.assign op (.ident x) rhs) (.cannotReassign x)
  | unknown {op x rhs} (h : q.lookup x = none) : Culprit q (.assign op (.ident x) rhs) (.notDeclared x)
  | target {op t rhs} (h : t.assignable = false) : Culprit q (.assign op t rhs) .invalidAssignmentTarget
  | functionTwice {name args ret body} (h : q.lookupHere name = some ⟨name, .function true⟩) :
      Culprit q (.fnDecl name args ret body) (.functionAlreadyDeclared name)
  /-- The name stands for a variable or a class declared in between. -/
  | functionHidden {name args ret body n} (h : q.lookupHere name = some n) (hn : ∀ b, n.state ≠ .function b) :
      Culprit q (.fnDecl name args ret body) (.panic "Unexpected non-function local state while compiling a function.")
  | functionUnknown {name args ret body} (h : q.lookupHere name = none) : Culprit q (.fnDecl name args ret body) .internal
  | duplicate {name args ret body} (h : ¬ (args.map FnArg.name).Nodup) : Culprit q (.fnDecl name args ret body) .duplicateArgs
  | duplicateOp {op args ret body} (h : ¬ (args.map FnArg.name).Nodup) : Culprit q (.opDecl op args ret body) .duplicateArgs
  | classTwice {name base items}
      (h : ((afterOpt base (q.enter none)).declare nameSuper (.local true true)).lookupHere name = some ⟨name, .class true⟩) :
      Culprit q (.classDecl name base items) (.classAlreadyDeclared name)
  | classUnknown {name base items}
      (h : ((afterOpt base (q.enter none)).declare nameSuper (.local true true)).lookupHere name = none) :
      Culprit q (.classDecl name base items) .internal
  | member {name base items e err} (he : e ∈ items) (h : BadMember base.isSome e err) :
      Culprit q (.classDecl name base items) err
  | loopBody {e} (h : e.isBlock = false) : Culprit q (.loop e) .internal
  | whileBody {c e} (h : e.isBlock = false) : Culprit q (.whileLoop c e) .internal

end Dice
