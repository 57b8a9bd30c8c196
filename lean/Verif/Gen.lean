import Verif.Compiler
import Verif.Struct
import Verif.TypeProps

/-!
# From syntax trees to structured code

The judgement `Gen g node code g'`: in the static environment `g` (the stack of function contexts, innermost
first, with all positions and emitted bytes erased) the syntax `node` stands for the structured code `code`,
and the environment afterwards is `g'`.  It is a declarative description of what each construct of the
language is lowered to: it knows nothing of bytes, jump distances, patching or constant pools.
`GenProps` proves that the compiler follows it.
-/

namespace Dice

/-! ## Static environments -/

/-- Forgets the positions recorded in a scope. -/
def ScopeContext.erase (sc : ScopeContext) : ScopeContext :=
  { sc with
    entryPoint := sc.entryPoint.map fun _ => 0
    exitPoints := []
    callContext := { sc.callContext with exitPoints := [] } }

/-- Forgets the positions in a scope stack. -/
def ScopeStack.erase (s : ScopeStack) : ScopeStack := { s with stack := s.stack.map ScopeContext.erase }

/-- Forgets the emitted bytes, the constants and the positions of a context. -/
def Ctx.erase (c : Ctx) : Ctx := { c with asm := {}, scopes := c.scopes.erase }

/-- A static environment. -/
abbrev Env := List Ctx

namespace Env

/-- A new innermost scope; `entry` tells whether `continue` is possible. -/
def pushScope (kind : ScopeKind) (entry : Bool) : Env → Option Env
  | [] => none
  | c :: rest => some ({ c with scopes := c.scopes.pushScope kind (if entry then some 0 else none) } :: rest)

/-- Leaving the innermost scope; gives its variables. -/
def popScope : Env → Option (List ScopeVar × Env)
  | [] => none
  | c :: rest =>
    match c.scopes.popScope with
    | none => none
    | some (sc, st) => some (sc.variables, { c with scopes := st } :: rest)

/-- The variables of the innermost scope. -/
def topVars : Env → List ScopeVar
  | [] => []
  | c :: _ => match c.scopes.top? with | some sc => sc.variables | none => []

/-- A new variable. -/
def addLocal (name : String) (state : VarState) : Env → Option (Nat × Env)
  | [] => none
  | c :: rest =>
    match c.scopes.addLocal name state with
    | none => none
    | some (slot, st) => some (slot, { c with scopes := st } :: rest)

/-- New variables in order, with their slots. -/
def addLocals : List String → Env → Option (List (String × Nat) × Env)
  | [], g => some ([], g)
  | n :: ns, g =>
    match g.addLocal n (.initialized false) with
    | none => none
    | some (slot, g) =>
      match addLocals ns g with
      | none => none
      | some (rest, g) => some ((n, slot) :: rest, g)

/-- The variable of the innermost function a name stands for. -/
def lookup (name : String) : Env → Option ScopeVar
  | [] => none
  | c :: _ => c.scopes.local? name

/-- Changes the state of a variable. -/
def setState (name : String) (state : VarState) : Env → Env
  | [] => []
  | c :: rest => { c with scopes := c.scopes.modifyLocal name (fun v => { v with state := state }) } :: rest

/-- The kind of the innermost function. -/
def kind : Env → Option CompilerKind
  | [] => none
  | c :: _ => some c.kind

/-- Whether there is a loop in the innermost function. -/
def inLoop : Env → Bool
  | [] => false
  | c :: _ => c.scopes.inContextOf .loop

/-- Whether the innermost loop allows `continue`. -/
def canContinue : Env → Bool
  | [] => false
  | c :: _ => (c.scopes.entryPoint .loop).isSome

/-- The number of values on the stack that the compiler counts as pending. -/
def temps : Env → Nat
  | [] => 0
  | c :: _ => c.temporaryCount

def setTemps (n : Nat) : Env → Env
  | [] => []
  | c :: rest => { c with temporaryCount := n } :: rest

/-- How many links of a chain are being compiled in the innermost scope. -/
def callDepth : Env → Option Nat
  | [] => none
  | c :: _ => c.scopes.top?.map (·.callContext.depth)

def setCallDepth (d : Nat) : Env → Option Env
  | [] => none
  | c :: rest =>
    match c.scopes.modifyTop (fun sc => { sc with callContext := { depth := d } }) with
    | none => none
    | some st => some ({ c with scopes := st } :: rest)

/-- The depth of the innermost scope. -/
def scopeDepth : Env → Option Nat
  | [] => none
  | c :: _ => c.scopes.top?.map (·.depth)

/-- A new function context. -/
def pushFn (kind : CompilerKind) (g : Env) : Env := ({ kind } : Ctx) :: g

end Env

/-! ## Pieces of code -/

/-- The instruction that loads a named constant operand. -/
def Instr.sym (o : Opcode) (name : String) : Instr := .const o (.sym name)

/-- A byte operand as the compiler writes it: `as u8`. -/
def Instr.num (o : Opcode) (n : Nat) : Instr := .byte o (UInt8.ofNat n)

def Code.op (o : Opcode) : Code := .instr (.op o)
def Code.num (o : Opcode) (n : Nat) : Code := .instr (.num o n)
def Code.sym (o : Opcode) (name : String) : Code := .instr (.sym o name)

/-- Closing the captured variables of a scope, in declaration order. -/
def closeCode : List ScopeVar → Code
  | [] => .nop
  | v :: vs => .seq (closeCode vs) (if v.isCaptured then .num .closeUpvalue v.slot else .nop)

/-- Dropping pending values below the top. -/
def dropCode : Nat → Code
  | 0 => .nop
  | n + 1 => .seq (.op .swap) (.seq (.op .pop) (dropCode n))

/-- Copying fields of the object on top into locals. -/
def fieldLocalsCode : List (String × Nat) → Code
  | [] => .nop
  | (f, slot) :: rest =>
    .block [.num .dup 0, .sym .loadField f, .num .storeLocal slot, .op .pop, fieldLocalsCode rest]

/-- The value of a function: a constant, or a closure if it captures variables. -/
def fnInstr (bc : Bytecode) (name : String) (id : Nat) (captured : List UpvalueDescriptor) : Instr :=
  if captured.isEmpty then .const .pushConst (.fn bc name id) else .closure bc name id captured

/-- A number literal. -/
def intCode (i : Int) : Code :=
  if i = 0 then .op .pushI0 else if i = 1 then .op .pushI1 else .instr (.const .pushConst (.int i))

/-- A float literal; the constant pool may already contain a number equal to it. -/
inductive FloatCode (f : Float) : Code → Prop where
  | zero (h : (f == 0.0) = true) : FloatCode f (.op .pushF0)
  | one (h : (f == 1.0) = true) : FloatCode f (.op .pushF1)
  | other {f' : Float} (h : f' = f ∨ (f' == f) = true) (h0 : (f == 0.0) = false) : FloatCode f (.instr (.const .pushConst (.float f')))

/-- The opcode of a compound assignment. -/
def AssignOp.opcode : AssignOp → Option Opcode
  | .mul => some .multiply
  | .div => some .divide
  | .add => some .add
  | .sub => some .subtract
  | .assign => none

/-- The declared result type of a function. -/
def CompilerKind.returnType : CompilerKind → Option TypeAnn
  | .function (some t) | .method (some t) => some t
  | _ => none

/-- Bytecode within the limits of its encoding: jump distances of 16 bits, slots and operands of 8 bits, and
likewise for the functions inside. -/
inductive Fits : Bytecode → Prop where
  | mk {bc : Bytecode} (length : bc.data.length < 32768) (slots : bc.slotCount ≤ 256) (captures : bc.upvalueCount ≤ 256)
      (fns : ∀ (code : Bytecode) (name : String) (id : Nat), Const.fn code name id ∈ bc.constants → Fits code) :
      Fits bc

/-- A function within the limit on captures, like the functions inside. -/
inductive FewCaptured : Bytecode → Prop where
  | mk {bc : Bytecode} (few : bc.upvalueCount ≤ 255)
      (fns : ∀ (code : Bytecode) (name : String) (id : Nat), Const.fn code name id ∈ bc.constants → FewCaptured code) :
      FewCaptured bc

/-- The bytecode `bc` of a finished function with context `fn` and code `c`. -/
structure FnCode (fn : Ctx) (c : Code) (bc : Bytecode) : Prop where
  slots : bc.slotCount = fn.scopes.slotCount
  captured : bc.upvalueCount = fn.upvalues.length
  layout : Fits bc → Layout bc 0 bc.data.length 0 0 0 c
  inner : ∀ (code : Bytecode) (name : String) (id : Nat), Const.fn code name id ∈ bc.constants → FewCaptured code

/-! ## Names, types, parameters -/

/-- The instruction that loads a name. -/
inductive IdentGen : Env → String → Instr → Env → Prop where
  | local {g : Env} {x : String} {v : ScopeVar} (h : g.lookup x = some v) (hi : v.isInitialized = true) :
      IdentGen g x (.num .loadLocal v.slot) g
  | captured {g g' : Env} {x : String} {i : Nat} (h : g.lookup x = none) (hr : resolveUpvalue x g = some (i, g')) :
      IdentGen g x (.num .loadUpvalue i) g'
  | global {g : Env} {x : String} (h : g.lookup x = none) (hr : resolveUpvalue x g = none) :
      IdentGen g x (.sym .loadGlobal x) g

/-- The check of an annotated local. -/
inductive TypeGen : Env → Nat → Option TypeAnn → Code → Env → Prop where
  | none {g : Env} {slot : Nat} : TypeGen g slot none .nop g
  | some {g g' : Env} {slot : Nat} {t : TypeAnn} {i : Instr} (h : IdentGen g t.name i g') :
      TypeGen g slot (some t) (.seq (.instr i) (.num (localCheck t.isNullable) slot)) g'

/-- The end of a function or a `return`: with a type check if there is a declared result type. -/
inductive ReturnGen : Env → Code → Env → Prop where
  | plain {g : Env} {k : CompilerKind} (hk : g.kind = some k) (h : k.returnType = none) :
      ReturnGen g (.op .return_) g
  | typed {g g' : Env} {k : CompilerKind} {t : TypeAnn} {i : Instr} (hk : g.kind = some k)
      (ht : k.returnType = some t) (h : IdentGen g t.name i g') :
      ReturnGen g (.seq (.instr i) (.op (returnCheck t.isNullable))) g'

/-- The parameters of a function. -/
inductive ParamsGen : Env → List FnArg → Code → Env → Prop where
  | nil {g : Env} : ParamsGen g [] .nop g
  | cons {g g1 g2 g3 : Env} {a : FnArg} {rest : List FnArg} {slot : Nat} {c1 c2 : Code}
      (hl : g.addLocal a.name (.local false true) = some (slot, g1)) (ht : TypeGen g1 slot a.type_ c1 g2)
      (hr : ParamsGen g2 rest c2 g3) : ParamsGen g (a :: rest) (.seq c1 c2) g3

/-- Slot 0 of a function without receiver, then the parameters. -/
inductive ArgsGen : Env → FnKind → List FnArg → Code → Env → Prop where
  | noReceiver {g g1 g2 : Env} {k : FnKind} {args : List FnArg} {slot : Nat} {c : Code}
      (hk : k = .function ∨ k = .staticMethod)
      (hl : g.addLocal "" (.local false true) = some (slot, g1)) (hp : ParamsGen g1 args c g2) :
      ArgsGen g k args c g2
  | receiver {g g1 : Env} {k : FnKind} {args : List FnArg} {c : Code}
      (hk : ¬ (k = .function ∨ k = .staticMethod)) (hp : ParamsGen g args c g1) : ArgsGen g k args c g1

/-- The names a block declares in advance: functions and classes. -/
def scanDecl : Expr → Env → Option Env
  | .fnDecl name _ _ _, g => (g.addLocal name (.function false)).map (·.2)
  | .classDecl name _ _, g => (g.addLocal name (.class false)).map (·.2)
  | .exportDecl e, g => scanDecl e g
  | _, g => some g

def scanDecls : List Expr → Env → Option Env
  | [], g => some g
  | e :: es, g =>
    match scanDecl e g with
    | none => none
    | some g => scanDecls es g

def scanBlock (es : List Expr) (t : Option Expr) (g : Env) : Option Env := scanDecls (es ++ t.toList) g

/-- The end of a function body. -/
inductive FnEndGen : Env → FnKind → Code → Env → Prop where
  | constructor {g : Env} {k : ClassKind} {v : ScopeVar} (h : g.lookup nameSelf = some v) :
      FnEndGen g (.constructor k) (.block [.op .pop, .num .loadLocal v.slot, .op .return_]) g
  | other {g g' : Env} {k : FnKind} {c : Code} (hk : ∀ j, k ≠ .constructor j) (h : ReturnGen g c g') :
      FnEndGen g k c g'

/-! ## The judgement -/

/-- Pieces of syntax that are compiled as a unit. -/
inductive Node where
  | expr (e : Expr)
  /-- an expression of a chain, without the delimiter of the chain -/
  | link (e : Expr)
  | seq (es : List Expr) (t : Option Expr)
  | els (t : Option Expr)
  | items (es : List Expr)
  | args (es : List Expr)
  | fields (fs : List (String × Expr))
  /-- the class from which a class derives: `Any` if not given -/
  | base (b : Option Expr)
  | cls (k : ClassKind) (items : List Expr) (slot : Nat)
  | block (k : BlockKind) (es : List Expr) (t : Option Expr)
  | fnBody (k : FnKind) (args : List FnArg) (es : List Expr) (t : Option Expr)

/-- The expressions that form chains. -/
def Expr.isLink : Expr → Bool
  | .nullProp _ | .errProp _ | .field .. | .superAccess .. | .call .. | .superCall _ | .index .. => true
  | _ => false

/-- The kind of a function in a class. -/
def classFnKind (k : ClassKind) (name : String) (args : List FnArg) : Option FnKind :=
  match args.head?.filter (fun a => a.name == nameSelf) with
  | some a => if a.type_.isSome then none else if name == nameNew then some (.constructor k) else some .method
  | none => if name == nameNew then none else some .staticMethod

/-- What follows the value of a member function of a class. -/
def storeMember (k : FnKind) (slot : Nat) (name : String) : Code :=
  match k with
  | .constructor _ | .method => .seq (.sym .storeMethod name) (.num .loadLocal slot)
  | _ => .block [.sym .storeField name, .op .pop, .num .loadLocal slot]

/-- The structured code of syntax. -/
inductive Gen : Env → Node → Code → Env → Prop where
  | ident {g g' : Env} {x i} (h : IdentGen g x i g') : Gen g (.expr (.ident x)) (.instr i) g'
  | unit {g : Env} : Gen g (.expr .unit) (.op .pushUnit) g
  | null {g : Env} : Gen g (.expr .null) (.op .pushNull) g
  | bool {g : Env} {b} : Gen g (.expr (.bool b)) (.op (if b then .pushTrue else .pushFalse)) g
  | int {g : Env} {i} : Gen g (.expr (.int i)) (intCode i) g
  | float {g : Env} {f c} (h : FloatCode f c) : Gen g (.expr (.float f)) c g
  | str {g : Env} {s} : Gen g (.expr (.str s)) (.instr (.const .pushConst (.str s))) g
  | anonFn {g g' : Env} {args ret body c fn bc name id}
      (hb : Gen (g.pushFn (.function ret)) (.fnBody .function args (bodyExprs body) (bodyTrailing body)) c (fn :: g'))
      (hc : FnCode fn c bc) :
      Gen g (.expr (.anonFn args ret body)) (.instr (fnInstr bc name id fn.upvalues)) g'
  | object {g g' : Env} {fs c} (h : Gen g (.fields fs) c g') :
      Gen g (.expr (.object fs)) (.seq (.op .createObject) c) g'
  | list {g g' : Env} {es c} (h : Gen g (.items es) c g') :
      Gen g (.expr (.list es)) (.seq c (.num .createArray es.length)) g'
  -- assignment
  | assignLocal {g g' : Env} {x rhs c v} (hv : g.lookup x = some v) (hm : v.isMutable = true) (h : Gen g (.expr rhs) c g') :
      Gen g (.expr (.assign .assign (.ident x) rhs)) (.seq c (.num .assignLocal v.slot)) g'
  | updateLocal {g g' : Env} {op x rhs c v o} (hv : g.lookup x = some v) (hm : v.isMutable = true)
      (ho : AssignOp.opcode op = some o) (h : Gen g (.expr rhs) c g') :
      Gen g (.expr (.assign op (.ident x) rhs))
        (.block [.num .loadLocal v.slot, c, .op o, .num .assignLocal v.slot]) g'
  | assignCaptured {g g1 g' : Env} {x rhs c i d} (hv : g.lookup x = none) (hr : resolveUpvalue x g = some (i, g1))
      (hd : (g1.head?.bind fun cx => cx.upvalues[i]?) = some d) (hm : d.isMutable = true)
      (h : Gen g1 (.expr rhs) c g') :
      Gen g (.expr (.assign .assign (.ident x) rhs)) (.seq c (.num .assignUpvalue i)) g'
  | updateCaptured {g g1 g' : Env} {op x rhs c i d o} (hv : g.lookup x = none) (hr : resolveUpvalue x g = some (i, g1))
      (hd : (g1.head?.bind fun cx => cx.upvalues[i]?) = some d) (hm : d.isMutable = true)
      (ho : AssignOp.opcode op = some o) (h : Gen g1 (.expr rhs) c g') :
      Gen g (.expr (.assign op (.ident x) rhs))
        (.block [.num .loadUpvalue i, c, .op o, .num .assignUpvalue i]) g'
  | assignField {g g1 g' : Env} {e f rhs c1 c2} (h1 : Gen g (.expr e) c1 g1) (h2 : Gen g1 (.expr rhs) c2 g') :
      Gen g (.expr (.assign .assign (.field e f) rhs)) (.block [c1, c2, .sym .storeField f]) g'
  | updateField {g g1 g' : Env} {op e f rhs c1 c2 o} (ho : AssignOp.opcode op = some o) (h1 : Gen g (.expr e) c1 g1)
      (h2 : Gen g1 (.expr rhs) c2 g') :
      Gen g (.expr (.assign op (.field e f) rhs))
        (.block [c1, .num .dup 0, .sym .loadField f, c2, .op o, .sym .assignField f]) g'
  | assignIndex {g g1 g2 g' : Env} {e i rhs c1 c2 c3} (h1 : Gen g (.expr e) c1 g1) (h2 : Gen g1 (.expr i) c2 g2)
      (h3 : Gen g2 (.expr rhs) c3 g') :
      Gen g (.expr (.assign .assign (.index e i) rhs)) (.block [c1, c2, c3, .op .assignIndex]) g'
  | updateIndex {g g1 g2 g' : Env} {op e i rhs c1 c2 c3 o} (ho : AssignOp.opcode op = some o) (h1 : Gen g (.expr e) c1 g1)
      (h2 : Gen g1 (.expr i) c2 g2) (h3 : Gen g2 (.expr rhs) c3 g') :
      Gen g (.expr (.assign op (.index e i) rhs))
        (.block [c1, c2, .num .dup 1, .num .dup 1, .op .loadIndex, c3, .op o, .op .assignIndex]) g'
  -- operators
  | unary {g g' : Env} {op e c} (h : Gen g (.expr e) c g') :
      Gen g (.expr (.unary op e)) (.seq c (.op (match op with | .negate => .negate | .not => .not))) g'
  | and {g g1 g' : Env} {a b c1 c2} (h1 : Gen g (.expr a) c1 g1) (h2 : Gen g1 (.expr b) c2 g') :
      Gen g (.expr (.binary .logicalAnd a b))
        (.block [c1, .num .dup 0, .op .assertBool, .skipIf false (.block [.op .pop, c2, .op .assertBool])]) g'
  | or {g g1 g' : Env} {a b c1 c2} (h1 : Gen g (.expr a) c1 g1) (h2 : Gen g1 (.expr b) c2 g') :
      Gen g (.expr (.binary .logicalOr a b))
        (.block [c1, .num .dup 0, .op .assertBool, .skipIf true (.block [.op .pop, c2, .op .assertBool])]) g'
  | pipeline {g g1 g' : Env} {a b c1 c2} (h1 : Gen g (.expr b) c1 g1) (h2 : Gen g1 (.expr a) c2 g') :
      Gen g (.expr (.binary .pipeline a b)) (.block [c1, c2, .num .call 1]) g'
  | coalesce {g g1 g' : Env} {a b c1 c2} (h1 : Gen g (.expr a) c1 g1) (h2 : Gen g1 (.expr b) c2 g') :
      Gen g (.expr (.binary .coalesce a b))
        (.block [c1, .num .dup 0, .op .pushNull, .op .equal, .skipIf false (.block [.op .pop, c2])]) g'
  | binary {g g1 g' : Env} {op a b c1 c2 o} (ho : BinaryOp.opcode op = some o) (h1 : Gen g (.expr a) c1 g1)
      (h2 : Gen g1 (.expr b) c2 g') :
      Gen g (.expr (.binary op a b)) (.block [c1, c2, .op o]) g'
  | is {g g1 g' : Env} {e t c i} (hn : t.isNullable = false) (h : Gen g (.expr e) c g1) (ht : IdentGen g1 t.name i g') :
      Gen g (.expr (.is e t)) (.block [c, .instr i, .op .is]) g'
  | isNullable {g g1 g2 g' : Env} {e t c1 c2 i} (hn : t.isNullable = true) (h1 : Gen g (.expr e) c1 g1)
      (h2 : Gen g1 (.expr e) c2 g2) (ht : IdentGen g2 t.name i g') :
      Gen g (.expr (.is e t))
        (.block [c1, .op .pushNull, .op .equal, .num .dup 0,
          .skipIf true (.block [.op .pop, c2, .instr i, .op .is])]) g'
  -- declarations
  | varDecl {g g1 g2 g' : Env} {x m e t c slot ct} (h : Gen g (.expr e) c g1)
      (hl : g1.addLocal x (.initialized m) = some (slot, g2)) (ht : TypeGen g2 slot t ct g') :
      Gen g (.expr (.varDecl (.singular x) m e t)) (.block [c, .num .storeLocal slot, ct]) g'
  | varDecls {g g1 g' : Env} {xs m e t c locals} (h : Gen g (.expr e) c g1)
      (hl : g1.addLocals xs = some (locals, g')) :
      Gen g (.expr (.varDecl (.destructured xs) m e t)) (.seq c (fieldLocalsCode locals)) g'
  | fnDecl {g g' : Env} {name args ret body c fn bc id v} (hu : (args.map (·.name)).Nodup)
      (hb : Gen (g.pushFn (.function ret)) (.fnBody .function args (bodyExprs body) (bodyTrailing body)) c (fn :: g'))
      (hc : FnCode fn c bc) (hv : g'.lookup name = some v) (hs : v.state = .function false) :
      Gen g (.expr (.fnDecl name args ret body))
        (.seq (.instr (fnInstr bc name id fn.upvalues)) (.num .storeLocal v.slot)) (g'.setState name (.function true))
  | opDecl {g g' : Env} {op args ret body c fn bc id} (hu : (args.map (·.name)).Nodup)
      (hb : Gen (g.pushFn (.function ret)) (.fnBody .function args (bodyExprs body) (bodyTrailing body)) c (fn :: g'))
      (hc : FnCode fn c bc) :
      Gen g (.expr (.opDecl op args ret body))
        (.block [.instr (fnInstr bc op.name id fn.upvalues), .sym .storeGlobal op.name, .op .pushUnit]) g'
  | classDecl {g g1 g2 g3 g4 g5 g' : Env} {name base items cb superSlot v ci vars} (h0 : g.pushScope .block false = some g1)
      (hb : Gen g1 (.base base) cb g2)
      (hsup : g2.addLocal nameSuper (.initialized true) = some (superSlot, g3))
      (hv : g3.lookup name = some v) (hs : v.state ≠ .class true)
      (hg : g4 = if v.state = .class false then g3.setState name (.class true) else g3)
      (hi : Gen g4 (.cls (if base.isSome then .derived else .base) items v.slot) ci g5)
      (hp : g5.popScope = some (vars, g')) :
      Gen g (.expr (.classDecl name base items))
        (.block [cb, .num .storeLocal superSlot, .sym .inheritClass name, .num .storeLocal v.slot, ci,
          closeCode vars]) g'
  | importItems {g g' : Env} {items path locals} (hl : g.addLocals items = some (locals, g')) :
      Gen g (.expr (.importDecl none items path)) (.seq (.sym .loadModule path) (fieldLocalsCode locals)) g'
  | importModule {g g1 g' : Env} {m items path locals slot} (hl : g.addLocals items = some (locals, g1))
      (hm : g1.addLocal m (.initialized false) = some (slot, g')) :
      Gen g (.expr (.importDecl (some m) items path))
        (.block [.sym .loadModule path, fieldLocalsCode locals, .num .storeLocal slot]) g'
  | exportDecl {g g' : Env} {e c d v n} (hk : g.kind = some .module) (hd : g.scopeDepth = some d) (hd1 : d ≤ 1)
      (hv : g.lookup nameExport = some v) (h : Gen g (.expr e) c g') (hn : exportName e = some n) :
      Gen g (.expr (.exportDecl e)) (.block [.num .loadLocal v.slot, c, .sym .storeField n]) g'
  -- control flow
  | ifExpr {g g1 g2 g' : Env} {a b e c1 c2 c3} (h1 : Gen g (.expr a) c1 g1) (h2 : Gen g1 (.expr b) c2 g2)
      (h3 : Gen g2 (.els e) c3 g') :
      Gen g (.expr (.ifExpr a b e)) (.seq c1 (.branch c2 c3)) g'
  | loop {g g1 g2 g' : Env} {es t c vars} (h0 : g.pushScope .loop true = some g1) (h : Gen g1 (.block .loop es t) c g2)
      (hp : g2.popScope = some (vars, g')) :
      Gen g (.expr (.loop (.block es t))) (.seq (.loop c) (.op .pushUnit)) g'
  | whileLoop {g g1 g2 g3 g' : Env} {a es t c1 c2 vars} (h0 : g.pushScope .loop true = some g1)
      (h1 : Gen g1 (.expr a) c1 g2) (h2 : Gen g2 (.block .loop es t) c2 g3)
      (hp : g3.popScope = some (vars, g')) :
      Gen g (.expr (.whileLoop a (.block es t)))
        (.seq (.loop (.block [c1, .breakIf false, c2])) (.op .pushUnit)) g'
  | rangeLoop {g g1 g2 g3 g4 g5 g' : Env} {x op a b body c1 c2 c3 slot vars}
      (hop : op = .rangeInclusive ∨ op = .rangeExclusive) (h1 : Gen g (.expr b) c1 g1) (h2 : Gen g1 (.expr a) c2 g2)
      (h0 : g2.pushScope .loop false = some g3) (hl : g3.addLocal x (.initialized false) = some (slot, g4))
      (h3 : Gen g4 (.expr body) c3 g5) (hp : g5.popScope = some (vars, g')) :
      Gen g (.expr (.forLoop x (.binary op a b) body))
        (.block [c1, c2,
          .loop (.block [.num .storeLocal slot, .num .dup 1,
            .op (if op = .rangeInclusive then .lessThanOrEqual else .lessThan), .breakIf false, c3, .op .pop,
            .num .loadLocal slot, .op .pushI1, .op .add, closeCode vars]),
          .op .pop, .op .pushUnit]) g'
  | forLoop {g g1 g2 g3 g4 g' : Env} {x source body c1 c2 slot vars}
      (hns : ∀ a b, source ≠ .binary .rangeInclusive a b ∧ source ≠ .binary .rangeExclusive a b)
      (h1 : Gen g (.expr source) c1 g1) (h0 : g1.pushScope .loop false = some g2)
      (hl : g2.addLocal x (.initialized false) = some (slot, g3)) (h2 : Gen g3 (.expr body) c2 g4)
      (hp : g4.popScope = some (vars, g')) :
      Gen g (.expr (.forLoop x source body))
        (.block [c1, .sym .loadField "iter", .num .call 0, .sym .loadField "next",
          .loop (.block [.num .dup 0, .num .call 0, .num .dup 0, .sym .loadField "is_done", .breakIf true,
            .instr (.fieldToLocal "value" (UInt8.ofNat slot)), .op .pop, c2, .op .pop, closeCode vars]),
          .op .pop, .op .pop, .op .pushUnit]) g'
  | break_ {g : Env} (h : g.inLoop = true) : Gen g (.expr .break_) .brk g
  | continue_ {g : Env} (h : g.canContinue = true) : Gen g (.expr .continue_) .cont g
  | blockExpr {g g' : Env} {es t c} (h : Gen g (.block .block es t) c g') : Gen g (.expr (.block es t)) c g'
  | returnValue {g g1 g' : Env} {e k c cr} (hk : g.kind = some k) (hf : ∃ r, k = .function r ∨ k = .method r)
      (h : Gen g (.expr e) c g1) (hr : ReturnGen g1 cr g') :
      Gen g (.expr (.return_ (some e))) (.block [c, dropCode g1.temps, cr]) g'
  | returnUnit {g g' : Env} {k cr} (hk : g.kind = some k) (hf : ∃ r, k = .function r ∨ k = .method r)
      (hr : ReturnGen g cr g') :
      Gen g (.expr (.return_ none)) (.block [.op .pushUnit, dropCode g.temps, cr]) g'
  | returnSelf {g g' : Env} {cr v} (hk : g.kind = some .constructor) (hv : g.lookup nameSelf = some v)
      (hr : ReturnGen g cr g') :
      Gen g (.expr (.return_ none)) (.block [.num .loadLocal v.slot, dropCode g.temps, cr]) g'
  -- chains
  | chain {g g1 g2 g' : Env} {e c d d'} (he : e.isLink = true) (hd : g.callDepth = some d)
      (h0 : g.setCallDepth (d + 1) = some g1) (h : Gen g1 (.link e) c g2) (hd' : g2.callDepth = some (d' + 1))
      (h1 : g2.setCallDepth d' = some g') :
      Gen g (.expr e) (if d' = 0 then .chain c else c) g'
  | nullProp {g g' : Env} {e c} (h : Gen g (.expr e) c g') :
      Gen g (.link (.nullProp e)) (.block [c, .num .dup 0, .op .pushNull, .op .notEqual, .exitIf false]) g'
  | errProp {g g1 g' : Env} {e k c cr} (hk : g.kind = some k) (hf : ∃ r, k = .function r ∨ k = .method r)
      (h : Gen g (.expr e) c g1) (hr : ReturnGen g1 cr g') :
      Gen g (.link (.errProp e))
        (.block [c, .num .dup 0, .sym .loadField "is_ok", .skipIf true (.seq (dropCode g1.temps) cr),
          .sym .loadField "result"]) g'
  | field {g g' : Env} {e f c} (h : Gen g (.expr e) c g') :
      Gen g (.link (.field e f)) (.seq c (.sym .loadField f)) g'
  | superAccess {g g1 g' : Env} {f cls i1 i2 k} (hk : g.kind = some k) (hm : (∃ r, k = .method r) ∨ k = .constructor)
      (h1 : IdentGen g (cls.getD nameSuper) i1 g1) (h2 : IdentGen g1 nameSelf i2 g') :
      Gen g (.link (.superAccess f cls)) (.block [.instr i1, .instr i2, .sym .loadMethod f]) g'
  | call {g g1 g2 g' : Env} {e es c1 c2} (h1 : Gen g (.expr e) c1 g1) (h2 : Gen g1 (.args es) c2 g2)
      (hg : g' = g2.setTemps g1.temps) :
      Gen g (.link (.call e es)) (.block [c1, c2, .num .call es.length]) g'
  | superCall {g g1 g' : Env} {es v c i} (hv : g.lookup nameSelf = some v) (h : Gen g (.args es) c g1)
      (hi : IdentGen (g1.setTemps g.temps) nameSuper i g') :
      Gen g (.link (.superCall es)) (.block [.num .loadLocal v.slot, c, .instr i, .num .callSuper es.length]) g'
  | index {g g1 g2 g3 g4 g' : Env} {e i c1 c2 d} (h1 : Gen g (.expr e) c1 g1) (hd : g1.callDepth = some d)
      (h0 : g1.setCallDepth 0 = some g2) (h2 : Gen (g2.setTemps (g2.temps + 1)) (.expr i) c2 g3)
      (h3 : (g3.setTemps (g3.temps - 1)).setCallDepth d = some g4) (hg : g' = g4) :
      Gen g (.link (.index e i)) (.block [c1, c2, .op .loadIndex]) g'
  -- lists of expressions
  | seqNil {g g' : Env} {t c} (h : Gen g (.els t) c g') : Gen g (.seq [] t) c g'
  | seqCons {g g1 g' : Env} {e es t c1 c2} (h1 : Gen g (.expr e) c1 g1) (h2 : Gen g1 (.seq es t) c2 g') :
      Gen g (.seq (e :: es) t) (.block [c1, .op .pop, c2]) g'
  | elsSome {g g' : Env} {e c} (h : Gen g (.expr e) c g') : Gen g (.els (some e)) c g'
  | elsNone {g : Env} : Gen g (.els none) (.op .pushUnit) g
  | itemsNil {g : Env} : Gen g (.items []) .nop g
  | itemsCons {g g1 g' : Env} {e es c1 c2} (h1 : Gen g (.expr e) c1 g1) (h2 : Gen g1 (.items es) c2 g') :
      Gen g (.items (e :: es)) (.seq c1 c2) g'
  | argsNil {g : Env} : Gen g (.args []) .nop g
  | argsCons {g g1 g2 g3 g' : Env} {e es c1 c2 d} (hd : g.callDepth = some d) (h0 : g.setCallDepth 0 = some g1)
      (h1 : Gen (g1.setTemps (g1.temps + 1)) (.expr e) c1 g2) (h2 : g2.setCallDepth d = some g3)
      (h3 : Gen g3 (.args es) c2 g') :
      Gen g (.args (e :: es)) (.seq c1 c2) g'
  | fieldsNil {g : Env} : Gen g (.fields []) .nop g
  | fieldsCons {g g1 g' : Env} {f e fs c1 c2} (h1 : Gen g (.expr e) c1 g1) (h2 : Gen g1 (.fields fs) c2 g') :
      Gen g (.fields ((f, e) :: fs)) (.block [.num .dup 0, c1, .sym .storeField f, .op .pop, c2]) g'
  -- classes
  | baseSome {g g' : Env} {e c} (h : Gen g (.expr e) c g') : Gen g (.base (some e)) c g'
  | baseNone {g g' : Env} {i} (h : IdentGen g nameAny i g') : Gen g (.base none) (.instr i) g'
  | clsNil {g : Env} {k slot} : Gen g (.cls k [] slot) .nop g
  | clsFn {g g1 g' : Env} {k slot name args ret body rest c1 c2 fk fn bc id} (hk : classFnKind k name args = some fk)
      (hr : ∀ j, fk = .constructor j → ret = none) (hu : (args.map (·.name)).Nodup)
      (hb : Gen (g.pushFn (fnCompilerKind fk ret)) (.fnBody fk args (bodyExprs body) (bodyTrailing body)) c1 (fn :: g1))
      (hc : FnCode fn c1 bc) (h2 : Gen g1 (.cls k rest slot) c2 g') :
      Gen g (.cls k (.fnDecl name args ret body :: rest) slot)
        (.block [.instr (fnInstr bc name id fn.upvalues), storeMember fk slot name, c2]) g'
  | clsOp {g g1 g' : Env} {k slot op args ret body rest c1 c2 a fn bc id}
      (ha : args.head?.filter (fun a => a.name == nameSelf) = some a) (hat : a.type_ = none)
      (hu : (args.map (·.name)).Nodup)
      (hb : Gen (g.pushFn (.method ret)) (.fnBody .method args (bodyExprs body) (bodyTrailing body)) c1 (fn :: g1))
      (hc : FnCode fn c1 bc) (h2 : Gen g1 (.cls k rest slot) c2 g') :
      Gen g (.cls k (.opDecl op args ret body :: rest) slot)
        (.block [.instr (fnInstr bc op.name id fn.upvalues), .sym .storeMethod op.name, .num .loadLocal slot, c2]) g'
  -- blocks and function bodies
  | block {g g1 g2 g3 g' : Env} {k es t c vars} (h0 : g.pushScope .block false = some g1) (hs : scanBlock es t g1 = some g2)
      (h : Gen g2 (.seq es t) c g3) (hp : g3.popScope = some (vars, g')) :
      Gen g (.block k es t)
        (.block [c, (match k with | .loop => .op .pop | .block => .nop), closeCode vars]) g'
  | fnBody {g g1 g2 g3 g4 g5 g' : Env} {k args es t c1 c2 c3 vars}
      (hsup : k = .constructor .derived → startsWithSuperCall es t = true)
      (h0 : g.pushScope .block false = some g1) (ha : ArgsGen g1 k args c1 g2) (hs : scanBlock es t g2 = some g3)
      (h : Gen g3 (.seq es t) c2 g4) (hv : vars = g4.topVars) (he : FnEndGen g4 k c3 g5)
      (hp : (g5.popScope).map (·.2) = some g') :
      Gen g (.fnBody k args es t) (.block [c1, c2, closeCode vars, c3]) g'

end Dice
