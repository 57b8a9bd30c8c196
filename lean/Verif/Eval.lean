import Verif.Compiler
import Verif.Vm

/-!
# A reference evaluator

The meaning of syntax trees without compilation: a definitional interpreter that works on the tree directly,
with lexical environments from names to store locations instead of stack slots and captured-variable cells,
closures that are pairs of a tree and an environment instead of bytecode, and structured control flow instead
of jumps.  None of this is code of the repository: it is the specification against which the compiler and the
machine together are verified (`SimProps`).

What it shares with the model of the machine are the built-in data: the type of values, the heap of objects
and arrays, and the decision tables of the operators (specified on their own by C26, C27 and C47).  A function
value of the evaluator is `closure k`: a reference to the `k`-th closure that was created.

The evaluator covers a part of the language; everything else is `stuck`:

* the float -0.0 as a literal, which no source text contains (`parseFloat_ne`), and modules whose source the evaluator is not given (a parameter of the evaluator);
* calls of native functions that are not among the known ones (a parameter of the evaluator; `SimNative` covers those of
  the runtime that do not call back and do not show references as text);
* reading a variable before it has a value, and more than 255 elements or arguments;
* `break`, `continue` and `return` in the middle of an expression, `return` out of a loop over a range, and any of them
  out of a loop over an iterator (the compiler leaves the pending operands on the stack, see C14 and C15);
* `break`, `continue` and `return` out of the scope of a variable that a function may have captured (the compiler does
  not detach the captured variable, see C28), and functions inside of a constructor (if they capture `self` the
  constructor gives null, see C28);
* declarations in a part of an expression that is not always evaluated;
* `e?` inside of an operand of another chain, as in `(-e?).f` (the compiler leaves the outer chain);
* `e is T?` unless `e` is a name or a literal (the compiler evaluates `e` twice);
* a result type that is a variable of the function itself, at the end of the function (the compiler closes the
  captured variables of the function before it reads the type).
-/

namespace Dice.Src

/-- A lexical environment: the store locations of the visible variables, innermost first. -/
abbrev SEnv := List (String × Nat)

/-- Functions, methods (with a receiver as first parameter), and constructors (whose result is the receiver). -/
inductive Form where
  | function
  | method
  | constructor
  deriving DecidableEq

/-- A function with the environment of its definition. -/
structure Closure where
  form : Form
  args : List FnArg
  ret : Option TypeAnn
  body : Expr
  env : SEnv

/-- What `return` means: a value that must have the declared type, or the receiver of a constructor. -/
inductive Role where
  | plain (ret : Option TypeAnn)
  | constructor

def Closure.role (cl : Closure) : Role :=
  match cl.form with
  | .constructor => .constructor
  | _ => .plain cl.ret

/-- The state of the evaluator.  A location holds `none` until its variable has a value. -/
structure State where
  store : List (Option Value) := []
  fns : List Closure := []
  heap : Heap := {}
  globals : ValueMap := []
  modules : ValueMap := []

/-- The ways to leave a construct early, with the environment of the place. -/
inductive Jump where
  | brk (ρ : SEnv)
  | cont (ρ : SEnv)
  | ret (ρ : SEnv) (v : Value)
  /-- `return` of a value that does not have the declared type -/
  | bad (e : RtErr)
  /-- the end of a chain of accesses at a null -/
  | exit (ρ : SEnv)

/-- What evaluation gives.  `stuck` are programs outside of the evaluator, `timeout` says that the bound on
iterations and nested calls is used up. -/
inductive Out (α : Type) where
  | ok (a : α)
  | jump (j : Jump)
  | err (e : RtErr)
  | abort
  | stuck
  | timeout

def S (α : Type) : Type := State → Out α × State

namespace S

def pure {α : Type} (a : α) : S α := fun σ => (.ok a, σ)

def bind {α β : Type} (x : S α) (f : α → S β) : S β := fun σ =>
  match x σ with
  | (.ok a, σ) => f a σ
  | (.jump j, σ) => (.jump j, σ)
  | (.err e, σ) => (.err e, σ)
  | (.abort, σ) => (.abort, σ)
  | (.stuck, σ) => (.stuck, σ)
  | (.timeout, σ) => (.timeout, σ)

instance : Monad S where
  pure := S.pure
  bind := S.bind

def jump {α : Type} (j : Jump) : S α := fun σ => (.jump j, σ)
def err {α : Type} (e : RtErr) : S α := fun σ => (.err e, σ)
def abort {α : Type} : S α := fun σ => (.abort, σ)
def stuck {α : Type} : S α := fun σ => (.stuck, σ)
def timeout {α : Type} : S α := fun σ => (.timeout, σ)

/-- An operand: not a place for jumps. -/
def operand {α : Type} (x : S α) : S α := fun σ =>
  match x σ with
  | (.jump _, σ) => (.stuck, σ)
  | r => r

/-- The body of a loop over a range: not a place for `return`. -/
def noReturn {α : Type} (x : S α) : S α := fun σ =>
  match x σ with
  | (.jump (.ret _ _), σ) => (.stuck, σ)
  | (.jump (.bad _), σ) => (.stuck, σ)
  | r => r

/-- The check of a value that is returned. -/
def returned {α : Type} (x : S α) : S α := fun σ =>
  match x σ with
  | (.err e, σ) => (.jump (.bad e), σ)
  | r => r

/-- A chain without `?` is not left early. -/
def noExit {α : Type} (x : S α) : S α := fun σ =>
  match x σ with
  | (.jump (.exit _), σ) => (.stuck, σ)
  | r => r

/-- A chain that an access of null leaves early is null, unless it declared a variable before. -/
def close (ρ : SEnv) (x : S (Value × SEnv)) : S (Value × SEnv) := fun σ =>
  match x σ with
  | (.jump (.exit ρ'), σ) => if ρ'.length = ρ.length then (.ok (.null, ρ), σ) else (.stuck, σ)
  | r => r

/-- Only if the condition holds. -/
def guard {α : Type} (b : Bool) (x : S α) : S α := if b then x else S.stuck

end S

/-- The `k`-th function value: a value that no machine makes, since closures have captured variables. -/
def closure (k : Nat) : Value := .fnClosure ⟨[], 0, 0, []⟩ "" k []

/-! ## Variables -/

def alloc (v : Option Value) : S Nat := fun σ =>
  (.ok σ.store.length, { σ with store := σ.store ++ [v] })

def readLoc (l : Nat) : S Value := fun σ =>
  match σ.store[l]? with
  | some (some v) => (.ok v, σ)
  | _ => (.stuck, σ)

def writeLoc (l : Nat) (v : Value) : S Unit := fun σ =>
  (.ok (), { σ with store := σ.store.set l (some v) })

def globalVar (x : String) : S Value := fun σ =>
  match σ.globals.get x with
  | some v => (.ok v, σ)
  | none => (.err (.globalUndefined x), σ)

/-- The value of a name. -/
def readVar (ρ : SEnv) (x : String) : S Value :=
  match ρ.lookup x with
  | some l => readLoc l
  | none => globalVar x

/-- A new function value. -/
def newFn (form : Form) (args : List FnArg) (ret : Option TypeAnn) (body : Expr) (ρ : SEnv) : S Value := fun σ =>
  (.ok (closure σ.fns.length), { σ with fns := σ.fns ++ [⟨form, args, ret, body, ρ⟩] })

/-- Whether a function may have captured a variable of `ρ'` that is not in its tail `ρ`. -/
def captured (σ : State) (ρ ρ' : SEnv) : Bool :=
  (ρ'.take (ρ'.length - ρ.length)).any fun x => σ.fns.any fun cl => cl.env.any fun y => y.2 == x.2

/-- The definition of an operator for all values. -/
def defineOp (name : String) (v : Value) : S Unit := fun σ =>
  match σ.globals.get name with
  | some _ => (.err (.globalDefined name), σ)
  | none => (.ok (), { σ with globals := σ.globals.insert name v })

/-- The name a declaration makes visible in all of its block. -/
def hoisted : Expr → Option String
  | .fnDecl name _ _ _ => some name
  | .classDecl name _ _ => some name
  | .exportDecl e => hoisted e
  | _ => none

/-- The functions of a block are visible in all of it. -/
def hoist : List Expr → SEnv → S SEnv
  | [], ρ => pure ρ
  | e :: es, ρ =>
    match hoisted e with
    | some x => do
      let l ← alloc none
      hoist es ((x, l) :: ρ)
    | none => hoist es ρ

/-! ## Types -/

/-- A value as a class. -/
def classRef : Value → S Nat
  | .cls c => pure c
  | _ => S.err .invalidClass

/-- The value is an instance of the class, or null where that is allowed. -/
def checkType (w : World) (nullable : Bool) (c : Nat) (v : Value) : S Unit := fun σ =>
  if v.isNull then (if nullable then (.ok (), σ) else (.err .assertNull, σ))
  else if σ.heap.isOfType w v c then (.ok (), σ)
  else (.err .assertType, σ)

/-- The variable at a location has the declared type. -/
def checkVar (w : World) (t : Option TypeAnn) (l : Nat) (ρ : SEnv) : S Unit :=
  match t with
  | none => pure ()
  | some t => do
    let c ← readVar ρ t.name
    let k ← classRef c
    let v ← readLoc l
    checkType w t.isNullable k v

/-- The value has the declared result type. -/
def checkResult (w : World) (t : Option TypeAnn) (v : Value) (ρ : SEnv) : S Unit :=
  match t with
  | none => pure ()
  | some t => do
    let c ← readVar ρ t.name
    let k ← classRef c
    checkType w t.isNullable k v

/-- `v is T`. -/
def testType (w : World) (c v : Value) : S Value := do
  let k ← classRef c
  fun σ => (.ok (.bool (σ.heap.isOfType w v k)), σ)

/-- The parameters of a call; a parameter without argument has no value. -/
def bindParams (w : World) : List FnArg → List Value → SEnv → S SEnv
  | [], _, ρ => pure ρ
  | a :: as, vs, ρ => do
    let l ← alloc vs.head?
    checkVar w a.type_ l ((a.name, l) :: ρ)
    bindParams w as vs.tail ((a.name, l) :: ρ)

/-! ## Data -/

def onHeap {α : Type} (f : Heap → α × Heap) : S α := fun σ =>
  let (a, h) := f σ.heap
  (.ok a, { σ with heap := h })

/-- A field, or else the method of the class bound to the value, or else null. -/
def fieldOf (w : World) (key : String) (v : Value) : S Value := fun σ =>
  match σ.heap.ownField key v with
  | some f => (.ok f, σ)
  | none =>
    if key = "new" then (.err .newAccess, σ)
    else
      match (σ.heap.classOf w v).bind (σ.heap.method · key) with
      | some f => (.ok (.fnBound v f), σ)
      | none => (.ok .null, σ)

def setFieldOf (key : String) (o v : Value) : S Unit := fun σ =>
  match σ.heap.asObject o with
  | some obj => (.ok (), { σ with heap := σ.heap.setField obj key v })
  | none => (.err .invalidObject, σ)

def elementOf (w : World) (target index : Value) : S Value :=
  match target, index with
  | .array a, .int i => fun σ =>
    match σ.heap.arrays[a]? with
    | some arr => (.ok (if 0 ≤ i then (arr.elements[i.toNat]?).getD .null else .null), σ)
    | none => (.stuck, σ)
  | target, .sym key => fieldOf w key target
  | _, _ => S.err .invalidSymbol

def setElementOf (target index value : Value) : S Unit :=
  match target, index with
  | .array a, .int i => fun σ =>
    match σ.heap.arrays[a]? with
    | some arr =>
      if 0 ≤ i ∧ i.toNat < arr.elements.length then
        (.ok (), { σ with heap := { σ.heap with
          arrays := σ.heap.arrays.set a { arr with elements := arr.elements.set i.toNat value } } })
      else (.abort, σ)
    | none => (.stuck, σ)
  | target, index => fun σ =>
    match σ.heap.asObject target, index with
    | none, _ => (.err .invalidObject, σ)
    | some obj, .sym key => (.ok (), { σ with heap := σ.heap.setField obj key value })
    | some _, _ => (.err .invalidSymbol, σ)

/-! ## Classes -/

/-- A new class with its base. -/
def newClass (name : String) (k : Nat) : S Value := fun σ =>
  match σ.heap.classes[k]? with
  | some c => (.ok (σ.heap.classWithBase name k c).1, { σ with heap := (σ.heap.classWithBase name k c).2 })
  | none => (.stuck, σ)

/-- A new class.  The classes of built-in values, except that of all values, have no subclasses. -/
def derive (w : World) (name : String) (b : Value) : S Value := do
  let k ← classRef b
  let builtIn := k ≠ w.anyClass ∧ ∃ i ∈ [ValueKind.null, .unit, .bool, .int, .float, .function, .array, .string,
    .symbol, .object, .class], w.valueClass i = some k
  if builtIn then S.err .cannotInherit
  else newClass name k

def setMethodOf (key : String) (c v : Value) : S Unit := do
  let k ← classRef c
  onHeap fun h => ((), h.setMethod k key v)

/-- Functions of a class whose first parameter is `self` are methods, or the constructor if the name is `new`. -/
def memberForm (name : String) (args : List FnArg) : Option Form :=
  match args with
  | a :: _ =>
    if a.name = "self" then
      if a.type_.isSome then none else if name = "new" then some .constructor else some .method
    else if name = "new" then none else some .function
  | [] => if name = "new" then none else some .function

/-- The members of a class: methods, and functions that are fields of the class itself. -/
def members (c : Value) : List Expr → SEnv → S Unit
  | [], _ => pure ()
  | .fnDecl name args ret body :: rest, ρ =>
    match memberForm name args with
    | none => S.stuck
    | some .function => do
      let v ← newFn .function args ret body ρ
      setFieldOf name c v
      members c rest ρ
    | some form => do
      let v ← newFn form args ret body ρ
      setMethodOf name c v
      members c rest ρ
  | .opDecl op args ret body :: rest, ρ => do
    let v ← newFn .method args ret body ρ
    setMethodOf op.name c v
    members c rest ρ
  | _ :: _, _ => S.stuck

/-- A class declaration: inside of it `super` is the base class. -/
def classDecl (w : World) (name : String) (items : List Expr) (base : SEnv → S (Value × SEnv)) (ρ : SEnv) : S Value := do
  let (b, ρ) ← base ρ
  let s ← alloc (some b)
  match (("super", s) :: ρ).lookup name with
  | some l => do
    let c ← derive w name b
    writeLoc l c
    members c items (("super", s) :: ρ)
    pure c
  | none => S.stuck

/-- A method of a class for a receiver that is an instance of it. -/
def superMethod (w : World) (key : String) (c self : Value) : S Value := do
  let k ← classRef c
  fun σ =>
    if σ.heap.isOfType w self k then
      match σ.heap.method k key with
      | some f => (.ok (.fnBound self f), σ)
      | none => (.ok .null, σ)
    else (.err .assertSuper, σ)

/-- How an expression gets at other code: calling a function value, and importing a module by its name. -/
structure Calls where
  call : Value → List Value → S Value
  load : String → S Value

instance : CoeFun Calls fun _ => Value → List Value → S Value := ⟨Calls.call⟩

/-- The construction of an instance: the constructor of the class, if it has one. -/
def construct (call : Calls) (c : Nat) (obj : Value) (vs : List Value) : S Value := fun σ =>
  match σ.heap.method c "new" with
  | some new => call (.fnBound obj new) vs σ
  | none =>
    if vs = [] then
      match (σ.heap.classes[c]?.bind (·.base)).bind (σ.heap.method · "new") with
      | some _ => (.err .mustHaveNew, σ)
      | none => (.ok obj, σ)
    else (.ok obj, σ)

/-! ## Operators -/

/-- An integer result: out of range it aborts or wraps, depending on the build. -/
def intResult (w : World) (x : Int) : S Value :=
  if InI64 x then pure (.int x)
  else if w.checks then S.abort
  else pure (.int (Int.bmod x (2 ^ 64)))

/-- An operator that is not built in for its operands: the method of that name of the left operand, or else the
operator defined for all values. -/
def overloaded (w : World) (call : Calls) (name : String) (l r : Value) : S Value := do
  let m ← fieldOf w name l
  if m.isNull then fun σ =>
    match σ.globals.get name with
    | some f => call f [l, r] σ
    | none => (.err (.operatorUndefined name), σ)
  else call m [r]

def binary (w : World) (call : Calls) (o : Opcode) (l r : Value) : S Value :=
  match binDecide w o l r with
  | .value v => pure v
  | .int x => intResult w x
  | .quotient l r => if InI64 (l.tdiv r) then pure (.int (l.tdiv r)) else S.abort
  | .remainder l r => if InI64 (l.tdiv r) then pure (.int (l.tmod r)) else S.abort
  | .divideByZero => S.err .divideByZero
  | .call name => overloaded w call name l r

def unary (w : World) : UnaryOp → Value → S Value
  | .negate, .int x => intResult w (-x)
  | .negate, .float x => pure (.float (-x))
  | .negate, _ => S.err .assertNumber
  | .not, .bool b => pure (.bool !b)
  | .not, _ => S.err .assertBool

/-- A condition. -/
def truth : Value → S Bool
  | .bool b => pure b
  | _ => S.err .invalidBool

/-- An operand of `&&` and `||`. -/
def operandBool : Value → S Bool
  | .bool b => pure b
  | _ => S.err .assertBool

/-! ## Loops -/

/-- Repeats the body, which gives what the next round starts with, until it ends or breaks.  `ρ` is the
environment of the loop and `next` what the round after a `continue` starts with. -/
def iter {α : Type} (ρ : SEnv) (next : Option α) (body : α → S (Option α)) : Nat → α → S Unit
  | 0, _ => S.timeout
  | n + 1, a => fun σ =>
    match body a σ with
    | (.ok (some a), σ) => iter ρ next body n a σ
    | (.ok none, σ) => (.ok (), σ)
    | (.jump (.brk ρ'), σ) => if captured σ ρ ρ' then (.stuck, σ) else (.ok (), σ)
    | (.jump (.cont ρ'), σ) =>
      match next with
      | some a => if captured σ ρ ρ' then (.stuck, σ) else iter ρ next body n a σ
      | none => (.stuck, σ)
    | (.jump (.ret ρ' v), σ) => (.jump (.ret ρ' v), σ)
    | (.jump (.bad e), σ) => (.jump (.bad e), σ)
    | (.jump (.exit _), σ) => (.stuck, σ)
    | (.err e, σ) => (.err e, σ)
    | (.abort, σ) => (.abort, σ)
    | (.stuck, σ) => (.stuck, σ)
    | (.timeout, σ) => (.timeout, σ)

/-! ## Expressions -/

mutual

/-- Whether an expression may declare a variable that what follows can see. -/
def declares : Expr → Bool
  | .ident _ | .unit | .null | .bool _ | .int _ | .float _ | .str _ | .anonFn .. | .fnDecl .. | .opDecl .. | .break_ | .continue_
  | .block .. | .loop _ | .whileLoop .. | .classDecl .. | .superAccess .. => false
  | .object fs => declaresField fs
  | .list es => declaresAny es
  | .assign _ (.ident _) e => declares e
  | .assign _ (.field a _) e => declares a || declares e
  | .assign _ (.index a i) e => declares a || declares i || declares e
  | .unary _ e => declares e
  | .binary _ a b => declares a || declares b
  | .ifExpr a b e => declares a || declares b || declaresOpt e
  | .forLoop _ e _ => declares e
  | .return_ e => declaresOpt e
  | .field e _ => declares e
  | .index e i => declares e || declares i
  | .call e es => declares e || declaresAny es
  | .superCall es => declaresAny es
  | .is e _ => declares e
  | .nullProp e => declares e
  | .errProp e => declares e
  | _ => true

def declaresAny : List Expr → Bool
  | [] => false
  | e :: es => declares e || declaresAny es

def declaresField : List (String × Expr) → Bool
  | [] => false
  | f :: fs => declares f.2 || declaresField fs

def declaresOpt : Option Expr → Bool
  | none => false
  | some e => declares e

end

mutual

/-- Whether every chain of accesses with `?` in an expression ends inside of the expression. -/
def closed : Expr → Bool
  | .object fs => closedField fs
  | .list es => closedAny es
  | .assign _ (.ident _) e => closed e
  | .assign _ (.field a _) e => closed a && closed e
  | .assign _ (.index a i) e => closed a && closed i && closed e
  | .unary _ e => closed e
  | .binary _ a b => closed a && closed b
  | .is e _ => closed e
  | .varDecl _ _ e _ => closed e
  | .ifExpr a b e => closed a && closed b && closedOpt e
  | .forLoop _ e _ => closed e
  | .return_ e => closedOpt e
  | .nullProp _ => false
  | .errProp e => closed e
  | .field e _ => closed e
  | .index e _ => closed e
  | .call e _ => closed e
  | .ident _ | .unit | .null | .bool _ | .int _ | .float _ | .str _ | .anonFn .. | .fnDecl .. | .opDecl .. | .break_ | .continue_
  | .block .. | .loop _ | .whileLoop .. | .classDecl .. | .superAccess .. | .superCall _ | .importDecl .. => true
  | .exportDecl e => closed e
  | _ => false

def closedAny : List Expr → Bool
  | [] => true
  | e :: es => closed e && closedAny es

def closedField : List (String × Expr) → Bool
  | [] => true
  | f :: fs => closed f.2 && closedField fs

def closedOpt : Option Expr → Bool
  | none => true
  | some e => closed e

end

mutual

/-- Whether an expression contains no functions. -/
def noFn : Expr → Bool
  | .anonFn .. | .fnDecl .. | .opDecl .. | .classDecl .. => false
  | .object fs => noFnField fs
  | .list es => noFnAny es
  | .assign _ (.ident _) e => noFn e
  | .assign _ (.field a _) e => noFn a && noFn e
  | .assign _ (.index a i) e => noFn a && noFn i && noFn e
  | .unary _ e => noFn e
  | .binary _ a b => noFn a && noFn b
  | .is e _ => noFn e
  | .varDecl _ _ e _ => noFn e
  | .ifExpr a b e => noFn a && noFn b && noFnOpt e
  | .loop b => noFn b
  | .whileLoop a b => noFn a && noFn b
  | .forLoop _ e b => noFn e && noFn b
  | .block es t => noFnAny es && noFnOpt t
  | .return_ e => noFnOpt e
  | .nullProp e => noFn e
  | .errProp e => noFn e
  | .field e _ => noFn e
  | .index e i => noFn e && noFn i
  | .call e es => noFn e && noFnAny es
  | .superCall es => noFnAny es
  | .ident _ | .unit | .null | .bool _ | .int _ | .float _ | .str _ | .break_ | .continue_ | .superAccess .. => true
  | _ => false

def noFnAny : List Expr → Bool
  | [] => true
  | e :: es => noFn e && noFnAny es

def noFnField : List (String × Expr) → Bool
  | [] => true
  | f :: fs => noFn f.2 && noFnField fs

def noFnOpt : Option Expr → Bool
  | none => true
  | some e => noFn e

end

/-- What may stand to the left of an access: the beginning of the same chain, or an expression of its own. -/
def spine : Expr → Bool
  | .nullProp _ | .errProp _ | .field .. | .superAccess .. | .call .. | .superCall _ | .index .. => true
  | e => closed e

/-- The end of a chain of accesses, unless it goes on. -/
def chainEnd (inside : Bool) (e : Expr) (ρ : SEnv) (x : S (Value × SEnv)) : S (Value × SEnv) :=
  if inside then x else if closed e then S.noExit x else S.guard (!declares e) (S.close ρ x)

/-- Expressions without an effect. -/
def repeatable : Expr → Bool
  | .ident _ | .unit | .null | .bool _ | .int _ | .float _ | .str _ => true
  | _ => false

/-- The operator of a compound assignment. -/
def updateOp : AssignOp → Option Opcode
  | .mul => some .multiply
  | .div => some .divide
  | .add => some .add
  | .sub => some .subtract
  | .assign => none

/-- The operator of an expression with two operands that are always evaluated, left to right. -/
def strictOp : BinaryOp → Option Opcode
  | .multiply => some .multiply
  | .divide => some .divide
  | .remainder => some .remainder
  | .add => some .add
  | .subtract => some .subtract
  | .greaterThan => some .greaterThan
  | .lessThan => some .lessThan
  | .greaterThanEquals => some .greaterThanOrEqual
  | .lessThanEquals => some .lessThanOrEqual
  | .equals => some .equal
  | .notEquals => some .notEqual
  | .rangeInclusive => some .rangeInclusive
  | .rangeExclusive => some .rangeExclusive
  | _ => none

/-- The comparison of a loop over a range. -/
def rangeOp : BinaryOp → Option Opcode
  | .rangeInclusive => some .lessThanOrEqual
  | .rangeExclusive => some .lessThan
  | _ => none

/-- The fields of a value as new variables. -/
def bindFields (w : World) (v : Value) : List String → SEnv → S SEnv
  | [], ρ => pure ρ
  | x :: xs, ρ => do
    let u ← fieldOf w x v
    let l ← alloc (some u)
    bindFields w v xs ((x, l) :: ρ)

/-- A block: its functions are visible in all of it, and its declarations end with it. -/
def block (es : List Expr) (t : Option Expr) (stmts : SEnv → S SEnv) (last : SEnv → S (Value × SEnv)) (ρ : SEnv) :
    S Value := do
  let ρ ← hoist (es ++ t.toList) ρ
  let ρ ← stmts ρ
  let (v, _) ← last ρ
  pure v

/-- The round of a loop over a range: the variable of the round is new. -/
def rangeRound (w : World) (call : Calls) (cmp : Opcode) (x : String) (stop : Value)
    (ρ : SEnv) (body : SEnv → S (Value × SEnv)) (v : Value) : S (Option Value) := do
  let l ← alloc (some v)
  let c ← binary w call cmp v stop
  let b ← truth c
  if b then do
    let _ ← body ((x, l) :: ρ)
    let v ← readLoc l
    let v ← binary w call .add v (.int 1)
    pure (some v)
  else pure none

/-- The round of a loop over an iterator: the variable of the round is new. -/
def iterRound (w : World) (call : Calls) (x : String) (next : Value) (ρ : SEnv)
    (body : SEnv → S (Value × SEnv)) : S (Option Unit) := do
  let r ← call next []
  let d ← fieldOf w "is_done" r
  let done ← truth d
  if done then pure none
  else do
    let v ← fieldOf w "value" r
    let l ← alloc (some v)
    let _ ← body ((x, l) :: ρ)
    pure (some ())

/-- The name under which a declaration is exported. -/
def exported : Expr → Option String
  | .varDecl (.singular x) _ _ _ => some x
  | .fnDecl x _ _ _ => some x
  | .classDecl x _ _ => some x
  | .ident x => some x
  | _ => none

/-- The variable of a module that holds the object of its exports. -/
def exports : String := "#export"

/-- A loop over the iterator of a value. -/
def iterLoop (w : World) (call : Calls) (n : Nat) (x : String) (source : S (Value × SEnv))
    (body : SEnv → S (Value × SEnv)) : S (Value × SEnv) := do
  let (s, ρ) ← source
  let f ← fieldOf w "iter" s
  let i ← call f []
  let next ← fieldOf w "next" i
  iter ρ none (fun _ => S.operand (iterRound w call x next ρ body)) n ()
  pure (.unit, ρ)

mutual

/-- The value of an expression, and the environment for what follows: a declaration extends it.  `call` calls a
function value or loads a module, `r` is the meaning of `return`, `n` bounds the number of iterations, and `inside` says that the
expression is the beginning of a chain of accesses that goes on. -/
def eval (w : World) (call : Calls) (r : Role) (n : Nat) (inside : Bool) :
    Expr → SEnv → S (Value × SEnv)
  | .ident x, ρ => do
    let v ← readVar ρ x
    pure (v, ρ)
  | .unit, ρ => pure (.unit, ρ)
  | .null, ρ => pure (.null, ρ)
  | .bool b, ρ => pure (.bool b, ρ)
  | .int i, ρ => pure (.int i, ρ)
  | .float f, ρ => if f = -0.0 then S.stuck else pure (.float f, ρ)
  | .str s, ρ => pure (.str s, ρ)
  | .anonFn args ret body, ρ => do
    let v ← newFn .function args ret body ρ
    pure (v, ρ)
  | .object fs, ρ => do
    let o ← onHeap fun h => h.newObject w.anyClass
    let ρ ← evalFields w call r n o fs ρ
    pure (o, ρ)
  | .list es, ρ => S.guard (es.length ≤ 255) do
    let (vs, ρ) ← evalAll w call r n es ρ
    let a ← onHeap fun h => h.newArray vs
    pure (a, ρ)
  | .assign op (.ident x) rhs, ρ =>
    match ρ.lookup x, updateOp op with
    | some l, none => do
      let (v, ρ) ← eval w call r n false rhs ρ
      writeLoc l v
      pure (.unit, ρ)
    | some l, some o => do
      let a ← readLoc l
      let (b, ρ) ← S.operand (eval w call r n false rhs ρ)
      let v ← binary w call o a b
      writeLoc l v
      pure (.unit, ρ)
    | none, _ => S.stuck
  | .assign op (.field e f) rhs, ρ =>
    match updateOp op with
    | none => do
      let (o, ρ) ← eval w call r n false e ρ
      let (v, ρ) ← S.operand (eval w call r n false rhs ρ)
      setFieldOf f o v
      pure (v, ρ)
    | some op => do
      let (o, ρ) ← eval w call r n false e ρ
      let a ← fieldOf w f o
      let (b, ρ) ← S.operand (eval w call r n false rhs ρ)
      let v ← binary w call op a b
      setFieldOf f o v
      pure (.unit, ρ)
  | .assign op (.index e i) rhs, ρ =>
    match updateOp op with
    | none => do
      let (o, ρ) ← eval w call r n false e ρ
      let (i, ρ) ← S.operand (eval w call r n false i ρ)
      let (v, ρ) ← S.operand (eval w call r n false rhs ρ)
      setElementOf o i v
      pure (.unit, ρ)
    | some op => do
      let (o, ρ) ← eval w call r n false e ρ
      let (i, ρ) ← S.operand (eval w call r n false i ρ)
      let a ← elementOf w o i
      let (b, ρ) ← S.operand (eval w call r n false rhs ρ)
      let v ← binary w call op a b
      setElementOf o i v
      pure (.unit, ρ)
  | .unary op e, ρ => do
    let (v, ρ) ← eval w call r n false e ρ
    let r ← unary w op v
    pure (r, ρ)
  | .binary .logicalAnd a b, ρ => S.guard (!declares b) do
    let (v, ρ) ← eval w call r n false a ρ
    let x ← operandBool v
    if x then do
      let (u, ρ) ← eval w call r n false b ρ
      let y ← operandBool u
      pure (.bool y, ρ)
    else pure (.bool false, ρ)
  | .binary .logicalOr a b, ρ => S.guard (!declares b) do
    let (v, ρ) ← eval w call r n false a ρ
    let x ← operandBool v
    if x then pure (.bool true, ρ)
    else do
      let (u, ρ) ← eval w call r n false b ρ
      let y ← operandBool u
      pure (.bool y, ρ)
  | .binary .pipeline a b, ρ => do
    let (f, ρ) ← eval w call r n false b ρ
    let (v, ρ) ← S.operand (eval w call r n false a ρ)
    let r ← call f [v]
    pure (r, ρ)
  | .binary .coalesce a b, ρ => S.guard (!declares b) do
    let (v, ρ) ← eval w call r n false a ρ
    if v.isNull then eval w call r n false b ρ
    else pure (v, ρ)
  | .binary op a b, ρ =>
    match strictOp op with
    | some o => do
      let (l, ρ) ← eval w call r n false a ρ
      let (r, ρ) ← S.operand (eval w call r n false b ρ)
      let v ← binary w call o l r
      pure (v, ρ)
    | none => S.stuck
  | .is e t, ρ =>
    if t.isNullable then S.guard (repeatable e) do
      let (v, ρ) ← eval w call r n false e ρ
      if v.isNull then pure (.bool true, ρ)
      else do
        let (v, ρ) ← eval w call r n false e ρ
        let c ← readVar ρ t.name
        let u ← testType w c v
        pure (u, ρ)
    else do
      let (v, ρ) ← eval w call r n false e ρ
      let c ← readVar ρ t.name
      let u ← testType w c v
      pure (u, ρ)
  | .varDecl (.singular x) _ e t, ρ => do
    let (v, ρ) ← eval w call r n false e ρ
    let l ← alloc (some v)
    checkVar w t l ((x, l) :: ρ)
    pure (v, (x, l) :: ρ)
  | .varDecl (.destructured xs) _ e _, ρ => do
    let (v, ρ) ← eval w call r n false e ρ
    let ρ ← bindFields w v xs ρ
    pure (v, ρ)
  | .importDecl none xs path, ρ => do
    let v ← call.load path
    let ρ ← bindFields w v xs ρ
    pure (v, ρ)
  | .importDecl (some x) xs path, ρ => do
    let v ← call.load path
    let ρ ← bindFields w v xs ρ
    let l ← alloc (some v)
    pure (v, (x, l) :: ρ)
  | .exportDecl e, ρ =>
    match ρ.lookup exports, exported e with
    | some l, some x => do
      let o ← readLoc l
      let (v, ρ) ← S.operand (eval w call r n false e ρ)
      setFieldOf x o v
      pure (v, ρ)
    | _, _ => S.stuck
  | .fnDecl name args ret body, ρ =>
    match ρ.lookup name with
    | some l => do
      let v ← newFn .function args ret body ρ
      writeLoc l v
      pure (v, ρ)
    | none => S.stuck
  | .opDecl op args ret body, ρ => do
    let v ← newFn .function args ret body ρ
    defineOp op.name v
    pure (.unit, ρ)
  | .classDecl name none items, ρ => do
    let c ← classDecl w name items (fun ρ => do
      let b ← readVar ρ "Any"
      pure (b, ρ)) ρ
    pure (c, ρ)
  | .classDecl name (some b) items, ρ => do
    let c ← classDecl w name items (eval w call r n false b) ρ
    pure (c, ρ)
  | .ifExpr a b e, ρ => S.guard (!declares b && !declaresOpt e) do
    let (c, ρ) ← eval w call r n false a ρ
    let x ← truth c
    if x then eval w call r n false b ρ else evalOpt w call r n e ρ
  | .loop (.block es t), ρ => do
    iter ρ (some ()) (fun _ => do
      let _ ← block es t (evalStmts w call r n es) (evalOpt w call r n t) ρ
      pure (some ())) n ()
    pure (.unit, ρ)
  | .whileLoop a (.block es t), ρ => S.guard (!declares a) do
    iter ρ (some ()) (fun _ => do
      let (c, ρ) ← eval w call r n false a ρ
      let x ← truth c
      if x then do
        let _ ← block es t (evalStmts w call r n es) (evalOpt w call r n t) ρ
        pure (some ())
      else pure none) n ()
    pure (.unit, ρ)
  | .forLoop x (.binary op a b) body, ρ =>
    match rangeOp op with
    | some cmp => do
      let (stop, ρ) ← eval w call r n false b ρ
      let (start, ρ) ← S.operand (eval w call r n false a ρ)
      iter ρ none (fun v => S.noReturn (rangeRound w call cmp x stop ρ (eval w call r n false body) v)) n start
      pure (.unit, ρ)
    | none => iterLoop w call n x (eval w call r n false (.binary op a b) ρ) (eval w call r n false body)
  | .forLoop x e body, ρ => iterLoop w call n x (eval w call r n false e ρ) (eval w call r n false body)
  | .break_, ρ => S.jump (.brk ρ)
  | .continue_, ρ => S.jump (.cont ρ)
  | .block es t, ρ => do
    let v ← block es t (evalStmts w call r n es) (evalOpt w call r n t) ρ
    pure (v, ρ)
  | .return_ none, ρ =>
    match r with
    | .plain t => do
      S.returned (checkResult w t .unit ρ)
      S.jump (.ret ρ .unit)
    | .constructor => do
      let v ← readVar ρ "self"
      S.jump (.ret ρ v)
  | .return_ (some e), ρ =>
    match r with
    | .plain t => do
      let (v, ρ) ← eval w call r n false e ρ
      S.returned (checkResult w t v ρ)
      S.jump (.ret ρ v)
    | .constructor => S.stuck
  | .nullProp e, ρ => S.guard (spine e) (chainEnd inside (.nullProp e) ρ do
    let (v, ρ) ← eval w call r n true e ρ
    if v.isNull then S.jump (.exit ρ) else pure (v, ρ))
  | .errProp e, ρ => S.guard (spine e) (chainEnd inside (.errProp e) ρ do
    let (v, ρ) ← eval w call r n true e ρ
    let k ← fieldOf w "is_ok" v
    let b ← truth k
    if b then do
      let u ← fieldOf w "result" v
      pure (u, ρ)
    else
      match r with
      | .plain t => do
        S.returned (checkResult w t v ρ)
        S.jump (.ret ρ v)
      | .constructor => S.stuck)
  | .field e f, ρ => S.guard (spine e) (chainEnd inside (.field e f) ρ do
    let (o, ρ) ← eval w call r n true e ρ
    let v ← fieldOf w f o
    pure (v, ρ))
  | .index e i, ρ => S.guard (spine e) (chainEnd inside (.index e i) ρ do
    let (o, ρ) ← eval w call r n true e ρ
    let (i, ρ) ← S.operand (eval w call r n false i ρ)
    let v ← elementOf w o i
    pure (v, ρ))
  | .call e es, ρ => S.guard (spine e && es.length ≤ 255) (chainEnd inside (.call e es) ρ do
    let (f, ρ) ← eval w call r n true e ρ
    let (vs, ρ) ← evalAll w call r n es ρ
    let v ← call f vs
    pure (v, ρ))
  | .superAccess f cls, ρ => chainEnd inside (.superAccess f cls) ρ do
    let c ← readVar ρ (cls.getD "super")
    let s ← readVar ρ "self"
    let v ← superMethod w f c s
    pure (v, ρ)
  | .superCall es, ρ => S.guard (es.length ≤ 255) (chainEnd inside (.superCall es) ρ do
    let s ← readVar ρ "self"
    let (vs, ρ) ← evalAll w call r n es ρ
    let c ← readVar ρ "super"
    let k ← classRef c
    let v ← construct call k s vs
    pure (v, ρ))
  | _, _ => S.stuck

/-- The values of operands, left to right. -/
def evalAll (w : World) (call : Calls) (r : Role) (n : Nat) : List Expr → SEnv → S (List Value × SEnv)
  | [], ρ => pure ([], ρ)
  | e :: es, ρ => do
    let (v, ρ) ← S.operand (eval w call r n false e ρ)
    let (vs, ρ) ← evalAll w call r n es ρ
    pure (v :: vs, ρ)

/-- The fields of a new object. -/
def evalFields (w : World) (call : Calls) (r : Role) (n : Nat) (o : Value) :
    List (String × Expr) → SEnv → S SEnv
  | [], ρ => pure ρ
  | f :: fs, ρ => do
    let (v, ρ) ← S.operand (eval w call r n false f.2 ρ)
    setFieldOf f.1 o v
    evalFields w call r n o fs ρ

/-- Statements: the environment after them. -/
def evalStmts (w : World) (call : Calls) (r : Role) (n : Nat) : List Expr → SEnv → S SEnv
  | [], ρ => pure ρ
  | e :: es, ρ => do
    let (_, ρ) ← eval w call r n false e ρ
    evalStmts w call r n es ρ

/-- The value of an optional expression: unit if there is none. -/
def evalOpt (w : World) (call : Calls) (r : Role) (n : Nat) : Option Expr → SEnv → S (Value × SEnv)
  | none, ρ => pure (.unit, ρ)
  | some e, ρ => eval w call r n false e ρ

end

/-! ## Calls -/

/-- The statements and the result of a function body: a body that is not a block is its result. -/
def bodyStmts : Expr → List Expr
  | .block es _ => es
  | _ => []

def bodyResult : Expr → Option Expr
  | .block _ t => t
  | e => some e

/-- The result of a function with environment `ρ`: its last expression, or what is returned early. -/
def result (ρ : SEnv) (x : S Value) : S Value := fun σ =>
  match x σ with
  | (.jump (.ret ρ' v), σ) => if captured σ ρ ρ' then (.stuck, σ) else (.ok v, σ)
  | (.jump (.bad e), σ) => (.err e, σ)
  | (.jump _, σ) => (.stuck, σ)
  | r => r

/-- The end of a function: the last expression must have the declared type; a constructor gives its receiver. -/
def finish (w : World) (cl : Closure) (v : Value) (ρ : SEnv) : S Value :=
  match cl.role with
  | .constructor => S.guard (noFn cl.body) (
    match (ρ.take (ρ.length - cl.env.length)).lookup "self" with
    | some l => readLoc l
    | none => S.stuck)
  | .plain none => pure v
  | .plain (some t) => S.guard ((ρ.take (ρ.length - cl.env.length)).lookup t.name).isNone do
    checkResult w (some t) v cl.env
    pure v

/-- The parameters and the receiver: the receiver of a method is its first parameter, a function without receiver
has itself in its place. -/
def bindArgs (w : World) (cl : Closure) (self : Value) (vs : List Value) : S SEnv :=
  match cl.form with
  | .function => do
    let l ← alloc (some self)
    bindParams w cl.args vs (("", l) :: cl.env)
  | _ => bindParams w cl.args (self :: vs) cl.env

/-- Running a closure: in the environment of its definition, extended by the receiver, the parameters and the
functions of the body. -/
def invoke (w : World) (call : Calls) (n : Nat) (cl : Closure) (self : Value)
    (vs : List Value) : S Value := do
  let ρ ← bindArgs w cl self vs
  let ρ ← hoist (bodyStmts cl.body ++ (bodyResult cl.body).toList) ρ
  result cl.env (do
    let ρ ← evalStmts w call cl.role n (bodyStmts cl.body) ρ
    let (v, ρ) ← evalOpt w call cl.role n (bodyResult cl.body) ρ
    finish w cl v ρ)

/-- The calls of native functions that the evaluator covers, by the number of the function and its arguments. -/
abbrev Known := Nat → List Value → Bool

/-- The call of a native function of the world. -/
def runNative (w : World) (known : Known) (i : Nat) (args : List Value) : S Value := fun σ =>
  if known i args then
    match w.native i args σ.heap with
    | (.ok v, h) => (.ok v, { σ with heap := h })
    | (.err e, h) => (.err e, { σ with heap := h })
    | (.panic _, h) => (.abort, { σ with heap := h })
    | (.timeout, h) => (.stuck, { σ with heap := h })
  else (.stuck, σ)

/-- The call of a value. -/
def apply (w : World) (known : Known) (call : Calls) (n : Nat) (f : Value) (vs : List Value) : S Value :=
  match callTarget f with
  | (.fnClosure _ _ k [], receiver) => fun σ =>
    match σ.fns[k]? with
    | some cl => invoke w call n cl (receiver.getD f) vs σ
    | none => (.stuck, σ)
  | (.fnClosure .., _) => S.stuck
  | (.fnScript .., _) => S.stuck
  | (.cls c, _) => do
    let o ← onHeap fun h => h.newObject c
    construct call c o vs
  | (.fnNative i, receiver) => runNative w known i (receiver.getD f :: vs)
  | _ => S.err .assertFunction

/-- Running a module: its declarations can export to the object `o`, and its value is that object. -/
def module (w : World) (call : Calls) (n : Nat) (root : Expr) (o : Value) : S Value :=
  S.operand do
    let l ← alloc (some o)
    let _ ← eval w call (.plain none) n false root [(exports, l)]
    readLoc l

/-- The source of the modules that the evaluator covers, by their names. -/
abbrev Sources := String → Option Expr

/-- Importing a module.  A module is registered with an empty object before it runs, and runs once. -/
def load (w : World) (src : Sources) (call : Calls) (n : Nat) (name : String) : S Value := fun σ =>
  match σ.modules.get name with
  | some v => (.ok v, σ)
  | none =>
    let r := σ.heap.newObject w.moduleClass
    let σ := { σ with heap := r.2, modules := σ.modules.insert name r.1 }
    match w.loader name with
    | .error e => (.err e, σ)
    | .ok _ =>
      match src name with
      | some root => module w call n root r.1 σ
      | none => (.stuck, σ)

/-- Calls and imports with at most `n` nested ones. -/
def calls (w : World) (known : Known) (src : Sources) : Nat → Calls
  | 0 => ⟨fun _ _ => S.timeout, fun _ => S.timeout⟩
  | n + 1 => ⟨apply w known (calls w known src n) n, load w src (calls w known src n) n⟩

/-- The value of a program.  The compiler rejects jumps out of it. -/
def program (w : World) (known : Known) (src : Sources) (n : Nat) (root : Expr) : S Value :=
  S.operand do
    let (v, _) ← eval w (calls w known src n) (.plain none) n false root []
    pure v

end Dice.Src
