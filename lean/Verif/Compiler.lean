import Verif.Ast

/-!
# The compiler

Model of dice-compiler: compiler.rs, decl_scan.rs, compile_fn.rs and visitor/*.rs.

Spans, the source map and error tags are left out.  A run of the compiler is a function from the state
(the stack of function contexts, innermost first, and the next function id) to an error or a new state;
the state after an error is not observable, because `compile_source` drops the compiler.
-/

namespace Dice

/-- The mutable part of `Compiler`, compiler.rs:17-21.  `nextId` stands for `Uuid::new_v4`: the model
hands out distinct numbers. -/
structure CState where
  stack : List Ctx
  nextId : Nat := 0

/-- Computations of the compiler: `Result<_, Error>` over the state. -/
def M (α : Type) : Type := CState → Except CErr (α × CState)

namespace M

def pure {α : Type} (a : α) : M α := fun s => .ok (a, s)

def bind {α β : Type} (x : M α) (f : α → M β) : M β := fun s =>
  match x s with
  | .error e => .error e
  | .ok (a, s) => f a s

instance : Monad M where
  pure := M.pure
  bind := M.bind

/-- `Err(..)` or a panic. -/
def fail {α : Type} (e : CErr) : M α := fun _ => .error e

end M

open M (fail)

/-! ## Access to the innermost context -/

/-- `Compiler::context`, compiler.rs:70-72 (read). -/
def getCtx : M Ctx := fun s =>
  match s.stack with
  | [] => .error .internal
  | c :: _ => .ok (c, s)

/-- `Compiler::context`, compiler.rs:70-72 (write). -/
def setCtx (c : Ctx) : M Unit := fun s =>
  match s.stack with
  | [] => .error .internal
  | _ :: rest => .ok ((), { s with stack := c :: rest })

/-- An emitter of the assembler of the innermost context, compiler.rs:74-76. -/
def emitE (f : Asm → Except CErr Asm) : M Unit := do
  let c ← getCtx
  match f c.asm with
  | .error e => fail e
  | .ok a => setCtx { c with asm := a }

/-- Opcode without operand. -/
def emit (o : Opcode) : M Unit := emitE fun a => .ok (a.op o)

/-- Opcode with one byte operand; `slot as u8` truncates. -/
def emit1 (o : Opcode) (n : Nat) : M Unit := emitE fun a => .ok (a.op1 o (UInt8.ofNat n))

/-- Opcode with a symbol constant. -/
def emitConst (o : Opcode) (name : String) : M Unit := emitE fun a => a.opConst o name

/-- Jump with a hole; gives the position to patch. -/
def emitJump (o : Opcode) : M Nat := do
  let c ← getCtx
  let (a, p) := c.asm.jump o
  setCtx { c with asm := a }
  pure (p)

/-- `patch_jump`. -/
def patch (p : Nat) : M Unit := emitE fun a => a.patchJump p

/-- `jump_back`. -/
def emitJumpBack (p : Nat) : M Unit := emitE fun a => a.jumpBack p

/-- `for location in exit_points { patch_jump(location) }`. -/
def patchAll : List Nat → M Unit
  | [] => pure ()
  | p :: ps => do patch p; patchAll ps

/-- `current_position`. -/
def position : M Nat := do
  let c ← getCtx
  pure (c.asm.currentPosition)

/-- Something emitted `n` times. -/
def repeatM (x : M Unit) : Nat → M Unit
  | 0 => pure ()
  | n + 1 => do x; repeatM x n

/-! ## Scopes of the innermost context -/

/-- `scope_stack().push_scope(..)`. -/
def pushScope (kind : ScopeKind) (entry : Option Nat) : M Unit := do
  let c ← getCtx
  setCtx { c with scopes := c.scopes.pushScope kind entry }

/-- `scope_stack().pop_scope()?`. -/
def popScope : M ScopeContext := do
  let c ← getCtx
  match c.scopes.popScope with
  | none => fail .internal
  | some (sc, st) => do
    setCtx { c with scopes := st }
    pure (sc)

/-- `scope_stack().add_local(..)?`. -/
def addLocal (name : String) (state : VarState) : M Nat := do
  let c ← getCtx
  match c.scopes.addLocal name state with
  | none => fail .internal
  | some (slot, st) => do
    setCtx { c with scopes := st }
    pure (slot)

/-- `scope_stack().top_mut()?` (read). -/
def topScope : M ScopeContext := do
  let c ← getCtx
  match c.scopes.top? with
  | none => fail .internal
  | some sc => pure (sc)

/-- `scope_stack().top_mut()?` (write to its call context). -/
def setCallContext (cc : CallContext) : M Unit := do
  let c ← getCtx
  match c.scopes.modifyTop (fun sc => { sc with callContext := cc }) with
  | none => fail .internal
  | some st => setCtx { c with scopes := st }

/-- `std::mem::take(&mut ...call_context)`. -/
def takeCallContext : M CallContext := do
  let sc ← topScope
  setCallContext {}
  pure (sc.callContext)

/-- `scope_stack().local(name)`. -/
def lookupLocal (name : String) : M (Option ScopeVar) := do
  let c ← getCtx
  pure (c.scopes.local? name)

/-- Writing the state of the variable returned by `scope_stack().local(name)`. -/
def setLocalState (name : String) (st : VarState) : M Unit := do
  let c ← getCtx
  setCtx { c with scopes := c.scopes.modifyLocal name (fun v => { v with state := st }) }

/-- `compiler_stack.resolve_upvalue(name, 0)`. -/
def resolve (name : String) : M (Option Nat) := fun s =>
  match resolveUpvalue name s.stack with
  | none => .ok (none, s)
  | some (i, st) => .ok (some i, { s with stack := st })

/-- `*context()?.temporary_count()` (write). -/
def setTemporaries (n : Nat) : M Unit := do
  let c ← getCtx
  setCtx { c with temporaryCount := n }

/-- `temporary_count`, read. -/
def getTemporaries : M Nat := do
  let c ← getCtx
  pure (c.temporaryCount)

/-- `compiler_stack.push(kind)`. -/
def pushCtx (kind : CompilerKind) : M Unit := fun s =>
  .ok ((), { s with stack := { kind } :: s.stack })

/-- `compiler_stack.pop()?`. -/
def popCtx : M Ctx := fun s =>
  match s.stack with
  | [] => .error .internal
  | c :: rest => .ok (c, { s with stack := rest })

/-- `Uuid::new_v4()`. -/
def freshId : M Nat := fun s => .ok (s.nextId, { s with nextId := s.nextId + 1 })

/-! ## Protocol names, dice-core/src/protocol.rs -/

def nameSelf : String := "self"
def nameSuper : String := "super"
def nameNew : String := "new"
def nameExport : String := "#export"
def nameAny : String := "Any"

/-! ## Pieces shared by the visitors -/

/-- `NodeVisitor<&LitIdent>`, visitor/literal_variable.rs:11-42. -/
def visitIdent (name : String) : M Unit := do
  match ← lookupLocal name with
  | some v =>
    if v.isInitialized then emit1 .loadLocal v.slot
    else fail (.notInitialized v.name)
  | none =>
    match ← resolve name with
    | some i => emit1 .loadUpvalue i
    | none => emitConst .loadGlobal name

/-- The two forms of type check of a local, decl_var.rs:30-41 and expr_block.rs:145-156. -/
def visitLocalType (slot : Nat) : Option TypeAnn → M Unit
  | none => pure ()
  | some t => do
    visitIdent t.name
    if t.isNullable then emit1 .assertTypeOrNullForLocal slot else emit1 .assertTypeForLocal slot

/-- `visit_close_upvalues`, expr_block.rs:162-174 (also decl_class.rs:168-180 and the `CLOSE_UPVALUES`
of the `emit_bytecode!` macro, assembler.rs:731-739): captured variables in declaration order. -/
def closeUpvalues (vars : List ScopeVar) : M Unit :=
  match vars with
  | [] => pure ()
  | v :: vs => do
    closeUpvalues vs
    if v.isCaptured then emit1 .closeUpvalue v.slot else pure ()

/-- `visit_return`, expr_block.rs:176-199. -/
def visitReturn : M Unit := do
  let c ← getCtx
  match c.kind with
  | .function (some t) | .method (some t) =>
    visitIdent t.name
    if t.isNullable then emit .assertTypeOrNullAndReturn else emit .assertTypeAndReturn
  | _ => emit .return_

/-- `enter_call`, syntax_node.rs:84-89. -/
def enterCall : M Unit := do
  let sc ← topScope
  setCallContext { sc.callContext with depth := sc.callContext.depth + 1 }

/-- `exit_call`, syntax_node.rs:91-103; `depth -= 1` panics at zero. -/
def exitCall : M Unit := do
  let sc ← topScope
  match sc.callContext.depth with
  | 0 => fail (.panic "exit_call")
  | 1 => do
    setCallContext { depth := 0, exitPoints := [] }
    patchAll sc.callContext.exitPoints
  | d + 2 => setCallContext { sc.callContext with depth := d + 1 }

/-- The calls of `enter_call`/`exit_call` around a node, syntax_node.rs:43-77. -/
def inCall (x : M Unit) : M Unit := do
  enterCall
  x
  exitCall

/-- `scan_expr`, decl_scan.rs:17-37. -/
def scanExpr : Expr → M Unit
  | .fnDecl name _ _ _ => do let _ ← addLocal name (.function false)
  | .classDecl name _ _ => do let _ ← addLocal name (.class false)
  | .exportDecl e => scanExpr e
  | _ => pure ()

def scanExprs : List Expr → M Unit
  | [] => pure ()
  | e :: es => do scanExpr e; scanExprs es

/-- `scan_item_decls`, decl_scan.rs:8-15. -/
def scanItems (exprs : List Expr) (trailing : Option Expr) : M Unit := do
  scanExprs exprs
  match trailing with
  | some e => scanExpr e
  | none => pure ()

/-- `BlockKind`, expr_block.rs:35-38. -/
inductive BlockKind where
  | block | loop

/-- `NodeVisitor<(&Block, BlockKind)>`, expr_block.rs:40-56, around the visit of the block's
expressions. -/
def inBlock (kind : BlockKind) (exprs : List Expr) (trailing : Option Expr) (x : M Unit) : M Unit := do
  pushScope .block none
  scanItems exprs trailing
  x
  match kind with
  | .loop => emit .pop
  | .block => pure ()
  let sc ← topScope
  closeUpvalues sc.variables
  let _ ← popScope
  pure ()

/-- `ClassKind`, visitor/mod.rs:46-50. -/
inductive ClassKind where
  | base | derived
  deriving DecidableEq, Repr

/-- `FnKind`, visitor/mod.rs:52-58. -/
inductive FnKind where
  | function | method | staticMethod | constructor (k : ClassKind)
  deriving DecidableEq, Repr

/-- The parameters, expr_block.rs:136-157. -/
def visitParams : List FnArg → M Unit
  | [] => pure ()
  | a :: rest => do
    let slot ← addLocal a.name (.local false true)
    visitLocalType slot a.type_
    visitParams rest

/-- `visit_args`, expr_block.rs:124-160. -/
def visitArgDecls (kind : FnKind) (args : List FnArg) : M Unit := do
  match kind with
  | .function | .staticMethod => let _ ← addLocal "" (.local false true)
  | _ => pure ()
  visitParams args

/-- `assert_super_call`, expr_block.rs:113-122: the first expression of the block. -/
def startsWithSuperCall (exprs : List Expr) (trailing : Option Expr) : Bool :=
  match exprs, trailing with
  | .superCall _ :: _, _ => true
  | [], some (.superCall _) => true
  | _, _ => false

/-- The end of a function block, expr_block.rs:86-104. -/
def visitFnEnd (kind : FnKind) : M Unit :=
  match kind with
  | .constructor _ => do
    match ← lookupLocal nameSelf with
    | none => fail (.panic "Methods should always have a self.")
    | some v => do
      emit .pop
      emit1 .loadLocal v.slot
      emit .return_
  | _ => visitReturn

/-- `NodeVisitor<(&Block, FunctionBlockKind)>`, expr_block.rs:74-110, around the visit of the block's
expressions. -/
def inFnBlock (kind : FnKind) (args : List FnArg) (exprs : List Expr) (trailing : Option Expr)
    (x : M Unit) : M Unit := do
  match kind with
  | .constructor .derived =>
    if startsWithSuperCall exprs trailing then pure () else fail .newMustCallSuper
  | _ => pure ()
  pushScope .block none
  visitArgDecls kind args
  scanItems exprs trailing
  x
  let sc ← topScope
  closeUpvalues sc.variables
  visitFnEnd kind
  let _ ← popScope
  pure ()

/-- The compiler kind of a function, compile_fn.rs:23-27. -/
def fnCompilerKind (kind : FnKind) (ret : Option TypeAnn) : CompilerKind :=
  match kind with
  | .constructor _ => .constructor
  | .method => .method ret
  | _ => .function ret

/-- `compile_fn`, compile_fn.rs:10-51, around the visit of the body's expressions. -/
def compileFn (kind : FnKind) (args : List FnArg) (ret : Option TypeAnn) (exprs : List Expr)
    (trailing : Option Expr) (x : M Unit) : M Ctx := do
  match kind, ret with
  | .constructor _, some _ => fail .newCannotHaveReturnType
  | _, _ => pure ()
  pushCtx (fnCompilerKind kind ret)
  inFnBlock kind args exprs trailing x
  popCtx

/-- The body of a function as a block, compile_fn.rs:31-39. -/
def bodyExprs : Expr → List Expr
  | .block es _ => es
  | _ => []

def bodyTrailing : Expr → Option Expr
  | .block _ t => t
  | e => some e

/-- `assert_unique_params`, decl_fn.rs:43-54. -/
def assertUniqueParams (args : List FnArg) : M Unit :=
  if (args.map (·.name)).Nodup then pure () else fail .duplicateArgs

/-- `PUSH_CONST` or `CREATE_CLOSURE`, e.g. decl_fn.rs:85-90. -/
def emitFnValue (fn : Ctx) (name : String) (id : Nat) : M Unit :=
  if fn.upvalues.isEmpty then emitE fun a => a.pushConst (.fn fn.finish name id)
  else emitE fun a => a.closure (.fn fn.finish name id) fn.upvalues

/-- `emit_fn`, decl_fn.rs:56-97. -/
def emitFnDecl (name : String) (fn : Ctx) (id : Nat) : M Unit := do
  match ← lookupLocal name with
  | none => fail .internal
  | some v =>
    match v.state with
    | .function true => fail (.functionAlreadyDeclared name)
    | .function false => do
      setLocalState name (.function true)
      emitFnValue fn name id
      emit1 .storeLocal v.slot
    | _ => fail (.panic "Unexpected non-function local state while compiling a function.")

/-- `NodeVisitor<(&FnDecl, FnKind)>`, decl_fn.rs:18-40, around the visit of the body. -/
def visitFnDecl (kind : FnKind) (name : String) (args : List FnArg) (ret : Option TypeAnn)
    (exprs : List Expr) (trailing : Option Expr) (x : M Unit) : M Unit := do
  assertUniqueParams args
  let fn ← compileFn kind args ret exprs trailing x
  let id ← freshId
  if kind = .function then emitFnDecl name fn id else emitFnValue fn name id

/-- `op_name`, decl_op.rs:44-62. -/
def OverOp.name : OverOp → String
  | .multiply => "#mul"
  | .divide => "#div"
  | .remainder => "#rem"
  | .add => "#add"
  | .subtract => "#sub"
  | .greaterThan => "#gt"
  | .lessThan => "#lt"
  | .greaterThanEquals => "#gte"
  | .lessThanEquals => "#lte"
  | .equals => "#eq"
  | .notEquals => "#neq"
  | .rangeInclusive => "#range_inclusive"
  | .rangeExclusive => "#range_exclusive"

/-- `NodeVisitor<(&OpDecl, OpKind)>`, decl_op.rs:18-41 with 65-105, around the visit of the body. -/
def visitOpDecl (isMethod : Bool) (op : OverOp) (args : List FnArg) (ret : Option TypeAnn)
    (exprs : List Expr) (trailing : Option Expr) (x : M Unit) : M Unit := do
  assertUniqueParams args
  let fn ← compileFn (if isMethod then .method else .function) args ret exprs trailing x
  let id ← freshId
  emitFnValue fn op.name id
  if isMethod then pure ()
  else do
    emitConst .storeGlobal op.name
    emit .pushUnit

/-- `visit_fn` of a class, decl_class.rs:105-142, around the visit of the body. -/
def visitClassFn (slot : Nat) (classKind : ClassKind) (name : String) (args : List FnArg)
    (ret : Option TypeAnn) (exprs : List Expr) (trailing : Option Expr) (x : M Unit) : M Unit := do
  let selfArg := args.head?.filter (fun a => a.name == nameSelf)
  let kind : FnKind ← match selfArg with
    | some a =>
      if a.type_.isSome then fail .receiverCannotHaveType
      else if name == nameNew then pure (FnKind.constructor classKind)
      else pure (FnKind.method)
    | none =>
      if name == nameNew then fail .newMustHaveReceiver else pure (FnKind.staticMethod)
  visitFnDecl kind name args ret exprs trailing x
  match kind with
  | .constructor _ | .method =>
    emitConst .storeMethod name
    emit1 .loadLocal slot
  | _ =>
    emitConst .storeField name
    emit .pop
    emit1 .loadLocal slot

/-- `visit_op` of a class, decl_class.rs:144-166, around the visit of the body. -/
def visitClassOp (slot : Nat) (op : OverOp) (args : List FnArg) (ret : Option TypeAnn)
    (exprs : List Expr) (trailing : Option Expr) (x : M Unit) : M Unit := do
  match args.head?.filter (fun a => a.name == nameSelf) with
  | some a => if a.type_.isSome then fail .receiverCannotHaveType else pure ()
  | none => fail .operatorMustHaveReceiver
  visitOpDecl true op args ret exprs trailing x
  emitConst .storeMethod op.name
  emit1 .loadLocal slot

/-- `NodeVisitor<&ClassDecl>`, decl_class.rs:23-102, around the visits of the base and of the items
(which get the slot of the class). -/
def visitClass (name : String) (base : M Unit) (items : Nat → M Unit) : M Unit := do
  pushScope .block none
  base
  let superSlot ← addLocal nameSuper (.initialized true)
  emit1 .storeLocal superSlot
  let slot ← match ← lookupLocal name with
    | none => fail .internal
    | some v =>
      match v.state with
      | .class true => fail (.classAlreadyDeclared name)
      | .class false => do
        setLocalState name (.class true)
        pure (v.slot)
      | _ => pure (v.slot)
  emitE fun a => a.inheritClass name
  emit1 .storeLocal slot
  items slot
  let sc ← topScope
  closeUpvalues sc.variables
  let _ ← popScope
  pure ()

/-- The locals of an import or destructuring, decl_import.rs:8-19, decl_var.rs:49-59. -/
def addLocals : List String → M (List (String × Nat))
  | [] => pure []
  | n :: ns => do
    let slot ← addLocal n (.initialized false)
    let rest ← addLocals ns
    pure ((n, slot) :: rest)

/-- `DUP 0; LOAD_FIELD field; STORE_LOCAL slot; POP`, decl_import.rs:25-30, decl_var.rs:63-68. -/
def emitFieldLocals : List (String × Nat) → M Unit
  | [] => pure ()
  | (f, slot) :: rest => do
    emit1 .dup 0
    emitConst .loadField f
    emit1 .storeLocal slot
    emit .pop
    emitFieldLocals rest

/-- `NodeVisitor<&ImportDecl>`, decl_import.rs:6-44. -/
def visitImport (moduleImport : Option String) (items : List String) (path : String) : M Unit := do
  let imports ← addLocals items
  emitConst .loadModule path
  emitFieldLocals imports
  match moduleImport with
  | none => pure ()
  | some m => do
    let slot ← addLocal m (.initialized false)
    emit1 .storeLocal slot

/-- The declaration part of `NodeVisitor<&VarDecl>`, decl_var.rs:10-74. -/
def visitVarDecl (kind : VarKind) (isMutable : Bool) (type_ : Option TypeAnn) : M Unit :=
  match kind with
  | .singular name => do
    let slot ← addLocal name (.initialized isMutable)
    emit1 .storeLocal slot
    visitLocalType slot type_
  | .destructured names => do
    let locals ← addLocals names
    emitFieldLocals locals

/-- The exported name, decl_export.rs:43-52. -/
def exportName : Expr → Option String
  | .varDecl (.singular name) _ _ _ => some name
  | .fnDecl name _ _ _ => some name
  | .classDecl name _ _ => some name
  | .ident name => some name
  | _ => none

/-- `NodeVisitor<&ExportDecl>`, decl_export.rs:14-57, around the visit of the exported node. -/
def visitExport (e : Expr) (x : M Unit) : M Unit := do
  let c ← getCtx
  match c.kind with
  | .module => pure ()
  | _ => fail .invalidExport
  let sc ← topScope
  if sc.depth > 1 then fail .invalidExport else pure ()
  match ← lookupLocal nameExport with
  | none => fail (.panic "#export should always be defined in modules.")
  | some v => emit1 .loadLocal v.slot
  x
  match exportName e with
  | none => fail (.panic "Invalid export node type encountered.")
  | some n => emitConst .storeField n

/-- `visit_operator`, expr_assignment.rs:206-216. -/
def AssignOp.emitOp : AssignOp → M Unit
  | .mul => emit .multiply
  | .div => emit .divide
  | .add => emit .add
  | .sub => emit .subtract
  | .assign => fail (.panic "unreachable")

/-- `assign_local`, expr_assignment.rs:164-204. -/
def assignLocal (name : String) (op : AssignOp) (v : ScopeVar) (x : M Unit) : M Unit :=
  if !v.isMutable then fail (.cannotReassign name)
  else match op with
    | .assign => do
      x
      emit1 .assignLocal v.slot
    | op => do
      emit1 .loadLocal v.slot
      x
      op.emitOp
      emit1 .assignLocal v.slot

/-- `assign_upvalue`, expr_assignment.rs:125-162. -/
def assignUpvalue (name : String) (op : AssignOp) (i : Nat) (x : M Unit) : M Unit := do
  let c ← getCtx
  match c.upvalues[i]? with
  | none => fail (.panic "upvalue index")
  | some d =>
    if !d.isMutable then fail (.cannotReassign name)
    else match op with
      | .assign => do
        x
        emit1 .assignUpvalue i
      | op => do
        emit1 .loadUpvalue i
        x
        op.emitOp
        emit1 .assignUpvalue i

/-- `assign_ident`, expr_assignment.rs:96-123. -/
def assignIdent (name : String) (op : AssignOp) (x : M Unit) : M Unit := do
  match ← lookupLocal name with
  | some v => assignLocal name op v x
  | none =>
    match ← resolve name with
    | some i => assignUpvalue name op i x
    | none => fail (.notDeclared name)

/-- `assign_field`, expr_assignment.rs:68-94. -/
def assignField (field : String) (op : AssignOp) (target x : M Unit) : M Unit := do
  target
  match op with
  | .assign => do
    x
    emitConst .storeField field
  | op => do
    emit1 .dup 0
    emitConst .loadField field
    x
    op.emitOp
    emitConst .assignField field

/-- `assign_index`, expr_assignment.rs:38-66. -/
def assignIndex (op : AssignOp) (target idx x : M Unit) : M Unit := do
  target
  idx
  match op with
  | .assign => do
    x
    emit .assignIndex
  | op => do
    emit1 .dup 1
    emit1 .dup 1
    emit .loadIndex
    x
    op.emitOp
    emit .assignIndex

/-- The operators of `binary`, expr_binary_op.rs:134-149; `none` for the four that are lowered
otherwise. -/
def BinaryOp.opcode : BinaryOp → Option Opcode
  | .multiply => some .multiply
  | .divide => some .divide
  | .remainder => some .remainder
  | .add => some .add
  | .subtract => some .subtract
  | .greaterThan => some .greaterThan
  | .lessThan => some .lessThan
  | .greaterThanEquals => some .greaterThanOrEqual
  | .lessThanEquals => some .lessThanOrEqual
  | .equals => some .equal
  | .notEquals => some .notEqual
  | .rangeInclusive => some .rangeInclusive
  | .rangeExclusive => some .rangeExclusive
  | _ => none

/-- `NodeVisitor<&Binary>`, expr_binary_op.rs:6-153. -/
def visitBinary (op : BinaryOp) (lhs rhs : M Unit) : M Unit :=
  match op with
  | .logicalAnd => do
    lhs
    emit1 .dup 0
    emit .assertBool
    let j ← emitJump .jumpIfFalse
    emit .pop
    rhs
    emit .assertBool
    patch j
  | .logicalOr => do
    lhs
    emit1 .dup 0
    emit .assertBool
    let j ← emitJump .jumpIfTrue
    emit .pop
    rhs
    emit .assertBool
    patch j
  | .pipeline => do
    rhs
    lhs
    emit1 .call 1
  | .coalesce => do
    lhs
    emit1 .dup 0
    emit .pushNull
    emit .equal
    let j ← emitJump .jumpIfFalse
    emit .pop
    rhs
    patch j
  | op => do
    lhs
    rhs
    match op.opcode with
    | some o => emit o
    | none => fail (.panic "unreachable")

/-- `NodeVisitor<&Is>`, expr_is.rs:6-33. -/
def visitIs (t : TypeAnn) (x : M Unit) : M Unit :=
  if t.isNullable then do
    x
    emit .pushNull
    emit .equal
    emit1 .dup 0
    let j ← emitJump .jumpIfTrue
    emit .pop
    x
    visitIdent t.name
    emit .is
    patch j
  else do
    x
    visitIdent t.name
    emit .is

/-- `NodeVisitor<&IfExpression>`, expr_if.rs:6-34. -/
def visitIf (cond thenE elseE : M Unit) : M Unit := do
  cond
  let ifJump ← emitJump .jumpIfFalse
  thenE
  let elseJump ← emitJump .jump
  patch ifJump
  elseE
  patch elseJump

/-- `NodeVisitor<&Loop>`, expr_loop.rs:6-32, around the visit of the body block. -/
def visitLoop (body : M Unit) : M Unit := do
  let start ← position
  pushScope .loop (some start)
  body
  emitJumpBack start
  let sc ← popScope
  patchAll sc.exitPoints
  emit .pushUnit

/-- `NodeVisitor<&WhileLoop>`, expr_while.rs:6-36. -/
def visitWhile (cond body : M Unit) : M Unit := do
  let start ← position
  pushScope .loop (some start)
  cond
  let loopEnd ← emitJump .jumpIfFalse
  body
  emitJumpBack start
  patch loopEnd
  let sc ← popScope
  patchAll sc.exitPoints
  emit .pushUnit

/-- `NodeVisitor<&RangeLoop>`, expr_range_loop.rs:23-93. -/
def visitRangeLoop (inclusive : Bool) (var : String) (startE endE body : M Unit) : M Unit := do
  endE
  startE
  let start ← position
  pushScope .loop none
  let slot ← addLocal var (.initialized false)
  emit1 .storeLocal slot
  emit1 .dup 1
  emit (if inclusive then .lessThanOrEqual else .lessThan)
  let exit ← emitJump .jumpIfFalse
  body
  emit .pop
  emit1 .loadLocal slot
  emit .pushI1
  emit .add
  let sc ← popScope
  closeUpvalues sc.variables
  emitJumpBack start
  patch exit
  patchAll sc.exitPoints
  emit .pop
  emit .pushUnit

/-- `NodeVisitor<&ForLoop>` over an iterator, expr_for.rs:20-83. -/
def visitFor (var : String) (source body : M Unit) : M Unit := do
  source
  emitConst .loadField "iter"
  emit1 .call 0
  emitConst .loadField "next"
  let start ← position
  pushScope .loop none
  let slot ← addLocal var (.initialized false)
  emit1 .dup 0
  emit1 .call 0
  emit1 .dup 0
  emitConst .loadField "is_done"
  let exit ← emitJump .jumpIfTrue
  emitE fun a => a.loadFieldToLocal "value" (UInt8.ofNat slot)
  emit .pop
  body
  let sc ← popScope
  emit .pop
  closeUpvalues sc.variables
  emitJumpBack start
  patch exit
  patchAll sc.exitPoints
  emit .pop
  emit .pop
  emit .pushUnit

/-- `NodeVisitor<&Break>`, expr_break.rs:6-19. -/
def visitBreak : M Unit := do
  let c ← getCtx
  if c.scopes.inContextOf .loop then
    let p ← emitJump .jump
    let c ← getCtx
    match c.scopes.addLoopExitPoint p with
    | none => fail .internal
    | some st => setCtx { c with scopes := st }
  else fail .invalidBreak

/-- `NodeVisitor<&Continue>`, expr_continue.rs:6-18; `entry_point` reports `INTERNAL_COMPILER_ERROR`
when the loop has none (scope_stack.rs:161-170). -/
def visitContinue : M Unit := do
  let c ← getCtx
  if c.scopes.inContextOf .loop then
    match c.scopes.entryPoint .loop with
    | none => fail .internal
    | some start => emitJumpBack start
  else fail .invalidContinue

/-- `SWAP; POP` for every temporary, expr_return.rs:41-44. -/
def dropTemporaries (n : Nat) : M Unit :=
  repeatM (do emit .swap; emit .pop) n

/-- `NodeVisitor<&Return>`, expr_return.rs:14-52; `hasResult` tells whether there is an expression, and
`x` visits it. -/
def visitReturnExpr (hasResult : Bool) (x : M Unit) : M Unit := do
  let c ← getCtx
  match c.kind with
  | .function _ | .method _ => if hasResult then x else emit .pushUnit
  | .constructor =>
    if hasResult then fail .newReturnCannotHaveExpression
    else match c.scopes.local? nameSelf with
      | none => fail (.panic "The self parameter should always be declared in constructors.")
      | some v => emit1 .loadLocal v.slot
  | _ => fail .invalidReturn
  let n ← getTemporaries
  dropTemporaries n
  visitReturn

/-- `NodeVisitor<&NullPropagate>`, expr_null_propagate.rs:6-29. -/
def visitNullProp (x : M Unit) : M Unit := do
  x
  emit1 .dup 0
  emit .pushNull
  emit .notEqual
  let j ← emitJump .jumpIfFalse
  let sc ← topScope
  setCallContext { sc.callContext with exitPoints := sc.callContext.exitPoints ++ [j] }

/-- `NodeVisitor<&ErrorPropagate>`, expr_error_propagate.rs:11-41. -/
def visitErrProp (x : M Unit) : M Unit := do
  let c ← getCtx
  match c.kind with
  | .function _ | .method _ => pure ()
  | _ => fail .invalidErrorPropagate
  x
  let n ← getTemporaries
  emit1 .dup 0
  emitConst .loadField "is_ok"
  let j ← emitJump .jumpIfTrue
  dropTemporaries n
  visitReturn
  patch j
  emitConst .loadField "result"

/-- `NodeVisitor<&SuperAccess>`, expr_super_access.rs:11-37. -/
def visitSuperAccess (field : String) (superClass : Option String) : M Unit := do
  let c ← getCtx
  match c.kind with
  | .method _ | .constructor => pure ()
  | _ => fail .invalidSuperCall
  match superClass with
  | some n => visitIdent n
  | none => visitIdent nameSuper
  visitIdent nameSelf
  emitConst .loadMethod field

/-- One argument of a call, expr_fn_call.rs:13-21. -/
def visitArg (x : M Unit) : M Unit := do
  let cc ← takeCallContext
  let n ← getTemporaries
  setTemporaries (n + 1)
  x
  setCallContext cc

/-- `NodeVisitor<&FnCall>`, expr_fn_call.rs:6-29. -/
def visitCall (argCount : Nat) (target args : M Unit) : M Unit := do
  target
  let n ← getTemporaries
  args
  setTemporaries n
  emit1 .call argCount

/-- `NodeVisitor<&SuperCall>`, expr_super_call.rs:11-45. -/
def visitSuperCall (argCount : Nat) (args : M Unit) : M Unit := do
  match ← lookupLocal nameSelf with
  | none => fail (.panic "self should always be declared in constructors.")
  | some v => emit1 .loadLocal v.slot
  let n ← getTemporaries
  args
  setTemporaries n
  visitIdent nameSuper
  emit1 .callSuper argCount

/-- `NodeVisitor<&Index>`, expr_index.rs:6-22; `temporary_count -= 1` panics at zero. -/
def visitIndex (target idx : M Unit) : M Unit := do
  target
  let cc ← takeCallContext
  let n ← getTemporaries
  setTemporaries (n + 1)
  idx
  let n ← getTemporaries
  match n with
  | 0 => fail (.panic "temporary_count")
  | n + 1 => setTemporaries n
  setCallContext cc
  emit .loadIndex

/-- `NodeVisitor<&LitInt>`, literal_int.rs:9-21. -/
def visitInt (i : Int) : M Unit :=
  if i = 0 then emit .pushI0
  else if i = 1 then emit .pushI1
  else emitE fun a => a.pushConst (.int i)

/-- `NodeVisitor<&LitFloat>`, literal_float.rs:9-23. -/
def visitFloat (f : Float) : M Unit :=
  if f == 0.0 then emit .pushF0
  else if f == 1.0 then emit .pushF1
  else emitE fun a => a.pushConst (.float f)

/-- `NodeVisitor<&LitAnonymousFn>`, literal_anonymous_fn.rs:9-28, around the visit of the body. -/
def visitAnonFn (args : List FnArg) (ret : Option TypeAnn) (exprs : List Expr)
    (trailing : Option Expr) (x : M Unit) : M Unit := do
  let id ← freshId
  let fn ← compileFn .function args ret exprs trailing x
  emitFnValue fn s!"__anonymous_fn_{id}" id

/-! ## The visitor -/

mutual

/-- `NodeVisitor<SyntaxNodeId>`, syntax_node.rs:9-81. -/
def visit : Expr → M Unit
  | .ident name => visitIdent name
  | .unit => emit .pushUnit
  | .null => emit .pushNull
  | .bool b => emit (if b then .pushTrue else .pushFalse)
  | .int i => visitInt i
  | .float f => visitFloat f
  | .str s => emitE fun a => a.pushConst (.str s)
  | .anonFn args ret body =>
    match body with
    | .block es t => visitAnonFn args ret es t (visitSeq es (visitElse t))
    | body => visitAnonFn args ret [] (some body) (visit body)
  | .object items => do
    emit .createObject
    visitFields items
  | .list items => do
    visitItems items
    emit1 .createArray items.length
  | .assign op (.ident name) rhs => assignIdent name op (visit rhs)
  | .assign op (.field e f) rhs => assignField f op (visit e) (visit rhs)
  | .assign op (.index e i) rhs => assignIndex op (visit e) (visit i) (visit rhs)
  | .assign _ _ _ => fail .invalidAssignmentTarget
  | .unary op e => do
    visit e
    emit (match op with | .negate => .negate | .not => .not)
  | .binary op l r => visitBinary op (visit l) (visit r)
  | .is e t => visitIs t (visit e)
  | .varDecl kind m e t => do
    visit e
    visitVarDecl kind m t
  | .fnDecl name args ret body =>
    match body with
    | .block es t => visitFnDecl .function name args ret es t (visitSeq es (visitElse t))
    | body => visitFnDecl .function name args ret [] (some body) (visit body)
  | .opDecl op args ret body =>
    match body with
    | .block es t => visitOpDecl false op args ret es t (visitSeq es (visitElse t))
    | body => visitOpDecl false op args ret [] (some body) (visit body)
  | .classDecl name base items =>
    match base with
    | some b => visitClass name (visit b) (visitClassItems .derived items)
    | none => visitClass name (visitIdent nameAny) (visitClassItems .base items)
  | .importDecl m items path => visitImport m items path
  | .exportDecl e => visitExport e (visit e)
  | .ifExpr c t e => visitIf (visit c) (visit t) (visitElse e)
  | .loop (.block es t) => visitLoop (inBlock .loop es t (visitSeq es (visitElse t)))
  | .loop _ => fail .internal
  | .whileLoop c (.block es t) => visitWhile (visit c) (inBlock .loop es t (visitSeq es (visitElse t)))
  | .whileLoop _ _ => fail .internal
  | .forLoop x (.binary .rangeInclusive a b) body => visitRangeLoop true x (visit a) (visit b) (visit body)
  | .forLoop x (.binary .rangeExclusive a b) body => visitRangeLoop false x (visit a) (visit b) (visit body)
  | .forLoop x source body => visitFor x (visit source) (visit body)
  | .break_ => visitBreak
  | .continue_ => visitContinue
  | .block es t => inBlock .block es t (visitSeq es (visitElse t))
  | .return_ r =>
    match r with
    | some e => visitReturnExpr true (visit e)
    | none => visitReturnExpr false (pure ())
  | .nullProp e => inCall (visitNullProp (visit e))
  | .errProp e => inCall (visitErrProp (visit e))
  | .field e f => inCall do
      visit e
      emitConst .loadField f
  | .superAccess f c => inCall (visitSuperAccess f c)
  | .call target args => inCall (visitCall args.length (visit target) (visitArgs args))
  | .superCall args => inCall (visitSuperCall args.length (visitArgs args))
  | .index e i => inCall (visitIndex (visit e) (visit i))

/-- `NodeVisitor<&Block>`, expr_block.rs:17-33; `last` visits the trailing expression. -/
def visitSeq : List Expr → M Unit → M Unit
  | [], last => last
  | e :: es, last => do
    visit e
    emit .pop
    visitSeq es last

/-- The trailing expression of a block, expr_block.rs:24-29, and the alternative of a conditional,
expr_if.rs:24-28: `PUSH_UNIT` if absent. -/
def visitElse : Option Expr → M Unit
  | some e => visit e
  | none => emit .pushUnit

/-- The items of a list literal, literal_list.rs:8-10. -/
def visitItems : List Expr → M Unit
  | [] => pure ()
  | e :: es => do visit e; visitItems es

/-- The arguments of a call, expr_fn_call.rs:12-22. -/
def visitArgs : List Expr → M Unit
  | [] => pure ()
  | e :: es => do visitArg (visit e); visitArgs es

/-- The fields of an object literal, literal_object.rs:10-15. -/
def visitFields : List (String × Expr) → M Unit
  | [] => pure ()
  | (f, e) :: rest => do
    emit1 .dup 0
    visit e
    emitConst .storeField f
    emit .pop
    visitFields rest

/-- The items of a class, decl_class.rs:82-96. -/
def visitClassItems (k : ClassKind) : List Expr → Nat → M Unit
  | [], _ => pure ()
  | .fnDecl name args ret (.block es t) :: rest, slot => do
    visitClassFn slot k name args ret es t (visitSeq es (visitElse t))
    visitClassItems k rest slot
  | .fnDecl name args ret body :: rest, slot => do
    visitClassFn slot k name args ret [] (some body) (visit body)
    visitClassItems k rest slot
  | .opDecl op args ret (.block es t) :: rest, slot => do
    visitClassOp slot op args ret es t (visitSeq es (visitElse t))
    visitClassItems k rest slot
  | .opDecl op args ret body :: rest, slot => do
    visitClassOp slot op args ret [] (some body) (visit body)
    visitClassItems k rest slot
  | _ :: _, _ => fail (.panic "Unexpected node kind encountered.")

end

/-- `Compiler::compile`, compiler.rs:40-68, after `visit` of the root. -/
def compileEnd (kind : CompilerKind) : M Bytecode := do
  match kind with
  | .module => do
    match ← lookupLocal nameExport with
    | none => fail (.panic "#export should always be defined for modules.")
    | some v => do
      emit .pop
      emit1 .loadLocal v.slot
  | _ => pure ()
  let c ← popCtx
  pure (c.finish)

/-- `Compiler::compile`, compiler.rs:40-68. -/
def compileM (kind : CompilerKind) (root : Expr) : M Bytecode := do
  match kind with
  | .module => let _ ← addLocal nameExport (.initialized false)
  | _ => pure ()
  visit root
  compileEnd kind

/-- `Compiler::compile_source`, compiler.rs:24-38, after parsing. -/
def compile (kind : CompilerKind) (root : Expr) : Except CErr Bytecode :=
  match compileM kind root { stack := [{ kind }] } with
  | .error e => .error e
  | .ok (b, _) => .ok b

end Dice
