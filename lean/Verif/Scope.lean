import Verif.Assembler

/-!
# Scopes, compiler contexts and captured-variable resolution

Model of dice-compiler/src/scope_stack.rs and dice-compiler/src/compiler_stack.rs.

Representation: Rust keeps the scope stack, the variables of a scope and the compiler contexts in `Vec`s
whose *last* element is the innermost/newest.  Here these lists are kept newest first, so that Rust's
reverse iteration is plain iteration.  Lists of exit points keep Rust's order.
-/

namespace Dice

/-- `State`, scope_stack.rs:26-30. -/
inductive VarState where
  | local (isMutable isInitialized : Bool)
  | function (isInitialized : Bool)
  | class (isInitialized : Bool)
  deriving DecidableEq, Repr

/-- `State::initialized`, scope_stack.rs:33-38. -/
def VarState.initialized (isMutable : Bool) : VarState := .local isMutable true

/-- `ScopeVariable`, scope_stack.rs:4-9. -/
structure ScopeVar where
  name : String
  slot : Nat
  isCaptured : Bool
  state : VarState
  deriving DecidableEq, Repr

/-- `ScopeVariable::is_mutable`, scope_stack.rs:12-14. -/
def ScopeVar.isMutable (v : ScopeVar) : Bool :=
  match v.state with
  | .local m _ => m
  | _ => false

/-- `ScopeVariable::is_initialized`, scope_stack.rs:16-22. -/
def ScopeVar.isInitialized (v : ScopeVar) : Bool :=
  match v.state with
  | .local _ i => i
  | .function i => i
  | .class i => i

/-- `ScopeKind`, scope_stack.rs:42-45. -/
inductive ScopeKind where
  | block | loop
  deriving DecidableEq, Repr

/-- `CallContext`, scope_stack.rs:48-51. -/
structure CallContext where
  depth : Nat := 0
  exitPoints : List Nat := []
  deriving DecidableEq, Repr

/-- `ScopeContext`, scope_stack.rs:54-62; `variables` newest first. -/
structure ScopeContext where
  depth : Nat := 0
  kind : ScopeKind := .block
  entryPoint : Option Nat := none
  exitPoints : List Nat := []
  variables : List ScopeVar := []
  callContext : CallContext := {}
  slotCount : Nat := 0
  deriving DecidableEq, Repr

/-- `ScopeStack`, scope_stack.rs:78-81; `stack` innermost first. -/
structure ScopeStack where
  stack : List ScopeContext
  slotCount : Nat
  deriving DecidableEq, Repr

namespace ScopeStack

/-- `ScopeStack::new`, scope_stack.rs:84-92. -/
def new (kind : ScopeKind) : ScopeStack := { stack := [{ kind }], slotCount := 0 }

/-- `push_scope`, scope_stack.rs:94-101. -/
def pushScope (s : ScopeStack) (kind : ScopeKind) (entryPoint : Option Nat) : ScopeStack :=
  { s with stack := { kind, depth := s.stack.length, entryPoint } :: s.stack }

/-- `pop_scope`, scope_stack.rs:103-105; `none` is `INTERNAL_COMPILER_ERROR`. -/
def popScope (s : ScopeStack) : Option (ScopeContext × ScopeStack) :=
  match s.stack with
  | [] => none
  | c :: rest => some (c, { s with stack := rest })

/-- `stack.iter().rev().map(|scope| scope.slot_count).sum()`, scope_stack.rs:118. -/
def totalSlots (s : List ScopeContext) : Nat := (s.map (·.slotCount)).sum

/-- `add_local`/`add_local_impl`, scope_stack.rs:111-134; `none` is `INTERNAL_COMPILER_ERROR` of
`top_mut`. -/
def addLocal (s : ScopeStack) (name : String) (state : VarState) : Option (Nat × ScopeStack) :=
  match s.stack with
  | [] => none
  | c :: rest =>
    let c := { c with slotCount := c.slotCount + 1 }
    let slotCount := totalSlots (c :: rest)
    let slot := slotCount - 1
    let v : ScopeVar := { name, slot, isCaptured := false, state }
    let c := { c with variables := v :: c.variables }
    some (slot, { stack := c :: rest,
                  slotCount := if slotCount > s.slotCount then slotCount else s.slotCount })

/-- All variables in lookup order, scope_stack.rs:138-141. -/
def visible (s : List ScopeContext) : List ScopeVar := s.flatMap (·.variables)

/-- `local`, scope_stack.rs:136-143, as a lookup. -/
def local? (s : ScopeStack) (name : String) : Option ScopeVar :=
  (visible s.stack).find? (fun v => v.name == name)

/-- Update of the first matching variable in one scope. -/
def modifyVars (name : String) (f : ScopeVar → ScopeVar) : List ScopeVar → List ScopeVar
  | [] => []
  | v :: vs => if v.name == name then f v :: vs else v :: modifyVars name f vs

/-- Update of the first matching variable in the innermost scope that has one. -/
def modifyScopes (name : String) (f : ScopeVar → ScopeVar) : List ScopeContext → List ScopeContext
  | [] => []
  | c :: cs =>
    if c.variables.any (fun v => v.name == name) then
      { c with variables := modifyVars name f c.variables } :: cs
    else c :: modifyScopes name f cs

/-- Writing through the `&mut ScopeVariable` returned by `local`, scope_stack.rs:136-143. -/
def modifyLocal (s : ScopeStack) (name : String) (f : ScopeVar → ScopeVar) : ScopeStack :=
  { s with stack := modifyScopes name f s.stack }

/-- `top_mut` followed by an update, scope_stack.rs:145-147. -/
def modifyTop (s : ScopeStack) (f : ScopeContext → ScopeContext) : Option ScopeStack :=
  match s.stack with
  | [] => none
  | c :: rest => some { s with stack := f c :: rest }

/-- `top_mut` read. -/
def top? (s : ScopeStack) : Option ScopeContext := s.stack.head?

/-- `first_of_kind`, scope_stack.rs:172-174. -/
def firstOfKind (s : ScopeStack) (kind : ScopeKind) : Option ScopeContext :=
  s.stack.find? (fun c => c.kind == kind)

/-- `in_context_of`, scope_stack.rs:107-109. -/
def inContextOf (s : ScopeStack) (kind : ScopeKind) : Bool := (s.firstOfKind kind).isSome

/-- Update of the innermost scope of a kind. -/
def modifyFirstOfKind (kind : ScopeKind) (f : ScopeContext → ScopeContext) :
    List ScopeContext → Option (List ScopeContext)
  | [] => none
  | c :: cs => if c.kind == kind then some (f c :: cs) else (modifyFirstOfKind kind f cs).map (c :: ·)

/-- `add_loop_exit_point`, scope_stack.rs:150-158. -/
def addLoopExitPoint (s : ScopeStack) (exitPoint : Nat) : Option ScopeStack :=
  (modifyFirstOfKind .loop (fun c => { c with exitPoints := c.exitPoints ++ [exitPoint] }) s.stack).map
    fun st => { s with stack := st }

/-- `entry_point`, scope_stack.rs:161-170. -/
def entryPoint (s : ScopeStack) (kind : ScopeKind) : Option Nat :=
  (s.firstOfKind kind).bind (·.entryPoint)

end ScopeStack

/-! ## Compiler contexts -/

/-- `TypeAnnotation`, dice-syntax/src/ast/node.rs:239-244, without spans. -/
structure TypeAnn where
  name : String
  isNullable : Bool
  deriving DecidableEq, Repr

/-- `CompilerKind`, compiler_stack.rs:17-23. -/
inductive CompilerKind where
  | script
  | module
  | function (ret : Option TypeAnn)
  | method (ret : Option TypeAnn)
  | constructor
  deriving DecidableEq, Repr

/-- `CompilerContext`, compiler_stack.rs:37-43. -/
structure Ctx where
  kind : CompilerKind
  asm : Asm := {}
  upvalues : List UpvalueDescriptor := []
  scopes : ScopeStack := ScopeStack.new .block
  temporaryCount : Nat := 0

/-- `CompilerContext::add_upvalue`, compiler_stack.rs:68-78. -/
def Ctx.addUpvalue (c : Ctx) (d : UpvalueDescriptor) : Nat × Ctx :=
  match c.upvalues.findIdx? (fun u => u == d) with
  | some position => (position, c)
  | none => (c.upvalues.length, { c with upvalues := c.upvalues ++ [d] })

/-- `CompilerContext::finish`, compiler_stack.rs:88-92. -/
def Ctx.finish (c : Ctx) : Bytecode := c.asm.generate c.scopes.slotCount c.upvalues.length

/-- `CompilerStack::resolve_upvalue`, compiler_stack.rs:127-156.  The `depth` argument is the number of
contexts dropped from the (innermost first) list.  The slice access `parent.upvalues()[outer_index]`
(line 141) is always in range, see `resolveUpvalue_index_lt`; the model defaults to `false` there. -/
def resolveUpvalue (name : String) : List Ctx → Option (Nat × List Ctx)
  | [] => none
  | [_] => none
  | cur :: parent :: rest =>
    match parent.scopes.local? name with
    | some v =>
      let parent := { parent with
        scopes := parent.scopes.modifyLocal name (fun v => { v with isCaptured := true }) }
      let (i, cur) := cur.addUpvalue (.parentLocal v.slot v.isMutable)
      some (i, cur :: parent :: rest)
    | none =>
      match resolveUpvalue name (parent :: rest) with
      | some (outer, parent :: rest) =>
        let isMutable := match parent.upvalues[outer]? with
          | some d => d.isMutable
          | none => false
        let (i, cur) := cur.addUpvalue (.outer outer isMutable)
        some (i, cur :: parent :: rest)
      | _ => none

end Dice
