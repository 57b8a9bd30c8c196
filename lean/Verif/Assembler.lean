import Verif.Bytecode

/-!
# The assembler

Model of dice-compiler/src/assembler.rs.  The `source_map` (positions to spans) is left out: it is
not part of the generated bytecode (`generate`, assembler.rs:33-42, drops it).
-/

namespace Dice

/-- Error codes the compiler can report, plus `panic` for `unreachable!`, `expect`, out-of-range slices
and arithmetic overflow. -/
inductive CErr where
  | tooManyConstants | tooManyUpvalues | internal
  | invalidBreak | invalidContinue | invalidReturn | invalidExport | invalidSuperCall
  | invalidErrorPropagate | invalidAssignmentTarget
  | cannotReassign (name : String) | notDeclared (name : String) | notInitialized (name : String)
  | functionAlreadyDeclared (name : String) | classAlreadyDeclared (name : String)
  | duplicateArgs
  | newCannotHaveReturnType | newReturnCannotHaveExpression | newMustCallSuper
  | newMustHaveReceiver | operatorMustHaveReceiver | receiverCannotHaveType
  | panic (msg : String)
  deriving DecidableEq, Repr

/-- `UpvalueDescriptor`, dice-compiler/src/upvalue.rs:1-5. -/
inductive UpvalueDescriptor where
  | parentLocal (slot : Nat) (isMutable : Bool)
  | outer (index : Nat) (isMutable : Bool)
  deriving DecidableEq, Repr

/-- `UpvalueDescriptor::is_mutable`, upvalue.rs:8-12. -/
def UpvalueDescriptor.isMutable : UpvalueDescriptor → Bool
  | .parentLocal _ m => m
  | .outer _ m => m

/-- `UpvalueDescriptor::description`, upvalue.rs:14-19. -/
def UpvalueDescriptor.description : UpvalueDescriptor → Bool × Nat
  | .parentLocal s _ => (true, s)
  | .outer i _ => (false, i)

/-- `Assembler`, assembler.rs:18-22, without the source map. -/
structure Asm where
  constants : List Const := []
  data : List UInt8 := []

namespace Asm

/-- `Assembler::generate`, assembler.rs:33-42. -/
def generate (a : Asm) (slotCount upvalueCount : Nat) : Bytecode :=
  { data := a.data, slotCount, upvalueCount, constants := a.constants }

/-- `current_position`, assembler.rs:274-276. -/
def currentPosition (a : Asm) : Nat := a.data.length

/-- `data.put_u8(b)`. -/
def putU8 (a : Asm) (b : UInt8) : Asm := { a with data := a.data ++ [b] }

/-- The emitters without operand: one opcode byte.  assembler.rs:44-83 (`push_null` … `push_f1`),
116 (`pop`), 127 (`swap`), 138 (`create_object`), 152-230 (operators), 408-422 (index), 446 (`ret`),
451 (`assert_bool`), 468-476. -/
def op (a : Asm) (o : Opcode) : Asm := a.putU8 o.toByte

/-- The emitters with one byte operand that is not a constant index: assembler.rs:121 (`dup`),
132 (`create_list`), 278-319 (locals, upvalues), 434-444 (calls), 456-466. -/
def op1 (a : Asm) (o : Opcode) (b : UInt8) : Asm := (a.putU8 o.toByte).putU8 b

/-- `make_constant`, assembler.rs:478-492.  The constant is pushed before the limit is checked. -/
def makeConstant (a : Asm) (c : Const) : Except CErr (UInt8 × Asm) :=
  match a.constants.findIdx? (fun current => current.beq c) with
  | some position =>
    if position > 255 then .error .tooManyConstants else .ok (UInt8.ofNat position, a)
  | none =>
    let a' := { a with constants := a.constants ++ [c] }
    let position := a'.constants.length - 1
    if position > 255 then .error .tooManyConstants else .ok (UInt8.ofNat position, a')

/-- `push_const`, assembler.rs:85-94 and `inherit_class`, 143-150: opcode, then the constant, then its
index. -/
def opThenConst (a : Asm) (o : Opcode) (c : Const) : Except CErr Asm :=
  match (a.op o).makeConstant c with
  | .error e => .error e
  | .ok (i, a') => .ok (a'.putU8 i)

def pushConst (a : Asm) (c : Const) : Except CErr Asm := a.opThenConst .pushConst c
def inheritClass (a : Asm) (name : String) : Except CErr Asm :=
  a.opThenConst .inheritClass (.sym name)

/-- `store_field`, `assign_field`, `load_method`, `store_method`, `load_field`, `store_global`,
`load_global`, `load_module`, assembler.rs:321-406: the constant first, then opcode and index. -/
def opConst (a : Asm) (o : Opcode) (name : String) : Except CErr Asm :=
  match a.makeConstant (.sym name) with
  | .error e => .error e
  | .ok (i, a') => .ok (a'.op1 o i)

/-- `load_field_to_local`, assembler.rs:424-432. -/
def loadFieldToLocal (a : Asm) (name : String) (slot : UInt8) : Except CErr Asm :=
  match a.opConst .loadFieldToLocal name with
  | .error e => .error e
  | .ok a' => .ok (a'.putU8 slot)

/-- The two bytes of one capture in `closure`, assembler.rs:106-111 (`as u8` truncates the index). -/
def captureBytes (u : UpvalueDescriptor) : List UInt8 :=
  [if u.description.1 then 1 else 0, UInt8.ofNat u.description.2]

/-- `closure`, assembler.rs:96-114. -/
def closure (a : Asm) (c : Const) (ups : List UpvalueDescriptor) : Except CErr Asm :=
  match a.opThenConst .createClosure c with
  | .error e => .error e
  | .ok a' =>
    if ups.length > 255 then .error .tooManyUpvalues
    else .ok { a' with data := a'.data ++ ups.flatMap captureBytes }

/-- `jump`, `jump_if_false`, `jump_if_true`, assembler.rs:233-260: opcode and two zero bytes; returns the
position of the operand. -/
def jump (a : Asm) (o : Opcode) : Asm × Nat :=
  let a1 := a.op o
  ({ a1 with data := a1.data ++ encodeI16 0 }, a1.data.length)

/-- `patch_jump`, assembler.rs:262-265: the distance is truncated by `as i16`.  The subtraction
underflow and the short slice panic. -/
def patchJump (a : Asm) (p : Nat) : Except CErr Asm :=
  if p + 2 ≤ a.data.length then
    .ok { a with data := a.data.take p ++ encodeI16 (asI16 (a.data.length - p - 2))
                    ++ a.data.drop (p + 2) }
  else .error (.panic "patch_jump")

/-- `jump_back`, assembler.rs:267-272.  `current_position` is taken after the opcode byte.  Negating
`i16::MIN` overflows: this panics with overflow checks and gives `i16::MIN` without; the model takes
the panic.  (The subtraction cannot underflow for a recorded position; `Nat` subtraction is guarded
the same way.) -/
def jumpBack (a : Asm) (position : Nat) : Except CErr Asm :=
  let a1 := a.op .jump
  if a1.data.length < position then .error (.panic "jump_back")
  else
    let d := asI16 (a1.data.length - position + 2)
    if d = -32768 then .error (.panic "jump_back")
    else .ok { a1 with data := a1.data ++ encodeI16 (-d) }

end Asm

end Dice
