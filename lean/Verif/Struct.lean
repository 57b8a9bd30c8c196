import Verif.Vm
import Verif.Assembler

/-!
# Structured code

The bytecode the compiler emits is unstructured: jumps are byte distances.  This file defines structured
code, its direct execution, and what it means for structured code to be laid out in a bytecode.  None of
this is code of the repository: it is the specification against which the jumps, operands and constants of
the emitted bytecode are verified (`StructProps`: laid out bytecode behaves as the structured code;
`GenProps`: the compiler lays out the structured code of its source).
-/

namespace Dice

/-- An instruction with its operands decoded. -/
inductive Instr where
  /-- without operand -/
  | op (o : Opcode)
  /-- with a byte operand -/
  | byte (o : Opcode) (b : UInt8)
  /-- with an operand from the constant pool -/
  | const (o : Opcode) (c : Const)
  /-- closure creation: the function and what it captures -/
  | closure (code : Bytecode) (name : String) (id : Nat) (captured : List UpvalueDescriptor)
  /-- field into local -/
  | fieldToLocal (field : String) (slot : UInt8)

/-- Opcodes without operand. -/
def Opcode.isPlain : Opcode → Bool
  | .pushNull | .pushUnit | .pushFalse | .pushTrue | .pushI0 | .pushI1 | .pushF0 | .pushF1 | .pop | .swap
  | .createObject | .negate | .not | .multiply | .divide | .remainder | .add | .subtract | .greaterThan
  | .greaterThanOrEqual | .lessThan | .lessThanOrEqual | .equal | .notEqual | .is | .rangeInclusive
  | .rangeExclusive | .loadIndex | .storeIndex | .assignIndex | .assertBool | .assertTypeAndReturn
  | .assertTypeOrNullAndReturn | .return_ => true
  | _ => false

/-- Opcodes with a byte operand. -/
def Opcode.isByte : Opcode → Bool
  | .dup | .createArray | .loadLocal | .storeLocal | .assignLocal | .loadUpvalue | .storeUpvalue
  | .assignUpvalue | .closeUpvalue | .call | .callSuper | .assertTypeForLocal
  | .assertTypeOrNullForLocal => true
  | _ => false

/-- Opcodes with a constant operand. -/
def Opcode.isConst : Opcode → Bool
  | .pushConst | .inheritClass | .storeGlobal | .loadGlobal | .loadField | .storeField | .assignField
  | .loadMethod | .storeMethod | .loadModule => true
  | _ => false

/-- The opcode of an instruction. -/
def Instr.opcode : Instr → Opcode
  | .op o | .byte o _ | .const o _ => o
  | .closure .. => .createClosure
  | .fieldToLocal .. => .loadFieldToLocal

/-- The operands of an instruction alone, as a bytecode with at most one constant. -/
def Instr.operands : Instr → Bytecode
  | .op _ => ⟨[], 0, 0, []⟩
  | .byte _ b => ⟨[b], 0, 0, []⟩
  | .const _ c => ⟨[0], 0, 0, [c]⟩
  | .closure code name id captured => ⟨0 :: captured.flatMap Asm.captureBytes, 0, 0, [.fn code name id]⟩
  | .fieldToLocal field slot => ⟨[0, slot], 0, 0, [.sym field]⟩

/-- Structured code. -/
inductive Code where
  | nop
  | instr (i : Instr)
  | seq (a b : Code)
  /-- pops a boolean and skips the code if it equals `b` -/
  | skipIf (b : Bool) (c : Code)
  /-- pops a boolean and runs one of the two -/
  | branch (t e : Code)
  /-- repeats the code until it breaks -/
  | loop (c : Code)
  /-- pops a boolean and breaks if it equals `b` -/
  | breakIf (b : Bool)
  | brk
  | cont
  /-- delimits `exitIf` -/
  | chain (c : Code)
  /-- pops a boolean and leaves the enclosing chain if it equals `b` -/
  | exitIf (b : Bool)

/-- A sequence of codes. -/
def Code.block : List Code → Code
  | [] => .nop
  | c :: cs => .seq c (.block cs)

/-! ## Execution -/

/-- How structured code ends. -/
inductive Sig where
  | normal | brk | cont | exit | stop
  deriving DecidableEq, Repr

/-- The calls available to an instruction when the step budget after it is `n`. -/
def callsAt (w : World) (n : Nat) : Calls :=
  { callFn := fun argc => callFn w n argc
    callCtor := fun argc cls obj => callCtor w n argc cls obj
    runModule := fun bc export_ => runModule w n bc export_ }

/-- Whether the machine goes on or leaves the function. -/
def Next.sig : Next → Sig
  | .goto _ => .normal
  | .stop => .stop

/-- The effect of one instruction: what the machine does for it, its position aside. -/
def istep (w : World) (n : Nat) (f : Frame) (ups : Option (List Nat)) (i : Instr) : V Sig := do
  let nx ← step w (callsAt w n) i.operands f ups i.opcode 0
  pure nx.sig

/-- Popping a condition. -/
def popBool : V Bool := do
  let v ← pop
  asBool v

/-- A computation with the step budget left after it. -/
abbrev X := Nat → V (Sig × Nat)

/-- One machine step: needs one unit of the budget. -/
def tick {α : Type} (x : Nat → V α) : Nat → V α
  | 0 => V.timeout
  | n + 1 => x n

/-- What follows in a sequence. -/
def thenRun (b : X) (r : Sig × Nat) : V (Sig × Nat) :=
  match r.1 with
  | .normal => b r.2
  | _ => pure r

/-- A conditional transfer with signal `s`. -/
def condSig (b : Bool) (s : Sig) : X := tick fun n => do
  let x ← popBool
  pure (if x = b then s else .normal, n)

/-- A step that jumps. -/
def jumpSig (s : Sig) : X := tick fun n => pure (s, n)

/-- The end of a chain. -/
def endChain (r : Sig × Nat) : V (Sig × Nat) :=
  match r.1 with
  | .exit => pure (.normal, r.2)
  | _ => pure r

/-- Iterations of a loop.  The first number only makes the recursion structural. -/
def iterate (body : X) : Nat → X
  | 0, _ => V.timeout
  | g + 1, n => do
    let r ← body n
    match r.1 with
    | .normal => tick (fun k => iterate body g k) r.2
    | .cont => iterate body g r.2
    | .brk => pure (.normal, r.2)
    | .exit => pure r
    | .stop => pure r

/-- Direct execution of structured code in a function with frame `f` and captured variables `ups`. -/
def exec (w : World) (f : Frame) (ups : Option (List Nat)) : Code → X
  | .nop => fun n => pure (.normal, n)
  | .instr i => tick fun n => do
    let s ← istep w n f ups i
    pure (s, n)
  | .seq a b => fun n => exec w f ups a n >>= thenRun (exec w f ups b)
  | .skipIf b c => tick fun n => do
    let x ← popBool
    if x = b then pure (.normal, n) else exec w f ups c n
  | .branch t e => tick fun n => do
    let x ← popBool
    if x then exec w f ups t n >>= thenRun (jumpSig .normal) else exec w f ups e n
  | .loop c => fun n => iterate (exec w f ups c) (n + 1) n
  | .breakIf b => condSig b .brk
  | .brk => jumpSig .brk
  | .cont => jumpSig .cont
  | .chain c => fun n => exec w f ups c n >>= endChain
  | .exitIf b => condSig b .exit

/-! ## Layout -/

/-- The instruction `i` is encoded at positions `p` to `q`. -/
def Encodes (bc : Bytecode) (p q : Nat) : Instr → Prop
  | .op o => o.isPlain = true ∧ bc.data[p]? = some o.toByte ∧ q = p + 1
  | .byte o b => o.isByte = true ∧ bc.data[p]? = some o.toByte ∧ bc.data[p + 1]? = some b ∧ q = p + 2
  | .const o c => o.isConst = true ∧ bc.data[p]? = some o.toByte ∧ q = p + 2 ∧
      ∃ k : UInt8, bc.data[p + 1]? = some k ∧ bc.constants[k.toNat]? = some c
  | .closure code name id captured => bc.data[p]? = some Opcode.createClosure.toByte ∧
      code.upvalueCount = captured.length ∧ q = p + 2 + 2 * captured.length ∧
      (∃ k : UInt8, bc.data[p + 1]? = some k ∧ bc.constants[k.toNat]? = some (.fn code name id)) ∧
      ∀ j, j < 2 * captured.length → bc.data[p + 2 + j]? = (captured.flatMap Asm.captureBytes)[j]?
  | .fieldToLocal field slot => bc.data[p]? = some Opcode.loadFieldToLocal.toByte ∧ q = p + 3 ∧
      (∃ k : UInt8, bc.data[p + 1]? = some k ∧ bc.constants[k.toNat]? = some (.sym field)) ∧
      bc.data[p + 2]? = some slot

/-- The operand of a jump at `h` leads to `t`. -/
def Lands (bc : Bytecode) (h t : Nat) : Prop :=
  ∃ off, readOffset bc.data h = some off ∧ offsetPosition (h + 2) off = t

/-- A jump instruction at `p` leads to `t`. -/
def JumpAt (bc : Bytecode) (p : Nat) (o : Opcode) (t : Nat) : Prop :=
  bc.data[p]? = some o.toByte ∧ Lands bc (p + 1) t

/-- The jump taken if the popped boolean equals `b`. -/
def condJump (b : Bool) : Opcode := if b then .jumpIfTrue else .jumpIfFalse

/-- The code occupies the positions from `p` to `q` of the bytecode; `tb`, `tc` and `te` are the positions
to which breaks, continues and chain exits lead. -/
def Layout (bc : Bytecode) : Nat → Nat → Nat → Nat → Nat → Code → Prop
  | p, q, _, _, _, .nop => p = q
  | p, q, _, _, _, .instr i => Encodes bc p q i
  | p, q, tb, tc, te, .seq a b => ∃ r, Layout bc p r tb tc te a ∧ Layout bc r q tb tc te b
  | p, q, tb, tc, te, .skipIf b c => JumpAt bc p (condJump b) q ∧ Layout bc (p + 3) q tb tc te c
  | p, q, tb, tc, te, .branch t e => ∃ r, JumpAt bc p .jumpIfFalse (r + 3) ∧ Layout bc (p + 3) r tb tc te t ∧
      JumpAt bc r .jump q ∧ Layout bc (r + 3) q tb tc te e
  | p, q, _, _, te, .loop c => ∃ r, Layout bc p r q p te c ∧ JumpAt bc r .jump p ∧ q = r + 3
  | p, q, tb, _, _, .breakIf b => JumpAt bc p (condJump b) tb ∧ q = p + 3
  | p, q, tb, _, _, .brk => JumpAt bc p .jump tb ∧ q = p + 3
  | p, q, _, tc, _, .cont => JumpAt bc p .jump tc ∧ q = p + 3
  | p, q, tb, tc, _, .chain c => Layout bc p q tb tc q c
  | p, q, _, _, te, .exitIf b => JumpAt bc p (condJump b) te ∧ q = p + 3

/-- What the machine does after structured code laid out up to `q`. -/
def resume (w : World) (bc : Bytecode) (f : Frame) (ups : Option (List Nat)) (q tb tc te : Nat)
    (r : Sig × Nat) : V Unit :=
  match r.1 with
  | .normal => loop w r.2 bc f ups q
  | .brk => loop w r.2 bc f ups tb
  | .cont => loop w r.2 bc f ups tc
  | .exit => loop w r.2 bc f ups te
  | .stop => pure ()

end Dice
