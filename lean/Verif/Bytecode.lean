/-!
# Opcodes, constants, bytecode and the byte cursor

Model of `dice-bytecode`.
-/

namespace Dice

/-- `Instruction`, dice-bytecode/src/instruction.rs:6-81, in declaration order. -/
inductive Opcode where
  | pushNull | pushUnit | pushFalse | pushTrue | pushI0 | pushI1 | pushF0 | pushF1 | pushConst
  | pop | dup | swap
  | createArray | createObject | createClosure | inheritClass
  | loadModule | loadGlobal | storeGlobal
  | loadLocal | storeLocal | assignLocal
  | loadField | storeField | assignField
  | loadIndex | storeIndex | assignIndex
  | loadUpvalue | storeUpvalue | assignUpvalue | closeUpvalue
  | loadFieldToLocal | loadMethod | storeMethod
  | negate | not | multiply | divide | remainder | add | subtract
  | greaterThan | greaterThanOrEqual | lessThan | lessThanOrEqual | equal | notEqual | is
  | rangeInclusive | rangeExclusive
  | jump | jumpIfFalse | jumpIfTrue | call | callSuper | return_
  | assertBool | assertTypeForLocal | assertTypeOrNullForLocal
  | assertTypeAndReturn | assertTypeOrNullAndReturn
  deriving DecidableEq, Repr

/-- All opcodes in declaration order; used by the decoder. -/
def Opcode.all : List Opcode :=
  [.pushNull, .pushUnit, .pushFalse, .pushTrue, .pushI0, .pushI1, .pushF0, .pushF1, .pushConst,
   .pop, .dup, .swap,
   .createArray, .createObject, .createClosure, .inheritClass,
   .loadModule, .loadGlobal, .storeGlobal,
   .loadLocal, .storeLocal, .assignLocal,
   .loadField, .storeField, .assignField,
   .loadIndex, .storeIndex, .assignIndex,
   .loadUpvalue, .storeUpvalue, .assignUpvalue, .closeUpvalue,
   .loadFieldToLocal, .loadMethod, .storeMethod,
   .negate, .not, .multiply, .divide, .remainder, .add, .subtract,
   .greaterThan, .greaterThanOrEqual, .lessThan, .lessThanOrEqual, .equal, .notEqual, .is,
   .rangeInclusive, .rangeExclusive,
   .jump, .jumpIfFalse, .jumpIfTrue, .call, .callSuper, .return_,
   .assertBool, .assertTypeForLocal, .assertTypeOrNullForLocal,
   .assertTypeAndReturn, .assertTypeOrNullAndReturn]

/-- `Into<u8>`, instruction.rs:89-93: the derived `ToPrimitive` gives the discriminant, which is the
declaration index. -/
def Opcode.toByte (o : Opcode) : UInt8 := UInt8.ofNat o.ctorIdx

/-- `From<u8>`, instruction.rs:83-87: the derived `FromPrimitive` compares with every discriminant.
`none` is the `expect` panic. -/
def Opcode.ofByte (b : UInt8) : Option Opcode := Opcode.all.find? (fun o => o.toByte == b)

/-- `Bytecode`/`BytecodeInner`, dice-bytecode/src/lib.rs:12-24, over an arbitrary type of constants
(the recursion through `FunctionBytecode` is tied in `Const`). -/
structure BytecodeOf (C : Type) where
  data : List UInt8
  slotCount : Nat
  upvalueCount : Nat
  constants : List C

/-- `ConstantValue` and `FunctionBytecode`, lib.rs:28-43.  `i64` is carried as `Int`; the `uuid` is a
natural number handed out by a counter. -/
inductive Const where
  | int (i : Int)
  | float (f : Float)
  | str (s : String)
  | sym (s : String)
  | fn (bytecode : BytecodeOf Const) (name : String) (id : Nat)

abbrev Bytecode := BytecodeOf Const

/-- `PartialEq` of `ConstantValue` (derived, lib.rs:27) and of `FunctionBytecode` (lib.rs:55-59, by
id). -/
def Const.beq : Const → Const → Bool
  | .int a, .int b => a == b
  | .float a, .float b => a == b
  | .str a, .str b => a == b
  | .sym a, .sym b => a == b
  | .fn _ _ a, .fn _ _ b => a == b
  | _, _ => false

/-! ## 16-bit operands -/

/-- `x as i16` for an integer `x`: reduction modulo 2^16 into the signed range. -/
def asI16 (x : Int) : Int := Int.bmod x 65536

/-- `BufMut::put_i16`: two bytes, big endian, two's complement. -/
def encodeI16 (x : Int) : List UInt8 :=
  let n := (x % 65536).toNat
  [UInt8.ofNat (n / 256), UInt8.ofNat (n % 256)]

/-- `Buf::get_i16` on the two bytes. -/
def decodeI16 (hi lo : UInt8) : Int := asI16 (hi.toNat * 256 + lo.toNat)

/-! ## Cursor -/

/-- `BytecodeCursor::read_instruction`, cursor.rs:24-32.  Outer `none`: no bytes remain.  Inner
`none`: the conversion panics. -/
def readInstruction (data : List UInt8) (pos : Nat) : Option (Option Opcode) :=
  data[pos]?.map Opcode.ofByte

/-- `BytecodeCursor::read_u8`, cursor.rs:35-37; `none` is the out-of-data panic of `get_u8`. The
cursor moves to `pos + 1`. -/
def readU8 (data : List UInt8) (pos : Nat) : Option UInt8 := data[pos]?

/-- `BytecodeCursor::read_offset`, cursor.rs:40-42.  The cursor moves to `pos + 2`. -/
def readOffset (data : List UInt8) (pos : Nat) : Option Int :=
  match data[pos]?, data[pos + 1]? with
  | some hi, some lo => some (decodeI16 hi lo)
  | _, _ => none

/-- `BytecodeCursor::offset_position`, cursor.rs:45-47: wrapping 64-bit addition of the sign-extended
offset. -/
def offsetPosition (pos : Nat) (off : Int) : Nat := ((pos + off) % (2 ^ 64)).toNat

/-! ## Disassembler -/

/-- One decoded instruction. -/
inductive DInstr where
  | plain (o : Opcode)
  | byte (o : Opcode) (b : UInt8)
  | twoBytes (o : Opcode) (a b : UInt8)
  | offset (o : Opcode) (off : Int)
  | closure (c : UInt8) (captures : List (UInt8 × UInt8))
  deriving DecidableEq, Repr

/-- Reads `n` capture descriptions (pairs of bytes), lib.rs:155-163. -/
def readCaptures (data : List UInt8) : Nat → Nat → Option (List (UInt8 × UInt8) × Nat)
  | pos, 0 => some ([], pos)
  | pos, n + 1 =>
    match readU8 data pos, readU8 data (pos + 1) with
    | some k, some i => (readCaptures data (pos + 2) n).map fun r => ((k, i) :: r.1, r.2)
    | _, _ => none

/-- Body of the disassembler loop, `Display for Bytecode`, lib.rs:116-169: the instruction at `pos` and
the position after it.  `none` covers both "no bytes remain" and panics.  Text formatting is left
out. -/
def decodeAt (bc : Bytecode) (pos : Nat) : Option (DInstr × Nat) :=
  match readInstruction bc.data pos with
  | some (some o) =>
    match o with
    | .jump | .jumpIfFalse | .jumpIfTrue =>
      (readOffset bc.data (pos + 1)).map fun off => (.offset o off, pos + 3)
    | .pushConst | .dup | .loadModule | .loadGlobal | .loadLocal | .loadField | .loadMethod
    | .loadUpvalue | .storeGlobal | .storeLocal | .storeField | .storeMethod | .storeUpvalue
    | .assignLocal | .assignField | .assignUpvalue | .closeUpvalue | .call | .callSuper
    | .createArray | .inheritClass | .assertTypeForLocal | .assertTypeOrNullForLocal =>
      (readU8 bc.data (pos + 1)).map fun b => (.byte o b, pos + 2)
    | .loadFieldToLocal =>
      match readU8 bc.data (pos + 1), readU8 bc.data (pos + 2) with
      | some a, some b => some (.twoBytes o a b, pos + 3)
      | _, _ => none
    | .createClosure =>
      match readU8 bc.data (pos + 1) with
      | none => none
      | some c =>
        match bc.constants[c.toNat]? with
        | none => none
        | some (.fn f _ _) =>
          (readCaptures bc.data (pos + 2) f.upvalueCount).map fun r => (.closure c r.1, r.2)
        | some _ => some (.closure c [], pos + 2)
    | o => some (.plain o, pos + 1)
  | _ => none

/-- The disassembler loop, lib.rs:116-174, collecting instructions until no byte remains; `none` if
it panics.  The fuel bounds the number of instructions and is never exhausted when it is at least the
number of bytes. -/
def disassemble (bc : Bytecode) : Nat → Nat → Option (List DInstr)
  | 0, pos => if pos < bc.data.length then none else some []
  | n + 1, pos =>
    if pos < bc.data.length then
      match decodeAt bc pos with
      | none => none
      | some (i, next) => (disassemble bc n next).map (i :: ·)
    else some []

end Dice
