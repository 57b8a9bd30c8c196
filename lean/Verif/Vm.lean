import Verif.Bytecode

/-!
# The virtual machine

Model of dice-runtime: runtime.rs, interpreter/mod.rs, interpreter/helper.rs, stack/*.rs, upvalue.rs
and value/*.rs.

At this commit dice-runtime is in the middle of a refactoring towards `gc-arena` and parts of it are
commented out (among them `is_value_of_type`, runtime.rs:201-208, and the registration of the built-in
classes).  The model follows the text, including the commented-out trait functions that the interpreter
calls.  Garbage collection is left out: heap cells live forever.

What the interpreter takes from outside is collected in `World`: the native functions, the module loader,
the classes of built-in values and the build mode.
-/

namespace Dice

/-- `Value`, value.rs:39-54.  References are addresses into the heap of the machine.  A bound function is
immutable (value/fn_bound.rs:7-25), so it is stored by value. -/
inductive Value where
  | null
  | unit
  | bool (b : Bool)
  | int (i : Int)
  | float (f : Float)
  | fnScript (bytecode : Bytecode) (name : String) (id : Nat)
  | fnClosure (bytecode : Bytecode) (name : String) (id : Nat) (upvalues : List Nat)
  | fnNative (n : Nat)
  | fnBound (receiver function : Value)
  | array (a : Nat)
  | str (s : String)
  | sym (s : String)
  | object (o : Nat)
  | cls (c : Nat)

/-- `ValueKind`, value.rs:209-221. -/
inductive ValueKind where
  | null | unit | bool | int | float | function | array | string | symbol | object | class
  deriving DecidableEq, Repr

/-- `Value::kind`, value.rs:132-149. -/
def Value.kind : Value → ValueKind
  | .null => .null
  | .unit => .unit
  | .bool _ => .bool
  | .int _ => .int
  | .float _ => .float
  | .fnScript .. => .function
  | .fnClosure .. => .function
  | .fnNative _ => .function
  | .fnBound _ _ => .function
  | .array _ => .array
  | .str _ => .string
  | .sym _ => .symbol
  | .object _ => .object
  | .cls _ => .class

/-- `value == Value::Null`, value.rs:158-177. -/
def Value.isNull : Value → Bool
  | .null => true
  | _ => false

/-- A constant as a value. -/
def Const.toValue : Const → Value
  | .int i => .int i
  | .float f => .float f
  | .str s => .str s
  | .sym s => .sym s
  | .fn b n i => .fnScript b n i

/-- The error codes the interpreter reports, interpreter/mod.rs and helper.rs. -/
inductive RtErr where
  | invalidBool | invalidInt | invalidSymbol | invalidObject | invalidClass
  | assertBool | assertNumber | assertFunction | assertNull | assertType | assertSuper
  | divideByZero | globalDefined (name : String) | globalUndefined (name : String)
  | operatorUndefined (name : String) | newAccess | mustHaveNew | cannotInherit
  | load (name : String) | native (code : String)
  deriving DecidableEq, Repr

/-- What a computation of the machine gives: a value, an error (the machine can be used on), a panic, or
that the step budget of the model is used up. -/
inductive Outcome (α : Type) where
  | ok (a : α)
  | err (e : RtErr)
  | panic (msg : String)
  | timeout
  deriving Repr

/-- `ValueMap`, value.rs:35: the newest binding of a key counts. -/
abbrev ValueMap := List (String × Value)

def ValueMap.get (m : ValueMap) (k : String) : Option Value := List.lookup k m

def ValueMap.insert (m : ValueMap) (k : String) (v : Value) : ValueMap := (k, v) :: m

/-- `ObjectInner`, value/object.rs:112-115; `fields` is a reference. -/
structure Obj where
  cls : Option Nat
  fields : Nat
  deriving DecidableEq, Repr

/-- `ArrayInner`, value/array.rs:74-77. -/
structure Arr where
  elements : List Value
  object : Obj

/-- `ClassInner`, value/class.rs:121-130.  The type id is the address of the class: `TypeId::new`
(type_id.rs:10-12) gives a new one for every class. -/
structure Cls where
  name : String
  methods : ValueMap
  object : Obj
  typeIds : List Nat
  base : Option Nat

/-- `UpvalueState`, upvalue.rs:9-12. -/
inductive Cell where
  | open (slot : Nat)
  | closed (v : Value)

/-- Everything reachable through references except the captured-variable cells. -/
structure Heap where
  maps : List ValueMap := []
  objects : List Obj := []
  arrays : List Arr := []
  classes : List Cls := []

/-- `MAX_STACK_SIZE`, stack/mod.rs:12-13. -/
def maxStack : Nat := 65536

/-- `State`, runtime.rs:35-45, with the stack (stack/mod.rs:17-20) flattened in.  `mem` is only ever
accessed below `maxStack`. -/
structure VM where
  mem : Nat → Value := fun _ => .null
  ptr : Nat := 0
  heap : Heap := {}
  cells : List Cell := []
  openUps : List Nat := []
  globals : ValueMap := []
  modules : ValueMap := []

/-- The surroundings of the interpreter.  `native` are the native functions
(`NativeFn`, value/fn_native.rs:13): they see the arguments and the heap.  Natives that call back into
the interpreter (`filter`, `map` of classes/array.rs) are outside the model.  `loader` is
`ModuleLoader::load_module`, module/mod.rs:24-26. `valueClass` is `value_class_mapping`.
`checks` says whether arithmetic overflow panics (debug build) or wraps (release build), and `debug`
whether debug assertions are on. -/
structure World where
  native : Nat → List Value → Heap → Outcome Value × Heap
  loader : String → Except RtErr Bytecode
  anyClass : Nat
  moduleClass : Nat
  valueClass : ValueKind → Option Nat
  fmod : Float → Float → Float
  checks : Bool
  debug : Bool

/-- Computations of the machine. -/
def V (α : Type) : Type := VM → Outcome α × VM

namespace V

def pure {α : Type} (a : α) : V α := fun m => (.ok a, m)

def bind {α β : Type} (x : V α) (f : α → V β) : V β := fun m =>
  match x m with
  | (.ok a, m) => f a m
  | (.err e, m) => (.err e, m)
  | (.panic s, m) => (.panic s, m)
  | (.timeout, m) => (.timeout, m)

instance : Monad V where
  pure := V.pure
  bind := V.bind

def err {α : Type} (e : RtErr) : V α := fun m => (.err e, m)
def panic {α : Type} (s : String) : V α := fun m => (.panic s, m)
def timeout {α : Type} : V α := fun m => (.timeout, m)
def get : V VM := fun m => (.ok m, m)
def set (m : VM) : V Unit := fun _ => (.ok (), m)

end V

/-! ## The stack, stack/mod.rs -/

/-- Writing one cell of memory. -/
def upd (mem : Nat → Value) (i : Nat) (v : Value) : Nat → Value := fun j => if j = i then v else mem j

/-- `values[i]`, panics out of range. -/
def memGet (i : Nat) : V Value := fun m =>
  if i < maxStack then (.ok (m.mem i), m) else (.panic "index out of bounds", m)

/-- `values[i] = v`, panics out of range. -/
def memSet (i : Nat) (v : Value) : V Unit := fun m =>
  if i < maxStack then (.ok (), { m with mem := upd m.mem i v }) else (.panic "index out of bounds", m)

/-- `Stack::push`, stack/mod.rs:24-27. -/
def push (v : Value) : V Unit := fun m =>
  if m.ptr < maxStack then (.ok (), { m with mem := upd m.mem m.ptr v, ptr := m.ptr + 1 })
  else (.panic "index out of bounds", m)

/-- `Stack::pop`, stack/mod.rs:40-43: the cell is overwritten with `Null`.  At depth zero the pointer
wraps and the access panics. -/
def pop : V Value := fun m =>
  if m.ptr = 0 ∨ maxStack < m.ptr then (.panic "index out of bounds", m)
  else (.ok (m.mem (m.ptr - 1)), { m with mem := upd m.mem (m.ptr - 1) .null, ptr := m.ptr - 1 })

/-- `Stack::peek`, stack/mod.rs:87-89. -/
def peek (offset : Nat) : V Value := fun m =>
  if offset < m.ptr ∧ m.ptr - offset - 1 < maxStack then (.ok (m.mem (m.ptr - offset - 1)), m)
  else (.panic "index out of bounds", m)

/-- Writing through `Stack::peek_mut`, stack/mod.rs:82-84. -/
def poke (offset : Nat) (v : Value) : V Unit := fun m =>
  if offset < m.ptr ∧ m.ptr - offset - 1 < maxStack then
    (.ok (), { m with mem := upd m.mem (m.ptr - offset - 1) v })
  else (.panic "index out of bounds", m)

/-- The values at `start`, `start + 1`, …, `start + count - 1`. -/
def memRange (mem : Nat → Value) (start count : Nat) : List Value :=
  (List.range count).map fun i => mem (start + i)

/-- Overwriting a range of memory with `Null`. -/
def memClear (mem : Nat → Value) (start stop : Nat) : Nat → Value :=
  fun j => if start ≤ j ∧ j < stop then .null else mem j

/-- `Stack::pop_count`, stack/mod.rs:45-55. -/
def popCount (count : Nat) : V (List Value) := fun m =>
  if count ≤ m.ptr ∧ m.ptr ≤ maxStack then
    (.ok (memRange m.mem (m.ptr - count) count),
      { m with mem := memClear m.mem (m.ptr - count) m.ptr, ptr := m.ptr - count })
  else (.panic "index out of bounds", m)

/-- `Stack::swap`, stack/mod.rs:92-96. -/
def swap : V Unit := fun m =>
  if 2 ≤ m.ptr ∧ m.ptr ≤ maxStack then
    (.ok (), { m with
      mem := upd (upd m.mem (m.ptr - 2) (m.mem (m.ptr - 1))) (m.ptr - 1) (m.mem (m.ptr - 2)) })
  else (.panic "index out of bounds", m)

/-- `StackFrame`, stack/frame.rs:4-7. -/
structure Frame where
  start : Nat
  stop : Nat
  deriving DecidableEq, Repr

/-- `Stack::reserve_slots`, stack/mod.rs:57-66, with its debug assertion. -/
def reserveSlots (w : World) (count : Nat) : V Frame := fun m =>
  let m' := { m with ptr := m.ptr + count }
  if w.debug = true ∧ ¬ m'.ptr < maxStack then (.panic "Stack Overflowed", m')
  else (.ok { start := m.ptr, stop := m'.ptr }, m')

/-- `Stack::release_stack_frame`, stack/mod.rs:68-78, with its debug assertion.  A pointer below zero wraps:
the debug assertion or the next access panics; the model panics at once. -/
def releaseFrame (w : World) (f : Frame) : V Unit := fun m =>
  if f.start ≤ f.stop ∧ f.stop ≤ maxStack then
    if m.ptr < f.stop - f.start then (.panic "Stack Underflowed", m)
    else
      let m' := { m with mem := memClear m.mem f.start f.stop, ptr := m.ptr - (f.stop - f.start) }
      if w.debug = true ∧ ¬ m'.ptr < maxStack then (.panic "Stack Underflowed", m') else (.ok (), m')
  else (.panic "index out of bounds", m)

/-- `stack[frame][slot]`: both the slice and the element access are bounds checked,
stack/mod.rs:119-131. -/
def frameGet (f : Frame) (slot : Nat) : V Value := fun m =>
  if f.stop ≤ maxStack ∧ f.start + slot < f.stop then (.ok (m.mem (f.start + slot)), m)
  else (.panic "index out of bounds", m)

/-- `stack[frame][slot] = v`. -/
def frameSet (f : Frame) (slot : Nat) (v : Value) : V Unit := fun m =>
  if f.stop ≤ maxStack ∧ f.start + slot < f.stop then
    (.ok (), { m with mem := upd m.mem (f.start + slot) v })
  else (.panic "index out of bounds", m)

/-! ## Heap operations -/

namespace Heap

/-- `Object::new` without the outer allocation: a new field map, value/object.rs:18-31. -/
def newObj (h : Heap) (cls : Option Nat) : Obj × Heap :=
  ({ cls, fields := h.maps.length }, { h with maps := h.maps ++ [[]] })

/-- `Value::Object(Object::new(class))`. -/
def newObject (h : Heap) (cls : Nat) : Value × Heap :=
  let (o, h) := h.newObj (some cls)
  (.object h.objects.length, { h with objects := h.objects ++ [o] })

/-- `Array::from_vec`, value/array.rs:36-46. -/
def newArray (h : Heap) (elements : List Value) : Value × Heap :=
  let (object, h) := h.newObj none
  (.array h.arrays.length, { h with arrays := h.arrays ++ [{ elements, object }] })

/-- `Value::as_object`, value.rs:116-123. -/
def asObject (h : Heap) : Value → Option Obj
  | .object o => h.objects[o]?
  | .cls c => h.classes[c]?.map (·.object)
  | .array a => h.arrays[a]?.map (·.object)
  | _ => none

/-- `object.fields().get(key)`, value/object.rs:74-80. -/
def field (h : Heap) (o : Obj) (key : String) : Option Value := (h.maps[o.fields]?).bind (·.get key)

/-- `Object::set_field`, value/object.rs:67-72. -/
def setField (h : Heap) (o : Obj) (key : String) (v : Value) : Heap :=
  { h with maps := h.maps.modify o.fields (·.insert key v) }

/-- `Class::with_base`, value/class.rs:44-69: the methods of the base except `new` are copied, and
`deep_clone` (value/object.rs:33-43) keeps the reference to the base's field map. -/
def classWithBase (h : Heap) (name : String) (base : Nat) (b : Cls) : Value × Heap :=
  let id := h.classes.length
  let c : Cls :=
    { name
      methods := b.methods.filter (fun p => p.1 != "new")
      object := { cls := b.object.cls, fields := b.object.fields }
      typeIds := id :: b.typeIds
      base := some base }
  (.cls id, { h with classes := h.classes ++ [c] })

/-- `Class::is_class`, value/class.rs:75-79. -/
def isClass (h : Heap) (c d : Nat) : Bool :=
  match h.classes[c]? with
  | some cl => cl.typeIds.contains d
  | none => false

/-- `Class::method`, value/class.rs:89-92. -/
def method (h : Heap) (c : Nat) (name : String) : Option Value :=
  (h.classes[c]?).bind fun cl => cl.methods.get name

/-- `Class::set_method` without the kind check, value/class.rs:101. -/
def setMethod (h : Heap) (c : Nat) (name : String) (v : Value) : Heap :=
  { h with classes := h.classes.modify c fun cl => { cl with methods := cl.methods.insert name v } }

/-- The class of a value: that of the object, else the one registered for the kind,
helper.rs:81-85, mod.rs:208-212, runtime.rs:202-206. -/
def classOf (w : World) (h : Heap) (v : Value) : Option Nat :=
  match (h.asObject v).bind (·.cls) with
  | some c => some c
  | none => w.valueClass v.kind

/-- `is_value_of_type`, runtime.rs:201-208. -/
def isOfType (w : World) (h : Heap) (v : Value) (c : Nat) : Bool :=
  match h.classOf w v with
  | some d => h.isClass d c
  | none => false

end Heap

/-- A computation on the heap alone. -/
def onHeap {α : Type} (f : Heap → α × Heap) : V α := fun m =>
  let (a, h) := f m.heap
  (.ok a, { m with heap := h })

/-! ## Conversions, value.rs:73-130 -/

def asBool : Value → V Bool
  | .bool b => pure b
  | _ => V.err .invalidBool

def asSymbol : Value → V String
  | .sym s => pure s
  | _ => V.err .invalidSymbol

def asClass : Value → V Nat
  | .cls c => pure c
  | _ => V.err .invalidClass

def asObject (v : Value) : V Obj := fun m =>
  match m.heap.asObject v with
  | some o => (.ok o, m)
  | none => (.err .invalidObject, m)

/-! ## Reading operands -/

/-- `cursor.read_u8() as usize`. -/
def operand (bc : Bytecode) (pos : Nat) : V Nat :=
  match readU8 bc.data pos with
  | some b => pure b.toNat
  | none => V.panic "read_u8"

/-- `cursor.read_offset()`. -/
def offsetOperand (bc : Bytecode) (pos : Nat) : V Int :=
  match readOffset bc.data pos with
  | some o => pure o
  | none => V.panic "read_offset"

/-- `bytecode.constants()[i]`. -/
def constant (bc : Bytecode) (i : Nat) : V Value :=
  match bc.constants[i]? with
  | some c => pure c.toValue
  | none => V.panic "index out of bounds"

/-- `bytecode.constants()[cursor.read_u8()].as_symbol()?`. -/
def symbolOperand (bc : Bytecode) (pos : Nat) : V String := do
  let i ← operand bc pos
  let c ← constant bc i
  asSymbol c

/-! ## Fields and methods, helper.rs -/

/-- `get_method`, helper.rs:92-102. -/
def getMethod (cls : Option Nat) (key : String) (receiver : Value) : V Value := fun m =>
  match cls.bind (m.heap.method · key) with
  | some f => (.ok (.fnBound receiver f), m)
  | none => (.ok .null, m)

/-- The field of an object, class or array, helper.rs:67-73. -/
def Heap.ownField (h : Heap) (key : String) (v : Value) : Option Value :=
  match h.asObject v with
  | some o => h.field o key
  | none => none

/-- `get_field`, helper.rs:66-90. -/
def getField (w : World) (key : String) (v : Value) : V Value := fun m =>
  match m.heap.ownField key v with
  | some f => (.ok f, m)
  | none =>
    if key = "new" then (.err .newAccess, m)
    else getMethod (m.heap.classOf w v) key v m

/-! ## Integer arithmetic -/

/-- The range of `i64`. -/
def InI64 (x : Int) : Prop := -(2 ^ 63) ≤ x ∧ x < 2 ^ 63

instance (x : Int) : Decidable (InI64 x) := inferInstanceAs (Decidable (_ ∧ _))

/-- The result `x` of an arithmetic operation on `i64`: itself if representable; otherwise a panic
(debug build) or the value modulo 2^64 (release build). -/
def i64Result (w : World) (x : Int) : V Int :=
  if InI64 x then pure x
  else if w.checks then V.panic "attempt to compute with overflow"
  else pure (Int.bmod x (2 ^ 64))

/-- `/` and `%` of `i64` panic in both builds when the quotient overflows. -/
def i64Div (l r : Int) : V Int :=
  if InI64 (l.tdiv r) then pure (l.tdiv r) else V.panic "attempt to divide with overflow"

def i64Rem (l r : Int) : V Int :=
  if InI64 (l.tdiv r) then pure (l.tmod r) else V.panic "attempt to calculate the remainder with overflow"

/-! ## Captured variables -/

/-- The slot of an open cell. -/
def cellSlot (cells : List Cell) (a : Nat) : Option Nat :=
  match cells[a]? with
  | some (.open s) => some s
  | _ => none

/-- `find_open_upvalue`, helper.rs:20-32: the last cell of the list that is open on `offset`, with its
index. -/
def findOpen (cells : List Cell) : List Nat → Nat → Nat → Option (Nat × Nat)
  | [], _, _ => none
  | a :: rest, i, offset =>
    match findOpen cells rest (i + 1) offset with
    | some r => some r
    | none => if cellSlot cells a = some offset then some (i, a) else none

/-- Reading through a cell, mod.rs:511-514. -/
def readCell (a : Nat) : V Value := fun m =>
  match m.cells[a]? with
  | some (.open s) => memGet s m
  | some (.closed v) => (.ok v, m)
  | none => (.panic "dangling cell", m)

/-- Writing through a cell, mod.rs:557-560. -/
def writeCell (a : Nat) (v : Value) : V Unit := fun m =>
  match m.cells[a]? with
  | some (.open s) => memSet s v m
  | some (.closed _) => (.ok (), { m with cells := m.cells.set a (.closed v) })
  | none => (.panic "dangling cell", m)

/-- `parent_upvalues[slot]`. -/
def upvalueAt (ups : Option (List Nat)) (i : Nat) : V Nat :=
  match ups with
  | none => V.panic "upvalue used in non-closure context."
  | some us =>
    match us[i]? with
    | some a => pure a
    | none => V.panic "index out of bounds"

/-- Closing the cell that is open on `offset`, if any, with the value `v`, mod.rs:576-580. -/
def closeCell (offset : Nat) (v : Value) : V Unit := fun m =>
  match findOpen m.cells m.openUps 0 offset with
  | some (i, a) =>
    (.ok (), { m with cells := m.cells.set a (.closed v), openUps := m.openUps.eraseIdx i })
  | none => (.ok (), m)

/-- `close_upvalue`, mod.rs:570-583. -/
def closeUpvalue (f : Frame) (slot : Nat) : V Unit := do
  let v ← frameGet f slot
  frameSet f slot .null
  closeCell (f.start + slot) v

/-- Capturing the local at absolute position `offset`, mod.rs:791-799. -/
def captureLocal (offset : Nat) : V Nat := fun m =>
  match findOpen m.cells m.openUps 0 offset with
  | some (_, a) => (.ok a, m)
  | none =>
    let a := m.cells.length
    (.ok a, { m with cells := m.cells ++ [.open offset], openUps := m.openUps ++ [a] })

/-- One capture of a closure, mod.rs:787-803: kind byte and index at `pos`. -/
def captureOne (bc : Bytecode) (f : Frame) (ups : Option (List Nat)) (pos : Nat) : V Nat := do
  let k ← operand bc pos
  let i ← operand bc (pos + 1)
  if k = 1 then captureLocal (f.start + i) else upvalueAt ups i

/-- The captures of a closure, mod.rs:786-807, from position `pos`. -/
def captures (bc : Bytecode) (f : Frame) (ups : Option (List Nat)) : Nat → Nat → V (List Nat)
  | 0, _ => pure []
  | n + 1, pos => do
    let a ← captureOne bc f ups pos
    let rest ← captures bc f ups n (pos + 2)
    pure (a :: rest)

/-! ## Instructions without calls -/

/-- `is_value_of_type`, runtime.rs:201-208. -/
def testType (w : World) (v : Value) (c : Nat) : V Bool := fun m => (.ok (m.heap.isOfType w v c), m)

/-- `assert_type`, mod.rs:207-231. -/
def assertType (w : World) (c : Nat) (v : Value) : V Unit := fun m =>
  if m.heap.isOfType w v c then (.ok (), m) else (.err .assertType, m)

/-- The check after fetching the value, mod.rs:155-205; `nullable` selects the `OrNull` forms. -/
def assertTypeOf (w : World) (nullable : Bool) (c : Nat) (v : Value) : V Unit :=
  if v.isNull then (if nullable then pure () else V.err .assertNull) else assertType w c v

/-- `neg`, mod.rs:242-252, on the value. -/
def negate (w : World) : Value → V Value
  | .int x => do
    let r ← i64Result w (-x)
    pure (.int r)
  | .float x => pure (.float (-x))
  | _ => V.err .assertNumber

/-- `not`, mod.rs:233-240, on the value. -/
def notValue : Value → V Value
  | .bool b => pure (.bool !b)
  | _ => V.err .assertBool

/-- Where the interpreter goes next. -/
inductive Next where
  | goto (pos : Nat)
  | stop
  deriving DecidableEq, Repr

/-- The value at an index, mod.rs:660-673. -/
def getIndex (w : World) (target index : Value) : V Value :=
  match target, index with
  | .array a, .int i => fun m =>
      match m.heap.arrays[a]? with
      | some arr => (.ok (if 0 ≤ i then (arr.elements[i.toNat]?).getD .null else .null), m)
      | none => (.panic "dangling array", m)
  | target, index => do
    let field ← asSymbol index
    getField w field target

/-- `load_index`, mod.rs:657-676. -/
def loadIndex (w : World) : V Unit := do
  let index ← pop
  let target ← peek 0
  let result ← getIndex w target index
  poke 0 result

/-- Writing an element or field by index, mod.rs:682-697 and 706-721. -/
def putIndex (target index value : Value) : V Unit :=
  match target, index with
  | .array a, .int i => fun m =>
      match m.heap.arrays[a]? with
      | some arr =>
        if 0 ≤ i ∧ i.toNat < arr.elements.length then
          (.ok (), { m with heap := { m.heap with
            arrays := m.heap.arrays.set a { arr with elements := arr.elements.set i.toNat value } } })
        else (.panic "index out of bounds", m)
      | none => (.panic "dangling array", m)
  | target, index => do
    let object ← asObject target
    let field ← asSymbol index
    onHeap fun h => ((), h.setField object field value)

/-- The common part of `store_index` and `assign_index`, mod.rs:678-724: the result is left in place of
the target. -/
def setIndex (result : Value → Value) : V Unit := do
  let value ← pop
  let index ← pop
  let target ← peek 0
  putIndex target index value
  poke 0 (result value)

/-- `Class::with_base` for the class at address `base`, mod.rs:444-446. -/
def deriveClass (name : String) (base : Nat) : V Value := fun m =>
  match m.heap.classes[base]? with
  | some b =>
    let r := m.heap.classWithBase name base b
    (.ok r.1, { m with heap := r.2 })
  | none => (.panic "dangling class", m)

/-- `inherit_class`, mod.rs:428-448.  `base == value_class` compares name and type id
(value/class.rs:140-144), which is equality of classes. -/
def inheritClass (w : World) (name : String) : V Unit := do
  let b ← pop
  let base ← asClass b
  let isValueClass :=
    base ≠ w.anyClass ∧ ∃ k ∈ [ValueKind.null, .unit, .bool, .int, .float, .function, .array, .string,
      .symbol, .object, .class], w.valueClass k = some base
  if isValueClass then V.err .cannotInherit
  else do
    let c ← deriveClass name base
    push c

/-- The outcome of a binary operator on two values without calls: a value, an error or panic, or the name
of the operator function to call. -/
inductive BinResult where
  | value (v : Value)
  | int (x : Int)
  | quotient (l r : Int)
  | remainder (l r : Int)
  | divideByZero
  | call (name : String)

/-- The decision of the binary operators on the popped `rhs` and the `lhs` below it:
mul 254, div 264, rem 280, add 296, gt 306, gte 317, lt 328, lte 339, sub 350, eq 360, neq 377,
ranges 394-402. -/
def binDecide (w : World) (o : Opcode) (lhs rhs : Value) : BinResult :=
  match o with
  | .multiply => match rhs, lhs with
    | .int r, .int l => .int (l * r)
    | .float r, .float l => .value (.float (l * r))
    | _, _ => .call "#mul"
  | .divide => match rhs, lhs with
    | .int r, .int l => if r = 0 then .divideByZero else .quotient l r
    | .float r, .float l => .value (.float (l / r))
    | _, _ => .call "#div"
  | .remainder => match rhs, lhs with
    | .int r, .int l => if r = 0 then .divideByZero else .remainder l r
    | .float r, .float l => .value (.float (w.fmod l r))
    | _, _ => .call "#rem"
  | .add => match rhs, lhs with
    | .int r, .int l => .int (l + r)
    | .float r, .float l => .value (.float (l + r))
    | _, _ => .call "#add"
  | .subtract => match rhs, lhs with
    | .int r, .int l => .int (l - r)
    | .float r, .float l => .value (.float (l - r))
    | _, _ => .call "#sub"
  | .greaterThan => match rhs, lhs with
    | .bool r, .bool l => .value (.bool (l && !r))
    | .int r, .int l => .value (.bool (decide (l > r)))
    | .float r, .float l => .value (.bool (decide (l > r)))
    | _, _ => .call "#gt"
  | .greaterThanOrEqual => match rhs, lhs with
    | .bool r, .bool l => .value (.bool (l || !r))
    | .int r, .int l => .value (.bool (decide (l ≥ r)))
    | .float r, .float l => .value (.bool (decide (l ≥ r)))
    | _, _ => .call "#gte"
  | .lessThan => match rhs, lhs with
    | .bool r, .bool l => .value (.bool (!l && r))
    | .int r, .int l => .value (.bool (decide (l < r)))
    | .float r, .float l => .value (.bool (decide (l < r)))
    | _, _ => .call "#lt"
  | .lessThanOrEqual => match rhs, lhs with
    | .bool r, .bool l => .value (.bool (!l || r))
    | .int r, .int l => .value (.bool (decide (l ≤ r)))
    | .float r, .float l => .value (.bool (decide (l ≤ r)))
    | _, _ => .call "#lte"
  | .equal => match rhs, lhs with
    | .null, .null => .value (.bool true)
    | .null, _ => .value (.bool false)
    | _, .null => .value (.bool false)
    | .unit, .unit => .value (.bool true)
    | .unit, _ => .value (.bool false)
    | _, .unit => .value (.bool false)
    | .bool r, .bool l => .value (.bool (l == r))
    | .int r, .int l => .value (.bool (l == r))
    | .float r, .float l => .value (.bool (l == r))
    | _, _ => .call "#eq"
  | .notEqual => match rhs, lhs with
    | .null, .null => .value (.bool false)
    | .null, _ => .value (.bool true)
    | _, .null => .value (.bool true)
    | .unit, .unit => .value (.bool false)
    | .unit, _ => .value (.bool true)
    | _, .unit => .value (.bool true)
    | .bool r, .bool l => .value (.bool (l != r))
    | .int r, .int l => .value (.bool (l != r))
    | .float r, .float l => .value (.bool (l != r))
    | _, _ => .call "#neq"
  | .rangeInclusive => .call "#range_inclusive"
  | _ => .call "#range_exclusive"

/-- The global operator function, helper.rs:48-56. -/
def operatorFn (name : String) : V Value := fun m =>
  match m.globals.get name with
  | some f => (.ok f, m)
  | none => (.err (.operatorUndefined name), m)

/-- `call_binary_op`, helper.rs:34-64, with `lhs` on top of the stack. -/
def callBinaryOp (w : World) (callFn : Nat → V Unit) (name : String) (rhs : Value) : V Unit := do
  let lhs ← pop
  let method ← getField w name lhs
  if method.isNull then do
    let f ← operatorFn name
    push f
    push lhs
    push rhs
    callFn 2
  else do
    push method
    push rhs
    callFn 1

/-- A binary operator: `rhs` is popped, `lhs` is replaced by the result. -/
def binaryOp (w : World) (callFn : Nat → V Unit) (o : Opcode) : V Unit := do
  let rhs ← pop
  let lhs ← peek 0
  match binDecide w o lhs rhs with
  | .value v => poke 0 v
  | .int x => do
    let r ← i64Result w x
    poke 0 (.int r)
  | .quotient l r => do
    let q ← i64Div l r
    poke 0 (.int q)
  | .remainder l r => do
    let q ← i64Rem l r
    poke 0 (.int q)
  | .divideByZero => V.err .divideByZero
  | .call name => callBinaryOp w callFn name rhs

/-- The update of the map of globals, mod.rs:592-600. -/
def defineGlobal (name : String) (v : Value) : V Unit := fun m =>
  match m.globals.get name with
  | some _ => (.err (.globalDefined name), m)
  | none => (.ok (), { m with globals := m.globals.insert name v })

/-- `store_global`, mod.rs:585-603. -/
def storeGlobal (name : String) : V Unit := do
  let v ← pop
  defineGlobal name v

/-- The lookup in the map of globals, mod.rs:608-614. -/
def globalValue (name : String) : V Value := fun m =>
  match m.globals.get name with
  | some v => (.ok v, m)
  | none => (.err (.globalUndefined name), m)

/-- `load_global`, mod.rs:605-617. -/
def loadGlobal (name : String) : V Unit := do
  let v ← globalValue name
  push v

/-- The functions of the interpreter an instruction may call. -/
structure Calls where
  /-- `call_fn`, helper.rs:104-125. -/
  callFn : Nat → V Unit
  /-- `call_class_constructor`, helper.rs:127-155. -/
  callCtor : Nat → Nat → Value → V Value
  /-- `run_module`, runtime.rs:101-110. -/
  runModule : Bytecode → Value → V Value

/-- The export object of a module, mod.rs:837-848: the (empty) export object is registered before the
module is loaded and run. -/
def moduleValue (w : World) (k : Calls) (name : String) : V Value := fun m =>
  match m.modules.get name with
  | some v => (.ok v, m)
  | none =>
    let r := m.heap.newObject w.moduleClass
    let m' := { m with heap := r.2, modules := m.modules.insert name r.1 }
    match w.loader name with
    | .error e => (.err e, m')
    | .ok bc => k.runModule bc r.1 m'

/-- `load_module`, mod.rs:834-851. -/
def loadModule (w : World) (k : Calls) (name : String) : V Unit := do
  let v ← moduleValue w k name
  push v

/-- One iteration of the loop in `execute`, mod.rs:47-118: the instruction `o` at `pos - 1`, its operands
from `pos`. -/
def step (w : World) (k : Calls) (bc : Bytecode) (f : Frame) (ups : Option (List Nat)) (o : Opcode)
    (pos : Nat) : V Next :=
  match o with
  | .pushNull => do push .null; pure (.goto pos)
  | .pushUnit => do push .unit; pure (.goto pos)
  | .pushFalse => do push (.bool false); pure (.goto pos)
  | .pushTrue => do push (.bool true); pure (.goto pos)
  | .pushI0 => do push (.int 0); pure (.goto pos)
  | .pushI1 => do push (.int 1); pure (.goto pos)
  | .pushF0 => do push (.float 0.0); pure (.goto pos)
  | .pushF1 => do push (.float 1.0); pure (.goto pos)
  | .pushConst => do                                   -- 450-454
    let i ← operand bc pos
    let v ← constant bc i
    push v
    pure (.goto (pos + 1))
  | .pop => do let _ ← pop; pure (.goto pos)
  | .swap => do swap; pure (.goto pos)
  | .dup => do                                         -- 142-145
    let i ← operand bc pos
    let v ← peek i
    push v
    pure (.goto (pos + 1))
  | .createArray => do                                 -- 415-420
    let n ← operand bc pos
    let items ← popCount n
    let a ← onHeap fun h => h.newArray items
    push a
    pure (.goto (pos + 1))
  | .createObject => do                                -- 422-426
    let o ← onHeap fun h => h.newObject w.anyClass
    push o
    pure (.goto pos)
  | .inheritClass => do                                -- 428-448
    let name ← symbolOperand bc pos
    inheritClass w name
    pure (.goto (pos + 1))
  | .createClosure => do                               -- 772-816
    let i ← operand bc pos
    let c ← constant bc i
    match c with
    | .fnScript code name id => do
      let us ← captures bc f ups code.upvalueCount (pos + 1)
      push (.fnClosure code name id us)
      pure (.goto (pos + 1 + 2 * code.upvalueCount))
    | _ => V.err .assertFunction
  | .negate => do                                      -- 242-252
    let v ← peek 0
    let r ← negate w v
    poke 0 r
    pure (.goto pos)
  | .not => do                                         -- 233-240
    let v ← peek 0
    let r ← notValue v
    poke 0 r
    pure (.goto pos)
  | .multiply | .divide | .remainder | .add | .subtract | .greaterThan | .greaterThanOrEqual
  | .lessThan | .lessThanOrEqual | .equal | .notEqual | .rangeInclusive | .rangeExclusive => do
    binaryOp w k.callFn o
    pure (.goto pos)
  | .is => do                                          -- 404-413
    let c ← pop
    let cls ← asClass c
    let v ← peek 0
    let r ← testType w v cls
    poke 0 (.bool r)
    pure (.goto pos)
  | .jump => do                                        -- 135-140
    let off ← offsetOperand bc pos
    pure (.goto (offsetPosition (pos + 2) off))
  | .jumpIfFalse => do                                 -- 456-465
    let off ← offsetOperand bc pos
    let v ← pop
    let b ← asBool v
    pure (.goto (if b then pos + 2 else offsetPosition (pos + 2) off))
  | .jumpIfTrue => do                                  -- 467-476
    let off ← offsetOperand bc pos
    let v ← pop
    let b ← asBool v
    pure (.goto (if b then offsetPosition (pos + 2) off else pos + 2))
  | .loadLocal => do                                   -- 478-485
    let s ← operand bc pos
    let v ← frameGet f s
    push v
    pure (.goto (pos + 1))
  | .storeLocal => do                                  -- 487-495
    let v ← pop
    let s ← operand bc pos
    frameSet f s v
    push v
    pure (.goto (pos + 1))
  | .assignLocal => do                                 -- 497-505
    let v ← pop
    let s ← operand bc pos
    frameSet f s v
    push .unit
    pure (.goto (pos + 1))
  | .loadUpvalue => do                                 -- 507-522
    let i ← operand bc pos
    let a ← upvalueAt ups i
    let v ← readCell a
    push v
    pure (.goto (pos + 1))
  | .storeUpvalue => do                                -- 524-546
    let i ← operand bc pos
    let a ← upvalueAt ups i
    let v ← pop
    writeCell a v
    push v
    pure (.goto (pos + 1))
  | .assignUpvalue => do                               -- 548-568
    let i ← operand bc pos
    let a ← upvalueAt ups i
    let v ← pop
    writeCell a v
    push .unit
    pure (.goto (pos + 1))
  | .closeUpvalue => do                                -- 570-583
    let s ← operand bc pos
    closeUpvalue f s
    pure (.goto (pos + 1))
  | .storeGlobal => do                                 -- 585-603
    let name ← symbolOperand bc pos
    storeGlobal name
    pure (.goto (pos + 1))
  | .loadGlobal => do                                  -- 605-617
    let name ← symbolOperand bc pos
    loadGlobal name
    pure (.goto (pos + 1))
  | .loadField => do                                   -- 619-629
    let key ← symbolOperand bc pos
    let v ← pop
    let r ← getField w key v
    push r
    pure (.goto (pos + 1))
  | .storeField => do                                  -- 631-642
    let key ← symbolOperand bc pos
    let v ← pop
    let o ← pop
    let obj ← asObject o
    onHeap fun h => ((), h.setField obj key v)
    push v
    pure (.goto (pos + 1))
  | .assignField => do                                 -- 644-655
    let key ← symbolOperand bc pos
    let v ← pop
    let o ← pop
    let obj ← asObject o
    onHeap fun h => ((), h.setField obj key v)
    push .unit
    pure (.goto (pos + 1))
  | .loadIndex => do                                   -- 657-676
    loadIndex w
    pure (.goto pos)
  | .storeIndex => do                                  -- 678-700
    setIndex id
    pure (.goto pos)
  | .assignIndex => do                                 -- 702-724
    setIndex (fun _ => .unit)
    pure (.goto pos)
  | .loadMethod => do                                  -- 726-740
    let key ← symbolOperand bc pos
    let receiver ← pop
    let c ← pop
    let cls ← asClass c
    let ok ← testType w receiver cls
    if ok then do
      let r ← getMethod (some cls) key receiver
      push r
      pure (.goto (pos + 1))
    else V.err .assertSuper
  | .storeMethod => do                                 -- 742-752
    let key ← symbolOperand bc pos
    let v ← pop
    let o ← pop
    let cls ← asClass o
    if v.kind = .function then do
      onHeap fun h => ((), h.setMethod cls key v)
      pure (.goto (pos + 1))
    else V.panic "Provided value is not a function."
  | .loadFieldToLocal => do                            -- 754-770
    let i ← operand bc pos
    let s ← operand bc (pos + 1)
    let c ← constant bc i
    let key ← asSymbol c
    let v ← pop
    let r ← getField w key v
    frameSet f s r
    push r
    pure (.goto (pos + 2))
  | .call => do                                        -- 818-821
    let n ← operand bc pos
    k.callFn n
    pure (.goto (pos + 1))
  | .callSuper => do                                   -- 823-832
    let n ← operand bc pos
    let c ← pop
    let cls ← asClass c
    let receiver ← peek n
    let r ← k.callCtor n cls receiver
    push r
    pure (.goto (pos + 1))
  | .loadModule => do                                  -- 834-851
    let name ← symbolOperand bc pos
    loadModule w k name
    pure (.goto (pos + 1))
  | .assertBool => do                                  -- 147-153
    let v ← peek 0
    match v with
    | .bool _ => pure (.goto pos)
    | _ => V.err .assertBool
  | .assertTypeForLocal => do                          -- 155-165
    let c ← pop
    let cls ← asClass c
    let s ← operand bc pos
    let v ← frameGet f s
    assertTypeOf w false cls v
    pure (.goto (pos + 1))
  | .assertTypeOrNullForLocal => do                    -- 167-181
    let c ← pop
    let cls ← asClass c
    let s ← operand bc pos
    let v ← frameGet f s
    assertTypeOf w true cls v
    pure (.goto (pos + 1))
  | .assertTypeAndReturn => do                         -- 183-193
    let c ← pop
    let cls ← asClass c
    let v ← peek 0
    assertTypeOf w false cls v
    pure .stop
  | .assertTypeOrNullAndReturn => do                   -- 195-205
    let c ← pop
    let cls ← asClass c
    let v ← peek 0
    assertTypeOf w true cls v
    pure .stop
  | .return_ => pure .stop

/-! ## Execution -/

/-- `cursor.read_instruction()` in the loop head: `none` ends the loop. -/
def fetch (bc : Bytecode) (pos : Nat) : V (Option Opcode) :=
  match readInstruction bc.data pos with
  | none => pure none
  | some none => V.panic "Invalid instruction."
  | some (some o) => pure (some o)

/-- The end of `execute`, mod.rs:120-130, with the debug assertion on the stack depth. -/
def finishExecute (w : World) (depth : Nat) : V Value := do
  let m ← V.get
  if w.debug = true ∧ m.ptr ≠ depth + 1 then V.panic "Stack was left in a bad state."
  else pop

/-- Storing the receiver in slot zero, helper.rs:189-191. -/
def setReceiver (f : Frame) : Option Value → V Unit
  | some r => frameSet f 0 r
  | none => pure ()

/-- The call of the native function itself, helper.rs:171. -/
def runNative (w : World) (i : Nat) (args : List Value) : V Value := fun m =>
  ((w.native i args m.heap).1, { m with heap := (w.native i args m.heap).2 })

/-- `call_fn_native`, helper.rs:157-172. -/
def callNative (w : World) (argc : Nat) (receiver : Option Value) (i : Nat) : V Value := do
  let args ← popCount (argc + 1)
  runNative w i (match receiver with | some r => args.set 0 r | none => args)

/-- The function and the receiver of a call target, helper.rs:105-110. -/
def callTarget : Value → Value × Option Value
  | .fnBound r f => (f, some r)
  | v => (v, none)

mutual

/-- The loop of `execute`, mod.rs:47-118, from position `pos`.  The first argument bounds the number of
nested steps. -/
def loop (w : World) (n : Nat) (bc : Bytecode) (f : Frame) (ups : Option (List Nat)) (pos : Nat) :
    V Unit :=
  match n with
  | 0 => V.timeout
  | n + 1 => do
    match ← fetch bc pos with
    | none => pure ()
    | some o =>
      let k : Calls :=
        { callFn := fun argc => callFn w n argc
          callCtor := fun argc cls obj => callCtor w n argc cls obj
          runModule := fun bc export_ => runModule w n bc export_ }
      match ← step w k bc f ups o (pos + 1) with
      | .goto pos => loop w n bc f ups pos
      | .stop => pure ()

/-- `execute`, mod.rs:32-133. -/
def execute (w : World) (n : Nat) (bc : Bytecode) (f : Frame) (ups : Option (List Nat)) : V Value :=
  match n with
  | 0 => V.timeout
  | n + 1 => do
    let m ← V.get
    loop w n bc f ups 0
    finishExecute w m.ptr

/-- `call_fn_script`, helper.rs:174-199. -/
def callScript (w : World) (n : Nat) (argc : Nat) (receiver : Option Value) (bc : Bytecode)
    (ups : Option (List Nat)) : V Value :=
  match n with
  | 0 => V.timeout
  | n + 1 => do
    let slots := bc.slotCount
    let reserved := if argc < slots then slots - argc else slots
    let f ← reserveSlots w reserved
    if f.start < argc + 1 then V.panic "index out of bounds"
    else do
      let f : Frame := { start := f.start - (argc + 1), stop := f.stop }
      setReceiver f receiver
      let result ← execute w n bc f ups
      releaseFrame w f
      pure result

/-- `call_fn`, helper.rs:104-125. -/
def callFn (w : World) (n : Nat) (argc : Nat) : V Unit :=
  match n with
  | 0 => V.timeout
  | n + 1 => do
    let target ← peek argc
    (match callTarget target with
      | (.fnClosure bc _ _ us, receiver) => callScript w n argc receiver bc (some us)
      | (.fnScript bc _ _, receiver) => callScript w n argc receiver bc none
      | (.cls c, _) => do
        let o ← onHeap fun h => h.newObject c
        callCtor w n argc c o
      | (.fnNative i, receiver) => callNative w argc receiver i
      | _ => V.err .assertFunction) >>= push

/-- `call_class_constructor`, helper.rs:127-155. -/
def callCtor (w : World) (n : Nat) (argc : Nat) (cls : Nat) (obj : Value) : V Value :=
  match n with
  | 0 => V.timeout
  | n + 1 => do
    let m ← V.get
    (match m.heap.method cls "new" with
      | some new => do
        poke argc (.fnBound obj new)
        callFn w n argc
        peek 0
      | none =>
        if argc > 0 then do
          let _ ← popCount argc
          pure obj
        else
          match (m.heap.classes[cls]?.bind (·.base)).bind (m.heap.method · "new") with
          | some _ => V.err .mustHaveNew
          | none => pure obj) >>= fun result => do
    let _ ← pop
    pure result

/-- `run_module`, runtime.rs:101-110. -/
def runModule (w : World) (n : Nat) (bc : Bytecode) (export_ : Value) : V Value :=
  match n with
  | 0 => V.timeout
  | n + 1 => do
    let f ← reserveSlots w bc.slotCount
    memSet f.start export_
    let result ← execute w n bc f none
    releaseFrame w f
    pure result

end

/-- `Runtime::run`, runtime.rs:90-99. -/
def run (w : World) (n : Nat) (bc : Bytecode) : V Value := do
  let f ← reserveSlots w bc.slotCount
  let result ← execute w n bc f none
  releaseFrame w f
  pure result

end Dice
