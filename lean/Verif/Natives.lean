import Verif.Vm

/-!
# The built-in classes

Model of `/repo/dice-runtime/src/classes/*.rs` and of the set-up of the runtime
(`/repo/dice-runtime/src/runtime.rs:51-69`, `81`, `112-117`).  At this commit the registration is commented
out in the middle of a refactoring; the model follows the text of the functions, which still exists.

Floating point is a parameter (`FloatLib`), and so is the text of values other than `null`, units,
booleans, integers, strings, symbols and native functions.  `first` with a predicate, `filter` and
`map` call back into the interpreter; they are modelled separately (`Natives.first`, `filter`, `map`)
for any callback, and inside `World.native` they are a panic.
-/

namespace Dice

namespace Natives

/-- The functions on floats and the texts that are not modelled. -/
structure FloatLib where
  unary : String → Float → Float
  binary : String → Float → Float → Float
  test : String → Float → Bool
  /-- `as i64`: saturating. -/
  toInt : Float → Int
  /-- `as f64`. -/
  ofInt : Int → Float
  /-- `str::parse::<f64>`. -/
  parse : String → Option Float
  /-- The text of a value that holds a float or a reference. -/
  text : Heap → Value → String

/-! ## Text of integers and booleans (Rust standard library) -/

/-- `char::to_digit(10)`. -/
def toDigit (c : Char) : Option Nat := if c.isDigit then some (c.toNat - '0'.toNat) else none

/-- The checked result of an operation on `i64` in `from_str_radix`. -/
def checked (x : Int) : Option Int := if InI64 x then some x else none

/-- The loop over the digits of `i64::from_str_radix`: `sign` is `1` or `-1`. -/
def parseLoop (sign : Int) : Int → List Char → Option Int
  | acc, [] => some acc
  | acc, c :: cs => do
    let d ← toDigit c
    let acc ← checked (acc * 10)
    let acc ← checked (acc + sign * d)
    parseLoop sign acc cs

/-- `str::parse::<i64>`. -/
def parseI64 (s : String) : Option Int :=
  match s.toList with
  | [] => none
  | ['+'] => none
  | ['-'] => none
  | '+' :: cs => parseLoop 1 0 cs
  | '-' :: cs => parseLoop (-1) 0 cs
  | cs => parseLoop 1 0 cs

/-- `i64::to_string`. -/
def showI64 (n : Int) : String :=
  String.ofList (if n < 0 then '-' :: Nat.toDigits 10 n.natAbs else Nat.toDigits 10 n.natAbs)

/-- `str::parse::<bool>`. -/
def parseBool (s : String) : Option Bool :=
  if s = "true" then some true else if s = "false" then some false else none

/-- `bool::to_string`. -/
def showBool (b : Bool) : String := if b then "true" else "false"

/-- `Value::to_string`, `/repo/dice-runtime/src/value.rs:185-204`, fn_native.rs:34-38, string.rs:52-56. -/
def text (lib : FloatLib) (h : Heap) : Value → String
  | .null => "null"
  | .unit => "Unit"
  | .bool b => showBool b
  | .int i => showI64 i
  | .str s => s
  | .sym s => s
  | .fnNative _ => "native_fn"
  | v => lib.text h v

/-! ## Powers (Rust standard library) -/

/-- A multiplication of `i64`: `none` is the overflow panic of the debug build. -/
def mulI64 (checks : Bool) (a b : Int) : Option Int :=
  if InI64 (a * b) then some (a * b) else if checks then none else some (Int.bmod (a * b) (2 ^ 64))

/-- The loop of `i64::pow`: squaring. -/
def powLoop (checks : Bool) (base : Int) (exp : Nat) (acc : Int) : Option Int :=
  if h : exp ≤ 1 then mulI64 checks acc base
  else do
    let acc ← if exp % 2 = 1 then mulI64 checks acc base else some acc
    let base ← mulI64 checks base base
    powLoop checks base (exp / 2) acc
termination_by exp
decreasing_by omega

/-- `i64::pow`. -/
def powI64 (checks : Bool) (base : Int) (exp : Nat) : Option Int :=
  if exp = 0 then some 1 else powLoop checks base exp 1

/-! ## The functions -/

/-- The native functions that the classes register. -/
inductive Fn where
  | toString | fields | methods | classOf
  | newArray | push | pop | length | first | filter | map | iter
  | newBool | name | base
  | newFloat | floatUnary (name : String) | floatBinary (name : String) | floatTest (name : String)
  | newFunction
  | newInt | abs | pow | isPositive | isNegative | min | max
  | newString | concat
  deriving DecidableEq, Repr

/-- The class `Any` is allocated first, runtime.rs:52. -/
def anyClass : Nat := 0

/-- The class `Module`, runtime.rs:53. -/
def moduleClass : Nat := 1

/-- `value_class_mapping` after `register_known_types`, classes/mod.rs:19-28. -/
def valueClass : ValueKind → Option Nat
  | .array => some 2
  | .bool => some 3
  | .class => some 4
  | .float => some 5
  | .function => some 6
  | .int => some 7
  | .string => some 8
  | .unit => some 9
  | _ => none

/-- The names of a map, each once; the order of a hash map is not specified, the model takes the newest
first. -/
def keys (m : ValueMap) : List String := (m.map (·.1)).eraseDups

/-- `class_of`, runtime.rs:190-199. -/
def classOf (h : Heap) (v : Value) : Nat :=
  match (h.asObject v).bind (·.cls) with
  | some c => c
  | none => (valueClass v.kind).getD anyClass

/-- `arr.elements()`. -/
def elements (h : Heap) (a : Nat) : List Value := ((h.arrays[a]?).map (·.elements)).getD []

/-- `arr.push(value)`, value/array.rs:28-30. -/
def pushElement (h : Heap) (a : Nat) (v : Value) : Heap :=
  { h with arrays := h.arrays.modify a fun arr => { arr with elements := arr.elements ++ [v] } }

/-- `arr.pop()`, value/array.rs:32-34. -/
def popElement (h : Heap) (a : Nat) : Heap :=
  { h with arrays := h.arrays.modify a fun arr => { arr with elements := arr.elements.dropLast } }

/-- The result `x` of an operation on `i64` in a native function. -/
def intResult (checks : Bool) (x : Int) : Outcome Value :=
  if InI64 x then .ok (.int x)
  else if checks then .panic "attempt to compute with overflow" else .ok (.int (Int.bmod x (2 ^ 64)))

/-- The bodies of the native functions; `firstIterator` is the number of native functions registered by
the classes: the iterator of an array (classes/array.rs:126-154) is a native function of its own, with
the array and the position in a cell that only it knows.  The model keeps that cell among the arrays:
the native function `firstIterator + k` uses the array `k`, whose address no program sees. -/
def Fn.run (lib : FloatLib) (checks : Bool) (firstIterator : Nat) (f : Fn) (args : List Value) (h : Heap) :
    Outcome Value × Heap :=
  match f, args with
  -- classes/any.rs:27-32
  | .toString, v :: _ => (.ok (.str (text lib h v)), h)
  -- classes/any.rs:34-45
  | .fields, v :: _ =>
    match h.asObject v with
    | some o =>
      let (a, h) := h.newArray ((keys ((h.maps[o.fields]?).getD [])).map .str)
      (.ok a, h)
    | none => (.ok .null, h)
  -- classes/any.rs:47-61
  | .methods, v :: _ =>
    let (a, h) := h.newArray ((keys (((h.classes[Natives.classOf h v]?).map (·.methods)).getD [])).map .str)
    (.ok a, h)
  -- classes/any.rs:63-68
  | .classOf, v :: _ => (.ok (.cls (Natives.classOf h v)), h)
  -- classes/array.rs:34-39
  | .newArray, _ :: rest =>
    let (a, h) := h.newArray rest
    (.ok a, h)
  -- classes/array.rs:41-49
  | .push, .array a :: v :: _ => (.ok .unit, pushElement h a v)
  -- classes/array.rs:51-59
  | .pop, .array a :: _ => (.ok ((elements h a).getLast?.getD .unit), popElement h a)
  -- classes/array.rs:61-67
  | .length, .array a :: _ => (.ok (.int (elements h a).length), h)
  -- classes/array.rs:69-86; with a predicate it calls back
  | .first, [.array a] => (.ok ((elements h a).head?.getD .null), h)
  | .first, .array _ :: _ => (.panic "calls back into the interpreter", h)
  -- classes/array.rs:88-124
  | .filter, .array _ :: _ :: _ => (.panic "calls back into the interpreter", h)
  | .map, .array _ :: _ :: _ => (.panic "calls back into the interpreter", h)
  -- classes/array.rs:126-154
  | .iter, .array a :: _ =>
    let cell := h.arrays.length
    let (_, h) := h.newArray [.array a, .int 0]
    let o := h.objects.length
    let (v, h) := h.newObject anyClass
    match h.objects[o]? with
    | some obj => (.ok v, h.setField obj "next" (.fnNative (firstIterator + cell)))
    | none => (.panic "unreachable", h)
  -- classes/bool.rs:22-31
  | .newBool, _ :: .bool b :: _ => (.ok (.bool b), h)
  | .newBool, _ :: .str s :: _ => (.ok (((parseBool s).map .bool).getD .null), h)
  -- classes/class.rs:21-26
  | .name, .cls c :: _ => (.ok (((h.classes[c]?).map fun cl => .str cl.name).getD .null), h)
  -- classes/class.rs:28-36
  | .base, .cls c :: _ => (.ok ((((h.classes[c]?).bind (·.base)).map .cls).getD .null), h)
  -- classes/float.rs:69-79
  | .newFloat, _ :: .float x :: _ => (.ok (.float x), h)
  | .newFloat, _ :: .int i :: _ => (.ok (.float (lib.ofInt i)), h)
  | .newFloat, _ :: .str s :: _ => (.ok (((lib.parse s).map .float).getD .null), h)
  -- classes/float.rs:81-100
  | .floatUnary n, .float x :: _ => (.ok (.float (lib.unary n x)), h)
  | .floatTest n, .float x :: _ => (.ok (.bool (lib.test n x)), h)
  | .floatBinary n, .float x :: .float y :: _ => (.ok (.float (lib.binary n x y)), h)
  -- classes/function.rs:22-33
  | .newFunction, _ :: v :: _ => (.ok (if v.kind = .function then v else .null), h)
  -- classes/int.rs:43-53
  | .newInt, _ :: .int i :: _ => (.ok (.int i), h)
  | .newInt, _ :: .float x :: _ => (.ok (.int (lib.toInt x)), h)
  | .newInt, _ :: .str s :: _ => (.ok (((parseI64 s).map .int).getD .null), h)
  -- classes/int.rs:17 with 55-60
  | .abs, .int i :: _ => (intResult checks i.natAbs, h)
  -- classes/int.rs:76-82
  | .pow, .int i :: .int e :: _ =>
    match powI64 checks i (e % 2 ^ 32).toNat with
    | some x => (.ok (.int x), h)
    | none => (.panic "attempt to multiply with overflow", h)
  -- classes/int.rs:19-20 with 62-67
  | .isPositive, .int i :: _ => (.ok (.bool (decide (0 < i))), h)
  | .isNegative, .int i :: _ => (.ok (.bool (decide (i < 0))), h)
  -- classes/int.rs:21-22 with 69-74
  | .min, .int i :: .int j :: _ => (.ok (.int (if j < i then j else i)), h)
  | .max, .int i :: .int j :: _ => (.ok (.int (if i ≤ j then j else i)), h)
  -- classes/string.rs:25-30
  | .newString, _ :: v :: _ => (.ok (.str (text lib h v)), h)
  -- classes/string.rs:31-36
  | .concat, .str s :: .str t :: _ => (.ok (.str (s ++ t)), h)
  -- every other call, the last case of each function
  | _, _ => (.ok .null, h)

/-- The function `next` of the iterator of an array, classes/array.rs:133-145. -/
def next (cell : Nat) (h : Heap) : Outcome Value × Heap :=
  match elements h cell with
  | [.array a, .int i] =>
    let o := h.objects.length
    let (v, h) := h.newObject anyClass
    match h.objects[o]? with
    | none => (.panic "unreachable", h)
    | some obj =>
      match (elements h a)[i.toNat]? with
      | some x =>
        let h := (h.setField obj "value" x).setField obj "is_done" (.bool false)
        (.ok v, { h with arrays := h.arrays.modify cell fun c => { c with elements := [.array a, .int (i + 1)] } })
      | none => (.ok v, h.setField obj "is_done" (.bool true))
  | _ => (.panic "not an iterator", h)

/-! ## Registration -/

/-- Methods of `Float` with one argument, classes/float.rs:19-45. -/
def floatUnaries : List String :=
  ["abs", "sqrt", "cbrt", "floor", "ceil", "round", "cos", "sin", "tan", "acos", "asin", "atan", "cosh", "sinh",
   "tanh", "acosh", "asinh", "atanh", "log2", "ln", "log10", "to_degrees", "to_radians"]

/-- Methods of `Float` with two arguments, classes/float.rs:31, 38, 42, 45-46. -/
def floatBinaries : List String := ["atan2", "log", "pow", "min", "max"]

/-- Methods of `Float` that answer a question, classes/float.rs:48-53. -/
def floatTests : List String :=
  ["is_finite", "is_infinite", "is_nan", "is_sign_negative", "is_sign_positive", "is_normal"]

/-- The methods that each class registers, as (class, method, function), in the order of
runtime.rs:52-53 and classes/mod.rs:19-28. -/
def registered : List (Nat × String × Fn) :=
  [(0, "to_string", .toString), (0, "fields", .fields), (0, "methods", .methods), (0, "class_of", .classOf),
   (2, "new", .newArray), (2, "push", .push), (2, "pop", .pop), (2, "length", .length), (2, "first", .first),
   (2, "filter", .filter), (2, "map", .map), (2, "iter", .iter),
   (3, "new", .newBool),
   (4, "name", .name), (4, "base", .base),
   (5, "new", .newFloat)] ++
  floatUnaries.map (fun n => (5, n, .floatUnary n)) ++
  floatBinaries.map (fun n => (5, n, .floatBinary n)) ++
  floatTests.map (fun n => (5, n, .floatTest n)) ++
  [(6, "new", .newFunction),
   (7, "new", .newInt), (7, "abs", .abs), (7, "pow", .pow), (7, "is_positive", .isPositive),
   (7, "is_negative", .isNegative), (7, "min", .min), (7, "max", .max),
   (8, "new", .newString), (8, "#add", .concat)]

/-- The native functions of the runtime by number. -/
def native (lib : FloatLib) (checks : Bool) (i : Nat) (args : List Value) (h : Heap) : Outcome Value × Heap :=
  match registered[i]? with
  | some (_, _, f) => f.run lib checks registered.length args h
  | none => next (i - registered.length) h

/-- `Class::new`, value/class.rs:25-42. -/
def newClass (h : Heap) (name : String) : Heap :=
  let (o, h) := h.newObj none
  { h with classes := h.classes ++ [⟨name, [], o, [h.classes.length], none⟩] }

/-- `base.derive(name)`, value/class.rs:71-73. -/
def derive (h : Heap) (base : Nat) (name : String) : Heap :=
  match h.classes[base]? with
  | some b => (h.classWithBase name base b).2
  | none => h

/-- `class.set_field(key, value)` on a class. -/
def setClassField (h : Heap) (c : Nat) (key : String) (v : Value) : Heap :=
  match h.classes[c]? with
  | some cl => h.setField cl.object key v
  | none => h

/-- The fields that the class `Float` gets, classes/float.rs:55-63.  The values are given by a
library. -/
def floatFields : List String :=
  ["MAX", "MIN", "MIN_POSITIVE", "EPSILON", "PI", "E", "NAN", "INFINITY", "NEG_INFINITY"]

/-- The fields that the class `Int` gets, classes/int.rs:24-37. -/
def intFields : List (String × Int) :=
  [("MAX", 2 ^ 63 - 1), ("MIN", -(2 ^ 63)), ("I32_MAX", 2 ^ 31 - 1), ("I32_MIN", -(2 ^ 31)),
   ("U32_MAX", 2 ^ 32 - 1), ("U32_MIN", 0), ("I16_MAX", 2 ^ 15 - 1), ("I16_MIN", -(2 ^ 15)),
   ("U16_MAX", 2 ^ 16 - 1), ("U16_MIN", 0), ("I8_MAX", 127), ("I8_MIN", -128), ("U8_MAX", 255), ("U8_MIN", 0)]

/-- The names of the classes derived from `Any`, in order of allocation: runtime.rs:53 and
classes/mod.rs:19-28. -/
def derivedNames : List String :=
  ["Module", "Array", "Bool", "Class", "Float", "Function", "Int", "String", "Unit"]

/-- Registers the methods of one class, with the number of the first of them. -/
def setMethods (c : Nat) : Nat → List (Nat × String × Fn) → Heap → Heap
  | _, [], h => h
  | i, (d, name, _) :: rest, h =>
    setMethods c (i + 1) rest (if d = c then h.setMethod c name (.fnNative i) else h)

/-- One class derived from `Any` with its methods and fields. -/
def register (constant : String → Float) (h : Heap) (name : String) : Heap :=
  let c := h.classes.length
  let h := setMethods c 0 registered (derive h anyClass name)
  if name = "Float" then floatFields.foldl (fun h k => setClassField h c k (.float (constant k))) h
  else if name = "Int" then intFields.foldl (fun h p => setClassField h c p.1 (.int p.2)) h
  else h

/-- The heap of a new runtime, runtime.rs:51-69 and 81. -/
def initialHeap (constant : String → Float) : Heap :=
  derivedNames.foldl (register constant) (setMethods anyClass 0 registered (newClass {} "Any"))

/-- A new runtime.  `Any`, `Module` and the registered classes are globals (runtime.rs:54-56, 112-117). -/
def machine (constant : String → Float) : VM :=
  { heap := initialHeap constant
    globals := ((("Any" :: derivedNames).zip (List.range 10)).map fun p => (p.1, .cls p.2)).reverse }

/-- The surroundings of a program in the runtime. -/
def world (lib : FloatLib) (loader : String → Except RtErr Bytecode) (fmod : Float → Float → Float)
    (checks debug : Bool) : World :=
  { native := native lib checks
    loader, anyClass, moduleClass, valueClass, fmod, checks, debug }

/-! ## Functions that call back, classes/array.rs:69-124

`call` is `runtime.call_function(f, &[value])`.  The elements stay borrowed during the whole loop, so the
array cannot change: a callback that changes it panics.  A panic of the callback ends the loop. -/

/-- `.ok().and_then(|value| value.as_bool().ok()).unwrap_or(false)`. -/
def truth : Outcome Value → Outcome Bool
  | .ok (.bool b) => .ok b
  | .ok _ => .ok false
  | .err _ => .ok false
  | .panic s => .panic s
  | .timeout => .timeout

/-- Continue with the value of a computation. -/
def andThen {α β : Type} : Outcome α → (α → Outcome β) → Outcome β
  | .ok a, f => f a
  | .err e, _ => .err e
  | .panic s, _ => .panic s
  | .timeout, _ => .timeout

/-- `find`, classes/array.rs:71-82. -/
def first {σ : Type} (call : Value → σ → Outcome Value × σ) : List Value → σ → Outcome Value × σ
  | [], s => (.ok .null, s)
  | x :: xs, s =>
    match truth (call x s).1 with
    | .ok true => (.ok x, (call x s).2)
    | .ok false => first call xs (call x s).2
    | .err e => (.err e, (call x s).2)
    | .panic m => (.panic m, (call x s).2)
    | .timeout => (.timeout, (call x s).2)

/-- `filter`, classes/array.rs:88-106. -/
def filter {σ : Type} (call : Value → σ → Outcome Value × σ) : List Value → σ → Outcome (List Value) × σ
  | [], s => (.ok [], s)
  | x :: xs, s =>
    match truth (call x s).1 with
    | .ok b =>
      let (r, s) := filter call xs (call x s).2
      (andThen r fun ys => .ok (if b then x :: ys else ys), s)
    | .err e => (.err e, (call x s).2)
    | .panic m => (.panic m, (call x s).2)
    | .timeout => (.timeout, (call x s).2)

/-- `.ok().unwrap_or(Value::Null)`. -/
def orNull : Outcome Value → Outcome Value
  | .err _ => .ok .null
  | o => o

/-- `map`, classes/array.rs:108-124. -/
def map {σ : Type} (call : Value → σ → Outcome Value × σ) : List Value → σ → Outcome (List Value) × σ
  | [], s => (.ok [], s)
  | x :: xs, s =>
    match orNull (call x s).1 with
    | .ok y =>
      let (r, s) := map call xs (call x s).2
      (andThen r fun ys => .ok (y :: ys), s)
    | .err e => (.err e, (call x s).2)
    | .panic m => (.panic m, (call x s).2)
    | .timeout => (.timeout, (call x s).2)

end Natives

end Dice
