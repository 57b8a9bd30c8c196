import Verif.NativeArray

/-!
# The prelude

`/repo/data/scripts/prelude.dm` is the script that the command line tool loads before every program
(`/repo/dice-cli/src/main.rs:19`).  It is part of the code: here is its syntax tree, one definition for
each declaration.  The trees are the output of the model of the parser on the text of the file; the kernel
is not asked to repeat that, because it evaluates the lexer slowly.
-/

namespace Dice

namespace Natives

/-- The constructor of both classes of ranges, prelude.dm:2-5 and 27-30. -/
def rangeNew : Expr :=
  .fnDecl "new" [⟨"self", none⟩, ⟨"start", none⟩, ⟨"end", none⟩] none
    (.block [.assign .assign (.field (.ident "self") "start") (.ident "start")]
      (some (.assign .assign (.field (.ident "self") "end") (.ident "end"))))

/-- The method `iter` of both classes of ranges, which differ in the comparison and in the name of the field
that says whether the iterator is done: prelude.dm:7-23 and 32-48. -/
def rangeIter (compare : BinaryOp) (done : String) : Expr :=
  .fnDecl "iter" [⟨"self", none⟩] none
    (.block [.varDecl (.singular "current") true (.field (.ident "self") "start") none]
      (some (.object [("next", .anonFn [] none
        (.block
          [.varDecl (.singular "result") false
            (.ifExpr (.binary compare (.ident "current") (.field (.ident "self") "end"))
              (.block [] (some (.object [("value", .ident "current"), (done, .bool false)])))
              (some (.block [] (some (.object [(done, .bool true)]))))) none,
           .assign .add (.ident "current") (.int 1)]
          (some (.ident "result"))))])))

/-- prelude.dm:1-24. -/
def range : Expr := .classDecl "Range" none [rangeNew, rangeIter .lessThan "is_done"]

/-- prelude.dm:26-49. -/
def rangeInclusive : Expr := .classDecl "RangeInclusive" none [rangeNew, rangeIter .lessThanEquals "done"]

/-- prelude.dm:51-53 and 55-57. -/
def rangeOp (op : OverOp) (cls : String) : Expr :=
  .opDecl op [⟨"start", none⟩, ⟨"end", none⟩] none
    (.block [] (some (.call (.ident cls) [.ident "start", .ident "end"])))

/-- prelude.dm:59-72. -/
def result : Expr :=
  .classDecl "Result" none
    [.fnDecl "new" [⟨"self", none⟩, ⟨"is_ok", some ⟨"Bool", false⟩⟩, ⟨"result", some ⟨"Any", true⟩⟩] none
      (.block [.assign .assign (.field (.ident "self") "is_ok") (.ident "is_ok")]
        (some (.assign .assign (.field (.ident "self") "result") (.ident "result")))),
     .fnDecl "map" [⟨"self", none⟩, ⟨"map_fn", some ⟨"Function", false⟩⟩] (some ⟨"Result", false⟩)
      (.block [] (some (.ifExpr (.field (.ident "self") "is_ok")
        (.block [] (some (.call (.ident "Ok") [.call (.ident "map_fn") [.field (.ident "self") "result"]])))
        (some (.block [] (some (.call (.ident "Err") [.field (.ident "self") "result"])))))))]

/-- prelude.dm:74-78 and 80-84. -/
def resultCase (name : String) (isOk : Bool) : Expr :=
  .classDecl name (some (.ident "Result"))
    [.fnDecl "new" [⟨"self", none⟩, ⟨"result", none⟩] none
      (.block [] (some (.superCall [.bool isOk, .ident "result"])))]

/-- prelude.dm:86-88. -/
def roll : Expr :=
  .fnDecl "roll" [⟨"expression", some ⟨"String", false⟩⟩] none (.block [] (some (.ident "expression")))

/-- The prelude. -/
def prelude : Expr :=
  .block
    [.exportDecl range, .exportDecl rangeInclusive, rangeOp .rangeExclusive "Range",
     rangeOp .rangeInclusive "RangeInclusive", .exportDecl result, .exportDecl (resultCase "Ok" true),
     .exportDecl (resultCase "Err" false)]
    (some (.exportDecl roll))

/-- `globals.entry(name).or_insert_with(…)`, runtime.rs:161. -/
def addGlobal (fields : ValueMap) (globals : ValueMap) (name : String) : ValueMap :=
  match globals.get name with
  | some _ => globals
  | none => match fields.get name with
    | some v => globals.insert name v
    | none => globals

/-- `load_prelude`, runtime.rs:152-165.  The module is registered under its path. -/
def loadPrelude (w : World) (n : Nat) (path : String) : V Unit := fun m =>
  match w.loader path with
  | .error e => (.err e, m)
  | .ok bc =>
    let r := m.heap.newObject w.moduleClass
    match runModule w n bc r.1 { m with heap := r.2, modules := m.modules.insert path r.1 } with
    | (.ok v, m) =>
      match m.heap.asObject v with
      | some o =>
        let fields := (m.heap.maps[o.fields]?).getD []
        (.ok (), { m with globals := (keys fields).foldl (addGlobal fields) m.globals })
      | none => (.err .invalidObject, m)
    | (.err e, m) => (.err e, m)
    | (.panic s, m) => (.panic s, m)
    | (.timeout, m) => (.timeout, m)

/-- A loader that knows the prelude. -/
def withPrelude (loader : String → Except RtErr Bytecode) (path : String) : Except RtErr Bytecode :=
  if path = "prelude.dm" then
    match compile .module prelude with
    | .ok bc => .ok bc
    | .error _ => .error (.load path)
  else loader path

/-- The prelude compiles to code that follows the stack discipline. -/
def preludeOk : Bool :=
  balanced {} prelude && match compile .module prelude with
  | .error _ => false
  | .ok bc => fitsUpTo 9 bc

theorem prelude_ok : preludeOk = true := by decide +kernel

theorem prelude_compiles : ∃ bc, compile .module prelude = .ok bc ∧ balanced {} prelude = true ∧ Fits bc := by
  have h := prelude_ok
  unfold preludeOk at h
  rw [Bool.and_eq_true] at h
  cases hc : compile .module prelude with
  | error _ => rw [hc] at h; cases h.2
  | ok bc =>
    rw [hc] at h
    exact ⟨bc, rfl, h.1, fitsUpTo_sound h.2⟩

theorem addGlobal_good {fields globals : ValueMap} (hf : GoodMap fields) (hg : GoodMap globals) (name : String) :
    GoodMap (addGlobal fields globals name) := by
  unfold addGlobal
  split
  · exact hg
  · split
    · next v hv => exact hg.insert name (hf.get hv)
    · exact hg

theorem addGlobals_good {fields : ValueMap} (hf : GoodMap fields) (names : List String) :
    ∀ {globals : ValueMap}, GoodMap globals → GoodMap (names.foldl (addGlobal fields) globals) := by
  induction names with
  | nil => exact fun h => h
  | cons x xs ih => exact fun h => ih (addGlobal_good hf h x)

theorem loadPrelude_good {w : World} (hw : GoodWorld w) {m : VM} (g : GoodVM m) (n : Nat) (path : String) :
    GoodVM (loadPrelude w n path m).2 := by
  unfold loadPrelude
  cases hl : w.loader path with
  | error e => exact g
  | ok bc =>
    dsimp only
    have hm := newObject_good g.heap w.moduleClass
    have g1 : GoodVM { m with
        heap := (m.heap.newObject w.moduleClass).2
        modules := m.modules.insert path (m.heap.newObject w.moduleClass).1 } :=
      { mem := g.mem, heap := hm.1, cells := g.cells, globals := g.globals,
        modules := g.modules.insert path hm.2, clean := g.clean }
    obtain ⟨hb, hz⟩ := hw.loader path bc hl
    have := ((calls_good hw n).runModule bc _ _ (fun _ => False) g1 hb hz hm.2 (fun _ h => h.elim)).good
    change GoodVM (runModule w n bc _ _).2 at this
    split
    · next v m' hr =>
      rw [hr] at this
      split
      · next o ho =>
        refine { this with globals := addGlobals_good ?_ _ this.globals }
        cases hx : m'.heap.maps[o.fields]? with
        | none => exact fun _ _ h => nomatch h
        | some mp => exact this.heap.maps mp (List.mem_of_getElem? hx)
      · exact this
    · next hr => rw [hr] at this; exact this
    · next hr => rw [hr] at this; exact this
    · next hr => rw [hr] at this; exact this

theorem withPrelude_good {loader : String → Except RtErr Bytecode}
    (hl : ∀ name bc, loader name = .ok bc → GoodCode bc ∧ 0 < bc.slotCount) (name : String) (bc : Bytecode)
    (h : withPrelude loader name = .ok bc) : GoodCode bc ∧ 0 < bc.slotCount := by
  unfold withPrelude at h
  split at h
  · obtain ⟨bc', hc, hb, hf⟩ := prelude_compiles
    rw [hc] at h
    cases h
    exact ⟨compile_good hc hb hf, compile_module_slots hc⟩
  · exact hl name bc h

end Natives

open Natives

section

variable (constant : String → Float) (lib : FloatLib) (loader : String → Except RtErr Bytecode)
  (fmod : Float → Float → Float) (checks debug : Bool)

/-- The surroundings of a program in the command line tool. -/
abbrev Natives.tool : World := Natives.world lib (withPrelude loader) fmod checks debug

/-- The runtime after loading the prelude, with the outcome of loading it. -/
def Natives.boot : Outcome Unit × VM :=
  loadPrelude (tool lib loader fmod checks debug) 300 "prelude.dm" (Natives.machine constant)

/-- **C59**: the runtime that programs find, with the built-in classes and the prelude, meets what the theorems
about programs assume. -/
theorem boot_good (hl : ∀ name bc, loader name = .ok bc → GoodCode bc ∧ 0 < bc.slotCount) :
    GoodWorld (tool lib loader fmod checks debug) ∧ GoodVM (boot constant lib loader fmod checks debug).2 :=
  ⟨natives_good (withPrelude_good hl),
    loadPrelude_good (natives_good (withPrelude_good hl)) (runtime_good constant).1 300 "prelude.dm"⟩

/-- **C44, C59**: so a successful run of a balanced program leaves the stack of that runtime as it was. -/
theorem tool_restores_stack_partial (hl : ∀ name bc, loader name = .ok bc → GoodCode bc ∧ 0 < bc.slotCount)
    {root : Expr} {bc : Bytecode} (h : compile .script root = .ok bc) (hb : balanced {} root = true) (hf : Fits bc)
    {m' : VM} {n : Nat} {v : Value}
    (hr : run (tool lib loader fmod checks debug) n bc (boot constant lib loader fmod checks debug).2 = (.ok v, m')) :
    m'.ptr = (boot constant lib loader fmod checks debug).2.ptr :=
  (run_restores_stack_partial h hb hf (boot_good constant lib loader fmod checks debug hl).1
    (boot_good constant lib loader fmod checks debug hl).2 hr).1

/-- The outcome of a program in the runtime. -/
def Natives.outcome (root : Expr) : Outcome Value :=
  match compile .script root with
  | .error _ => .panic "rejected"
  | .ok bc => (run (tool lib loader fmod checks debug) 600 bc (boot constant lib loader fmod checks debug).2).1

/-- The prelude loads, and then the classes, operators and functions that it defines are there. -/
def Natives.bootOk (r : Outcome Unit × VM) : Bool :=
  (match r.1 with
    | .ok _ => true
    | _ => false) &&
  r.2.ptr == 0 &&
  (["Range", "RangeInclusive", "Result", "Ok", "Err"].all fun c =>
    match r.2.globals.get c with
    | some (.cls _) => true
    | _ => false) &&
  (["#range_exclusive", "#range_inclusive", "roll"].all fun f =>
    match r.2.globals.get f with
    | some v => decide (v.kind = .function)
    | none => false) &&
  (("Any" :: derivedNames).all fun c =>
    match r.2.globals.get c with
    | some (.cls _) => true
    | _ => false)

/-- **C61**: loading the prelude succeeds in every build and defines its classes, operators and functions. -/
theorem prelude_loads : bootOk (boot constant lib loader fmod checks debug) = true := by
  cases debug
  · kernel_rfl
  · kernel_rfl

/-! ## C60: constants of classes -/

/-- The field `key` of the built-in class `cls`. -/
def Natives.constantOf (cls key : String) : Option Value :=
  match (Natives.machine constant).globals.get cls with
  | some v => (Natives.machine constant).heap.ownField key v
  | none => none

/-- **C60**: the constants of `Int` have their values. -/
theorem int_constants : ∀ p ∈ [("MAX", 9223372036854775807), ("MIN", -9223372036854775808),
      ("I32_MAX", 2147483647), ("I32_MIN", -2147483648), ("U32_MAX", 4294967295), ("U32_MIN", 0),
      ("I16_MAX", 32767), ("I16_MIN", -32768), ("U16_MAX", 65535), ("U16_MIN", 0),
      ("I8_MAX", 127), ("I8_MIN", -128), ("U8_MAX", 255), ("U8_MIN", 0)],
    constantOf constant "Int" p.1 = some (.int p.2) := by
  simp only [List.mem_cons, List.not_mem_nil, or_false]
  rintro p (rfl | rfl | rfl | rfl | rfl | rfl | rfl | rfl | rfl | rfl | rfl | rfl | rfl | rfl) <;> kernel_rfl

/-- **C60**: the constants of `Float` other than `MAX` and `MIN` have their values. -/
theorem float_constants_partial : ∀ k ∈ ["MIN_POSITIVE", "EPSILON", "PI", "E", "NAN", "INFINITY", "NEG_INFINITY"],
    constantOf constant "Float" k = some (.float (constant k)) := by
  simp only [List.mem_cons, List.not_mem_nil, or_false]
  rintro k (rfl | rfl | rfl | rfl | rfl | rfl | rfl) <;> kernel_rfl

/-- **C60** fails for `Float.MAX` and `Float.MIN`: all classes share the fields of `Any`, and `Int`, registered
later, overwrites them with its own limits. -/
theorem float_limits_wrong : constantOf constant "Float" "MAX" = some (.int 9223372036854775807) ∧
    constantOf constant "Float" "MIN" = some (.int (-9223372036854775808)) :=
  ⟨by kernel_rfl, by kernel_rfl⟩

/-- **C60** fails for the other classes: each of them has the constants of `Int` and `Float`. -/
theorem constants_everywhere : ∀ c ∈ "Any" :: derivedNames,
    constantOf constant c "MAX" = some (.int 9223372036854775807) ∧
    constantOf constant c "PI" = some (.float (constant "PI")) := by
  simp only [derivedNames, List.mem_cons, List.not_mem_nil, or_false]
  rintro c (rfl | rfl | rfl | rfl | rfl | rfl | rfl | rfl | rfl | rfl) <;> exact ⟨by kernel_rfl, by kernel_rfl⟩

/-! ## C61: loops over stored ranges -/

/-- `let r = 1..=3  for i in r { i }`. -/
def Natives.storedInclusive : Expr :=
  .block [.varDecl (.singular "r") false (.binary .rangeInclusive (.int 1) (.int 3)) none]
    (some (.forLoop "i" (.ident "r") (.block [] (some (.ident "i")))))

/-- **C61** fails for inclusive ranges that are stored in a variable: the iterator of `RangeInclusive` says
`done` where the loop asks for `is_done`, so the first step of the loop is an error. -/
theorem stored_inclusive_fails : outcome constant lib loader fmod checks debug storedInclusive = .err .invalidBool := by
  cases debug
  · kernel_rfl
  · kernel_rfl

/-- The same loop over an exclusive range, and over the inclusive range itself, is no error. -/
def Natives.storedExclusive : Expr :=
  .block
    [.varDecl (.singular "r") false (.binary .rangeExclusive (.int 1) (.int 4)) none,
     .varDecl (.singular "s") true (.int 0) none,
     .forLoop "i" (.ident "r") (.block [] (some (.assign .add (.ident "s") (.ident "i"))))]
    (some (.ident "s"))

example : outcome constant lib loader fmod true debug storedExclusive = .ok (.int 6) := by
  cases debug
  · kernel_rfl
  · kernel_rfl

/-- `let mut s = 0  for x in [4, 5, 6] { s += x }  s`. -/
def Natives.arrayLoop : Expr :=
  .block
    [.varDecl (.singular "s") true (.int 0) none,
     .forLoop "x" (.list [.int 4, .int 5, .int 6]) (.block [] (some (.assign .add (.ident "s") (.ident "x"))))]
    (some (.ident "s"))

example : outcome constant lib loader fmod true debug arrayLoop = .ok (.int 15) := by
  cases debug
  · kernel_rfl
  · kernel_rfl

end

end Dice
