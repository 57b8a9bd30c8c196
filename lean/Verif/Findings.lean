import Verif.Compiler
import Verif.KernelRfl
import Verif.Parser
import Verif.Vm

/-!
# Programs on which the code does not do what the property says

Each theorem runs the models of the lexer, the parser, the compiler and the machine on one concrete source text
and shows an outcome that contradicts a property of the list.  The evaluation is done by the kernel.  These are
counterexamples, so one program each is enough.

The machine starts with the two classes `Any` and `Int` registered as globals.  `debug` selects the
build: with debug assertions (`true`) an unbalanced stack ends in a panic, without (`false`) it goes
unnoticed.
-/

namespace Dice

namespace Findings

/-- A class without methods. -/
def plainClass (name : String) (id : Nat) (base : Option Nat) : Cls :=
  { name, methods := [], object := ⟨none, id⟩, typeIds := id :: base.toList, base }

/-- A machine with `Any` and `Int`. -/
def machine : VM :=
  { heap := { maps := [[], []], classes := [plainClass "Any" 0 none, plainClass "Int" 1 (some 0)] }
    globals := [("Any", .cls 0), ("Int", .cls 1)] }

/-- No native functions and no modules. -/
def world (debug : Bool) : World :=
  { native := fun _ _ h => (.ok .null, h)
    loader := fun s => .error (.load s)
    anyClass := 0
    moduleClass := 0
    valueClass := fun k => if k = .int then some 1 else some 0
    fmod := fun a _ => a
    checks := true
    debug }

/-- Compile and run a script, and test the outcome and the machine afterwards. -/
def check (debug : Bool) (e : Expr) (p : Outcome Value → VM → Bool) : Bool :=
  match compile .script e with
  | .error _ => false
  | .ok bc => p (run (world debug) 2000 bc machine).1 (run (world debug) 2000 bc machine).2

/-- The script is accepted and gives `v`, leaving the stack at depth `depth`. -/
def Gives (debug : Bool) (source : String) (v : Value) (depth : Nat) : Prop :=
  ∃ e bc m, Parser.parseSource source = .ok e ∧ compile .script e = .ok bc ∧ run (world debug) 2000 bc machine = (.ok v, m) ∧ m.ptr = depth

/-- The script is accepted and its run panics. -/
def Panics (debug : Bool) (source : String) : Prop :=
  ∃ e bc s m, Parser.parseSource source = .ok e ∧ compile .script e = .ok bc ∧ run (world debug) 2000 bc machine = (.panic s, m)

/-- The script is accepted and its run ends in an error, leaving the stack at depth `depth`. -/
def Fails (debug : Bool) (source : String) (err : RtErr) (depth : Nat) : Prop :=
  ∃ e bc m, Parser.parseSource source = .ok e ∧ compile .script e = .ok bc ∧ run (world debug) 2000 bc machine = (.err err, m) ∧ m.ptr = depth

/-- Equality of values without references. -/
def same : Value → Value → Bool
  | .null, .null => true
  | .unit, .unit => true
  | .bool a, .bool b => a == b
  | .int a, .int b => a == b
  | .array a, .array b => a == b
  | _, _ => false

theorem same_eq {a b : Value} (h : same a b = true) : a = b := by
  unfold same at h
  split at h
  · rfl
  · rfl
  · simp only [beq_iff_eq] at h; rw [h]
  · simp only [beq_iff_eq] at h; rw [h]
  · simp only [beq_iff_eq] at h; rw [h]
  · cases h

def isOk (v : Value) (depth : Nat) (o : Outcome Value) (m : VM) : Bool :=
  match o with
  | .ok x => same x v && m.ptr == depth
  | _ => false

def isPanic (o : Outcome Value) (_ : VM) : Bool :=
  match o with
  | .panic _ => true
  | _ => false

def isErr (e : RtErr) (depth : Nat) (o : Outcome Value) (m : VM) : Bool :=
  match o with
  | .err x => x == e && m.ptr == depth
  | _ => false

theorem gives {debug : Bool} {source : String} {e : Expr} {v : Value} {depth : Nat} (hp : Parser.parseSource source = .ok e)
    (h : check debug e (isOk v depth) = true) :
    Gives debug source v depth := by
  unfold check at h
  unfold Gives
  cases hc : compile .script e with
  | error _ => rw [hc] at h; cases h
  | ok bc =>
    rw [hc] at h
    dsimp only at h
    cases hr : run (world debug) 2000 bc machine with
    | mk o m =>
      rw [hr] at h
      cases o with
      | ok x =>
        simp only [isOk, Bool.and_eq_true, beq_iff_eq] at h
        rw [same_eq h.1] at hr
        exact ⟨e, bc, m, hp, hc, hr, h.2⟩
      | _ => cases h

theorem panics {debug : Bool} {source : String} {e : Expr} (hp : Parser.parseSource source = .ok e)
    (h : check debug e isPanic = true) : Panics debug source := by
  unfold check at h
  unfold Panics
  cases hc : compile .script e with
  | error _ => rw [hc] at h; cases h
  | ok bc =>
    rw [hc] at h
    dsimp only at h
    cases hr : run (world debug) 2000 bc machine with
    | mk o m =>
      rw [hr] at h
      cases o with
      | panic s => exact ⟨e, bc, s, m, hp, hc, hr⟩
      | _ => cases h

theorem fails {debug : Bool} {source : String} {e : Expr} {err : RtErr} {depth : Nat} (hp : Parser.parseSource source = .ok e)
    (h : check debug e (isErr err depth) = true) :
    Fails debug source err depth := by
  unfold check at h
  unfold Fails
  cases hc : compile .script e with
  | error _ => rw [hc] at h; cases h
  | ok bc =>
    rw [hc] at h
    dsimp only at h
    cases hr : run (world debug) 2000 bc machine with
    | mk o m =>
      rw [hr] at h
      cases o with
      | err x =>
        simp only [isErr, Bool.and_eq_true, beq_iff_eq] at h
        rw [h.1] at hr
        exact ⟨e, bc, m, hp, hc, hr, h.2⟩
      | _ => cases h

/-- Compile a program and test the error. -/
def rejects (kind : CompilerKind) (e : Expr) (p : CErr → Bool) : Bool :=
  match compile kind e with
  | .error x => p x
  | .ok _ => false

/-- The source text parses and the compiler ends in this error. -/
def Rejected (kind : CompilerKind) (source : String) (x : CErr) : Prop :=
  ∃ e, Parser.parseSource source = .ok e ∧ compile kind e = .error x

def isCPanic : CErr → Bool
  | .panic _ => true
  | _ => false

theorem compile_panics {kind : CompilerKind} {source : String} {e : Expr} (hp : Parser.parseSource source = .ok e) (h : rejects kind e isCPanic = true) :
    ∃ s, Rejected kind source (.panic s) := by
  unfold rejects at h
  unfold Rejected
  cases hc : compile kind e with
  | ok _ => rw [hc] at h; cases h
  | error x =>
    rw [hc] at h
    cases x with
    | panic s => exact ⟨s, e, hp, hc⟩
    | _ => cases h

theorem compile_error {kind : CompilerKind} {e : Expr} {x : CErr} (h : rejects kind e (fun y => y == x) = true) :
    compile kind e = .error x := by
  unfold rejects at h
  cases hc : compile kind e with
  | ok _ => rw [hc] at h; cases h
  | error y =>
    rw [hc] at h
    simp only [beq_iff_eq] at h
    rw [h]

theorem compile_rejects {kind : CompilerKind} {source : String} {e : Expr} {x : CErr}
    (hp : Parser.parseSource source = .ok e) (h : rejects kind e (fun y => y == x) = true) :
    Rejected kind source x := ⟨e, hp, compile_error h⟩

/-- `let x = e` -/
def let_ (x : String) (e : Expr) : Expr := .varDecl (.singular x) false e none
/-- `let mut x = e` -/
def mut_ (x : String) (e : Expr) : Expr := .varDecl (.singular x) true e none
def var (x : String) : Expr := .ident x
def set (x : String) (e : Expr) : Expr := .assign .assign (.ident x) e
def seq (es : List Expr) (t : Expr) : Expr := .block es (some t)
def fn (args : List String) (body : Expr) : Expr := .anonFn (args.map fun a => ⟨a, none⟩) none body
def named (name : String) (args : List String) (body : Expr) : Expr :=
  .fnDecl name (args.map fun a => ⟨a, none⟩) none body
def call (f : Expr) (args : List Expr) : Expr := .call f args

/-! ## C28: leaving a function by `return`, or a block by `break`, does not close captured variables -/

/-- A closure over a local returned by `return` gives null; without the word `return` the same program
gives 1. -/
theorem return_loses_captured_variable :
    Gives false "fn mk() { let mut x = 1 return || x } let c = mk() c()" .null 0 ∧
    Gives false "fn mk() { let mut x = 1 let f = || x f } let c = mk() c()" (.int 1) 0 :=
  ⟨gives (e := seq [named "mk" [] (seq [mut_ "x" (.int 1)] (.return_ (some (fn [] (var "x"))))),
      let_ "c" (call (var "mk") [])] (call (var "c") [])) (by kernel_rfl) (by decide +kernel),
    gives (e := seq [named "mk" [] (seq [mut_ "x" (.int 1), let_ "f" (fn [] (var "x"))] (var "f")),
      let_ "c" (call (var "mk") [])] (call (var "c") [])) (by kernel_rfl) (by decide +kernel)⟩

/-- The captured `x` has become `y`. -/
theorem break_aliases_captured_variable :
    Gives false "let mut g = null loop { let mut x = 1 g = || x break } let mut y = 2 g()" (.int 2) 0 :=
  gives (e := seq [mut_ "g" .null, .loop (seq [mut_ "x" (.int 1), set "g" (fn [] (var "x"))] .break_),
      mut_ "y" (.int 2)] (call (var "g") [])) (by kernel_rfl) (by decide +kernel)

/-! ## C34: static members of one class appear on unrelated classes -/

theorem static_member_on_unrelated_class :
    Gives true "class A { fn f() { 1 } } class B { } B.f()" (.int 1) 0 :=
  gives (e := seq [.classDecl "A" none [named "f" [] (seq [] (.int 1))], .classDecl "B" none []]
    (call (.field (var "B") "f") [])) (by kernel_rfl) (by decide +kernel)

/-! ## C14: a captured variable can be read before it is initialised -/

theorem captured_read_before_init :
    Gives true "let r = { || f }() fn f() { 1 } r" .null 0 :=
  gives (e := seq [let_ "r" (call (seq [] (fn [] (var "f"))) []), named "f" [] (seq [] (.int 1))] (var "r"))
    (by kernel_rfl) (by decide +kernel)

/-! ## C16: the compiler panics on some programs -/

theorem compiler_panics_variable_and_function :
    ∃ s, Rejected .script "let f = 1 fn f() { 1 }" (.panic s) :=
  compile_panics (e := seq [let_ "f" (.int 1)] (named "f" [] (seq [] (.int 1)))) (by kernel_rfl)
    (by decide +kernel)

theorem compiler_panics_function_and_class :
    ∃ s, Rejected .script "fn f() { 1 } class f { }" (.panic s) :=
  compile_panics (e := seq [named "f" [] (seq [] (.int 1))] (.classDecl "f" none [])) (by kernel_rfl)
    (by decide +kernel)

/-- `super()` outside a class. -/
theorem compiler_panics_super_call :
    ∃ s, Rejected .script "super()" (.panic s) :=
  compile_panics (e := seq [] (.superCall [])) (by kernel_rfl) (by decide +kernel)

theorem compiler_panics_export_destructured :
    ∃ s, Rejected .module "export let { a } = 1" (.panic s) :=
  compile_panics (e := seq [] (.exportDecl (.varDecl (.destructured ["a"]) false (.int 1) none)))
    (by kernel_rfl) (by decide +kernel)

/-! ## C21: operands evaluated out of order or twice

The digits of `x` say in which order the operands ran. -/

/-- `{ x = x * 10 + n e }` -/
def tick (n : Int) (e : Expr) : Expr :=
  seq [set "x" (.binary .add (.binary .multiply (var "x") (.int 10)) (.int n))] e

/-- The right side of a pipeline runs first. -/
theorem pipeline_right_to_left :
    Gives true "fn f(a) { a } let mut x = 0 { x = x * 10 + 1 5 } |> { x = x * 10 + 2 f } x" (.int 21) 0 :=
  gives (e := seq [named "f" ["a"] (seq [] (var "a")), mut_ "x" (.int 0),
    .binary .pipeline (tick 1 (.int 5)) (tick 2 (var "f"))] (var "x")) (by kernel_rfl) (by decide +kernel)

/-- The end of a range runs first. -/
theorem range_end_first :
    Gives true "let mut x = 0 for i in { x = x * 10 + 1 0 }..{ x = x * 10 + 2 0 } { } x" (.int 21) 0 :=
  gives (e := seq [mut_ "x" (.int 0),
      .forLoop "i" (.binary .rangeExclusive (tick 1 (.int 0)) (tick 2 (.int 0))) (.block [] none)] (var "x"))
    (by kernel_rfl) (by decide +kernel)

/-- The operand of `is` with a nullable type runs twice. -/
theorem is_nullable_twice :
    Gives true "let mut x = 0 { x = x * 10 + 1 5 } is Int? x" (.int 11) 0 :=
  gives (e := seq [mut_ "x" (.int 0), .is (tick 1 (.int 5)) ⟨"Int", true⟩] (var "x"))
    (by kernel_rfl) (by decide +kernel)

/-! ## C22: `continue` in a `for`, `break` in an iterator loop and under a pending operand -/

/-- `continue` in a `for` is rejected with an internal compiler error. -/
theorem continue_in_for_rejected :
    Rejected .script "for i in 0..2 { continue }" .internal :=
  compile_rejects (e := seq [] (.forLoop "i" (.binary .rangeExclusive (.int 0) (.int 2)) (seq [] .continue_)))
    (by kernel_rfl) (by decide +kernel)

/-- A loop over an iterator that never ends, with a `break`. -/
def endless : String :=
  "for i in # { iter: || # { next: || # { is_done: false, value: 1 } } } { break } 5"

/-- Its tree. -/
def endlessTree : Expr :=
  seq [.forLoop "i" (.object [("iter",
    fn [] (.object [("next", fn [] (.object [("is_done", .bool false), ("value", .int 1)]))]))])
    (seq [] .break_)] (.int 5)

theorem endless_parsed : Parser.parseSource endless = .ok endlessTree := by kernel_rfl

/-- It pops one value too many: both builds panic. -/
theorem break_in_iterator_loop_underflows : Panics true endless ∧ Panics false endless :=
  ⟨panics endless_parsed (by decide +kernel), panics endless_parsed (by decide +kernel)⟩

theorem leaving_operand_parsed : Parser.parseSource "loop { 1 + { break } } 5" =
    .ok (seq [.loop (seq [] (.binary .add (.int 1) (seq [] .break_)))] (.int 5)) := by kernel_rfl

/-- The 1 is left on the stack. -/
theorem break_under_operand_leaks :
    Panics true "loop { 1 + { break } } 5" ∧ Gives false "loop { 1 + { break } } 5" (.int 5) 1 :=
  ⟨panics leaving_operand_parsed (by decide +kernel), gives leaving_operand_parsed (by decide +kernel)⟩

/-! ## C23: an inclusive range up to the largest integer -/

/-- Incrementing the variable overflows. -/
theorem range_to_largest_overflows :
    Panics true "for i in 9223372036854775807..=9223372036854775807 { } 5" :=
  panics (e := seq [.forLoop "i" (.binary .rangeInclusive (.int 9223372036854775807) (.int 9223372036854775807))
    (.block [] none)] (.int 5)) (by kernel_rfl) (by decide +kernel)

/-! ## C20: a null inside parentheses leaves the surrounding chain -/

theorem inner_chain_parsed : Parser.parseSource "(1 + null?.y).z" =
    .ok (seq [] (.field (.binary .add (.int 1) (.field (.nullProp .null) "y")) "z")) := by kernel_rfl

/-- The 1 is left on the stack, and the null of the inner chain skips the outer one. -/
theorem inner_chain_exits_outer :
    Panics true "(1 + null?.y).z" ∧ Gives false "(1 + null?.y).z" .null 1 :=
  ⟨panics inner_chain_parsed (by decide +kernel), gives inner_chain_parsed (by decide +kernel)⟩

/-! ## C25: a missing argument that is not null -/

/-- The setter still writes to the slot that `x` had. -/
theorem missing_argument_not_null :
    Gives true ("fn mk() { let a = null let b = null let c = null let d = null let mut x = 0 " ++
      "return |v| x = v } fn f(p1, p2, p3, p4, p5) { p5 } let s = mk() s(7) f()") (.int 7) 0 :=
  gives (e := seq [named "mk" [] (seq [let_ "a" .null, let_ "b" .null, let_ "c" .null, let_ "d" .null,
        mut_ "x" (.int 0)] (.return_ (some (fn ["v"] (set "x" (var "v")))))),
      named "f" ["p1", "p2", "p3", "p4", "p5"] (seq [] (var "p5")),
      let_ "s" (call (var "mk") []), call (var "s") [.int 7]] (call (var "f") []))
    (by kernel_rfl) (by decide +kernel)

/-! ## C44: a failed run leaves the stack higher than it was -/

theorem failed_run_leaks_stack : Fails true "1()" .assertFunction 1 :=
  fails (e := seq [] (call (.int 1) [])) (by kernel_rfl) (by decide +kernel)

/-! ## C46: error propagation under a pending operand -/

/-- A function that propagates an error with an operand pending. -/
def propagates : String := "fn r() { # { is_ok: false } } fn g() { 1 + r()!! } g().is_ok"

theorem propagates_parsed : Parser.parseSource propagates =
    .ok (seq [named "r" [] (seq [] (.object [("is_ok", .bool false)])),
      named "g" [] (seq [] (.binary .add (.int 1) (.errProp (call (var "r") []))))]
      (.field (call (var "g") []) "is_ok")) := by kernel_rfl

/-- The 1 is left on the stack. -/
theorem error_propagation_leaks : Panics true propagates ∧ Gives false propagates (.bool false) 1 :=
  ⟨panics propagates_parsed (by decide +kernel), gives propagates_parsed (by decide +kernel)⟩

end Findings

end Dice
