import Verif.BalanceProps
import Verif.FloatProps
import Verif.GlobalProps
import Verif.LexPrint
import Verif.NativeHeap
import Verif.NativeProps
import Verif.ResultObjects
import Verif.StoredRange

/-!
# Instances of theorems whose own files come too early to state them

Each example below puts concrete, non-trivial data into the hypotheses of the named theorem.  (Most theorems have
their example beside them; here are the ones that need definitions of later files, or files that everything
depends on.)
-/

namespace Dice

set_option linter.constructorNameAsVariable false

section natives

open Natives (invoke)

variable (constant : String → Float) (lib : Natives.FloatLib) (h : Heap)

/-- `abs_exact`: the three cases. -/
example :
    invoke constant lib true "Int" "abs" [.int (-7)] h = some (.ok (.int 7), h) ∧
    invoke constant lib true "Int" "abs" [.int (-9223372036854775808)] h =
      some (.panic "attempt to compute with overflow", h) ∧
    invoke constant lib false "Int" "abs" [.int (-9223372036854775808)] h =
      some (.ok (.int (-9223372036854775808)), h) :=
  ⟨abs_exact h (-7) (by decide), abs_exact h _ (by decide), abs_exact h _ (by decide)⟩

/-- `min_max_exact`: with different and with equal numbers. -/
example :
    invoke constant lib true "Int" "max" [.int 5, .int (-3)] h = some (.ok (.int 5), h) ∧
    invoke constant lib true "Int" "min" [.int 5, .int 5] h = some (.ok (.int 5), h) := by
  obtain ⟨lo, hi, -, h2, h3, h4⟩ := min_max_exact (constant := constant) (lib := lib) (checks := true) h 5 (-3)
  obtain ⟨lo', hi', k1, -, -, k4⟩ := min_max_exact (constant := constant) (lib := lib) (checks := true) h 5 5
  rw [h2, k1, show hi = 5 by omega, show lo' = 5 by omega]
  exact ⟨rfl, rfl⟩

/-- `sign_exact`: zero has neither sign. -/
example : invoke constant lib true "Int" "is_positive" [.int 0] h = some (.ok (.bool false), h) ∧
    invoke constant lib true "Int" "is_negative" [.int (-4)] h = some (.ok (.bool true), h) := by
  obtain ⟨p, -, h1, -, h3, -⟩ := sign_exact (constant := constant) (lib := lib) (checks := true) h 0
  obtain ⟨-, q, -, k2, -, k4⟩ := sign_exact (constant := constant) (lib := lib) (checks := true) h (-4)
  rw [h1, k2, show p = false by cases p <;> simp_all, show q = true by rw [k4]; omega]
  exact ⟨rfl, rfl⟩

/-- `natives_good` with a loader that knows one module (the empty one). -/
example (fmod : Float → Float → Float) : ∃ bc, compile .module (.block [] none) = .ok bc ∧
    GoodWorld (Natives.world lib (fun s => if s = "m" then .ok bc else .error (.load s)) fmod true true) := by
  cases hc : compile .module (.block [] none) with
  | error e =>
    have : (compile .module (.block [] none)).isOk = true := by decide +kernel
    rw [hc] at this
    cases this
  | ok bc =>
    refine ⟨bc, rfl, natives_good fun name b hb => ?_⟩
    split at hb
    · cases hb
      refine ⟨compile_good hc rfl ?_, compile_module_slots hc⟩
      have : (match compile .module (.block [] none) with | .ok b => fitsUpTo 2 b | _ => false) = true := by decide +kernel
      rw [hc] at this
      exact fitsUpTo_sound this
    · cases hb

/-- `natives_keep_heap`, `natives_never_fail` and `runtime_good` together: pushing to an array of the new runtime. -/
example (loader : String → Except RtErr Bytecode) (fmod : Float → Float → Float) (i : Nat) (v : Value) :
    let h := { (Natives.machine constant).heap with arrays := [⟨[.int 1], ⟨none, 0⟩⟩] }
    HeapInv (Natives.machine constant).heap ∧
    HeapLe h ((Natives.world lib loader fmod true true).native i [.array 0, v] h).2 ∧
    ((Natives.world lib loader fmod true true).native i [.array 0, v] h).1 ≠ .err .assertType :=
  ⟨(runtime_good constant).2, natives_keep_heap.le .., natives_never_fail _ _ _ _⟩

end natives

/-! ## Modules -/

/-- `module_kept`, `module_first`, `module_again`: the first import of a module, whatever its loader and its body do, any history of
programs, and the import after it. -/
example (w : World) (history : List (Nat × Bytecode)) (n : Nat) :
    ∃ v, (moduleValue w (callsAt w n) "m" (runAll w history (moduleValue w (callsAt w n) "m" {}).2)).1 = .ok v := by
  obtain ⟨v, m0, -, -, -, h⟩ := module_first w (callsAt w n) ⟨(exec_pres (modulesKept_prims w) n).2.2.2.1, (exec_pres (modulesKept_prims w) n).2.2.2.2.1, (exec_pres (modulesKept_prims w) n).2.2.2.2.2⟩ (m := {}) (name := "m") rfl
  refine ⟨v, ?_⟩
  rw [module_again w (callsAt w n) (module_kept w history h)]

/-! ## Lexing -/

/-- `fixed_lexed`: the longest operator, and a keyword. -/
example : (tokenize "..=".toList).map (·.item) = [.ok ⟨.rangeInclusive, "..="⟩] ∧
    (tokenize "while".toList).map (·.item) = [.ok ⟨.while_, "while"⟩] :=
  ⟨fixed_lexed (by decide), fixed_lexed (by decide)⟩

/-! ## Floats -/

/-- `float_same`: the two zeros are equal and different. -/
example : ((0.0 : Float) == -0.0) = true ∧ (0.0 : Float) ≠ -0.0 := by decide +kernel

/-- `parseFloat_ne`: the text that comes nearest. -/
example : Parser.parseFloat "0.0" = 0.0 ∧ Parser.parseFloat "0.0" ≠ -0.0 := ⟨by decide +kernel, parseFloat_ne _⟩

/-! ## Programs in the runtime with its prelude -/

/-- `tool_program_agrees_partial`: a program that uses a class of the prelude, `let r = Ok(3) r.value + 1`. -/
example : (match compile .script (.block [.varDecl (.singular "r") false (.call (.ident "Ok") [.int 3]) none]
      (some (.binary .add (.field (.ident "r") "result") (.int 1)))) with
    | .ok bc => fitsUpTo 2 bc
    | .error _ => false) = true := by decide +kernel


/-! ## The stack -/

/-- The machine of the findings with a value, a native function and an argument on the stack. -/
private def calling : VM := { Findings.machine with mem := fun j => if j = 0 then .int 5 else if j = 1 then .fnNative 0 else if j = 2 then .int 1 else .null, ptr := 3 }

private theorem calling_good : GoodVM calling :=
  { Findings.machine_good with
    mem := fun j => by unfold calling; dsimp only; repeat' split
                       all_goals trivial
    clean := fun j hj => .inl (by
      have : 3 ≤ j := hj
      show (if j = 0 then Value.int 5 else if j = 1 then .fnNative 0 else if j = 2 then .int 1 else .null) = .null
      rw [if_neg (by omega), if_neg (by omega), if_neg (by omega)]) }

/-- `call_keeps_frame_partial`: calling the native function with its one argument. -/
example : ∃ m', callFn (Findings.world true) 1 1 calling = (.ok (), m') ∧ m'.ptr = 2 ∧ (m'.mem 0 = .int 5 ∨ calling.OpenAt 0) := by
  have hr : (match (callFn (Findings.world true) 1 1 calling).1 with | .ok _ => true | _ => false) = true := by decide +kernel
  cases h : callFn (Findings.world true) 1 1 calling with
  | mk o m' =>
    rw [h] at hr
    cases o with
    | ok =>
      obtain ⟨h1, -, h2⟩ := call_keeps_frame_partial (Findings.world_good true) calling_good h
      have e : calling.ptr = 3 := rfl
      exact ⟨m', rfl, by omega, h2 0 (by rw [e]; omega)⟩
    | _ => cases hr

/-- `expression_pushes_one_partial`: `loop { break }`, then a sum, run on top of the three values. -/
example : ∃ bc m', compile .script (.block [.loop (.block [.break_] none)] (some (.binary .add (.int 1) (.int 2)))) = .ok bc ∧
    loop (Findings.world true) 100 bc ⟨3, 3⟩ none 0 calling = (.ok (), m') ∧ m'.ptr = 4 ∧ (m'.mem 0 = .int 5 ∨ calling.OpenAt 0) := by
  have hr : (match compile .script (.block [.loop (.block [.break_] none)] (some (.binary .add (.int 1) (.int 2)))) with
    | .ok bc => fitsUpTo 2 bc && bc.slotCount == 0 && match (loop (Findings.world true) 100 bc ⟨3, 3⟩ none 0 calling).1 with | .ok _ => true | _ => false
    | _ => false) = true := by decide +kernel
  cases hc : compile .script (.block [.loop (.block [.break_] none)] (some (.binary .add (.int 1) (.int 2)))) with
  | error _ => rw [hc] at hr; cases hr
  | ok bc =>
    rw [hc] at hr
    simp only [Bool.and_eq_true, beq_iff_eq] at hr
    obtain ⟨⟨hf, hsl⟩, hr⟩ := hr
    cases h : loop (Findings.world true) 100 bc ⟨3, 3⟩ none 0 calling with
    | mk o m' =>
      rw [h] at hr
      cases o with
      | ok =>
        obtain ⟨h1, h2⟩ := expression_pushes_one_partial hc (by decide +kernel) (fitsUpTo_sound hf) (Findings.world_good true) calling_good
          (f := ⟨3, 3⟩) (by simp [hsl]) rfl h
        exact ⟨bc, m', rfl, h, h1, h2 0 (by decide)⟩
      | _ => cases hr

/-! ## Results -/

/-- `map_err`: `Err(3).map(f)` with a native function `f`, in the runtime with its prelude. -/
example (constant : String → Float) (lib : Natives.FloatLib) (loader : String → Except RtErr Bytecode) (fmod : Float → Float → Float)
    (checks debug : Bool) (src : Src.Sources) :
    let σ := made (caseClass false) false (.int 3) (Src.boot constant lib loader fmod checks debug src).2
    ∃ o g σ', IsResult (Natives.tool lib loader fmod checks debug) σ (caseClass false) o false (.int 3) ∧
      Src.fieldOf (Natives.tool lib loader fmod checks debug) "map" (.object o) σ = (.ok g, σ) ∧
      (Src.calls (Natives.tool lib loader fmod checks debug) runtimeKnown (toolSources src) 4).call g [.fnNative 0] σ = (.ok (.object (o + 1)), σ') := by
  have hb := boot_results constant lib loader fmod checks debug src
  have h1 : (Src.boot constant lib loader fmod checks debug src).2.globals.get "Function" = some (.cls 6) := by
    cases checks <;> cases debug <;> kernel_rfl
  have h2 : (made (caseClass false) false (.int 3) (Src.boot constant lib loader fmod checks debug src).2).heap.isOfType
      (Natives.tool lib loader fmod checks debug) (.fnNative 0) 6 = true := by cases checks <;> cases debug <;> kernel_rfl
  have h3 : (made (caseClass false) false (.int 3) (Src.boot constant lib loader fmod checks debug src).2).heap.isOfType
      (Natives.tool lib loader fmod checks debug) (.int 3) (Natives.tool lib loader fmod checks debug).anyClass = true := by
    cases checks <;> cases debug <;> kernel_rfl
  generalize (Src.boot constant lib loader fmod checks debug src).2 = σ at *
  have hi := made_isResult (Natives.tool lib loader fmod checks debug) (caseClass false) false (.int 3) σ
  have hr : HasResults (Natives.tool lib loader fmod checks debug) (made (caseClass false) false (.int 3) σ) 12 caseClass :=
    hb.later (addObject_more _ _ _) (List.prefix_append _ _) (List.prefix_refl _) rfl
  obtain ⟨g, e1, e2⟩ := map_err (known := runtimeKnown) (src := toolSources src) (N := 0) hr hi h1 h2 rfl ⟨nofun, .inr h3⟩
  rw [show (made (caseClass false) false (.int 3) σ).heap.objects.length = σ.heap.objects.length + 1 by simp [made, Heap.addObject]] at e2
  exact ⟨_, g, _, hi, e1, e2⟩

end Dice
