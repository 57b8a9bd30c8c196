import Verif.Prelude

/-! # C63: results of the prelude -/

namespace Dice

open Natives

/-- Values that are not references. -/
def Value.NoRef : Value → Prop
  | .null | .unit | .bool _ | .int _ | .float _ | .str _ => True
  | _ => False

section

variable (constant : String → Float) (lib : FloatLib) (loader : String → Except RtErr Bytecode)
  (fmod : Float → Float → Float) (checks debug : Bool)

/-- The outcome of a program in the runtime, where the global `v` is `v`. -/
def Natives.outcomeWith (v : Value) (root : Expr) : Outcome Value :=
  match compile .script root with
  | .error _ => .panic "rejected"
  | .ok bc =>
    let m := (boot constant lib loader fmod checks debug).2
    (run (tool lib loader fmod checks debug) 600 bc { m with globals := m.globals.insert "v" v }).1

/-- `Ok(v)` or `Err(v)`. -/
def Natives.resultOf (ok : Bool) : Expr := .call (.ident (if ok then "Ok" else "Err")) [.ident "v"]

/-- **C63**: `Ok(v)` and `Err(v)` hold `v` and say which of them they are. -/
theorem results_hold_partial (v : Value) (hv : v.NoRef) (ok : Bool) :
    outcomeWith constant lib loader fmod checks debug v (.field (resultOf ok) "result") = .ok v ∧
    outcomeWith constant lib loader fmod checks debug v (.field (resultOf ok) "is_ok") = .ok (.bool ok) := by
  cases v <;> (try exact hv.elim) <;> cases ok <;> cases debug <;> exact ⟨by kernel_rfl, by kernel_rfl⟩

/-- `fn f(r) { [r!!] } f(e)`. -/
def Natives.propagating (e : Expr) : Expr :=
  .block [.fnDecl "f" [⟨"r", none⟩] none (.block [] (some (.list [.errProp (.ident "r")])))]
    (some (.call (.ident "f") [e]))

/-- **C63**: `r!!` is the value of an `Ok`, and the function goes on: here it makes a list of it. -/
theorem ok_goes_on_partial (v : Value) (hv : v.NoRef) :
    outcomeWith constant lib loader fmod checks debug v (.index (propagating (resultOf true)) (.int 0)) = .ok v := by
  cases v <;> (try exact hv.elim) <;> cases debug <;> kernel_rfl

/-- **C63**: with an `Err`, the function ends at `r!!` and the `Err` is its value. -/
theorem err_returns_partial (v : Value) (hv : v.NoRef) :
    outcomeWith constant lib loader fmod checks debug v (.field (propagating (resultOf false)) "is_ok") = .ok (.bool false) ∧
    outcomeWith constant lib loader fmod checks debug v (.field (propagating (resultOf false)) "result") = .ok v := by
  cases v <;> (try exact hv.elim) <;> cases debug <;> exact ⟨by kernel_rfl, by kernel_rfl⟩

/-- `e.map(|x| [x])`. -/
def Natives.mapped (e : Expr) : Expr :=
  .call (.field e "map") [.anonFn [⟨"x", none⟩] none (.list [.ident "x"])]

/-- **C63**: `map` applies its function to the value of an `Ok` and leaves an `Err` as it is. -/
theorem result_map_partial (v : Value) (hv : v.NoRef) :
    outcomeWith constant lib loader fmod checks debug v (.field (mapped (resultOf true)) "is_ok") = .ok (.bool true) ∧
    outcomeWith constant lib loader fmod checks debug v (.index (.field (mapped (resultOf true)) "result") (.int 0)) = .ok v ∧
    outcomeWith constant lib loader fmod checks debug v (.field (mapped (resultOf false)) "is_ok") = .ok (.bool false) ∧
    outcomeWith constant lib loader fmod checks debug v (.field (mapped (resultOf false)) "result") = .ok v := by
  cases v <;> (try exact hv.elim) <;> cases debug <;>
    exact ⟨by kernel_rfl, by kernel_rfl, by kernel_rfl, by kernel_rfl⟩

example : (Value.int (-5)).NoRef ∧ Value.null.NoRef := ⟨trivial, trivial⟩

end

end Dice
