import Lean.Elab.Tactic

/-!
# Equations by evaluation

A tactic that proves an equation between closed terms by `Eq.refl`, leaving the comparison to the kernel.
-/

open Lean Elab Tactic Meta in
/-- Proves `a = b` by `Eq.refl a`; only the kernel evaluates the two sides. -/
elab "kernel_rfl" : tactic => do
  let goal ← getMainGoal
  let type ← instantiateMVars (← goal.getType)
  let some (α, a, _) := type.eq? | throwError "not an equation"
  goal.assign (mkApp2 (.const ``Eq.refl [← getLevel α]) α a)
  replaceMainGoal []
