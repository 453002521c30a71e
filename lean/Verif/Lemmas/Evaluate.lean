import Lean.Elab.Tactic
/-!
# Evaluation by the kernel

A tactic for examples whose two sides are the same after evaluation.
-/

namespace Avdl

open Lean Elab Tactic Meta in
/-- Closes `a = b` with `Eq.refl a`; that `a` evaluates to `b` is left to the kernel to check. -/
elab "evaluate" : tactic => do
  let g ← getMainGoal
  let some (t, a, _) := (← g.getType).eq? | throwError "not an equation"
  g.assign (← mkAppOptM ``Eq.refl #[some t, some a])

end Avdl
