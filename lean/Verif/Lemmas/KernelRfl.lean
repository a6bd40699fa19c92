import Lean.Elab.Tactic.ElabTerm

/-!
# Evaluation by the kernel
-/
namespace Verif

open Lean Elab Tactic Meta in
/-- Closes a goal `a = b` with the proof `rfl`, which is checked by the kernel only. Like `decide +kernel`, but the goal may contain variables. -/
elab "kernel_rfl" : tactic => do
  let g ← getMainGoal
  let some (_, _, b) := (← g.getType').eq? | throwError "not an equation"
  g.assign (← mkEqRefl b)

end Verif
