import Lean.Elab.Tactic.Basic
import Lean.Meta.AppBuilder

/-!
`krfl` closes an equation by reflexivity like `rfl`, but leaves the comparison of both sides to the kernel, which evaluates
long runs of a model faster than the elaborator.  (It adds nothing to the trusted base: the proof term is `Eq.refl _`.)
-/

open Lean Elab Tactic Meta in
elab "krfl" : tactic => do
  let goal ← getMainGoal
  let some (_, a, _) := (← whnfR (← goal.getType)).eq? | throwError "not an equation"
  goal.assign (← mkEqRefl a)
