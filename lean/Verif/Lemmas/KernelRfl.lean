import Mathlib.Tactic.Common

/-!
# `kernel_rfl`

Proves an equation by `rfl`, leaving the check to the kernel. Used for evaluating the option handling on dictionaries
with a variable entry, where the elaborator's own check takes minutes.
-/

open Lean Meta Elab Tactic in
/-- Closes `a = b` with `Eq.refl a`; the kernel checks that `a` and `b` are definitionally equal. -/
elab "kernel_rfl" : tactic => liftMetaTactic fun g => do
  let some (_, lhs, _) := (← whnfR (← g.getType)).eq? | throwError "not an equation"
  g.assign (← mkEqRefl lhs)
  return []
