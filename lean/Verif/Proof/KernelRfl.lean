import Lean.Elab.Tactic.Basic
/- `kernel_rfl` closes a goal `a = b` by `Eq.refl a`, leaving the comparison of `a` and `b` to the kernel alone (`rfl` has the elaborator compare them
first, which takes too long on long programs). Nothing is trusted beyond the kernel: it checks the finished proof term like any other. -/
namespace Milo
open Lean Elab Tactic Meta

elab "kernel_rfl" : tactic => do
  let g ← getMainGoal
  let t ← instantiateMVars (← g.getType)
  let some (α, a, _) := t.consumeMData.eq? | throwError "not an equality"
  let u ← getLevel α
  g.assign (mkApp2 (mkConst ``Eq.refl [u]) α a)

end Milo
