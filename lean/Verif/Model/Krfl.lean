import Lean.Elab.Tactic.Basic
/-! `krfl` closes a goal `a = b` with `Eq.refl a`, leaving the definitional equality to be
checked by the kernel alone (the elaborator's own check is skipped because it is slow). -/

namespace Verif
open Lean Elab Tactic in
elab "krfl" : tactic => do
  let g ← getMainGoal
  g.withContext do
    let t ← instantiateMVars (← g.getType)
    match t.eq? with
    | some (ty, lhs, _) =>
      let u ← Meta.getLevel ty
      g.assign (mkApp2 (mkConst ``Eq.refl [u]) ty lhs)
    | none => throwError "krfl: not an equality"
end Verif
