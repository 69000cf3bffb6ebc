import Lean
open Lean Meta Elab Tactic
/-- `decide +kernel` with a short error message. -/
elab "kdecide" : tactic => do
  let goal ← getMainGoal
  goal.withContext do
    -- the values of local definitions are put in, an auxiliary lemma has no local variables
    let type ← zetaReduce (← instantiateMVars (← goal.getType))
    let inst ← synthInstance (mkApp (mkConst ``Decidable) type)
    let pf := mkApp3 (mkConst ``of_decide_eq_true) type inst (mkApp2 (mkConst ``Eq.refl [1]) (mkConst ``Bool) (mkConst ``true))
    try
      let n ← mkAuxLemma [] type pf
      goal.assign (mkConst n)
    catch _ => throwError "kdecide failed"
