import Verif.Model.CpmNames
import Verif.Model.Operation

/-!
# Conditioning a list of CPMs by names and labels
-/

namespace BNS

variable {K : Type} [DecidableEq K]

/-- `condition(cpms, cnd_vars, cnd_states)` of the operation module (operation.py:17-58): names are
looked up in all the CPMs together, labels translated once, and every CPM is conditioned.  A dictionary
of CPMs keeps its keys and its order (lines 31-33, 55-56); only the list of its values is modelled. -/
def conditionAllQ (cpms : List (Cpm K)) (qv : QVars K) (qs : List QState) :
    Except Err (List (Cpm K)) := do
  let vs ← match qv with
    | .names l => getVariablesAll cpms l
    | .vars l => .ok l
  let cs ← condStates vs qs
  cpms.mapM fun M => M.conditionQ (.vars vs) cs

end BNS
