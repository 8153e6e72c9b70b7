/-
Counting the packet handler's steps.
-/
import Verif.Model.System

namespace Ratel.Spec

/-- How many steps of a schedule are steps of the packet handler. -/
def handlerSteps : List Step → Nat
  | [] => 0
  | .handler _ :: sched => handlerSteps sched + 1
  | _ :: sched => handlerSteps sched

end Ratel.Spec
