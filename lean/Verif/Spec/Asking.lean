/-
Asking for more.
-/
import Verif.Spec.System

namespace Ratel.Spec

/-- Asking for something more, and nothing less: to subscribe, to pass a message on, to answer a PINGREQ. -/
def AsksMore : ClientEvent → Prop
  | .controlPacket _ (.subscribe _) _ => True
  | .controlPacket _ (.publish _) _ => True
  | .controlPacket _ .pingReq _ => True
  | _ => False

/-- The second list is the first with further requests anywhere in between. -/
inductive WithMore : List ClientEvent → List ClientEvent → Prop
  | nil : WithMore [] []
  | same (ev : ClientEvent) {evs evs' : List ClientEvent} : WithMore evs evs' → WithMore (ev :: evs) (ev :: evs')
  | more (ev : ClientEvent) {evs evs' : List ClientEvent} : AsksMore ev → WithMore evs evs' → WithMore evs (ev :: evs')

end Ratel.Spec
