/-
Who an event comes from and what others can notice of it.
-/
import Verif.Spec.System

namespace Ratel.Spec

/-- The client id an event is about. -/
def clientOf : ClientEvent → ClientId
  | .connected p _ _ => p.clientId
  | .controlPacket id _ _ => id
  | .disconnected id => id
  | .connectionLost id => id

/-- The event is a message to be published. -/
def isPublish : ClientEvent → Bool
  | .controlPacket _ (.publish _) _ => true
  | _ => false

/-- Leave out what the clients of a group do, except the messages they publish. -/
def withoutGroup (A : ClientId → Bool) (evs : List ClientEvent) : List ClientEvent :=
  evs.filter fun ev => !A (clientOf ev) || isPublish ev

/-- No connection of the group acts under the client id of a connection outside it. -/
def OwnIds (env : Env) (peers : ConnId → Sys.Peer) (bad : ConnId → Prop) : Prop :=
  ∀ c d, bad c → ¬ bad d → ∀ p ps q qs, Decodes env.profile (peers c).segs.flatten (peers c).fin (.connect p :: ps) →
    Decodes env.profile (peers d).segs.flatten (peers d).fin (.connect q :: qs) → idOf (peers c) p ≠ idOf (peers d) q

end Ratel.Spec
