/-
A few rules of MQTT 3.1.1 about single packets, and packets that acknowledge messages.
-/
import Verif.Spec.System

namespace Ratel.Spec

/-- The first byte carries the flags the standard prescribes for its packet type (2.2.2): free for PUBLISH, except that there is no
QoS 3; 2 for PUBREL, SUBSCRIBE and UNSUBSCRIBE; otherwise 0. -/
def GoodFlags (first : Nat) : Prop :=
  if first / 16 = 3 then first / 2 % 4 ≠ 3 else if first / 16 ∈ [6, 8, 10] then first % 16 = 2 else first % 16 = 0

/-- The event is a client's acknowledgement of a message. -/
def AckEvent : ClientEvent → Prop
  | .controlPacket _ (.pubAck _) _ | .controlPacket _ (.pubRec _) _ | .controlPacket _ (.pubRel _) _
  | .controlPacket _ (.pubComp _) _ => True
  | _ => False

instance : DecidablePred AckEvent := fun ev => by
  unfold AckEvent
  split <;> infer_instance

/-- Only connection 0 sends anything, namely these packets. -/
structure Solo (peers : ConnId → Sys.Peer) (cs : List ClientPacket) : Prop where
  bytes : (peers 0).segs.flatten = clientBytes cs
  legal : ∀ c ∈ cs, Legal c ∧ NoWill c
  short : (clientBytes cs).length < 4096

end Ratel.Spec
