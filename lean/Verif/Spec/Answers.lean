/-
Words for requests and their answers.
-/
import Verif.Spec.View

namespace Ratel.Spec

/-- The answer to a packet that follows the CONNECT, if it calls for one. -/
def answerOf : ControlPacket → Option ControlPacket
  | .subscribe s => some (.subAck ⟨s.packetId, s.subscriptions.map fun _ => .successQoS0⟩)
  | .unsubscribe u => some (.unsubAck u.packetId)
  | .pingReq => some .pingResp
  | _ => none

/-- What is not a message. -/
def notMessage : ControlPacket → Bool
  | .publish _ => false
  | _ => true

end Ratel.Spec
