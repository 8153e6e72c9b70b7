/-
Words for what a single connection sees.
-/
import Verif.Spec.System

namespace Ratel.Spec

/-- The answer MQTT requires to a SUBSCRIBE or UNSUBSCRIBE (every subscription being granted QoS 0); none to anything else. -/
def ackOf : ControlPacket → Option ControlPacket
  | .subscribe s => some (.subAck ⟨s.packetId, s.subscriptions.map fun _ => .successQoS0⟩)
  | .unsubscribe u => some (.unsubAck u.packetId)
  | _ => none

/-- The SUBACKs and UNSUBACKs among some server events. -/
def acksIn (evs : List ServerEvent) : List ControlPacket :=
  evs.filterMap fun
    | .controlPacket (.subAck a) => some (.subAck a)
    | .controlPacket (.unsubAck i) => some (.unsubAck i)
    | _ => none

/-- A client that publishes after its DISCONNECT. -/
def quitterPackets : List ClientPacket := [hello "p", .disconnect, .publish blank]

/-- What that client and a subscriber to "t" do, in this order. -/
def quitterEvents (a b : SocketAddr) : List ClientEvent :=
  [.connected ⟨.mqtt3, "s", 60, true, none, none, none⟩ a 0, .controlPacket "s" (.subscribe ⟨1, [⟨"t", .atMostOnce⟩]⟩) 0,
   .connected ⟨.mqtt3, "p", 60, true, none, none, none⟩ b 1, .controlPacket "p" .disconnect 1, .controlPacket "p" (.publish blank) 1]

end Ratel.Spec
