/-
Clients of MQTT 3.1.
-/
import Verif.Spec.System

namespace Ratel.Spec

/-- The same packet from a client that speaks MQTT 3.1 (MQTT V3.1, section 3.1: protocol name "MQIsdp", version 3). -/
def mqtt31 : ClientPacket → ClientPacket
  | .connect c => .connect { c with protocolName := "MQIsdp", protocolLevel := 3 }
  | p => p

end Ratel.Spec
