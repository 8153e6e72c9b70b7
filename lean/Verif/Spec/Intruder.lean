/-
C35 seen from the network: a client whose credentials are refused.
-/
import Verif.Spec.System

namespace Ratel.Spec

/-- CONNECT as client `id` with a user name and a password. -/
def helloAs (id user pw : String) : ClientPacket := .connect ⟨"MQTT", 4, true, 60, id, none, some user, some pw⟩

/-- The same as the broker sees it. -/
def helloSeen (id user pw : String) (a : SocketAddr) (c : ConnId) : ClientEvent :=
  .connected ⟨.mqtt3, id, 60, true, none, some user, some pw⟩ a c

/-- A subscriber to "t" settles in. -/
def settles (a : SocketAddr) : List ClientEvent :=
  [.connected ⟨.mqtt3, "s", 60, true, none, none, none⟩ a 0, .controlPacket "s" (.subscribe ⟨1, [⟨"t", .atMostOnce⟩]⟩) 0]

end Ratel.Spec
