/-
What the trace of the transport is to tell: the lengths of the texts of a packet.
-/
import Verif.Model.Tracing

namespace Ratel.Spec

open Tracing

/-- The lengths in bytes of the texts of a packet, in the order in which they come; of a CONNECT those after the name of the protocol. -/
def textLengths : ControlPacket → List Nat
  | .connect p => [strLen p.clientId] ++ (p.userName.map strLen).toList ++ (p.password.map strLen).toList
  | .publish p => [strLen p.message.topic]
  | .subscribe p => p.subscriptions.map fun s => strLen s.topic
  | .unsubscribe p => p.topics.map strLen
  | _ => []

/-- The packet begins with the name of the protocol. -/
def WithProtocol : ControlPacket → Prop
  | .connect _ => True
  | _ => False

/-- The records made for a text of this length. -/
def announce (n : Nat) : List Note := [.parsing, .size n, .buffer]

/-- The records made for texts of these lengths. -/
def announced (ns : List Nat) : List Note := ns.flatMap announce

end Ratel.Spec
