/-
Sizes of what is in a packet.
-/
import Verif.Spec.Wire

namespace Ratel.Spec

/-- The texts in a packet. -/
def texts : ControlPacket → List String
  | .connect p => p.clientId :: (p.userName.toList ++ p.password.toList)
  | .publish p => [p.message.topic]
  | .subscribe p => p.subscriptions.map fun s => s.topic
  | .unsubscribe p => p.topics
  | _ => []

/-- The message in a packet. -/
def messageIn : ControlPacket → List UInt8
  | .publish p => p.message.payload
  | _ => []

/-- No text and no message in the packet is longer than `n` bytes. -/
def PartsUpTo (n : Nat) (p : ControlPacket) : Prop := (∀ t ∈ texts p, (utf8 t).length ≤ n) ∧ (messageIn p).length ≤ n

/-- The same of an event, and of the client id in it. -/
def EventUpTo (n : Nat) : ClientEvent → Prop
  | .connected p _ _ => PartsUpTo n (.connect p)
  | .controlPacket id p _ => (utf8 id).length ≤ n ∧ PartsUpTo n p
  | .disconnected id => (utf8 id).length ≤ n
  | .connectionLost id => (utf8 id).length ≤ n

/-- The same of what is sent to a client. -/
def ServerUpTo (n : Nat) : ServerEvent → Prop
  | .controlPacket p => PartsUpTo n p
  | .disconnect => True

end Ratel.Spec
