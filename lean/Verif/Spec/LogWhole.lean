/-
What the full log tells.
-/
import Verif.Spec.Logging
import Verif.Spec.Broker

namespace Ratel.Spec

/-- The same happened: a CONNECT with the same contents, or the same packet from a client of the same name, or the end of such a client's
connection. Only the address of the client and the connection may differ. -/
def SameStory : ClientEvent → ClientEvent → Prop
  | .connected p _ _, .connected p' _ _ => p = p'
  | .controlPacket id p _, .controlPacket id' p' _ => id = id' ∧ p = p'
  | .disconnected id, .disconnected id' => id = id'
  | .connectionLost id, .connectionLost id' => id = id'
  | _, _ => False

/-- The same subscriptions are held, and the same clients have sessions. -/
def SameState (b b' : Broker) : Prop := b.subs = b'.subs ∧ ∀ id, (b.session id).isSome = (b'.session id).isSome

/-- The same, or both have crashed. -/
def SameStates : Option Broker → Option Broker → Prop
  | some b, some b' => SameState b b'
  | none, none => True
  | _, _ => False

end Ratel.Spec
