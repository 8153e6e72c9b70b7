/-
Events with other messages in them.
-/
import Verif.Spec.System

namespace Ratel.Spec

/-- The event with its message, if it has one, exchanged. -/
def withMessage (g : PublishPacket → PublishPacket) : ClientEvent → ClientEvent
  | .controlPacket id (.publish q) tx => .controlPacket id (.publish (g q)) tx
  | ev => ev

/-- What is sent, with the messages in it exchanged. -/
def sentMessage (g : PublishPacket → PublishPacket) : ServerEvent → ServerEvent
  | .controlPacket (.publish q) => .controlPacket (.publish (g q))
  | e => e

/-- The event publishes a message that is to stay out. -/
def publishes (P : PublishPacket → Bool) : ClientEvent → Bool
  | .controlPacket _ (.publish q) _ => P q
  | _ => false

/-- This is such a message. -/
def carries (P : PublishPacket → Bool) : ServerEvent → Bool
  | .controlPacket (.publish q) => P q
  | _ => false

end Ratel.Spec
