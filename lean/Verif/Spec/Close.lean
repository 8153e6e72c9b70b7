/-
When the broker closes a connection.
-/
import Verif.Spec.Fair
import Verif.Spec.View

namespace Ratel.Spec

/-- The broker has closed its side of the connection: the write task has ended, and with it the write half of the socket, which a tokio
`OwnedWriteHalf` shuts down when it is dropped (listener.rs:74-78, 133-154). The other side reads an end of file, and never a byte more. -/
def HungUp (s : Sys) (d : ConnId) : Prop := (s.conns d).rxOpen = false

/-- Both tasks of the connection have ended: nothing of it is left in the broker. -/
def Freed (s : Sys) (d : ConnId) : Prop := HungUp s d ∧ (s.conns d).phase = .ended ∧ (s.conns d).outbox = none

/-- All packets of connection `d` that can be decoded have been handled. -/
def AllHandled (env : Env) (peers : ConnId → Sys.Peer) (evs : List ClientEvent) (d : ConnId) : Prop :=
  ∀ ps, Decodes env.profile (peers d).segs.flatten (peers d).fin ps → eventsOf (peers d) d ps <+: evs.filter (From d)

/-- No client is reached on connection `d`. -/
def Unreached (auth : IdentityProvider) (evs : List ClientEvent) (d : ConnId) : Prop := ∀ x, ¬ ReachedOn auth evs x d

end Ratel.Spec
