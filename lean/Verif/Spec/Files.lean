/-
Sockets that are open.
-/
import Verif.Model.Files
import Verif.Spec.Sockets

namespace Ratel.Spec

/-- There is a reason, as far as the broker can tell, not to close the socket: the connection is still being read, or a packet is being
written, or a client is reached on it. -/
def InUse (auth : IdentityProvider) (s : Sys) (d : ConnId) : Prop :=
  (s.conns d).phase ≠ .ended ∨ (s.conns d).wrBlocked = true ∨ ∃ x, ReachedOn auth (s.log.map Prod.fst) x d

/-- A client that connects without a client id, sends nothing else, and goes away. -/
structure PassesBy (peer : Sys.Peer) : Prop where
  bytes : peer.segs.flatten = clientBytes [hello ""]
  gone : peer.fin = .eof

end Ratel.Spec
