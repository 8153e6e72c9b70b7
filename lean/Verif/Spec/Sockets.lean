/-
Sockets the broker keeps.
-/
import Verif.Spec.Close

namespace Ratel.Spec

/-- The client is gone — its side of the connection is closed and everything it sent has been read — but the broker keeps the socket, with
the write task and the channel. -/
def KeptInVain (s : Sys) (d : ConnId) : Prop := (s.conns d).phase = .ended ∧ ¬ HungUp s d

/-- The client ids under which a CONNECT was accepted, each once. -/
def acceptedIds (auth : IdentityProvider) (evs : List ClientEvent) : List ClientId :=
  (evs.filterMap fun
    | .connected p _ _ => if login auth p = .accepted then some p.clientId else none
    | _ => none).eraseDups

end Ratel.Spec
