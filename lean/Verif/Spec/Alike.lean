/-
What the broker can do with given clients.
-/
import Verif.Spec.Lasting

namespace Ratel.Spec

open Sys

/-- The broker can take these events in this order and come to rest, having sent this to the connections. -/
def CanServe (env : Env) (peers : ConnId → Peer) (evs : List ClientEvent) (out : ConnId → List ServerEvent) : Prop :=
  ∃ sched, (run env (init peers) sched).handler = .idle ∧ (run env (init peers) sched).log.map Prod.fst = evs
    ∧ ∀ d, ((run env (init peers) sched).conns d).delivered = out d

/-- The broker can crash with the last of these events, having taken them in this order. -/
def CanCrash (env : Env) (peers : ConnId → Peer) (evs : List ClientEvent) : Prop :=
  ∃ sched, (run env (init peers) sched).handler = .crashed ∧ (run env (init peers) sched).log.map Prod.fst = evs

/-- The same client as far as the broker knows it without its packets: its address, and the name made up for it if it gives none. -/
def SameClient (peer peer' : Peer) : Prop := peer'.uuid = peer.uuid ∧ peer'.addr = peer.addr

/-- The second sends what the first sends, in the same pieces, and possibly more afterwards. -/
def SendsMore (peer peer' : Peer) : Prop := SameClient peer peer' ∧ ∃ more, peer'.segs = peer.segs ++ more

end Ratel.Spec
