/-
Which sequences of events the broker can serve.
-/
import Verif.Spec.System
import Verif.Spec.Lasting

namespace Ratel.Spec

/-- What a connection is sent from the request to go away on. -/
def fromAway (evs : List ServerEvent) : List ServerEvent := evs.dropWhile (· ≠ .disconnect)

/-- Every event comes from a connection, in the order of its packets; no CONNECT has a user name and no password; and no connection is
sent more than 31 things after it was told to go away. -/
structure Servable (env : Env) (peers : ConnId → Sys.Peer) (evs : List ClientEvent) : Prop where
  orderly : Orderly env peers evs
  from_conn : ∀ ev ∈ evs, ∃ c, From c ev
  complete : ∀ p addr c, .connected p addr c ∈ evs → login env.auth p ≠ .incomplete
  room : ∀ d, (fromAway (Broker.start.outputs env.auth evs d)).length ≤ 32

/-- The events of each connection are a beginning of those of the packets that can be received from it through its buffer. -/
def InOrder (env : Env) (peers : ConnId → Sys.Peer) (evs : List ClientEvent) : Prop :=
  ∀ c, ∃ ps, Receives env (peers c) ps ∧ evs.filter (From c) <+: eventsOf (peers c) c ps

/-- As `Servable`, for connections of any length. -/
structure Possible (env : Env) (peers : ConnId → Sys.Peer) (evs : List ClientEvent) : Prop where
  inOrder : InOrder env peers evs
  from_conn : ∀ ev ∈ evs, ∃ c, From c ev
  complete : ∀ p addr c, .connected p addr c ∈ evs → login env.auth p ≠ .incomplete
  room : ∀ d, (fromAway (Broker.start.outputs env.auth evs d)).length ≤ 32

end Ratel.Spec
