/-
How much the broker writes to its log.
-/
import Verif.Spec.Broker
import Verif.Spec.Logging
import Verif.Spec.Slow

namespace Ratel.Spec

/-- In how many ways a topic is matched by subscriptions of clients that have no session. -/
noncomputable def Broker.stale (b : Broker) (topic : String) : Nat :=
  ((b.subs.filter fun e => b.session e.1 = none).map fun e => ways e.2 topic).sum

/-- How many records of at most that level an event makes, for levels up to INFO: one if a login is refused, if a client is lost without a
DISCONNECT, if a client without a session sends a PINGREQ, and if a client sends a packet it should not; a PUBLISH makes one for each stale
subscription. -/
noncomputable def notices (level : Level) (auth : IdentityProvider) (b : Broker) : ClientEvent → Nat
  | .connected p _ _ => if level = .info ∧ login auth p = .refused then 1 else 0
  | .connectionLost _ => if level = .info then 1 else 0
  | .disconnected _ => 0
  | .controlPacket _ (.publish q) _ => if level = .error then 0 else b.stale q.message.topic
  | .controlPacket id .pingReq _ => if b.session id = none then 1 else 0
  | .controlPacket _ (.subscribe _) _ => 0
  | .controlPacket _ (.unsubscribe _) _ => 0
  | .controlPacket _ .disconnect _ => 0
  | .controlPacket _ _ _ => 1

/-- The same for a list of events. -/
noncomputable def noticed (level : Level) (auth : IdentityProvider) : Broker → List ClientEvent → Nat
  | _, [] => 0
  | b, ev :: evs =>
    notices level auth b ev +
    match b.step auth ev with
    | some (b', _) => noticed level auth b' evs
    | none => 0

/-- A client that takes its leave and then subscribes. -/
def ghost : List ClientPacket := [hello "s", .disconnect, .subscribe 1 [("t", .atMostOnce)]]

/-- The first `k` connections are those of such clients, the next `n` those of clients that send one empty message on "t"; nothing comes on the rest. -/
structure Haunted (k n : Nat) (peers : ConnId → Sys.Peer) : Prop where
  ghosts : ∀ i, i < k → (peers i).segs.flatten = clientBytes ghost
  senders : ∀ i, i < n → (peers (k + i)).segs.flatten = clientBytes (passerBy [])
  rest : ∀ c, k + n ≤ c → (peers c).segs.flatten = []

end Ratel.Spec
