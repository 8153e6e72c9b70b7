/-
A sequential broker: it takes one event at a time, knows for each client id which connection it is reached on and which subscriptions
are held, and says what each connection is to be sent. No trie, no maps, no queues.
-/
import Verif.Model.Handler
import Verif.Spec.Topic

namespace Ratel.Spec

/-- What becomes of a CONNECT. -/
inductive Login where
  | accepted
  | refused
  /-- a user name without a password -/
  | incomplete
  deriving DecidableEq

/-- A CONNECT is judged by its user name and password only. -/
def login (auth : IdentityProvider) (p : ConnectPacket) : Login :=
  match p.userName, p.password with
  | none, _ => .accepted
  | some _, none => .incomplete
  | some u, some pw =>
    match auth u pw with
    | .ok _ => .accepted
    | .error _ => .refused

/-- The broker's state: on which connection a client is reached, and the subscriptions held. -/
structure Broker where
  session : ClientId → Option ConnId
  subs : Entries

/-- What each connection is sent. -/
abbrev Outputs := ConnId → List ServerEvent

/-- Nothing to anybody. -/
def nothing : Outputs := fun _ => []

/-- Events to one connection only. -/
def to (c : ConnId) (evs : List ServerEvent) : Outputs := fun d => if d = c then evs else []

namespace Broker

/-- A broker just started. -/
def start : Broker := ⟨fun _ => none, []⟩

/-- How many copies of a message on the topic go to a connection: those called for by the subscriptions of the clients reached there. -/
noncomputable def copiesTo (b : Broker) (d : ConnId) (topic : String) : Nat :=
  ((b.subs.filter fun e => b.session e.1 = some d).map fun e => ways e.2 topic).sum

/-- Forget a client. -/
def forget (b : Broker) (op : SubOp) : Broker :=
  ⟨fun c => if c = op.client then none else b.session c, b.subs.counting op⟩

/-- A packet of client `id`, come in on connection `tx`. -/
noncomputable def packet (b : Broker) (id : ClientId) (p : ControlPacket) (tx : ConnId) : Broker × Outputs :=
  match p with
  | .publish q => (b, fun d => List.replicate (b.copiesTo d q.message.topic) (.controlPacket (.publish q)))
  | .subscribe s =>
    (⟨b.session, b.subs ++ s.subscriptions.map fun x => (id, x.topic)⟩,
      to tx [.controlPacket (.subAck ⟨s.packetId, s.subscriptions.map fun _ => .successQoS0⟩)])
  | .unsubscribe u => (⟨b.session, b.subs.unsubscribe id u.topics⟩, to tx [.controlPacket (.unsubAck u.packetId)])
  | .pingReq => (b, to tx [if (b.session id).isSome then .controlPacket .pingResp else .disconnect])
  | .disconnect => (b.forget (.disconnected id), nothing)
  | _ => (b, nothing)

/-- One event; `none` is a crash. -/
noncomputable def step (auth : IdentityProvider) (b : Broker) : ClientEvent → Option (Broker × Outputs)
  | .connected p _ tx =>
    match login auth p with
    | .accepted =>
      some (⟨fun c => if c = p.clientId then some tx else b.session c, b.subs⟩, to tx [.controlPacket (.connAck ⟨false, .accepted⟩)])
    | .refused => some (b, to tx [.controlPacket (.connAck ⟨false, .notAuthorized⟩), .disconnect])
    | .incomplete => none
  | .controlPacket id p tx => some (b.packet id p tx)
  | .disconnected _ => some (b, nothing)
  | .connectionLost id => some (b.forget (.connectionLost id), nothing)

/-- The state after a list of events, if none crashed the broker. -/
noncomputable def after (auth : IdentityProvider) : Broker → List ClientEvent → Option Broker
  | b, [] => some b
  | b, ev :: evs =>
    match b.step auth ev with
    | some (b', _) => after auth b' evs
    | none => none

/-- Everything sent for a list of events; a crash ends it. -/
noncomputable def outputs (auth : IdentityProvider) : Broker → List ClientEvent → Outputs
  | _, [], _ => []
  | b, ev :: evs, d =>
    match b.step auth ev with
    | some (b', out) => out d ++ outputs auth b' evs d
    | none => []

end Broker

/-- The subscription requests contained in an event. -/
def subOps : ClientEvent → List SubOp
  | .controlPacket id (.subscribe s) _ => s.subscriptions.map (.subscribe id)
  | .controlPacket id (.unsubscribe u) _ => [.unsubscribe id u.topics]
  | .controlPacket id .disconnect _ => [.disconnected id]
  | .connectionLost id => [.connectionLost id]
  | _ => []

/-- The subscriptions held after some events. -/
def held (evs : List ClientEvent) : Entries := Entries.counted (evs.flatMap subOps)

/-- The event begins, replaces or ends the session of client `c`. -/
def ChangesSession (auth : IdentityProvider) (c : ClientId) : ClientEvent → Prop
  | .connected p _ _ => p.clientId = c ∧ login auth p = .accepted
  | .controlPacket id .disconnect _ => id = c
  | .connectionLost id => id = c
  | _ => False

/-- After some events client `c` is reached on connection `tx`: its most recent accepted CONNECT came on `tx`, and it has not
disconnected since. -/
def ReachedOn (auth : IdentityProvider) (evs : List ClientEvent) (c : ClientId) (tx : ConnId) : Prop :=
  ∃ pre p addr post, evs = pre ++ .connected p addr tx :: post ∧ p.clientId = c ∧ login auth p = .accepted
    ∧ ∀ ev ∈ post, ¬ ChangesSession auth c ev

end Ratel.Spec
