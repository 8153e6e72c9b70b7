/-
What a connection's bytes amount to, and what it means that an execution is explained by a sequence of events.
-/
import Verif.Model.System
import Verif.Props.Streams
import Verif.Spec.Broker

namespace Ratel.Spec

/-- The bytes a connection sends begin with packets that decode to `ps`. -/
def Decodes (pr : Profile) (bytes : List UInt8) (fin : Ending) (ps : List ControlPacket) : Prop :=
  ∃ rest, (readMany pr ps.length : M Plain _) ⟨bytes, fin⟩ = (.ok ps, rest)

/-- The client id a connection acts under: that of its CONNECT, or the generated one if that is empty. -/
def idOf (peer : Sys.Peer) (p : ConnectPacket) : ClientId := if p.clientId = "" then peer.uuid else p.clientId

/-- The events a connection's packets stand for: nothing unless the first one is a CONNECT; then "connected" for that and "packet" for
each of the others, all under the same client id. -/
def eventsOf (peer : Sys.Peer) (c : ConnId) : List ControlPacket → List ClientEvent
  | .connect p :: ps => .connected { p with clientId := idOf peer p } peer.addr c :: ps.map fun q => .controlPacket (idOf peer p) q c
  | _ => []

/-- The event comes from connection `c`. -/
def From (c : ConnId) : ClientEvent → Prop
  | .connected _ _ tx => tx = c
  | .controlPacket _ _ tx => tx = c
  | _ => False

instance (c : ConnId) : DecidablePred (From c) := fun ev => by
  cases ev <;> simp only [From] <;> infer_instance

/-- The events of each connection are a beginning of those its bytes stand for. -/
def Orderly (env : Env) (peers : ConnId → Sys.Peer) (evs : List ClientEvent) : Prop :=
  ∀ c, ∃ ps, Decodes env.profile (peers c).segs.flatten (peers c).fin ps ∧ evs.filter (From c) <+: eventsOf (peers c) c ps

/-- Connection `d` was told to go away: its CONNECT was refused, or it sent a PINGREQ when its client had no session. -/
def TurnedAway (auth : IdentityProvider) (evs : List ClientEvent) (d : ConnId) : Prop :=
  (∃ p addr, .connected p addr d ∈ evs ∧ login auth p = .refused)
  ∨ ∃ pre id post, evs = pre ++ .controlPacket id .pingReq d :: post ∧ ∀ c, ¬ ReachedOn auth pre id c

/-- The last event is one of those that can crash the broker: a CONNECT with a user name but no password, or a SUBSCRIBE, UNSUBSCRIBE or
PINGREQ on a connection that had been told to go away. -/
def Fatal (auth : IdentityProvider) (evs : List ClientEvent) : Prop :=
  ∃ pre ev, evs = pre ++ [ev] ∧
    ((∃ p addr tx, ev = .connected p addr tx ∧ login auth p = .incomplete)
    ∨ ∃ id p tx, ev = .controlPacket id p tx ∧ ((∃ q, p = .subscribe q) ∨ (∃ q, p = .unsubscribe q) ∨ p = .pingReq)
        ∧ TurnedAway auth pre tx)

/-- The messages among some server events. -/
def messagesOf (evs : List ServerEvent) : List PublishPacket :=
  evs.filterMap fun
    | .controlPacket (.publish q) => some q
    | _ => none

/-- The bytes do not begin with a well-formed CONNECT. -/
def NoConnect (bytes : List UInt8) : Prop :=
  ∀ first lf n body rest p, bytes = first :: lf ++ body ++ rest → LengthField lf n → ¬ WellFormed first.toNat body (.connect p)

/-- The two states differ at most in connection `c`. -/
structure SameBut (c : ConnId) (s s' : Sys) : Prop where
  events : s.events = s'.events
  handler : s.handler = s'.handler
  messaging : s.messaging = s'.messaging
  ctrlC : s.ctrlC = s'.ctrlC
  log : s.log = s'.log
  conns : ∀ d, d ≠ c → s.conns d = s'.conns d

/-- The steps of the tasks of one connection. -/
def ownStep (c : ConnId) : Step → Bool
  | .read d => d = c
  | .write d => d = c
  | _ => false

/-- The handler is waiting for room in the queue of a connection whose write task is parked. -/
def Stuck (s : Sys) (d : ConnId) (e : ServerEvent) (todo : List (ConnId × ServerEvent)) : Prop :=
  s.handler = .busy ((d, e) :: todo) ∧ (s.conns d).rxOpen = true ∧ 32 ≤ (s.conns d).queue.length
  ∧ (s.conns d).wrBlocked = true

/-- The read task of a connection is still reading, and not just waiting for more bytes. -/
def CanRead (env : Env) (k : Conn) : Prop :=
  (k.phase = .first ∨ ∃ id, k.phase = .running id) ∧ (decoded env.profile (unread k.rd) k.rd.fin).1 ≠ .pending

/-- Work remains: an event is being handled or waiting, a packet is waiting to be written, an event is on its way to the handler, or a
read task has something to decode. -/
def WorkLeft (env : Env) (s : Sys) : Prop :=
  (∃ todo, s.handler = .busy todo) ∨ s.events ≠ [] ∨ ∃ c, (s.conns c).queue ≠ [] ∨ (s.conns c).outbox ≠ none ∨ CanRead env (s.conns c)

/-- The bytes of some packets. -/
def clientBytes (cs : List ClientPacket) : List UInt8 := cs.flatMap fun c => packet (clientFirst c) (clientRest c)

/-- Packets a client may send and the broker can read. -/
def Sendable (cs : List ClientPacket) : Prop := ∀ c ∈ cs, Legal c ∧ NoWill c ∧ (clientRest c).length < 2097152

/-- CONNECT as client `id`, nothing special. -/
def hello (id : String) : ClientPacket := .connect ⟨"MQTT", 4, true, 60, id, none, none, none⟩

/-- An empty message on topic "t". -/
def blank : PublishPacket := ⟨none, false, ⟨"t", [], .atMostOnce, false⟩⟩

/-- A subscriber to "t". -/
def subscriberPackets : List ClientPacket := [hello "s", .subscribe 1 [("t", .atMostOnce)]]

/-- A publisher of 32 such messages. -/
def publisherPackets : List ClientPacket := hello "p" :: List.replicate 32 (.publish blank)

end Ratel.Spec
