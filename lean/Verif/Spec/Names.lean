/-
The same clients under other names, talking about other topics and other contents.
-/
import Verif.Spec.System
import Verif.Spec.Alike

namespace Ratel.Spec

/-- Other client ids, other topics and filters, other payloads. -/
structure Renaming where
  id : ClientId → ClientId
  topic : String → String
  payload : List UInt8 → List UInt8

namespace Renaming

/-- Different client ids stay different, and no client id stays no client id. Topics and filters are renamed level by level: different levels stay
different, and "+" and "#" stay what they are. Payloads may be replaced by whatever. -/
structure Faithful (r : Renaming) : Prop where
  ids : ∀ a b, r.id a = r.id b → a = b
  empty : r.id "" = ""
  levels : ∃ level : String → String, (∀ a b, level a = level b → a = b) ∧ level "+" = "+" ∧ level "#" = "#"
    ∧ ∀ s ls, Levels s ls → Levels (r.topic s) (ls.map level)

/-- A message renamed. -/
def message (r : Renaming) (m : Message) : Message := { m with topic := r.topic m.topic, payload := r.payload m.payload }

/-- A PUBLISH renamed. -/
def publish (r : Renaming) (q : PublishPacket) : PublishPacket := { q with message := r.message q.message }

/-- A CONNECT renamed; user name and password are not touched. -/
def connect (r : Renaming) (p : ConnectPacket) : ConnectPacket :=
  { p with clientId := r.id p.clientId, willMessage := p.willMessage.map r.message }

/-- A packet renamed. -/
def packet (r : Renaming) : ControlPacket → ControlPacket
  | .connect p => .connect (r.connect p)
  | .publish q => .publish (r.publish q)
  | .subscribe s => .subscribe { s with subscriptions := s.subscriptions.map fun x => { x with topic := r.topic x.topic } }
  | .unsubscribe u => .unsubscribe { u with topics := u.topics.map r.topic }
  | p => p

/-- An event renamed; it stays on its connection. -/
def event (r : Renaming) : ClientEvent → ClientEvent
  | .connected p addr tx => .connected (r.connect p) addr tx
  | .controlPacket id p tx => .controlPacket (r.id id) (r.packet p) tx
  | .disconnected id => .disconnected (r.id id)
  | .connectionLost id => .connectionLost (r.id id)

/-- What is sent to a client, renamed. -/
def sent (r : Renaming) : ServerEvent → ServerEvent
  | .controlPacket p => .controlPacket (r.packet p)
  | .disconnect => .disconnect

/-- What a client sends, renamed. -/
def client (r : Renaming) : ClientPacket → ClientPacket
  | .connect c => .connect { c with clientId := r.id c.clientId, will := c.will.map fun (t, m, q, k) => (r.topic t, r.payload m, q, k) }
  | .publish q => .publish (r.publish q)
  | .subscribe i fs => .subscribe i (fs.map fun (f, q) => (r.topic f, q))
  | .unsubscribe i fs => .unsubscribe i (fs.map r.topic)
  | p => p

end Renaming

/-- The same client as far as the broker knows it without its packets, under another name. -/
def SameClientAs (r : Renaming) (peer peer' : Sys.Peer) : Prop := peer'.uuid = r.id peer.uuid ∧ peer'.addr = peer.addr

end Ratel.Spec
