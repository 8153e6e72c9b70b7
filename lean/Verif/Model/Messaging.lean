/-
src/broker/messaging/messaging_service.rs
-/
import Verif.Model.Session
import Verif.Model.Subscriptions

namespace Ratel

/-- `MessagingOperation` (messaging_service.rs:21-70), without the response channels. -/
inductive MessagingOperation where
  | sessionExists (clientId : ClientId)
  | sessionInsert (session : Session)
  | sessionGet (clientId : ClientId)
  | sessionGetExpiredKeepAlive
  | sessionCount
  | connectionLost (clientId : ClientId)
  | connectionDisconnected (clientId : ClientId)
  | subscribe (clientId : ClientId) (subscription : Subscription)
  | unsubscribe (clientId : ClientId) (topics : List String)
  | publish (message : Message) (publish : PublishPacket)
  | sendersToPublish (topic : String)

/-- Type of the response sent on the operation's `Responder` (messaging_service.rs:22-69). -/
def MessagingOperation.Resp : MessagingOperation → Type
  | .sessionExists _ => Bool
  | .sessionInsert _ => Unit
  | .sessionGet _ => Option Session
  | .sessionGetExpiredKeepAlive => List Session
  | .sessionCount => Nat
  | .connectionLost _ => Option Session
  | .connectionDisconnected _ => Option Session
  | .subscribe _ _ => SubAckReturnCode
  | .unsubscribe _ _ => Unit
  | .publish _ _ => Unit
  | .sendersToPublish _ => List ConnId

/-- `MessagingService` (messaging_service.rs:72-75). -/
structure MessagingService where
  sessions : SessionRepository
  subscriptions : SubscriptionsRepository

namespace MessagingService

/-- messaging_service.rs:78-83. -/
def new : MessagingService := ⟨SessionRepository.default, SubscriptionsRepository.new⟩

/-- messaging_service.rs:139-141. -/
def sessionExists (m : MessagingService) (clientId : ClientId) : Bool := m.sessions.exists clientId

/-- messaging_service.rs:143-146. -/
def sessionInsert (m : MessagingService) (session : Session) : MessagingService :=
  { m with sessions := m.sessions.insert session }

/-- `session_get_keep_alive_expired` (messaging_service.rs:156-168); `now` is `Utc::now()`. -/
def sessionGetKeepAliveExpired (m : MessagingService) (now : Instant) : List Session :=
  m.sessions.sessions.filterMap fun (_, session) => if session.isKeepAliveExpired now then some session else none

/-- messaging_service.rs:170-172. -/
def sessionCount (m : MessagingService) : Nat := m.sessions.count

/-- `connection_lost` (messaging_service.rs:174-178). -/
def connectionLost (m : MessagingService) (clientId : ClientId) : Option Session × MessagingService :=
  let subscriptions := m.subscriptions.connectionsLost clientId
  let (session, sessions) := m.sessions.delete clientId
  (session, ⟨sessions, subscriptions⟩)

/-- `disconnect` (messaging_service.rs:180-184). -/
def disconnect (m : MessagingService) (clientId : ClientId) : Option Session × MessagingService :=
  let subscriptions := m.subscriptions.disconnected clientId
  let (session, sessions) := m.sessions.delete clientId
  (session, ⟨sessions, subscriptions⟩)

/-- messaging_service.rs:186-192. -/
def subscribe (m : MessagingService) (clientId : ClientId) (subscription : Subscription) :
    SubAckReturnCode × MessagingService :=
  let (code, subscriptions) := m.subscriptions.subscribe clientId subscription
  (code, { m with subscriptions := subscriptions })

/-- messaging_service.rs:194-196. -/
def unsubscribe (m : MessagingService) (clientId : ClientId) (topics : List String) : MessagingService :=
  { m with subscriptions := m.subscriptions.unsubscribe clientId topics }

/-- `senders_to_publish` (messaging_service.rs:217-237): subscribers without a session are skipped (with a warning). -/
def sendersToPublish (m : MessagingService) (topic : String) : List ConnId :=
  match m.subscriptions.subscribedClients topic with
  | some clientIds => clientIds.filterMap fun c => (m.sessions.get c).map Session.sender
  | none => []

/-- `publish` (messaging_service.rs:198-215), if its future were polled: the sends it would make. -/
def publishSends (m : MessagingService) (message : Message) (publish : PublishPacket) : List (ConnId × ServerEvent) :=
  match m.subscriptions.subscribedClients message.topic with
  | some clientIds =>
    clientIds.filterMap fun c => (m.sessions.get c).map fun s => (s.sender, .controlPacket (.publish publish))
  | none => []

/-- One iteration of `run` (messaging_service.rs:85-137): the response, the sends made to connections, and the new state.
`SessionGet` always answers `None` (line 99), `SessionGetExpiredKeepAlive` always an empty list (line 103). `Publish` builds the
future of `publish` and drops it without polling (line 126: no `.await`), so it sends nothing. -/
def exec : (op : MessagingOperation) → MessagingService → op.Resp × List (ConnId × ServerEvent) × MessagingService
  | .sessionExists clientId, m => (m.sessionExists clientId, [], m)
  | .sessionInsert session, m => ((), [], m.sessionInsert session)
  | .sessionGet _, m => ((none : Option Session), [], m)
  | .sessionGetExpiredKeepAlive, m => (([] : List Session), [], m)
  | .sessionCount, m => (m.sessionCount, [], m)
  | .connectionLost clientId, m => let (r, m') := m.connectionLost clientId; (r, [], m')
  | .connectionDisconnected clientId, m => let (r, m') := m.disconnect clientId; (r, [], m')
  | .subscribe clientId subscription, m => let (r, m') := m.subscribe clientId subscription; (r, [], m')
  | .unsubscribe clientId topics, m => ((), [], m.unsubscribe clientId topics)
  | .publish _ _, m => ((), [], m)
  | .sendersToPublish topic, m => (m.sendersToPublish topic, [], m)

/-- `messaging_tx.send(op)` then `rx.await` as the packet handler does for every operation. The service is a single task and the
handler its only client (application.rs:31-42), so a request and its response are one atomic step. -/
def request (op : MessagingOperation) (m : MessagingService) : op.Resp × MessagingService :=
  let (r, _, m') := exec op m
  (r, m')

end MessagingService

end Ratel
