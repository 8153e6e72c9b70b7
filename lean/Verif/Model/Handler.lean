/-
src/broker/client_packet_handler.rs
-/
import Verif.Model.Messaging

namespace Ratel

/-- `AuthenticationError` (src/broker/authentication.rs:12-19). -/
inductive AuthenticationError where
  | userNotFound
  | invalidPassword
  | encryptionError
  deriving DecidableEq, Repr

/-- `dyn IdentityProvider` (authentication.rs:29-31; client_packet_handler.rs:29). -/
abbrev IdentityProvider := String → String → Except AuthenticationError Unit

/-- What processing one event amounts to: the new state of the messaging service and the events to send, in order, each to the
connection whose sender is used; `none` is a panic before anything is sent. Every handler function first talks to the messaging
service and then only sends, so sends can be listed after the state change. -/
abbrev Handled := Option (MessagingService × List (ConnId × ServerEvent))

namespace Handler

/-- `on_connect` (client_packet_handler.rs:113-175). `now` is `Utc::now()` (line 154). `packet.password.unwrap()` (line 123)
panics when a user name comes without a password. -/
def onConnect (auth : IdentityProvider) (now : Instant) (m : MessagingService) (sender : ConnId) (packet : ConnectPacket)
    (address : SocketAddr) : Handled :=
  let accept : Handled :=
    let (maybeSession, m) := m.request (.sessionGet packet.clientId)
    let (sessionPresent, m) :=
      match (maybeSession : Option Session) with
      | some _ => (true, m)
      | none =>
        let session : Session :=
          { clientId := packet.clientId
            ip := address.ip
            persistent := !packet.cleanSession
            sender := sender
            keepAliveSeconds := packet.keepAliveSeconds
            lastActivity := now }
        let (_, m) := m.request (.sessionInsert session)
        (false, m)
    some (m, [(sender, .controlPacket (.connAck { sessionPresent := sessionPresent, returnCode := .accepted }))])
  match packet.userName with
  | some userName =>
    match packet.password with
    | none => none
    | some password =>
      match auth userName password with
      | .error _ =>
        some (m, [(sender, .controlPacket (.connAck { sessionPresent := false, returnCode := .notAuthorized })),
                  (sender, .disconnect)])
      | .ok _ => accept
  | none => accept

/-- `on_disconnect` (client_packet_handler.rs:177-190). -/
def onDisconnect (m : MessagingService) (clientId : ClientId) : Handled :=
  let (_, m) := m.request (.connectionDisconnected clientId)
  some (m, [])

/-- `on_connection_lost` (client_packet_handler.rs:192-205). -/
def onConnectionLost (m : MessagingService) (clientId : ClientId) : Handled :=
  let (_, m) := m.request (.connectionLost clientId)
  some (m, [])

/-- `on_publish` (client_packet_handler.rs:207-228). -/
def onPublish (m : MessagingService) (publish : PublishPacket) : Handled :=
  let (senders, m) := m.request (.sendersToPublish publish.message.topic)
  some (m, (senders : List ConnId).map fun sender => (sender, .controlPacket (.publish publish)))

/-- The loop of `on_subscribe` (client_packet_handler.rs:238-250). -/
def subscribeAll (clientId : ClientId) : List Subscription → MessagingService → List SubAckReturnCode × MessagingService
  | [], m => ([], m)
  | subscription :: rest, m =>
    let (returnCode, m) := m.request (.subscribe clientId subscription)
    let (codes, m) := subscribeAll clientId rest m
    (returnCode :: codes, m)

/-- `on_subscribe` (client_packet_handler.rs:230-257). -/
def onSubscribe (m : MessagingService) (sender : ConnId) (subscribe : SubscribePacket) (clientId : ClientId) : Handled :=
  let (returnCodes, m) := subscribeAll clientId subscribe.subscriptions m
  some (m, [(sender, .controlPacket (.subAck { packetId := subscribe.packetId, returnCodes := returnCodes }))])

/-- `on_unsubscribe` (client_packet_handler.rs:259-278). -/
def onUnsubscribe (m : MessagingService) (sender : ConnId) (unsubscribe : UnsubscribePacket) (clientId : ClientId) : Handled :=
  let (_, m) := m.request (.unsubscribe clientId unsubscribe.topics)
  some (m, [(sender, .controlPacket (.unsubAck unsubscribe.packetId))])

/-- `on_ping_req` (client_packet_handler.rs:280-317). -/
def onPingReq (m : MessagingService) (sender : ConnId) (clientId : ClientId) : Handled :=
  let (sessionPresent, m) := m.request (.sessionExists clientId)
  match (sessionPresent : Bool) with
  | true => some (m, [(sender, .controlPacket .pingResp)])
  | false => some (m, [(sender, .disconnect)])

/-- `on_packet` (client_packet_handler.rs:84-111): every other packet is logged as not supported. -/
def onPacket (m : MessagingService) (clientId : ClientId) (packet : ControlPacket) (tx : ConnId) : Handled :=
  match packet with
  | .publish p => onPublish m p
  | .subscribe p => onSubscribe m tx p clientId
  | .unsubscribe p => onUnsubscribe m tx p clientId
  | .pingReq => onPingReq m tx clientId
  | .disconnect => onDisconnect m clientId
  | _ => some (m, [])

/-- The `match event` of `run` (client_packet_handler.rs:65-75). -/
def handle (auth : IdentityProvider) (now : Instant) (m : MessagingService) : ClientEvent → Handled
  | .connected c address tx => onConnect auth now m tx c address
  | .controlPacket clientId packet tx => onPacket m clientId packet tx
  | .disconnected _ => some (m, [])
  | .connectionLost clientId => onConnectionLost m clientId

end Handler

end Ratel
