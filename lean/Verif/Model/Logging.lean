/-
What the broker writes to its log: the calls of the macros of crate `log` in src/mqtt/listener.rs and src/broker, and the text that crate
`env_logger` (0.8, `env_logger::init()`, main.rs:9) makes of them.

The crate is modelled as documented: one header per record, message indented, to standard error. Not modelled: the records of
mqtt_bytes_stream.rs (TRACE: the sizes of texts read), those of the main task up to "ready to accept connections" and its last one,
colours (there are none unless standard error is a terminal), and what a panic prints.
What RUST_LOG lets through: Model/RustLog.
-/
import Verif.Model.System

namespace Ratel

/-- `log::Level`. -/
inductive Level where
  | error
  | warn
  | info
  | debug
  | trace
  deriving DecidableEq, Repr

namespace Level

/-- The more, the finer. -/
def rank : Level → Nat
  | error => 1
  | warn => 2
  | info => 3
  | debug => 4
  | trace => 5

/-- The name, padded to five characters. -/
def name : Level → List Char
  | error => "ERROR".toList
  | warn => "WARN ".toList
  | info => "INFO ".toList
  | debug => "DEBUG".toList
  | trace => "TRACE".toList

end Level

/-- The module a record comes from. -/
inductive LogModule where
  | application
  | listener
  | handler
  | messaging
  deriving DecidableEq, Repr

/-- `module_path!()`. -/
def LogModule.path : LogModule → List Char
  | application => "ratelmq::application".toList
  | listener => "ratelmq::mqtt::listener".toList
  | handler => "ratelmq::broker::client_packet_handler".toList
  | messaging => "ratelmq::broker::messaging::messaging_service".toList

/-- `log::Record`. -/
structure LogRecord where
  level : Level
  origin : LogModule
  message : List Char
  deriving DecidableEq, Repr

/-- What depends on releases of libraries. -/
structure Texts where
  /-- the tables of Unicode by which `{:?}` of a text shows a character as it is -/
  printable : Char → Bool
  /-- `{:?}` of a `std::io::Error` -/
  ioError : ErrKind → List Char
  /-- `{:?}` of an `argon2::password_hash::Error` -/
  hashError : List Char
  /-- `{:?}` of a `tokio::sync::mpsc::Sender` -/
  sender : ConnId → List Char
  /-- `{:?}` of a `SocketAddr` -/
  address : SocketAddr → List Char

/-! ### Formatting -/

namespace Fmt

/-- A number written to the base `b + 2`. -/
def numeral (b n : Nat) : List Char :=
  if h : n < b + 2 then [Nat.digitChar n]
  else
    have : n / (b + 2) < n := Nat.div_lt_self (by omega) (by omega)
    numeral b (n / (b + 2)) ++ [Nat.digitChar (n % (b + 2))]

/-- `{}` of a number. -/
def decimal (n : Nat) : List Char := numeral 8 n

/-- `char::escape_debug_ext`, as `{:?}` of a text uses it. -/
def escapeChar (t : Texts) (c : Char) : List Char :=
  if c = Char.ofNat 0 then ['\\', '0']
  else if c = '\t' then ['\\', 't']
  else if c = '\r' then ['\\', 'r']
  else if c = '\n' then ['\\', 'n']
  else if c = '\\' then ['\\', '\\']
  else if c = '"' then ['\\', '"']
  else if t.printable c then [c]
  else "\\u{".toList ++ numeral 14 c.toNat ++ ['}']

/-- `{:?}` of a text. -/
def quoted (t : Texts) (s : String) : List Char := ['"'] ++ s.toList.flatMap (escapeChar t) ++ ['"']

/-- A byte in `{:?}` of `BytesMut` (crate `bytes`, fmt/debug.rs). -/
def escapeByte (b : UInt8) : List Char :=
  if b = 0x0a then ['\\', 'n']
  else if b = 0x0d then ['\\', 'r']
  else if b = 0x09 then ['\\', 't']
  else if b = 0x5c then ['\\', '\\']
  else if b = 0x22 then ['\\', '"']
  else if b = 0 then ['\\', '0']
  else if 0x20 ≤ b ∧ b < 0x7f then [Char.ofNat b.toNat]
  else ['\\', 'x', Nat.digitChar (b.toNat / 16), Nat.digitChar (b.toNat % 16)]

/-- `{:?}` of `BytesMut`. -/
def bytes (l : List UInt8) : List Char := ['b', '"'] ++ l.flatMap escapeByte ++ ['"']

/-- `{:?}` of a `bool`. -/
def bool : Bool → List Char
  | true => "true".toList
  | false => "false".toList

/-- `{:?}` of an `Option`. -/
def option {α : Type} (f : α → List Char) : Option α → List Char
  | none => "None".toList
  | some a => "Some(".toList ++ f a ++ [')']

/-- The items of a list. -/
def items {α : Type} (f : α → List Char) : List α → List Char
  | [] => []
  | [a] => f a
  | a :: b :: l => f a ++ ", ".toList ++ items f (b :: l)

/-- `{:?}` of a `Vec`. -/
def vec {α : Type} (f : α → List Char) (l : List α) : List Char := ['['] ++ items f l ++ [']']

/-- Derived `{:?}` (packets/mod.rs:68). -/
def qos : QoS → List Char
  | .atMostOnce => "AtMostOnce".toList
  | .atLeastOnce => "AtLeastOnce".toList
  | .exactlyOnce => "ExactlyOnce".toList

/-- Derived `{:?}` (message.rs:4-10). -/
def message (t : Texts) (m : Message) : List Char :=
  "Message { topic: ".toList ++ quoted t m.topic ++ ", payload: ".toList ++ bytes m.payload ++ ", qos: ".toList ++ qos m.qos
    ++ ", retain: ".toList ++ bool m.retain ++ " }".toList

/-- Derived `{:?}` (packets/mod.rs:56-60). -/
def version : ProtocolVersion → List Char
  | .mqtt3 => "Mqtt3".toList
  | .mqtt5 => "Mqtt5".toList

/-- Derived `{:?}` (connect.rs:5-16). -/
def connect (t : Texts) (p : ConnectPacket) : List Char :=
  "ConnectPacket { version: ".toList ++ version p.version ++ ", client_id: ".toList ++ quoted t p.clientId
    ++ ", keep_alive_seconds: ".toList ++ decimal p.keepAliveSeconds.toNat ++ ", clean_session: ".toList ++ bool p.cleanSession
    ++ ", will_message: ".toList ++ option (message t) p.willMessage ++ ", user_name: ".toList ++ option (quoted t) p.userName
    ++ ", password: ".toList ++ option (quoted t) p.password ++ " }".toList

/-- Derived `{:?}` (connack.rs:1-9). -/
def connAckCode : ConnAckReturnCode → List Char
  | .accepted => "Accepted".toList
  | .unacceptableProtocolVersion => "UnacceptableProtocolVersion".toList
  | .identifierRejected => "IdentifierRejected".toList
  | .serverUnavailable => "ServerUnavailable".toList
  | .badUserNameOrPassword => "BadUserNameOrPassword".toList
  | .notAuthorized => "NotAuthorized".toList

/-- Derived `{:?}` (suback.rs:3-9). -/
def subAckCode : SubAckReturnCode → List Char
  | .successQoS0 => "SuccessQoS0".toList
  | .successQoS1 => "SuccessQoS1".toList
  | .successQoS2 => "SuccessQoS2".toList
  | .failure => "Failure".toList

/-- Derived `{:?}` (subscription.rs:5-9). -/
def subscription (t : Texts) (s : Subscription) : List Char :=
  "Subscription { topic: ".toList ++ quoted t s.topic ++ ", qos: ".toList ++ qos s.qos ++ " }".toList

/-- Derived `{:?}` of a packet that carries a packet id only (puback.rs:1-4 and others). -/
def idOnly (variant struct : String) (id : UInt16) : List Char :=
  variant.toList ++ "(".toList ++ struct.toList ++ " { packet_id: ".toList ++ decimal id.toNat ++ " })".toList

/-- Derived `{:?}` (packets/mod.rs:102-118 and the packets). -/
def packet (t : Texts) : ControlPacket → List Char
  | .connect p => "Connect(".toList ++ connect t p ++ [')']
  | .connAck p => "ConnAck(ConnAckPacket { session_present: ".toList ++ bool p.sessionPresent ++ ", return_code: ".toList
      ++ connAckCode p.returnCode ++ " })".toList
  | .publish p => "Publish(PublishPacket { packet_id: ".toList ++ option (fun n : UInt16 => decimal n.toNat) p.packetId ++ ", dup: ".toList
      ++ bool p.dup ++ ", message: ".toList ++ message t p.message ++ " })".toList
  | .pubAck id => idOnly "PubAck" "PubAckPacket" id
  | .pubRec id => idOnly "PubRec" "PubRecPacket" id
  | .pubRel id => idOnly "PubRel" "PubRelPacket" id
  | .pubComp id => idOnly "PubComp" "PubCompPacket" id
  | .subscribe p => "Subscribe(SubscribePacket { packet_id: ".toList ++ decimal p.packetId.toNat ++ ", subscriptions: ".toList
      ++ vec (subscription t) p.subscriptions ++ " })".toList
  | .subAck p => "SubAck(SubAckPacket { packet_id: ".toList ++ decimal p.packetId.toNat ++ ", return_codes: ".toList
      ++ vec subAckCode p.returnCodes ++ " })".toList
  | .unsubscribe p => "Unsubscribe(UnsubscribePacket { packet_id: ".toList ++ decimal p.packetId.toNat ++ ", topics: ".toList
      ++ vec (quoted t) p.topics ++ " })".toList
  | .unsubAck id => idOnly "UnsubAck" "UnSubAckPacket" id
  | .pingReq => "PingReq".toList
  | .pingResp => "PingResp".toList
  | .disconnect => "Disconnect(DisconnectPacket)".toList

/-- `Display for ControlPacket` (packets/mod.rs:120-138). -/
def packetName : ControlPacket → List Char
  | .connect _ => "CONNECT".toList
  | .connAck _ => "CONNACK".toList
  | .publish _ => "PUBLISH".toList
  | .pubAck _ => "PUBACK".toList
  | .pubRec _ => "PUBREC".toList
  | .pubRel _ => "PUBREL".toList
  | .pubComp _ => "PUBCOMP".toList
  | .subscribe _ => "SUBSCRIBE".toList
  | .subAck _ => "SUBACK".toList
  | .unsubscribe _ => "UNSUBSCRIBE".toList
  | .unsubAck _ => "UNSUBACK".toList
  | .pingReq => "PINGREQ".toList
  | .pingResp => "PINGRESP".toList
  | .disconnect => "DISCONNECT".toList

/-- Derived `{:?}` (events.rs:5-11). -/
def clientEvent (t : Texts) : ClientEvent → List Char
  | .connected p addr tx => "Connected(".toList ++ connect t p ++ ", ".toList ++ t.address addr ++ ", ".toList ++ t.sender tx ++ [')']
  | .controlPacket id p tx => "ControlPacket(".toList ++ quoted t id ++ ", ".toList ++ packet t p ++ ", ".toList ++ t.sender tx ++ [')']
  | .disconnected id => "Disconnected(".toList ++ quoted t id ++ [')']
  | .connectionLost id => "ConnectionLost(".toList ++ quoted t id ++ [')']

/-- Derived `{:?}` (events.rs:13-17). -/
def serverEvent (t : Texts) : ServerEvent → List Char
  | .controlPacket p => "ControlPacket(".toList ++ packet t p ++ [')']
  | .disconnect => "Disconnect".toList

/-- Derived `{:?}` (authentication.rs:12-19). -/
def authError (t : Texts) : AuthenticationError → List Char
  | .userNotFound => "UserNotFound".toList
  | .invalidPassword => "InvalidPassword".toList
  | .encryptionError => "EncryptionError(".toList ++ t.hashError ++ [')']

end Fmt

/-! ### Records -/

namespace Handler

open Fmt

/-- `info!("Client {} authentication error: {:?}", &user_name, &e)` (client_packet_handler.rs:125). -/
def refusalRecord (t : Texts) (userName : String) (e : AuthenticationError) : LogRecord :=
  ⟨.info, .handler, "Client ".toList ++ userName.toList ++ " authentication error: ".toList ++ authError t e⟩

/-- `error!("Received PING from not existing session with client id {}", client_id)` (client_packet_handler.rs:311-314). -/
def strayPingRecord (clientId : ClientId) : LogRecord :=
  ⟨.error, .handler, "Received PING from not existing session with client id ".toList ++ clientId.toList⟩

/-- `on_connect` (client_packet_handler.rs:120, 122-126). -/
def connectRecords (t : Texts) (auth : IdentityProvider) (p : ConnectPacket) : List LogRecord :=
  ⟨.debug, .handler, "New client ".toList ++ quoted t p.clientId ++ " connected".toList⟩ ::
  match p.userName, p.password with
  | some userName, some password =>
    match auth userName password with
    | .error e => [refusalRecord t userName e]
    | .ok _ => []
  | _, _ => []

/-- The warnings of `senders_to_publish` (messaging_service.rs:225-232). -/
def publishWarnings (t : Texts) (m : MessagingService) (topic : String) : List LogRecord :=
  match m.subscriptions.subscribedClients topic with
  | none => []
  | some clientIds => clientIds.filterMap fun c =>
    match m.sessions.get c with
    | some _ => none
    | none => some ⟨.warn, .messaging, "Tried to send message, but session for client ".toList ++ quoted t c ++ " not found".toList⟩

/-- `on_packet` (client_packet_handler.rs:90, 109) and what it calls (lines 178, 213-216, 236, 265, 311-314). -/
def packetRecords (t : Texts) (m : MessagingService) (clientId : ClientId) (p : ControlPacket) : List LogRecord :=
  ⟨.trace, .handler, "Got packet ".toList ++ packet t p⟩ ::
  match p with
  | .publish q =>
    ⟨.debug, .handler, "Client ".toList ++ quoted t clientId ++ " published message on topic ".toList ++ quoted t q.message.topic⟩ ::
      publishWarnings t m q.message.topic
  | .subscribe q =>
    [⟨.debug, .handler, "Client ".toList ++ quoted t clientId ++ " subscribed to topics ".toList ++ vec (subscription t) q.subscriptions⟩]
  | .unsubscribe q =>
    [⟨.debug, .handler, "Client ".toList ++ quoted t clientId ++ " unsubscribed from topics ".toList ++ vec (quoted t) q.topics⟩]
  | .pingReq => if m.sessionExists clientId then [] else [strayPingRecord clientId]
  | .disconnect => [⟨.debug, .handler, "Client ".toList ++ quoted t clientId ++ " disconnected".toList⟩]
  | p => [⟨.error, .handler, "Packet ".toList ++ packetName p ++ " not supported".toList⟩]

/-- The records made while an event is handled (client_packet_handler.rs:63-76). All are made before anything is sent to a client. -/
def records (t : Texts) (auth : IdentityProvider) (m : MessagingService) (ev : ClientEvent) : List LogRecord :=
  ⟨.trace, .handler, "Got event ".toList ++ clientEvent t ev⟩ ::
  match ev with
  | .connected p _ _ => connectRecords t auth p
  | .controlPacket clientId p _ => packetRecords t m clientId p
  | .disconnected _ => []
  | .connectionLost clientId =>
    [⟨.info, .handler, "Client ".toList ++ quoted t clientId ++ " disconnected unexpectedly".toList⟩]

end Handler

namespace Sys

open Fmt

/-- The records made in a step of a read task (listener.rs:96-130). The error of a channel whose receiver is gone is shown as `channel
closed`. -/
def readRecords (t : Texts) (env : Env) (s : Sys) (c : ConnId) : List LogRecord :=
  letI := RStream.source env.alloc
  let k := s.conns c
  match k.outbox with
  | some _ =>
    if s.handlerAlive then []
    else [⟨.error, .listener, "Error while sending client event to be processed: channel closed".toList⟩]
  | none =>
    match k.phase with
    | .first =>
      match (Decoder.readPacket env.profile : M RStream ControlPacket) k.rd with
      | (.ok p, _) =>
        ⟨.trace, .listener, "Read the first packet: ".toList ++ packet t p⟩ ::
        match p with
        | .connect q =>
          if q.clientId = "" then [⟨.trace, .listener, "Client did not provide client id, id will be generated".toList⟩] else []
        | _ => [⟨.warn, .listener, "The first received packet is not CONNECT".toList⟩]
      | _ => []
    | .running _ =>
      match (Decoder.readPacket env.profile : M RStream ControlPacket) k.rd with
      | (.ok p, _) => [⟨.trace, .listener, "Read packet: ".toList ++ packet t p⟩]
      | (.err _, _) => [⟨.trace, .listener, "Client read task ended".toList⟩]
      | _ => []
    | _ => []

/-- The records made in a step of a write task (listener.rs:137-153). -/
def writeRecords (t : Texts) (env : Env) (s : Sys) (c : ConnId) : List LogRecord :=
  letI := WStream.sink env.alloc
  let k := s.conns c
  if k.rxOpen && !k.wrBlocked then
    match k.queue with
    | .controlPacket p :: _ =>
      [⟨.trace, .listener, "Received server event: ".toList ++ serverEvent t (.controlPacket p)⟩,
        ⟨.trace, .listener, "Writing packet: ".toList ++ packet t p⟩] ++
      match (Encoder.writePacket p : M WStream Unit) k.wr with
      | (.err e, _) => [⟨.error, .listener, "Error while writing packet: ".toList ++ t.ioError e⟩]
      | _ => []
    | .disconnect :: _ =>
      [⟨.trace, .listener, "Received server event: ".toList ++ serverEvent t .disconnect⟩,
        ⟨.trace, .listener, "Client write task ended".toList⟩]
    | [] => if s.hasSender c then [] else [⟨.trace, .listener, "Client write task ended".toList⟩]
  else []

/-- The records made in a step of the packet handler: those of the event it takes. -/
def handlerRecords (t : Texts) (env : Env) (s : Sys) : List LogRecord :=
  match s.handler, s.events with
  | .idle, ev :: _ => Handler.records t env.auth s.messaging ev
  | _, _ => []

/-- The records made in a step of the system. -/
def records (t : Texts) (env : Env) (s : Sys) : Step → List LogRecord
  | .read c => readRecords t env s c
  | .write c => writeRecords t env s c
  | .handler _ => handlerRecords t env s
  /- application.rs:66 -/
  | .ctrlC => if s.ctrlC then [] else [⟨.info, .application, "Stopping RatelMQ...".toList⟩]
  /- client_packet_handler.rs:58, 81 -/
  | .stop =>
    match s.handler with
    | .idle =>
      if s.ctrlC then [⟨.debug, .handler, "Stopping manager...".toList⟩, ⟨.debug, .handler, "Stopped Manager".toList⟩] else []
    | _ => []

/-- The log of an execution. -/
def transcript (t : Texts) (env : Env) : Sys → List Step → List LogRecord
  | _, [] => []
  | s, a :: sched => records t env s a ++ transcript t env (step env s a) sched

end Sys

/-! ### Text -/

/-- The records of at most that level: what a filter lets through. -/
def upTo (level : Level) (log : List LogRecord) : List LogRecord := log.filter fun r => r.level.rank ≤ level.rank

/-- `IndentWrapper` of crate `env_logger`: lines of a message but the first are indented by four spaces. -/
def indented (message : List Char) : List Char := message.flatMap fun c => if c = '\n' then "\n    ".toList else [c]

/-- A record as it is written, with the time it is written at. -/
def LogRecord.text (time : List Char) (r : LogRecord) : List Char :=
  ['['] ++ time ++ [' '] ++ r.level.name ++ [' '] ++ r.origin.path ++ "] ".toList ++ indented r.message ++ ['\n']

/-- The log as it is written. -/
def logText (log : List (List Char × LogRecord)) : List Char := log.flatMap fun (time, r) => r.text time

end Ratel
