/-
The packet handler and the messaging service as two tasks that exchange requests and replies (client_packet_handler.rs,
messaging_service.rs:85-137). In `Model/System.lean` a request and its reply are one step; here sending the request, executing it and
taking the reply are steps of their own, and so is reading the clock.
-/
import Verif.Model.System

namespace Ratel

/-- What the packet handler still has to do for the current event, up to its next `await` each time. -/
inductive Prog where
  /-- the event is done -/
  | done
  /-- a panic -/
  | panic
  /-- `messaging_tx.send(op).await.unwrap()`, then `rx.await.unwrap()` -/
  | req (op : MessagingOperation) (k : op.Resp → Prog)
  /-- `Utc::now()` -/
  | clock (k : Instant → Prog)
  /-- `sender.send(event).await.unwrap()` -/
  | send (d : ConnId) (e : ServerEvent) (k : Prog)

namespace Prog

/-- `on_connect` (client_packet_handler.rs:113-175). -/
def onConnect (auth : IdentityProvider) (sender : ConnId) (packet : ConnectPacket) (address : SocketAddr) : Prog :=
  let ack (sessionPresent : Bool) : Prog :=
    .send sender (.controlPacket (.connAck { sessionPresent := sessionPresent, returnCode := .accepted })) .done
  let accept : Prog :=
    .req (.sessionGet packet.clientId) fun (maybeSession : Option Session) =>
      match maybeSession with
      | some _ => ack true
      | none =>
        .clock fun now =>
          .req (.sessionInsert
            { clientId := packet.clientId
              ip := address.ip
              persistent := !packet.cleanSession
              sender := sender
              keepAliveSeconds := packet.keepAliveSeconds
              lastActivity := now }) fun _ => ack false
  match packet.userName with
  | some userName =>
    match packet.password with
    | none => .panic
    | some password =>
      match auth userName password with
      | .error _ =>
        .send sender (.controlPacket (.connAck { sessionPresent := false, returnCode := .notAuthorized })) (.send sender .disconnect .done)
      | .ok _ => accept
  | none => accept

/-- `on_disconnect` (client_packet_handler.rs:177-190). -/
def onDisconnect (clientId : ClientId) : Prog := .req (.connectionDisconnected clientId) fun _ => .done

/-- `on_connection_lost` (client_packet_handler.rs:192-205). -/
def onConnectionLost (clientId : ClientId) : Prog := .req (.connectionLost clientId) fun _ => .done

/-- The loop of `on_publish` (client_packet_handler.rs:224-227). -/
def sendAll (publish : PublishPacket) : List ConnId → Prog
  | [] => .done
  | sender :: rest => .send sender (.controlPacket (.publish publish)) (sendAll publish rest)

/-- `on_publish` (client_packet_handler.rs:207-228). -/
def onPublish (publish : PublishPacket) : Prog := .req (.sendersToPublish publish.message.topic) fun (senders : List ConnId) => sendAll publish senders

/-- The loop of `on_subscribe` (client_packet_handler.rs:238-257). -/
def subscribeAll (sender : ConnId) (packetId : UInt16) (clientId : ClientId) : List Subscription → List SubAckReturnCode → Prog
  | [], returnCodes => .send sender (.controlPacket (.subAck { packetId := packetId, returnCodes := returnCodes })) .done
  | subscription :: rest, returnCodes =>
    .req (.subscribe clientId subscription) fun (returnCode : SubAckReturnCode) =>
      subscribeAll sender packetId clientId rest (returnCodes ++ [returnCode])

/-- `on_subscribe` (client_packet_handler.rs:230-257). -/
def onSubscribe (sender : ConnId) (subscribe : SubscribePacket) (clientId : ClientId) : Prog :=
  subscribeAll sender subscribe.packetId clientId subscribe.subscriptions []

/-- `on_unsubscribe` (client_packet_handler.rs:259-278). -/
def onUnsubscribe (sender : ConnId) (unsubscribe : UnsubscribePacket) (clientId : ClientId) : Prog :=
  .req (.unsubscribe clientId unsubscribe.topics) fun _ => .send sender (.controlPacket (.unsubAck unsubscribe.packetId)) .done

/-- `on_ping_req` (client_packet_handler.rs:280-317). -/
def onPingReq (sender : ConnId) (clientId : ClientId) : Prog :=
  .req (.sessionExists clientId) fun (sessionPresent : Bool) =>
    match sessionPresent with
    | true => .send sender (.controlPacket .pingResp) .done
    | false => .send sender .disconnect .done

/-- `on_packet` (client_packet_handler.rs:84-111). -/
def onPacket (clientId : ClientId) (packet : ControlPacket) (tx : ConnId) : Prog :=
  match packet with
  | .publish p => onPublish p
  | .subscribe p => onSubscribe tx p clientId
  | .unsubscribe p => onUnsubscribe tx p clientId
  | .pingReq => onPingReq tx clientId
  | .disconnect => onDisconnect clientId
  | _ => .done

/-- The `match event` of `run` (client_packet_handler.rs:65-75). -/
def handle (auth : IdentityProvider) : ClientEvent → Prog
  | .connected c address tx => onConnect auth tx c address
  | .controlPacket clientId packet tx => onPacket clientId packet tx
  | .disconnected _ => .done
  | .connectionLost clientId => onConnectionLost clientId

/-- Senders that the rest of the current event has in its hands. -/
def senders : Prog → List ConnId
  | .send d _ k => d :: senders k
  | _ => []

end Prog

/-- The packet handler task. `ev` is the current event, `time` the clock reading made for it, if any. -/
inductive FHandler where
  /-- in `select!` (client_packet_handler.rs:56) -/
  | idle
  /-- about to do `p` -/
  | running (ev : ClientEvent) (time : Option Instant) (p : Prog)
  /-- the request `op` is in the channel of the messaging service; the handler is in `rx.await` -/
  | asking (ev : ClientEvent) (time : Option Instant) (op : MessagingOperation) (k : op.Resp → Prog)
  /-- the reply `r` is in the oneshot channel -/
  | answered (ev : ClientEvent) (time : Option Instant) (op : MessagingOperation) (k : op.Resp → Prog) (r : op.Resp)
  | crashed
  | stopped

/-- The broker with a messaging task. -/
structure Fine where
  conns : ConnId → Conn
  events : List ClientEvent
  handler : FHandler
  messaging : MessagingService
  /-- is the messaging task still in its loop? -/
  messagingUp : Bool
  ctrlC : Bool
  /-- ghost: events finished so far, with the clock reading used for each -/
  log : List (ClientEvent × Instant)

/-- Steps. -/
inductive FStep where
  | read (c : ConnId)
  | write (c : ConnId)
  /-- the packet handler advances to its next `await`; `now` is what the clock says -/
  | handler (now : Instant)
  /-- the messaging task executes the request in its channel (messaging_service.rs:87-134) -/
  | messaging
  /-- the messaging task leaves its loop: the only sender of its channel, that of the handler, is gone (messaging_service.rs:87) -/
  | messagingEnds
  | ctrlC
  | stop
  deriving DecidableEq, Repr

namespace Fine

/-- Replace one connection. -/
def setConn (f : Fine) (c : ConnId) (k : Conn) : Fine := { f with conns := fun c' => if c' = c then k else f.conns c' }

/-- Does the packet handler task still exist? -/
def handlerAlive (f : Fine) : Bool :=
  match f.handler with
  | .crashed => false
  | .stopped => false
  | _ => true

/-- A step of a read task; as `Sys.stepRead`. -/
def stepRead (env : Env) (f : Fine) (c : ConnId) : Fine :=
  let k := f.conns c
  match k.outbox with
  | some ev =>
    if f.handlerAlive then
      if f.events.length < channelCapacity then
        { f with events := f.events ++ [ev] }.setConn c { k with outbox := none }
      else f
    else f.setConn c { k with outbox := none }
  | none => f.setConn c (Sys.readTask env c k)

/-- Senders inside a request (messaging_service.rs:27-30). -/
def opSenders : MessagingOperation → List ConnId
  | .sessionInsert session => [session.sender]
  | _ => []

/-- Senders inside a reply (messaging_service.rs:33, 36, 44, 48, 68). -/
def respSenders : (op : MessagingOperation) → op.Resp → List ConnId
  | .sessionGet _, r => ((r : Option Session).map Session.sender).toList
  | .sessionGetExpiredKeepAlive, r => (r : List Session).map Session.sender
  | .connectionLost _, r => ((r : Option Session).map Session.sender).toList
  | .connectionDisconnected _, r => ((r : Option Session).map Session.sender).toList
  | .sendersToPublish _, r => r
  | _, _ => []

/-- Does the handler task, or its exchange with the messaging task, hold a sender of connection `c`? The event's own sender is held until
the event is done. -/
def handlerHolds (f : Fine) (c : ConnId) : Bool :=
  match f.handler with
  | .running ev _ p => Sys.eventTx c ev || p.senders.contains c
  | .asking ev _ op _ => Sys.eventTx c ev || (opSenders op).contains c
  | .answered ev _ op _ r => Sys.eventTx c ev || (respSenders op r).contains c
  | _ => false

/-- Is some clone of the connection's sender alive? The sessions live as long as the messaging task. -/
def hasSender (f : Fine) (c : ConnId) : Bool :=
  (match (f.conns c).phase with
    | .ended => false
    | _ => true)
  || (match (f.conns c).outbox with
    | some ev => Sys.eventTx c ev
    | none => false)
  || (f.handlerAlive && (f.events.any (Sys.eventTx c) || f.handlerHolds c))
  || (f.messagingUp && f.messaging.sessions.sessions.any fun (_, session) => session.sender = c)

/-- A step of a write task; as `Sys.stepWrite`. -/
def stepWrite (env : Env) (f : Fine) (c : ConnId) : Fine :=
  letI := WStream.sink env.alloc
  let k := f.conns c
  if k.rxOpen && !k.wrBlocked then
    match k.queue with
    | .controlPacket p :: rest =>
      match (Encoder.writePacket p : M WStream Unit) k.wr with
      | (.ok _, wr) => f.setConn c { k with queue := rest, wr := wr, written := k.written ++ [p] }
      | (.err _, wr) => f.setConn c { k with queue := rest, wr := wr, written := k.written ++ [p] }
      | (.panic, wr) => f.setConn c { k with queue := [], wr := wr, written := k.written ++ [p], rxOpen := false }
      | (.hang, wr) => f.setConn c { k with queue := rest, wr := wr, written := k.written ++ [p], wrBlocked := true }
      | (.pending, wr) => f.setConn c { k with queue := rest, wr := wr, written := k.written ++ [p], wrBlocked := true }
    | .disconnect :: _ => f.setConn c { k with queue := [], rxOpen := false }
    | [] => if f.hasSender c then f else f.setConn c { k with rxOpen := false }
  else f

/-- A step of the packet handler (client_packet_handler.rs:54-82). Sending a request panics if the messaging task is gone
(`messaging_tx.send(op).await.unwrap()`); so does waiting for its reply. The channel of the messaging task has room: there is never more than
one request. -/
def stepHandler (env : Env) (now : Instant) (f : Fine) : Fine :=
  match f.handler with
  | .idle =>
    match f.events with
    | [] => f
    | ev :: rest => { f with events := rest, handler := .running ev none (Prog.handle env.auth ev) }
  | .running ev time .done => { f with handler := .idle, log := f.log ++ [(ev, time.getD now)] }
  | .running ev time .panic => { f with handler := .crashed, log := f.log ++ [(ev, time.getD now)] }
  | .running ev time (.req op k) =>
    if f.messagingUp then { f with handler := .asking ev time op k }
    else { f with handler := .crashed, log := f.log ++ [(ev, time.getD now)] }
  | .running ev _ (.clock k) => { f with handler := .running ev (some now) (k now) }
  | .running ev time (.send d e p) =>
    let k := f.conns d
    if k.rxOpen then
      if k.queue.length < channelCapacity then
        { f with handler := .running ev time p }.setConn d { k with queue := k.queue ++ [e], delivered := k.delivered ++ [e] }
      else f
    else { f with handler := .crashed, log := f.log ++ [(ev, time.getD now)] }
  | .asking ev time _ _ =>
    if f.messagingUp then f else { f with handler := .crashed, log := f.log ++ [(ev, time.getD now)] }
  | .answered ev time _ k r => { f with handler := .running ev time (k r) }
  | .crashed => f
  | .stopped => f

/-- A step of the messaging task. -/
def stepMessaging (f : Fine) : Fine :=
  match f.handler with
  | .asking ev time op k =>
    if f.messagingUp then
      let (r, _, m) := MessagingService.exec op f.messaging
      { f with messaging := m, handler := .answered ev time op k r }
    else f
  | _ => f

/-- One step. -/
def step (env : Env) (f : Fine) : FStep → Fine
  | .read c => stepRead env f c
  | .write c => stepWrite env f c
  | .handler now => stepHandler env now f
  | .messaging => stepMessaging f
  | .messagingEnds => if f.handlerAlive then f else { f with messagingUp := false }
  | .ctrlC => { f with ctrlC := true }
  | .stop =>
    match f.handler with
    | .idle => if f.ctrlC then { f with handler := .stopped } else f
    | _ => f

/-- Run a schedule. -/
def run (env : Env) (f : Fine) (sched : List FStep) : Fine := sched.foldl (step env) f

/-- The broker just started. -/
def init (peers : ConnId → Sys.Peer) : Fine :=
  { conns := fun c => (peers c).conn
    events := []
    handler := .idle
    messaging := MessagingService.new
    messagingUp := true
    ctrlC := false
    log := [] }

end Fine

end Ratel
