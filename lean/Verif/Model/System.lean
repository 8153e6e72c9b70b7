/-
The running broker: src/mqtt/listener.rs and src/application.rs around the packet handler, as a transition system whose steps are
steps of the individual tasks. A schedule is any list of steps.
-/
import Verif.Model.Decoder
import Verif.Model.Encoder
import Verif.Model.Handler

namespace Ratel

/-- Capacity of the channels (application.rs:27, listener.rs:72: `mpsc::channel(32)`). -/
def channelCapacity : Nat := 32

/-- Where the read task of a connection is (listener.rs:88-131).
`first`: before the first packet; `running id`: in the `while let` loop with `client_id = id`; `ended`: the task has returned or
panicked (its `server_event_tx` is dropped); `stuck`: it spins for ever inside `get_bytes`. -/
inductive ReadPhase where
  | first
  | running (clientId : ClientId)
  | ended
  | stuck
  deriving DecidableEq, Repr

/-- One connection: state of its two tasks and of its server-event channel (listener.rs:66-86). -/
structure Conn where
  /-- peer address -/
  addr : SocketAddr
  /-- what `Uuid::new_v4()` would give for this connection (listener.rs:103) -/
  uuid : String
  rd : RStream
  phase : ReadPhase
  /-- event the read task is currently sending to the packet handler (`client_event_tx.send(event).await`, listener.rs:110, 126) -/
  outbox : Option ClientEvent
  /-- the server-event channel -/
  queue : List ServerEvent
  /-- is the receiving end, owned by the write task, alive? -/
  rxOpen : Bool
  wr : WStream
  /-- the write task is parked for ever in a socket write -/
  wrBlocked : Bool
  /-- ghost: packets handed to `write_packet` so far -/
  written : List ControlPacket
  /-- ghost: server events ever put into the channel -/
  delivered : List ServerEvent

/-- State of the packet-handler task (client_packet_handler.rs:54-82). `busy todo`: an event is being processed and the sends
`todo` are still to be made. -/
inductive HandlerState where
  | idle
  | busy (todo : List (ConnId × ServerEvent))
  | crashed
  | stopped
  deriving DecidableEq, Repr

/-- The whole broker. -/
structure Sys where
  /-- All connections there will ever be; one that has not been accepted yet is one whose read task has not run. -/
  conns : ConnId → Conn
  /-- the client-event channel (application.rs:27) -/
  events : List ClientEvent
  handler : HandlerState
  messaging : MessagingService
  /-- ctrl-c was pressed (application.rs:64-67) -/
  ctrlC : Bool
  /-- ghost: events taken by the packet handler so far, in order, with the clock reading used -/
  log : List (ClientEvent × Instant)

/-- Fixed parameters of a run. -/
structure Env where
  alloc : Alloc
  profile : Profile
  auth : IdentityProvider

/-- Steps of the tasks. -/
inductive Step where
  /-- the read task of a connection advances (listener.rs:88-131) -/
  | read (c : ConnId)
  /-- the write task of a connection advances (listener.rs:133-154) -/
  | write (c : ConnId)
  /-- the packet handler advances (client_packet_handler.rs:54-82); `now` is the clock reading -/
  | handler (now : Instant)
  /-- the user presses ctrl-c (application.rs:64-67) -/
  | ctrlC
  /-- the packet handler's `select!` takes the ctrl-c branch (client_packet_handler.rs:57-60) -/
  | stop
  deriving DecidableEq, Repr

namespace Sys

/-- Replace one connection. -/
def setConn (s : Sys) (c : ConnId) (k : Conn) : Sys :=
  { s with conns := fun c' => if c' = c then k else s.conns c' }

/-- Is the receiving end of the client-event channel alive? It is owned by the packet handler. -/
def handlerAlive (s : Sys) : Bool :=
  match s.handler with
  | .idle => true
  | .busy _ => true
  | .crashed => false
  | .stopped => false

/-- The client id of a connection (listener.rs:101-108): that of the CONNECT, or a generated one if it is empty. -/
def effectiveClientId (k : Conn) (c : ConnectPacket) : ClientId :=
  if c.clientId = "" then k.uuid else c.clientId

/-- The read task, when it is not blocked on sending an event (listener.rs:96-129). A panic inside `read_packet` ends the task. -/
def readTask (env : Env) (c : ConnId) (k : Conn) : Conn :=
  letI := RStream.source env.alloc
  match k.phase with
  | .first =>
    match (Decoder.readPacket env.profile : M RStream ControlPacket) k.rd with
    | (.ok (.connect p), rd) =>
      let clientId := effectiveClientId k p
      { k with
        rd := rd
        phase := .running clientId
        outbox := some (.connected { p with clientId := clientId } k.addr c) }
    | (.ok _, rd) => { k with rd := rd, phase := .ended }
    | (.err _, rd) => { k with rd := rd, phase := .ended }
    | (.panic, rd) => { k with rd := rd, phase := .ended }
    | (.hang, rd) => { k with rd := rd, phase := .stuck }
    | (.pending, _) => k
  | .running clientId =>
    match (Decoder.readPacket env.profile : M RStream ControlPacket) k.rd with
    | (.ok p, rd) => { k with rd := rd, outbox := some (.controlPacket clientId p c) }
    | (.err _, rd) => { k with rd := rd, phase := .ended }
    | (.panic, rd) => { k with rd := rd, phase := .ended }
    | (.hang, rd) => { k with rd := rd, phase := .stuck }
    | (.pending, _) => k
  | .ended => k
  | .stuck => k

/-- A step of a read task. A full channel blocks the send; a dropped receiver makes it fail, which is only logged
(listener.rs:110-112, 126-128). -/
def stepRead (env : Env) (s : Sys) (c : ConnId) : Sys :=
  let k := s.conns c
  match k.outbox with
  | some ev =>
    if s.handlerAlive then
      if s.events.length < channelCapacity then
        { s with events := s.events ++ [ev] }.setConn c { k with outbox := none }
      else s
    else s.setConn c { k with outbox := none }
  | none => s.setConn c (readTask env c k)

/-- Does an event carry a sender clone of connection `c`? (events.rs:7-8) -/
def eventTx (c : ConnId) : ClientEvent → Bool
  | .connected _ _ tx => tx = c
  | .controlPacket _ _ tx => tx = c
  | .disconnected _ => false
  | .connectionLost _ => false

/-- Is some clone of the connection's `Sender<ServerEvent>` alive: in the read task, in an event on its way, in the handler, or in
a stored session? While it is busy the handler holds the senders it still has to use and that of its event, the last one of the log
(client_packet_handler.rs:67-69, 84-89). The messaging service and its sessions go away with the handler (application.rs:30-42). -/
def hasSender (s : Sys) (c : ConnId) : Bool :=
  (match (s.conns c).phase with
    | .ended => false
    | _ => true)
  || (match (s.conns c).outbox with
    | some ev => eventTx c ev
    | none => false)
  || (s.handlerAlive &&
      (s.events.any (eventTx c)
        || (match s.handler with
            | .busy todo => (todo.any fun (d, _) => d = c) || s.log.getLast?.any fun (ev, _) => eventTx c ev
            | _ => false)
        || s.messaging.sessions.sessions.any fun (_, session) => session.sender = c))

/-- A step of a write task (listener.rs:133-154): take the next event; write a packet (an I/O error is only logged, lines 143-145),
or leave the loop on `Disconnect` or when all senders are gone. Leaving drops the receiver. -/
def stepWrite (env : Env) (s : Sys) (c : ConnId) : Sys :=
  letI := WStream.sink env.alloc
  let k := s.conns c
  if k.rxOpen && !k.wrBlocked then
    match k.queue with
    | .controlPacket p :: rest =>
      match (Encoder.writePacket p : M WStream Unit) k.wr with
      | (.ok _, wr) => s.setConn c { k with queue := rest, wr := wr, written := k.written ++ [p] }
      | (.err _, wr) => s.setConn c { k with queue := rest, wr := wr, written := k.written ++ [p] }
      | (.panic, wr) => s.setConn c { k with queue := [], wr := wr, written := k.written ++ [p], rxOpen := false }
      | (.hang, wr) => s.setConn c { k with queue := rest, wr := wr, written := k.written ++ [p], wrBlocked := true }
      | (.pending, wr) => s.setConn c { k with queue := rest, wr := wr, written := k.written ++ [p], wrBlocked := true }
    | .disconnect :: _ => s.setConn c { k with queue := [], rxOpen := false }
    | [] => if s.hasSender c then s else s.setConn c { k with rxOpen := false }
  else s

/-- A step of the packet handler: take the next event, or make the next send of the current one. `sender.send(..).await.unwrap()`
panics when the receiver is gone and blocks while the queue is full (client_packet_handler.rs:128-132, 166-169, 226, 253-256,
274-277, 306-309, 315). -/
def stepHandler (env : Env) (now : Instant) (s : Sys) : Sys :=
  match s.handler with
  | .idle =>
    match s.events with
    | [] => s
    | ev :: rest =>
      let s := { s with events := rest, log := s.log ++ [(ev, now)] }
      match Handler.handle env.auth now s.messaging ev with
      | none => { s with handler := .crashed }
      | some (m, []) => { s with messaging := m }
      | some (m, sends) => { s with messaging := m, handler := .busy sends }
  | .busy [] => { s with handler := .idle }
  | .busy ((d, ev) :: todo) =>
    let k := s.conns d
    if k.rxOpen then
      if k.queue.length < channelCapacity then
        { s with handler := if todo = [] then .idle else .busy todo }.setConn d
          { k with queue := k.queue ++ [ev], delivered := k.delivered ++ [ev] }
      else s
    else { s with handler := .crashed }
  | .crashed => s
  | .stopped => s

/-- One step of the system. -/
def step (env : Env) (s : Sys) : Step → Sys
  | .read c => stepRead env s c
  | .write c => stepWrite env s c
  | .handler now => stepHandler env now s
  | .ctrlC => { s with ctrlC := true }
  | .stop =>
    match s.handler with
    | .idle => if s.ctrlC then { s with handler := .stopped } else s
    | _ => s

/-- Run a schedule. -/
def run (env : Env) (s : Sys) (sched : List Step) : Sys := sched.foldl (step env) s

/-- What the outside world does on one connection: its bytes in arbitrary pieces and how they end, and how its socket answers
writes. -/
structure Peer where
  addr : SocketAddr
  uuid : String
  segs : List (List UInt8)
  fin : Ending
  script : List WriteOutcome

/-- A fresh connection (listener.rs:66-86): buffers of 4096 bytes. -/
def Peer.conn (p : Peer) : Conn :=
  { addr := p.addr
    uuid := p.uuid
    rd := RStream.new 4096 p.segs p.fin
    phase := .first
    outbox := none
    queue := []
    rxOpen := true
    wr := WStream.new 4096 p.script
    wrBlocked := false
    written := []
    delivered := [] }

/-- The broker just started (application.rs:14-62). -/
def init (peers : ConnId → Peer) : Sys :=
  { conns := fun c => (peers c).conn
    events := []
    handler := .idle
    messaging := MessagingService.new
    ctrlC := false
    log := [] }

end Sys

end Ratel
