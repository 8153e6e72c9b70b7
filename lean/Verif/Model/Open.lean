/-
The broker among clients that react: src/mqtt/listener.rs with sockets whose input comes, and whose output is taken, in the course of the
execution. Bytes arrive, connections end and sockets take output by steps of their own, which may come at any time and may depend on
everything that happened before. A task waiting for its socket goes on where it was once there is enough.
-/
import Verif.Model.System

namespace Ratel

/-- Steps of the clients and of the broker. -/
inductive OStep where
  /-- a step of a task of the broker, as in `Step` -/
  | task (st : Step)
  /-- bytes of a client arrive at its socket -/
  | arrive (c : ConnId) (seg : List UInt8)
  /-- a client ends its connection, or the connection breaks (`fin` is not `silence`) -/
  | hangUp (c : ConnId) (fin : Ending)
  /-- a socket is ready to answer one more write of the broker (mqtt_bytes_stream.rs:319, 326) -/
  | answer (c : ConnId) (o : WriteOutcome)
  deriving DecidableEq, Repr

/-- The broker, with the packet each write task is in the middle of writing (listener.rs:138-146). Until the write is done `wr` is what it was
at its beginning; what the socket has got meanwhile is `Open.seen`. -/
structure Open where
  sys : Sys
  hand : ConnId → Option ControlPacket
  /-- ghost: the steps made so far as steps of the broker with all input given at the start -/
  did : List Step

namespace RStream

/-- More input: pieces that arrive, and how the connection ends. Nothing comes after its end. -/
def later (more : List (List UInt8)) (fin : Ending) (s : RStream) : RStream :=
  if s.fin = .silence then ⟨s.buf, s.segs ++ more, fin⟩ else s

end RStream

namespace WStream

/-- More answers of the socket. -/
def later (more : List WriteOutcome) (s : WStream) : WStream := { s with script := s.script ++ more }

end WStream

namespace Open

/-- Replace one connection. -/
def setConn (o : Open) (c : ConnId) (k : Conn) : Open := { o with sys := o.sys.setConn c k }

/-- What the write task has in hand. -/
def setHand (o : Open) (c : ConnId) (p : Option ControlPacket) : Open :=
  { o with hand := fun c' => if c' = c then p else o.hand c' }

/-- The end of writing a packet (listener.rs:140-147): an I/O error is only logged; a panic ends the task; spinning or waiting goes on for
ever. -/
def endWrite (k : Conn) (p : ControlPacket) : Res Unit × WStream → Conn
  | (.ok _, wr) => { k with wr := wr, written := k.written ++ [p] }
  | (.err _, wr) => { k with wr := wr, written := k.written ++ [p] }
  | (.panic, wr) => { k with queue := [], wr := wr, written := k.written ++ [p], rxOpen := false }
  | (.hang, wr) => { k with wr := wr, written := k.written ++ [p], wrBlocked := true }
  | (.pending, wr) => { k with wr := wr, written := k.written ++ [p], wrBlocked := true }

/-- The write task goes on writing the packet it has in hand, as far as the socket lets it: while there are not enough answers it waits. -/
def goOn (env : Env) (o : Open) (c : ConnId) (p : ControlPacket) : Open :=
  letI := WStream.sink env.alloc
  match (Encoder.writePacket p : M WStream Unit) (o.sys.conns c).wr with
  | (.pending, _) => o.setHand c (some p)
  | r => (o.setConn c (endWrite (o.sys.conns c) p r)).setHand c none

/-- A step of a write task (listener.rs:133-154): go on with the packet in hand, or take the next event and begin. -/
def stepWrite (env : Env) (o : Open) (c : ConnId) : Open :=
  match o.hand c with
  | some p => goOn env o c p
  | none =>
    let k := o.sys.conns c
    if k.rxOpen && !k.wrBlocked then
      match k.queue with
      | .controlPacket p :: rest => goOn env { o.setConn c { k with queue := rest } with did := o.did ++ [.write c] } c p
      | _ => { o with sys := Sys.stepWrite env o.sys c, did := o.did ++ [.write c] }
    else o

/-- Is the read task waiting for bytes that have not come? -/
def waits (env : Env) (k : Conn) : Bool :=
  letI := RStream.source env.alloc
  match k.outbox with
  | some _ => false
  | none => match ((Decoder.readPacket env.profile : M RStream ControlPacket) k.rd).1 with
    | .pending => true
    | _ => false

/-- A step of a read task (listener.rs:88-131): while the bytes do not suffice for a packet it waits. -/
def stepRead (env : Env) (o : Open) (c : ConnId) : Open :=
  if waits env (o.sys.conns c) then o
  else { o with sys := Sys.stepRead env o.sys c, did := o.did ++ [.read c] }

/-- One step. -/
def step (env : Env) (o : Open) : OStep → Open
  | .task (.read c) => stepRead env o c
  | .task (.write c) => stepWrite env o c
  | .task st => { o with sys := Sys.step env o.sys st, did := o.did ++ [st] }
  | .arrive c seg =>
    let k := o.sys.conns c
    o.setConn c { k with rd := k.rd.later [seg] .silence }
  | .hangUp c fin =>
    let k := o.sys.conns c
    o.setConn c { k with rd := k.rd.later [] fin }
  | .answer c a =>
    let k := o.sys.conns c
    o.setConn c { k with wr := k.wr.later [a] }

/-- Run an execution. -/
def run (env : Env) (o : Open) (exec : List OStep) : Open := exec.foldl (step env) o

/-- The broker just started; `peers` is what is there of each connection at the start: possibly nothing. -/
def init (peers : ConnId → Sys.Peer) : Open := ⟨Sys.init peers, fun _ => none, []⟩

/-- The bytes the socket of a connection has taken: also those of the packet that is being written. -/
def seen (env : Env) (o : Open) (c : ConnId) : List UInt8 :=
  letI := WStream.sink env.alloc
  match o.hand c with
  | none => (o.sys.conns c).wr.wire
  | some p => ((Encoder.writePacket p : M WStream Unit) (o.sys.conns c).wr).2.wire

end Open

end Ratel
