/-
The broker among clients that react (`Verif/Model/Open.lean`) with the waiting list of the channel to the packet handler
(`Verif/Model/Waiting.lean`): the most faithful of the models of the running broker, for executions that go on for ever.
-/
import Verif.Model.Open
import Verif.Model.Waiting

namespace Ratel

/-- The broker, its clients, and the semaphore of the client-event channel (application.rs:27). -/
structure Live where
  opn : Open
  /-- permits nobody has -/
  permits : Nat
  /-- read tasks waiting for a permit, the oldest first -/
  waiting : List ConnId
  /-- read tasks that were given a permit while they waited and have not run since -/
  granted : List ConnId

namespace Live

/-- A step of a read task (listener.rs:88-131): with an event to send it needs a permit; if the receiver is gone the send fails, also for
those that wait or have a permit. -/
def stepRead (env : Env) (l : Live) (c : ConnId) : Live :=
  match (l.opn.sys.conns c).outbox with
  | none => { l with opn := Open.step env l.opn (.task (.read c)) }
  | some _ =>
    if l.opn.sys.handlerAlive then
      if c ∈ l.granted then { l with opn := Open.step env l.opn (.task (.read c)), granted := l.granted.erase c }
      else if c ∈ l.waiting then l
      else
        match l.permits with
        | 0 => { l with waiting := l.waiting ++ [c] }
        | n + 1 => { l with opn := Open.step env l.opn (.task (.read c)), permits := n }
    else { l with opn := Open.step env l.opn (.task (.read c)), waiting := l.waiting.erase c, granted := l.granted.erase c }

/-- A permit comes back. -/
def release (l : Live) : Live :=
  match l.waiting with
  | [] => { l with permits := l.permits + 1 }
  | c :: rest => { l with waiting := rest, granted := l.granted ++ [c] }

/-- A step of the packet handler (client_packet_handler.rs:54-82): `recv` gives the permit of the event it takes back. -/
def stepHandler (env : Env) (now : Instant) (l : Live) : Live :=
  match l.opn.sys.handler, l.opn.sys.events with
  | .idle, _ :: _ => release { l with opn := Open.step env l.opn (.task (.handler now)) }
  | _, _ => { l with opn := Open.step env l.opn (.task (.handler now)) }

/-- One step. -/
def step (env : Env) (l : Live) : OStep → Live
  | .task (.read c) => stepRead env l c
  | .task (.handler now) => stepHandler env now l
  | st => { l with opn := Open.step env l.opn st }

/-- Run an execution. -/
def run (env : Env) (l : Live) (exec : List OStep) : Live := exec.foldl (step env) l

/-- The broker just started: as many permits as the channel has places. -/
def init (peers : ConnId → Sys.Peer) : Live := ⟨Open.init peers, channelCapacity, [], []⟩

end Live

end Ratel
