/-
The order in which read tasks get room in the channel to the packet handler: `tokio::sync::mpsc` with a bound is a queue together with a
semaphore (tokio's `sync/batch_semaphore.rs`) that has a permit for every free place. `send` takes a permit, or puts the task at the end
of the semaphore's waiting list; taking an event out of the channel gives the permit to the task at the head of that list, or back to the
semaphore if nobody waits. `Verif/Model/System.lean` leaves open who gets a free place; here it is decided.
-/
import Verif.Model.System

namespace Ratel

/-- The broker with the semaphore of the client-event channel (application.rs:27). -/
structure Fifo where
  sys : Sys
  /-- permits nobody has -/
  permits : Nat
  /-- read tasks waiting for a permit, the oldest first -/
  waiting : List ConnId
  /-- read tasks that were given a permit while they waited and have not run since -/
  granted : List ConnId

namespace Fifo

/-- An event is put into the channel (listener.rs:110, 126). -/
def push (s : Sys) (c : ConnId) (ev : ClientEvent) : Sys :=
  { s with events := s.events ++ [ev] }.setConn c { s.conns c with outbox := none }

/-- A step of a read task. If the receiver is gone the send fails, also for those that wait or have a permit. -/
def stepRead (env : Env) (f : Fifo) (c : ConnId) : Fifo :=
  match (f.sys.conns c).outbox with
  | none => { f with sys := Sys.stepRead env f.sys c }
  | some ev =>
    if f.sys.handlerAlive then
      if c ∈ f.granted then { f with sys := push f.sys c ev, granted := f.granted.erase c }
      else if c ∈ f.waiting then f
      else
        match f.permits with
        | 0 => { f with waiting := f.waiting ++ [c] }
        | n + 1 => { f with sys := push f.sys c ev, permits := n }
    else { f with sys := Sys.stepRead env f.sys c, waiting := f.waiting.erase c, granted := f.granted.erase c }

/-- A permit comes back. -/
def release (f : Fifo) : Fifo :=
  match f.waiting with
  | [] => { f with permits := f.permits + 1 }
  | c :: rest => { f with waiting := rest, granted := f.granted ++ [c] }

/-- A step of the packet handler (client_packet_handler.rs:54-82): `recv` gives the permit of the event it takes back. -/
def stepHandler (env : Env) (now : Instant) (f : Fifo) : Fifo :=
  match f.sys.handler, f.sys.events with
  | .idle, _ :: _ => release { f with sys := Sys.stepHandler env now f.sys }
  | _, _ => { f with sys := Sys.stepHandler env now f.sys }

/-- One step. -/
def step (env : Env) (f : Fifo) : Step → Fifo
  | .read c => stepRead env f c
  | .handler now => stepHandler env now f
  | st => { f with sys := Sys.step env f.sys st }

/-- Run a schedule. -/
def run (env : Env) (f : Fifo) (sched : List Step) : Fifo := sched.foldl (step env) f

/-- The broker just started: as many permits as the channel has places. -/
def init (peers : ConnId → Sys.Peer) : Fifo := ⟨Sys.init peers, channelCapacity, [], []⟩

end Fifo

end Ratel
