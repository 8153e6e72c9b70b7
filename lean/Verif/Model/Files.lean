/-
The process when the number of open files is limited: accepting a connection fails when the limit is reached
(src/mqtt/listener.rs:52-64).
-/
import Verif.Model.Process

namespace Ratel

namespace Files

/-- Is the socket of a connection open? Its read half belongs to the read task and its write half to the write task (listener.rs:71-86);
the descriptor is closed when both are dropped, that is when both tasks have ended. The write task has ended when its receiver is gone. -/
def holds (k : Conn) : Bool :=
  k.rxOpen || (match k.phase with
    | .ended => k.outbox.isSome
    | _ => true)

/-- The sockets of connections that are open. -/
def sockets (p : Proc) : Nat := (p.accepted.filter fun c => holds (p.sys.conns c)).length

/-- Does `accept` fail? It does so (`EMFILE`) if `F` sockets of connections are open. -/
def refused (F : Nat) (p : Proc) : PStep → Bool
  | .accept _ _ => F ≤ sockets p
  | _ => false

/-- One step of the process, with `W` worker threads and room for `F` sockets. An error of `accept` is only logged, and the listener tries
again (listener.rs:40-50, 60-62); the connection is still in the queue of the operating system, so it may be accepted by a later step. A
listener that fails again and again is taken to give its worker thread back in between. -/
def step (env : Env) (W F : Nat) (p : Proc) (st : PStep) : Proc :=
  if refused F p st then p else Proc.step env W p st

/-- Run a schedule. -/
def run (env : Env) (W F : Nat) (p : Proc) (sched : List PStep) : Proc := sched.foldl (step env W F) p

end Files

end Ratel
