/-
The process around the broker: the main task of src/application.rs, the accept loops of src/mqtt/listener.rs, the end of the messaging
task and the worker threads of the tokio runtime (src/main.rs).
-/
import Verif.Model.System

namespace Ratel

/-- Where the main task is (application.rs:64-76). -/
inductive MainPhase where
  /-- `signal::ctrl_c().await` (line 64) -/
  | serving
  /-- `join_all(listeners).await` (line 69) -/
  | joinListeners
  /-- `messaging_service_future.await` (line 71) -/
  | joinMessaging
  /-- `manager_future.await` (line 73) -/
  | joinHandler
  /-- `run` has returned; the runtime is being dropped -/
  | returned
  /-- an `unwrap` of lines 67, 71 or 73 panicked; the runtime is being dropped -/
  | panicked
  /-- the process is gone; `ok`: it ended without a panic of the main task -/
  | exited (ok : Bool)
  deriving DecidableEq, Repr

/-- The process. -/
structure Proc where
  sys : Sys
  /-- connections accepted so far (listener.rs:52-64); only these have tasks -/
  accepted : List ConnId
  /-- for every listener: is its task still in the accept loop? (listener.rs:40-50) -/
  listeners : List Bool
  /-- is the messaging task still running? (messaging_service.rs: `while let Some(..) = rx.recv().await`) -/
  messagingUp : Bool
  main : MainPhase

/-- Steps of the process. -/
inductive PStep where
  /-- listener `l` accepts connection `c` and spawns its tasks (listener.rs:52-86) -/
  | accept (l : Nat) (c : ConnId)
  /-- a task of the broker makes a step -/
  | task (st : Step)
  /-- listener `l` takes the ctrl-c branch of its `select!` (listener.rs:43-46) -/
  | stopListening (l : Nat)
  /-- the messaging task finds that all senders of its channel are gone -/
  | messagingEnds
  /-- the user presses ctrl-c -/
  | signal
  /-- the main task, or the dropping of the runtime after it, advances -/
  | main
  deriving DecidableEq, Repr

namespace Proc

/-- How many connections have a read task that spins. Such a task goes round the loop of
`get_bytes` (mqtt_bytes_stream.rs) without awaiting anything, so it never gives its worker thread back. -/
def spinning (p : Proc) : Nat := (p.accepted.filter fun c => (p.sys.conns c).phase = .stuck).length

/-- Is the process gone? -/
def gone (p : Proc) : Bool :=
  match p.main with
  | .exited _ => true
  | _ => false

/-- Can a spawned task run? There must be a worker thread that is not occupied by a spinning task. -/
def free (W : Nat) (p : Proc) : Bool := p.spinning < W && !p.gone

/-- The steps of the tasks that exist. -/
def runnable (p : Proc) : Step → Bool
  | .read c => c ∈ p.accepted
  | .write c => c ∈ p.accepted
  | .handler _ => true
  | .stop => true
  | .ctrlC => false

/-- The main task (application.rs:69-76). Joining a task that panicked gives an error, on which `unwrap` panics (lines 71, 73;
`join_all` of line 69 ignores it). Dropping the runtime waits for the worker threads, so it never finishes while a task spins. -/
def stepMain (p : Proc) : Proc :=
  match p.main with
  | .serving => p
  | .joinListeners => if p.listeners.all (!·) then { p with main := .joinMessaging } else p
  | .joinMessaging => if p.messagingUp then p else { p with main := .joinHandler }
  | .joinHandler =>
    match p.sys.handler with
    | .stopped => { p with main := .returned }
    | .crashed => { p with main := .panicked }
    | _ => p
  | .returned => if p.spinning = 0 then { p with main := .exited true } else p
  | .panicked => if p.spinning = 0 then { p with main := .exited false } else p
  | .exited _ => p

/-- Ctrl-c (application.rs:64-67): `ctrl_c_tx.send(()).unwrap()` panics when no receiver is left; the receivers are those of the
listeners and of the packet handler. Later ones are ignored, nobody waits for them. -/
def stepSignal (p : Proc) : Proc :=
  match p.main with
  | .serving =>
    if p.sys.handlerAlive || p.listeners.any (·) then { p with sys := { p.sys with ctrlC := true }, main := .joinListeners }
    else { p with main := .panicked }
  | _ => p

/-- One step of the process, with `W` worker threads. -/
def step (env : Env) (W : Nat) (p : Proc) : PStep → Proc
  | .accept l c =>
    if p.free W && p.listeners[l]? == some true && !p.accepted.contains c then { p with accepted := c :: p.accepted } else p
  | .task st => if p.free W && p.runnable st then { p with sys := Sys.step env p.sys st } else p
  | .stopListening l => if p.free W && p.sys.ctrlC then { p with listeners := p.listeners.set l false } else p
  | .messagingEnds => if p.free W && !p.sys.handlerAlive then { p with messagingUp := false } else p
  | .signal => stepSignal p
  | .main => stepMain p

/-- Run a schedule. -/
def run (env : Env) (W : Nat) (p : Proc) (sched : List PStep) : Proc := sched.foldl (step env W) p

/-- The process just started with `L` listeners (application.rs:14-62). -/
def start (L : Nat) (peers : ConnId → Sys.Peer) : Proc :=
  { sys := Sys.init peers
    accepted := []
    listeners := List.replicate L true
    messagingUp := true
    main := .serving }

end Proc

end Ratel
