/-
Start-up: `main` of src/main.rs, the first part of `run` of src/application.rs (lines 14-62), `Settings` of src/settings/mod.rs,
`ClientPacketHandler::new` (client_packet_handler.rs:33-52).
-/
import Verif.Model.Process
import Verif.Model.Auth

namespace Ratel

/-- `Settings`, `MqttSettings`, `AuthenticationSettings` (settings/mod.rs:4-18). -/
structure Settings where
  listenersTcp : List String
  passwordFile : String
  deriving DecidableEq, Repr

/-- The process while and after it starts. -/
structure Boot where
  proc : Proc
  /-- the addresses that the loop of application.rs:50-60 still has to bind -/
  rest : List String
  /-- has the main task called `signal::ctrl_c()` (application.rs:64)? Before, the process does not handle SIGINT. -/
  ready : Bool

/-- Steps while the process starts. -/
inductive BStep where
  /-- the main task binds the next address, with or without success, and spawns the listener (application.rs:50-60) -/
  | bind (ok : Bool)
  /-- the main task has bound all addresses (application.rs:62-64) -/
  | ready
  /-- any other step of the process -/
  | proc (st : PStep)
  deriving DecidableEq, Repr

namespace Boot

/-- Before a task is spawned (application.rs:22-43): the settings are loaded (line 22), the password file is read and parsed
(client_packet_handler.rs:41-43, authentication.rs:51-69), each with `unwrap`; `none`: the main task panics. `settings` is the result
of `Settings::new` (the crates `config` and `serde` on the configuration file and the environment), `read` that of
`std::fs::read_to_string`. What the environment says about authentication is replaced by the password file. -/
def launch (sv : StdVersion) (hs : Hashing) (env : Env) (peers : ConnId → Sys.Peer) (settings : Option Settings)
    (read : String → Option (List Char)) : Option (Env × Boot) :=
  match settings with
  | none => none
  | some settings =>
    match read settings.passwordFile with
    | none => none
    | some credentials =>
      match FileIdentityManager.new sv credentials with
      | none => none
      | some identities =>
        some ({ env with auth := identities.authenticate hs },
          { proc := Proc.start 0 peers, rest := settings.listenersTcp, ready := false })

/-- Binding the next address (application.rs:50-60, listener.rs:22-38): the `unwrap`s panic if it fails, otherwise a listener is
spawned. -/
def stepBind (b : Boot) (ok : Bool) : Boot :=
  match b.proc.main, b.ready, b.rest with
  | .serving, false, _ :: rest =>
    if ok then { b with proc := { b.proc with listeners := b.proc.listeners ++ [true] }, rest := rest }
    else { b with proc := { b.proc with main := .panicked } }
  | _, _, _ => b

/-- All is bound: the main task waits for ctrl-c (application.rs:62-64). -/
def stepReady (b : Boot) : Boot :=
  match b.proc.main, b.rest with
  | .serving, [] => { b with ready := true }
  | _, _ => b

/-- SIGINT before `signal::ctrl_c()` has been called: the default action of the operating system ends the process. -/
def kill (b : Boot) : Boot :=
  match b.proc.main with
  | .exited _ => b
  | _ => { b with proc := { b.proc with main := .exited false } }

/-- One step. -/
def step (env : Env) (W : Nat) (b : Boot) : BStep → Boot
  | .bind ok => stepBind b ok
  | .ready => stepReady b
  | .proc .signal => if b.ready then { b with proc := b.proc.stepSignal } else kill b
  | .proc st => { b with proc := Proc.step env W b.proc st }

/-- Run a schedule. -/
def run (env : Env) (W : Nat) (b : Boot) (sched : List BStep) : Boot := sched.foldl (step env W) b

end Boot

end Ratel
