/-
The log of the whole process: of the main task (src/application.rs), of the listeners (src/mqtt/listener.rs) and of the messaging task
(src/broker/messaging/messaging_service.rs), besides that of the tasks of Model/Logging.
-/
import Verif.Model.Logging
import Verif.Model.Boot
import Verif.Model.Files

namespace Ratel

/-- Derived `{:?}` (settings/mod.rs:4-18). -/
def Fmt.settings (t : Texts) (s : Settings) : List Char :=
  "Settings { mqtt: MqttSettings { listeners_tcp: ".toList ++ Fmt.vec (Fmt.quoted t) s.listenersTcp
    ++ " }, authentication: AuthenticationSettings { password_file: ".toList ++ Fmt.quoted t s.passwordFile ++ " } }".toList

/-- The records made in a step of the process. -/
def Proc.records (t : Texts) (env : Env) (W : Nat) (p : Proc) : PStep → List LogRecord
  | .accept _ _ => []
  | .task st => if p.free W && p.runnable st then Sys.records t env p.sys st else []
  /- listener.rs:44 -/
  | .stopListening l =>
    if p.free W && p.sys.ctrlC && p.listeners[l]? == some true then [⟨.trace, .listener, "Stopping listener".toList⟩] else []
  /- messaging_service.rs:136 -/
  | .messagingEnds =>
    if p.free W && !p.sys.handlerAlive && p.messagingUp then [⟨.debug, .messaging, "Stopped Messaging Manager".toList⟩] else []
  /- application.rs:66 -/
  | .signal =>
    match p.main with
    | .serving => [⟨.info, .application, "Stopping RatelMQ...".toList⟩]
    | _ => []
  /- application.rs:75 -/
  | .main =>
    match p.main, p.sys.handler with
    | .joinHandler, .stopped => [⟨.info, .application, "RatelMQ stopped".toList⟩]
    | _, _ => []

namespace Files

/-- The records made in a step of the process with room for `F` sockets. An attempt to accept a connection that fails is logged each time
(listener.rs:60-62). -/
def records (t : Texts) (env : Env) (W F : Nat) (p : Proc) (st : PStep) : List LogRecord :=
  if refused F p st then
    match st with
    | .accept l c =>
      if p.free W && p.listeners[l]? == some true && !p.accepted.contains c then
        [⟨.error, .listener, "Error while accepting connection: ".toList ++ t.ioError .other⟩]
      else []
    | _ => []
  else Proc.records t env W p st

/-- The log of an execution. -/
def transcript (t : Texts) (env : Env) (W F : Nat) : Proc → List PStep → List LogRecord
  | _, [] => []
  | p, st :: sched => records t env W F p st ++ transcript t env W F (step env W F p st) sched

end Files

namespace Boot

/-- The records made before any task is spawned, and that of the messaging task when it begins, which is taken to be at once
(application.rs:15-23, messaging_service.rs:86). `version` and `commit` are those of the build (config/build_info.rs), `config` is the name
of the configuration file. Whatever panics on the way ends the log. -/
def firstRecords (t : Texts) (version commit config : List Char) (sv : StdVersion) (hs : Hashing) (env : Env) (peers : ConnId → Sys.Peer)
    (settings : Option Settings) (read : String → Option (List Char)) : List LogRecord :=
  [⟨.info, .application, "Initializing RatelMQ v".toList ++ version ++ " (".toList ++ commit.take 10 ++ ")...".toList⟩,
    ⟨.debug, .application, "Using configuration file ".toList ++ config⟩] ++
  match settings with
  | none => []
  | some s =>
    ⟨.debug, .application, "Effective settings: ".toList ++ Fmt.settings t s⟩ ::
    match launch sv hs env peers settings read with
    | none => []
    | some _ => [⟨.debug, .messaging, "Started Messaging Manager".toList⟩]

/-- The records made in a step while and after the process starts. -/
def records (t : Texts) (env : Env) (W : Nat) (b : Boot) : BStep → List LogRecord
  /- listener.rs:27-30 -/
  | .bind ok =>
    match b.proc.main, b.ready, b.rest with
    | .serving, false, a :: _ =>
      ⟨.debug, .listener, "Binding MQTT TCP listener to ".toList ++ a.toList⟩ ::
      if ok then [⟨.info, .listener, "Listening for MQTT TCP connections on ".toList ++ a.toList⟩] else []
    | _, _, _ => []
  /- application.rs:62 -/
  | .ready =>
    match b.proc.main, b.ready, b.rest with
    | .serving, false, [] => [⟨.info, .application, "Successfully initialized RatelMQ, ready to accept connections".toList⟩]
    | _, _, _ => []
  | .proc .signal => if b.ready then Proc.records t env W b.proc .signal else []
  | .proc st => Proc.records t env W b.proc st

/-- The log of an execution. -/
def transcript (t : Texts) (env : Env) (W : Nat) : Boot → List BStep → List LogRecord
  | _, [] => []
  | b, st :: sched => records t env W b st ++ transcript t env W (step env W b st) sched

/-- The log from the start of the process on. -/
def journal (t : Texts) (version commit config : List Char) (sv : StdVersion) (hs : Hashing) (env : Env) (W : Nat) (peers : ConnId → Sys.Peer)
    (settings : Option Settings) (read : String → Option (List Char)) (sched : List BStep) : List LogRecord :=
  firstRecords t version commit config sv hs env peers settings read ++
  match launch sv hs env peers settings read with
  | none => []
  | some (env', b) => transcript t env' W b sched

end Boot

end Ratel
