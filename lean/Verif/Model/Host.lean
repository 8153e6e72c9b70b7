/-
A machine on which the broker runs (src/main.rs, src/application.rs), is started anew after it has ended, and passwords are changed
meanwhile (ratelmq-passwd/src/main.rs). All that these processes share is the password file.
-/
import Verif.Model.Boot
import Verif.Model.Desk

namespace Ratel

/-- The password file with the runs of the password tool, and the broker process, if one has been started, with its environment. -/
structure Host where
  desk : Passwd.Desk
  broker : Option (Env × Boot)

/-- What can happen. -/
inductive HStep where
  /-- the next call of run `i` of the password tool -/
  | tool (i : Nat) (o : Passwd.Outcome)
  /-- the broker is started; these are its peers -/
  | start (peers : ConnId → Sys.Peer)
  /-- a step of the broker process -/
  | broker (st : BStep)

namespace Host

/-- `std::fs::read_to_string` of the password file (authentication.rs:52), at one moment; simplified: the tool does not get between the
reads of one `read_to_string`. -/
def text (h : Host) : Option (List Char) :=
  match h.desk.file with
  | none => none
  | some bytes => (fromUtf8 bytes).map String.toList

/-- Does a broker process exist? -/
def running (h : Host) : Bool :=
  match h.broker with
  | none => false
  | some (_, b) =>
    match b.proc.main with
    | .exited _ => false
    | _ => true

/-- One step. A second broker is not started while one is running (it would not get the addresses, application.rs:50-60, listener.rs:22-38). The
broker reads the password file when it starts (application.rs:22-43, client_packet_handler.rs:41-43) and at no other time. -/
def step (sv : StdVersion) (hs : Hashing) (ci : Passwd.CaseEq) (env : Env) (W : Nat) (settings : Settings) (h : Host) : HStep → Host
  | .tool i o => { h with desk := h.desk.step ci (i, o) }
  | .start peers => if h.running then h else { h with broker := Boot.launch sv hs env peers (some settings) fun _ => h.text }
  | .broker st => { h with broker := h.broker.map fun eb => (eb.1, eb.2.step eb.1 W st) }

/-- Run a schedule. -/
def run (sv : StdVersion) (hs : Hashing) (ci : Passwd.CaseEq) (env : Env) (W : Nat) (settings : Settings) (h : Host) (xs : List HStep) : Host :=
  xs.foldl (step sv hs ci env W settings) h

end Host

end Ratel
