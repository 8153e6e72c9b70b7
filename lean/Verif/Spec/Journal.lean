/-
What the log of the process tells about the process.
-/
import Verif.Model.Journal
import Verif.Spec.Logging
import Verif.Spec.Process

namespace Ratel.Spec

/-- A record about the process itself: starting, listening, accepting, stopping. -/
def housekeeping (r : LogRecord) : Bool :=
  r.origin = .application
  || (r.origin = .listener && (r.message = "Stopping listener".toList || "Binding MQTT TCP listener to ".toList.isPrefixOf r.message
      || "Listening for MQTT TCP connections on ".toList.isPrefixOf r.message))
  || (r.origin = .messaging && r.message = "Stopped Messaging Manager".toList)

/-- What the main task says. -/
def told (log : List LogRecord) : List (List Char) :=
  (log.filter fun r => r.origin = .application && r.level = .info).map (·.message)

/-- The addresses that the log says are listened on. -/
def listening (log : List LogRecord) : List (List Char) :=
  log.filterMap fun r =>
    if r.origin = .listener && r.level = .info then between "Listening for MQTT TCP connections on ".toList [] r.message else none

def saysReady : List Char := "Successfully initialized RatelMQ, ready to accept connections".toList

def saysStopping : List Char := "Stopping RatelMQ...".toList

def saysStopped : List Char := "RatelMQ stopped".toList

/-- What is said at first. -/
def saysInitializing (version commit : List Char) : List Char :=
  "Initializing RatelMQ v".toList ++ version ++ " (".toList ++ commit.take 10 ++ ")...".toList

end Ratel.Spec
