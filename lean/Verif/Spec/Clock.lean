/-
Executions that differ in what the clock said.
-/
import Verif.Model.Process

namespace Ratel.Spec

/-- A step, without what the clock says. -/
def clockless : PStep → PStep
  | .task (.handler _) => .task (.handler 0)
  | st => st

/-- The same steps in the same order; the clock may say anything. -/
def SameButClock (sched sched' : List PStep) : Prop := sched'.map clockless = sched.map clockless

/-- Two states of the process between which nobody outside can tell: everything about all connections, in particular what was sent and written on
them; the listeners, the queues and the tasks; and which events were handled. -/
structure SameOutside (p p' : Proc) : Prop where
  conns : p'.sys.conns = p.sys.conns
  events : p'.sys.events = p.sys.events
  handler : p'.sys.handler = p.sys.handler
  handled : p'.sys.log.map Prod.fst = p.sys.log.map Prod.fst
  ctrlC : p'.sys.ctrlC = p.sys.ctrlC
  accepted : p'.accepted = p.accepted
  listeners : p'.listeners = p.listeners
  messagingUp : p'.messagingUp = p.messagingUp
  main : p'.main = p.main

end Ratel.Spec
