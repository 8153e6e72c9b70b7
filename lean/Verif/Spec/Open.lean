/-
What clients that react bring to an execution.
-/
import Verif.Model.Open

namespace Ratel.Spec

/-- What a step adds to what is known of the client on connection `c`: bytes before the end of the connection, its end, answers of its
socket. -/
def give (c : ConnId) (p : Sys.Peer) : OStep → Sys.Peer
  | .arrive c' seg => if c' = c ∧ p.fin = .silence then { p with segs := p.segs ++ [seg] } else p
  | .hangUp c' fin => if c' = c ∧ p.fin = .silence then { p with fin := fin } else p
  | .answer c' o => if c' = c then { p with script := p.script ++ [o] } else p
  | .task _ => p

/-- All the clients have done in an execution. -/
def given (peers : ConnId → Sys.Peer) (exec : List OStep) (c : ConnId) : Sys.Peer := exec.foldl (give c) (peers c)

/-- Two states of the broker that nobody can tell apart, except by what is still in sockets: the same events taken and waiting, the same
sessions and subscriptions, and on each connection the same events put into its channel and still in it, and tasks at the same place. -/
structure SameAs (s t : Sys) : Prop where
  log : s.log = t.log
  events : s.events = t.events
  handler : s.handler = t.handler
  messaging : s.messaging = t.messaging
  ctrlC : s.ctrlC = t.ctrlC
  delivered : ∀ c, (s.conns c).delivered = (t.conns c).delivered
  queue : ∀ c, (s.conns c).queue = (t.conns c).queue
  rxOpen : ∀ c, (s.conns c).rxOpen = (t.conns c).rxOpen
  phase : ∀ c, (s.conns c).phase = (t.conns c).phase
  outbox : ∀ c, (s.conns c).outbox = (t.conns c).outbox

end Ratel.Spec
