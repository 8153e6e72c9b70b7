/-
Endless schedules, and what it means that all has been done.
-/
import Verif.Spec.System

namespace Ratel.Spec

/-- The first `n` steps of an endless schedule. -/
def firstSteps (σ : Nat → Step) (n : Nat) : List Step := (List.range n).map σ

/-- Only the connections below `N` ever do something. -/
def Few (N : Nat) (σ : Nat → Step) : Prop := ∀ n c, σ n = .read c ∨ σ n = .write c → c < N

/-- Each task of the connections below `N`, and the handler, gets its turn again and again. -/
structure Fair (N : Nat) (σ : Nat → Step) : Prop where
  few : Few N σ
  read : ∀ c, c < N → ∀ n, ∃ m, n ≤ m ∧ σ m = .read c
  write : ∀ c, c < N → ∀ n, ∃ m, n ≤ m ∧ σ m = .write c
  handler : ∀ n, ∃ m now, n ≤ m ∧ σ m = .handler now

/-- Nothing is left to be handled: the handler waits, no event is on its way, and every connection of those considered has written what
it was sent, unless its socket takes no more, and has no packet left to decode. -/
structure Done (env : Env) (P : ConnId → Prop) (s : Sys) : Prop where
  handler : s.handler = .idle
  events : s.events = []
  outbox : ∀ c, P c → (s.conns c).outbox = none
  queue : ∀ c, P c → (s.conns c).wrBlocked = false → (s.conns c).queue = []
  read : ∀ c, P c → ¬ CanRead env (s.conns c)

/-- Nothing is left to be handled of the connections below `N`. -/
abbrev AllDone (env : Env) (N : Nat) (s : Sys) : Prop := Done env (fun c => c < N) s

/-- The same client, on a socket that may split its bytes and answer writes otherwise. -/
structure SameInput (peer peer' : Sys.Peer) : Prop where
  addr : peer'.addr = peer.addr
  uuid : peer'.uuid = peer.uuid
  bytes : peer'.segs.flatten = peer.segs.flatten
  fin : peer'.fin = peer.fin

end Ratel.Spec
