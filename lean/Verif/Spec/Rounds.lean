/-
How long things take, counted in turns of the tasks.
-/
import Verif.Spec.System

namespace Ratel.Spec

/-- A stretch of a schedule in which the packet handler and the write task of every connection below `N` get a turn; what else runs in
it, how often and in which order is left open. -/
structure Round (N : Nat) (r : List Step) : Prop where
  handler : ∃ now, .handler now ∈ r
  write : ∀ c, c < N → .write c ∈ r

/-- Only connections below `N` are read from. -/
def ReadsBelow (N : Nat) (sched : List Step) : Prop := ∀ st ∈ sched, ∀ c : ConnId, st = .read c → c < N

/-- How many packets (and orders to disconnect) the sequential broker sends for some events, to the connections below `N`. -/
noncomputable def sendsFor (auth : IdentityProvider) (N : Nat) (evs : List ClientEvent) : Nat :=
  ((List.range N).map fun d => (Broker.start.outputs auth evs d).length).sum

/-- How many have been sent to them so far. -/
def sentSoFar (N : Nat) (s : Sys) : Nat := ((List.range N).map fun d => (s.conns d).delivered.length).sum

end Ratel.Spec
