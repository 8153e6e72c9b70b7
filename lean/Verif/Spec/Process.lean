/-
Endless schedules of the process.
-/
import Verif.Model.Process
import Verif.Spec.Fair

namespace Ratel.Spec

/-- The first `n` steps of an endless schedule. -/
def firstPSteps (τ : Nat → PStep) (n : Nat) : List PStep := (List.range n).map τ

/-- Only the connections below `N` ever ask to be accepted. -/
def PFew (N : Nat) (τ : Nat → PStep) : Prop := ∀ n l c, τ n = .accept l c → c < N

/-- Each task gets its turn again and again: those of the connections below `N`, the handler (both branches of its `select!`), the `L`
listeners, the messaging task, and the main task. -/
structure PFair (N L : Nat) (τ : Nat → PStep) : Prop where
  few : PFew N τ
  read : ∀ c, c < N → ∀ n, ∃ m, n ≤ m ∧ τ m = .task (.read c)
  write : ∀ c, c < N → ∀ n, ∃ m, n ≤ m ∧ τ m = .task (.write c)
  handler : ∀ n, ∃ m now, n ≤ m ∧ τ m = .task (.handler now)
  stop : ∀ n, ∃ m, n ≤ m ∧ τ m = .task .stop
  listeners : ∀ l, l < L → ∀ n, ∃ m, n ≤ m ∧ τ m = .stopListening l
  messaging : ∀ n, ∃ m, n ≤ m ∧ τ m = .messagingEnds
  main : ∀ n, ∃ m, n ≤ m ∧ τ m = .main

/-- The connections below `N` ask to be accepted until they are. -/
def Knocking (N L : Nat) (τ : Nat → PStep) : Prop := ∀ c, c < N → ∀ n, ∃ m l, n ≤ m ∧ l < L ∧ τ m = .accept l c

/-- The first packet a connection brings is a legal PUBLISH with a payload of more than 4096 bytes. -/
def Hog (peer : Sys.Peer) : Prop :=
  ∃ q rest, LegalPublish q ∧ (publishRest q).length < 2097152 ∧ 4096 < q.message.payload.length
    ∧ peer.segs.flatten = packet (publishFirst q) (publishRest q) ++ rest

end Ratel.Spec
