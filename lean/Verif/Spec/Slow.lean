/-
Clients that take what they are sent in small portions.
-/
import Verif.Spec.System

namespace Ratel.Spec

/-- The socket takes every write, one byte of it at a time. -/
def TakesOne (peer : Sys.Peer) : Prop := ∀ o ∈ peer.script, o = .accept 0

/-- The socket takes every write, at least 4096 bytes of it (or all, if there are fewer). -/
def TakesFull (peer : Sys.Peer) : Prop := ∀ o ∈ peer.script, ∃ k, o = .accept k ∧ 4096 ≤ k + 1

/-- A message on topic "t". -/
def withPayload (m : List UInt8) : PublishPacket := ⟨none, false, ⟨"t", m, .atMostOnce, false⟩⟩

/-- A client that comes, sends one such message, and goes. -/
def passerBy (m : List UInt8) : List ClientPacket := [hello "p", .publish (withPayload m), .disconnect]

/-- Connection 0 is that of a subscriber to "t", which takes what it is sent one byte at a time; `n` others are passers-by, and nothing comes
on the rest. -/
structure Trickle (n : Nat) (m : List UInt8) (peers : ConnId → Sys.Peer) : Prop where
  subscriber : (peers 0).segs.flatten = clientBytes subscriberPackets
  slow : TakesOne (peers 0)
  senders : ∀ i, i < n → (peers (i + 1)).segs.flatten = clientBytes (passerBy m)
  rest : ∀ c, n < c → (peers c).segs.flatten = []

end Ratel.Spec
