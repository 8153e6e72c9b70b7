/-
Words for the order in which messages are received.
-/
import Verif.Spec.Protocol

namespace Ratel.Spec

/-- Where a message comes from: the connection it was published on, and its position among the packets of that connection. -/
abbrev Origin := ConnId × Nat

/-- One common order of messages explains what everybody has been sent: it lists packets that are PUBLISHes, those of each connection in
the order in which they came; and every connection has been sent a beginning of a list that goes through that order and takes some
number of copies of each message. -/
structure Explains (packets : ConnId → List ControlPacket) (order : List Origin) (s : Sys) : Prop where
  published : ∀ x ∈ order, ∃ q, (packets x.1)[x.2]? = some (.publish q)
  publisher : order.Pairwise fun a b => a.1 = b.1 → a.2 < b.2
  received : ∀ d, ∃ copies : Origin → Nat,
    (messagesOf (s.conns d).delivered).map (fun q => some (.publish q))
      <+: (order.flatMap fun x => List.replicate (copies x) x).map fun x => (packets x.1)[x.2]?

/-- Number of packets of a connection that the broker has dealt with. -/
def dealtWith (s : Sys) (c : ConnId) : Nat := ((s.log.map Prod.fst).filter (From c)).length

/-- A message is sent at most once: there is one place where it can be read. -/
def SentOnce (env : Env) (peers : ConnId → Sys.Peer) (q : PublishPacket) : Prop :=
  ∃ x : Origin, ∀ c ps, Decodes env.profile (peers c).segs.flatten (peers c).fin ps → ∀ i, ps[i]? = some (.publish q) → (c, i) = x

/-- Another message on topic "t". -/
def second : PublishPacket := ⟨none, false, ⟨"t", [1], .atMostOnce, false⟩⟩

end Ratel.Spec
