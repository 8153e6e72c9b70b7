/-
C181, C182: the broker looks at nothing but the topic of a message, and messages do not influence each other.
-/
import Verif.Spec.Opaque
import Verif.Proofs.Opaque
import Verif.Proofs.Orders
import Verif.Props.System

namespace Ratel

open Spec Sys

/-- C181, for events taken one after the other. Exchange the messages published for any others on the same topics: content, QoS, packet id, DUP and RETAIN
as you like. Then everybody is sent the same as before, with these messages exchanged. -/
theorem C181_order (auth : IdentityProvider) (g : PublishPacket → PublishPacket) (hg : ∀ q, (g q).message.topic = q.message.topic)
    (evs : List ClientEvent) (d : ConnId) :
    Broker.start.outputs auth (evs.map (withMessage g)) d = (Broker.start.outputs auth evs d).map (sentMessage g) :=
  Opaque.outputs_map auth g hg evs Broker.start d

/-- C181. Take two executions of the broker that have come to rest, with any clients, the second having handled the events of the first with the messages
in them exchanged for any others on the same topics. Then every connection has been sent, in the second, what it has been sent in the first, with these
messages exchanged. -/
theorem C181_opaque (env : Env) (peers peers' : ConnId → Peer) (sched sched' : List Step) (h : (run env (init peers) sched).handler = .idle)
    (h' : (run env (init peers') sched').handler = .idle) (g : PublishPacket → PublishPacket) (hg : ∀ q, (g q).message.topic = q.message.topic)
    (hl : (run env (init peers') sched').log.map Prod.fst = ((run env (init peers) sched).log.map Prod.fst).map (withMessage g)) (d : ConnId) :
    ((run env (init peers') sched').conns d).delivered = ((run env (init peers) sched).conns d).delivered.map (sentMessage g) := by
  obtain ⟨_, _, _, h1⟩ := idle_rest (inv_run env peers sched).serves h
  obtain ⟨_, _, _, h2⟩ := idle_rest (inv_run env peers' sched').serves h'
  rw [h1, h2, show (run env (init peers') sched').served = (run env (init peers) sched).served.map (withMessage g) from hl]
  exact C181_order env.auth g hg _ d

/-- C182, for events taken one after the other. Leave out any of the messages published, say all of a topic, of a QoS, or with some content. Then everybody
is sent the same as before, but for these messages. -/
theorem C182_order (auth : IdentityProvider) (P : PublishPacket → Bool) (evs : List ClientEvent) (d : ConnId) :
    Broker.start.outputs auth (evs.filter fun ev => !publishes P ev) d = (Broker.start.outputs auth evs d).filter fun e => !carries P e :=
  Opaque.outputs_filter auth P evs Broker.start d

/-- C182. Take two executions of the broker that have come to rest, with any clients, the second having handled the events of the first but for some of the
messages. Then every connection has been sent, in the second, what it has been sent in the first, but for these messages. -/
theorem C182_independent (env : Env) (peers peers' : ConnId → Peer) (sched sched' : List Step) (h : (run env (init peers) sched).handler = .idle)
    (h' : (run env (init peers') sched').handler = .idle) (P : PublishPacket → Bool)
    (hl : (run env (init peers') sched').log.map Prod.fst = ((run env (init peers) sched).log.map Prod.fst).filter fun ev => !publishes P ev) (d : ConnId) :
    ((run env (init peers') sched').conns d).delivered = ((run env (init peers) sched).conns d).delivered.filter fun e => !carries P e := by
  obtain ⟨_, _, _, h1⟩ := idle_rest (inv_run env peers sched).serves h
  obtain ⟨_, _, _, h2⟩ := idle_rest (inv_run env peers' sched').serves h'
  rw [h1, h2, show (run env (init peers') sched').served = (run env (init peers) sched).served.filter fun ev => !publishes P ev from hl]
  exact C182_order env.auth P _ d

/-! ### Concrete cases -/

/-- A subscriber, and a publisher of these messages. -/
def opaquePeers (qs : List PublishPacket) : ConnId → Peer := fun c =>
  ⟨someAddr, "u", [clientBytes (if c = 0 then [hello "s", .subscribe 1 [("t", .atMostOnce)]] else if c = 1 then hello "p" :: qs.map .publish else [])],
    .silence, []⟩

/-- The subscriber sends two packets, then the publisher `n`. -/
def opaqueSteps (n : Nat) : List Step :=
  (List.replicate 2 [.read 0, .read 0, .handler 0, .handler 0]).flatten ++ (List.replicate n [.read 1, .read 1, .handler 0, .handler 0]).flatten

/-- Two messages. -/
def opaqueMessages : List PublishPacket := [⟨none, false, ⟨"t", [7], .atMostOnce, false⟩⟩, ⟨some 5, true, ⟨"t", [8, 9], .atLeastOnce, true⟩⟩]

/-- Every byte of the content flipped. -/
def scramble (q : PublishPacket) : PublishPacket := ⟨q.packetId, q.dup, { q.message with payload := q.message.payload.map (255 - ·) }⟩

-- scrambled messages arrive as they were scrambled
example (d : ConnId) := C181_opaque exampleEnv (opaquePeers opaqueMessages) (opaquePeers (opaqueMessages.map scramble)) (opaqueSteps 3) (opaqueSteps 3)
  (by decide +kernel) (by decide +kernel) scramble (fun _ => rfl) (by decide +kernel) d

example : messagesOf ((run exampleEnv (init (opaquePeers (opaqueMessages.map scramble))) (opaqueSteps 3)).conns 0).delivered
    = [⟨none, false, ⟨"t", [248], .atMostOnce, false⟩⟩, ⟨some 5, true, ⟨"t", [247, 246], .atLeastOnce, true⟩⟩] := by decide +kernel

-- without the first message the second arrives all the same
example (d : ConnId) := C182_independent exampleEnv (opaquePeers opaqueMessages) (opaquePeers (opaqueMessages.drop 1)) (opaqueSteps 3) (opaqueSteps 2)
  (by decide +kernel) (by decide +kernel) (fun q => q.packetId.isNone) (by decide +kernel) d

example : messagesOf ((run exampleEnv (init (opaquePeers (opaqueMessages.drop 1))) (opaqueSteps 2)).conns 0).delivered
    = [⟨some 5, true, ⟨"t", [8, 9], .atLeastOnce, true⟩⟩] := by decide +kernel

end Ratel
