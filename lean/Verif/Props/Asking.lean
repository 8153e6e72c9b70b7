/-
C178: who asks for more gets more.
-/
import Verif.Spec.Asking
import Verif.Proofs.Asking
import Verif.Props.System

namespace Ratel

open Spec Sys

/-- C178, for events taken one after the other. Further SUBSCRIBEs, messages and PINGREQs, of anybody, anywhere in between, take nothing away from anybody:
every connection is sent all it would be sent without them, in the same order. -/
theorem C178_order (auth : IdentityProvider) (evs evs' : List ClientEvent) (h : WithMore evs evs') (d : ConnId) :
    (Broker.start.outputs auth evs d).Sublist (Broker.start.outputs auth evs' d) :=
  Asking.AtLeast.outputs ⟨fun _ => rfl, fun _ => Nat.le_refl _⟩ auth h d

/-- C178. Take two executions of the broker that have come to rest, with any clients, and let the second have handled what the first has, and further
SUBSCRIBEs, messages and PINGREQs anywhere in between. Then every connection has been sent, in the second, all it has been sent in the first, in the
same order. -/
theorem C178_more (env : Env) (peers peers' : ConnId → Peer) (sched sched' : List Step) (h : (run env (init peers) sched).handler = .idle)
    (h' : (run env (init peers') sched').handler = .idle)
    (hm : WithMore ((run env (init peers) sched).log.map Prod.fst) ((run env (init peers') sched').log.map Prod.fst)) (d : ConnId) :
    ((run env (init peers) sched).conns d).delivered.Sublist ((run env (init peers') sched').conns d).delivered := by
  obtain ⟨_, _, _, h1⟩ := idle_rest (inv_run env peers sched).serves h
  obtain ⟨_, _, _, h2⟩ := idle_rest (inv_run env peers' sched').serves h'
  have := C178_order env.auth _ _ hm d
  rw [h1, h2]
  exact this

-- a PINGREQ of somebody else and a further subscription in between
example : WithMore
    [.connected ⟨.mqtt3, "s", 60, true, none, none, none⟩ someAddr 0, .controlPacket "s" (.subscribe ⟨1, [⟨"a", .atMostOnce⟩]⟩) 0,
      .controlPacket "s" (.publish ⟨none, false, ⟨"a", [], .atMostOnce, false⟩⟩) 0, .controlPacket "s" (.unsubscribe ⟨2, ["a"]⟩) 0]
    [.connected ⟨.mqtt3, "s", 60, true, none, none, none⟩ someAddr 0, .controlPacket "s" (.subscribe ⟨1, [⟨"a", .atMostOnce⟩]⟩) 0,
      .controlPacket "t" .pingReq 1, .controlPacket "s" (.subscribe ⟨3, [⟨"#", .atMostOnce⟩]⟩) 0,
      .controlPacket "s" (.publish ⟨none, false, ⟨"a", [], .atMostOnce, false⟩⟩) 0, .controlPacket "s" (.unsubscribe ⟨2, ["a"]⟩) 0] :=
  .same _ (.same _ (.more _ trivial (.more _ trivial (.same _ (.same _ .nil)))))

-- two executions: in the second the subscriber of the examples has got further
example : (run exampleEnv (init examplePeers) [.read 0, .read 0, .handler 0, .handler 0]).handler = .idle
    ∧ (run exampleEnv (init examplePeers) [.read 0, .read 0, .handler 0, .handler 0, .read 0, .read 0, .handler 0, .handler 0]).handler = .idle
    ∧ WithMore ((run exampleEnv (init examplePeers) [.read 0, .read 0, .handler 0, .handler 0]).log.map Prod.fst)
      ((run exampleEnv (init examplePeers) [.read 0, .read 0, .handler 0, .handler 0, .read 0, .read 0, .handler 0, .handler 0]).log.map Prod.fst) := by
  have e1 : (run exampleEnv (init examplePeers) [.read 0, .read 0, .handler 0, .handler 0]).log.map Prod.fst
      = [.connected ⟨.mqtt3, "s", 60, true, none, none, none⟩ (examplePeers 0).addr 0] := by decide +kernel
  have e2 : (run exampleEnv (init examplePeers) [.read 0, .read 0, .handler 0, .handler 0, .read 0, .read 0, .handler 0, .handler 0]).log.map Prod.fst
      = [.connected ⟨.mqtt3, "s", 60, true, none, none, none⟩ (examplePeers 0).addr 0, .controlPacket "s" (.subscribe ⟨1, [⟨"t", .atMostOnce⟩]⟩) 0] := by
    decide +kernel
  refine ⟨by decide +kernel, by decide +kernel, ?_⟩
  rw [e1, e2]
  exact .same _ (.more _ trivial .nil)

end Ratel
