/-
What makes no difference to the broker, in any execution: C40, C65 and C142 as a whole.
-/
import Verif.Props.Never

namespace Ratel

open Spec Sys

/-- An event with another keep-alive in the CONNECT. -/
def withKeepAlive (k : UInt16) : ClientEvent → ClientEvent
  | .connected p a tx => .connected { p with keepAliveSeconds := k } a tx
  | ev => ev

/-- An event with another clean-session flag in the CONNECT. -/
def withClean (b : Bool) : ClientEvent → ClientEvent
  | .connected p a tx => .connected { p with cleanSession := b } a tx
  | ev => ev

/-- An event with another QoS asked for in the SUBSCRIBE. -/
def withAsked (q : QoS) : ClientEvent → ClientEvent
  | .controlPacket id (.subscribe s) tx => .controlPacket id (.subscribe { s with subscriptions := s.subscriptions.map fun x => { x with qos := q } }) tx
  | ev => ev

/-- What does not matter for one event does not matter for all. -/
theorem outputs_map {auth : IdentityProvider} {f : ClientEvent → ClientEvent} (h : ∀ (b : Broker) ev, b.step auth (f ev) = b.step auth ev)
    (evs : List ClientEvent) (b : Broker) (d : ConnId) : b.outputs auth (evs.map f) d = b.outputs auth evs d := by
  induction evs generalizing b with
  | nil => rfl
  | cons ev evs ih =>
    rw [List.map_cons, Broker.outputs, Broker.outputs, h]
    split
    · rw [ih]
    · rfl

/-- Executions whose events differ in what does not matter send the same. -/
theorem same_delivered {env env' : Env} {peers peers' : ConnId → Peer} {sched sched' : List Step} {f : ClientEvent → ClientEvent}
    (h : ∀ (b : Broker) ev, b.step env.auth (f ev) = b.step env.auth ev) (ha : env'.auth = env.auth)
    (hi : (run env (init peers) sched).handler = .idle) (hi' : (run env' (init peers') sched').handler = .idle)
    (he : ((run env (init peers) sched).log.map Prod.fst).map f = ((run env' (init peers') sched').log.map Prod.fst).map f) (d : ConnId) :
    ((run env (init peers) sched).conns d).delivered = ((run env' (init peers') sched').conns d).delivered := by
  obtain ⟨_, _, _, h1⟩ := idle_rest (inv_run env peers sched).serves hi
  obtain ⟨_, _, _, h2⟩ := idle_rest (inv_run env' peers' sched').serves hi'
  rw [h1 d, h2 d, ha]
  unfold served
  rw [← outputs_map h, he, outputs_map h]

theorem step_keepAlive (auth : IdentityProvider) (k : UInt16) (b : Broker) (ev : ClientEvent) : b.step auth (withKeepAlive k ev) = b.step auth ev := by
  cases ev <;> rfl

theorem step_clean (auth : IdentityProvider) (c : Bool) (b : Broker) (ev : ClientEvent) : b.step auth (withClean c ev) = b.step auth ev := by
  cases ev <;> rfl

theorem step_asked (auth : IdentityProvider) (q : QoS) (b : Broker) (ev : ClientEvent) : b.step auth (withAsked q ev) = b.step auth ev := by
  cases ev with
  | controlPacket id p tx =>
    cases p with
    | subscribe s => simp [withAsked, Broker.step, Broker.packet, Function.comp_def]
    | _ => rfl
  | _ => rfl

/-- C65 is violated, in every execution: neither the keep-alives clients ask for nor how much time passes makes a difference. Two executions whose events are the
same but for the keep-alives, at whatever times they were handled, send every connection the same. -/
theorem C65_ignored_fails (env env' : Env) (ha : env'.auth = env.auth) (peers peers' : ConnId → Peer) (sched sched' : List Step)
    (hi : (run env (init peers) sched).handler = .idle) (hi' : (run env' (init peers') sched').handler = .idle)
    (he : ((run env (init peers) sched).log.map Prod.fst).map (withKeepAlive 0) = ((run env' (init peers') sched').log.map Prod.fst).map (withKeepAlive 0))
    (d : ConnId) : ((run env (init peers) sched).conns d).delivered = ((run env' (init peers') sched').conns d).delivered :=
  same_delivered (step_keepAlive env.auth 0) ha hi hi' he d

/-- C142 is violated, in every execution: whether clients ask for a clean session makes no difference. -/
theorem C142_ignored_fails (env env' : Env) (ha : env'.auth = env.auth) (peers peers' : ConnId → Peer) (sched sched' : List Step)
    (hi : (run env (init peers) sched).handler = .idle) (hi' : (run env' (init peers') sched').handler = .idle)
    (he : ((run env (init peers) sched).log.map Prod.fst).map (withClean false) = ((run env' (init peers') sched').log.map Prod.fst).map (withClean false))
    (d : ConnId) : ((run env (init peers) sched).conns d).delivered = ((run env' (init peers') sched').conns d).delivered :=
  same_delivered (step_clean env.auth false) ha hi hi' he d

/-- C40 is violated, in every execution: the QoS clients ask for when they subscribe makes no difference. -/
theorem C40_ignored_fails (env env' : Env) (ha : env'.auth = env.auth) (peers peers' : ConnId → Peer) (sched sched' : List Step)
    (hi : (run env (init peers) sched).handler = .idle) (hi' : (run env' (init peers') sched').handler = .idle)
    (he : ((run env (init peers) sched).log.map Prod.fst).map (withAsked .atMostOnce)
      = ((run env' (init peers') sched').log.map Prod.fst).map (withAsked .atMostOnce))
    (d : ConnId) : ((run env (init peers) sched).conns d).delivered = ((run env' (init peers') sched').conns d).delivered :=
  same_delivered (step_asked env.auth .atMostOnce) ha hi hi' he d

/-! ### Examples -/

/-- A client that connects, subscribes and publishes to itself. -/
def askingPeers (clean : Bool) (k : UInt16) (q : QoS) : ConnId → Peer := fun _ =>
  ⟨someAddr, "u", [clientBytes [.connect ⟨"MQTT", 4, clean, k, "v", none, none, none⟩, .subscribe 7 [("a", q)], .publish ⟨none, false, ⟨"a", [1], .atMostOnce, false⟩⟩]], .silence, []⟩

/-- Everything is handled at time `t`. -/
def askingSteps (t : Int) : List Step :=
  [.read 0, .read 0, .handler t, .handler t, .read 0, .read 0, .handler t, .handler t, .read 0, .read 0, .handler t, .handler t]

/-- C65: a keep-alive of a second and much time, and none. -/
example : (run exampleEnv (init (askingPeers true 1 .atMostOnce)) (askingSteps 1000000)).handler = .idle
    ∧ (run exampleEnv (init (askingPeers true 0 .atMostOnce)) (askingSteps 0)).handler = .idle
    ∧ ((run exampleEnv (init (askingPeers true 1 .atMostOnce)) (askingSteps 1000000)).log.map Prod.fst).map (withKeepAlive 0)
      = ((run exampleEnv (init (askingPeers true 0 .atMostOnce)) (askingSteps 0)).log.map Prod.fst).map (withKeepAlive 0)
    ∧ (run exampleEnv (init (askingPeers true 1 .atMostOnce)) (askingSteps 1000000)).log.length = 3 := by
  decide +kernel

/-- C142: with and without clean session. -/
example : (run exampleEnv (init (askingPeers true 1 .atMostOnce)) (askingSteps 0)).log.map Prod.fst
      ≠ (run exampleEnv (init (askingPeers false 1 .atMostOnce)) (askingSteps 0)).log.map Prod.fst
    ∧ ((run exampleEnv (init (askingPeers true 1 .atMostOnce)) (askingSteps 0)).log.map Prod.fst).map (withClean false)
      = ((run exampleEnv (init (askingPeers false 1 .atMostOnce)) (askingSteps 0)).log.map Prod.fst).map (withClean false) := by
  decide +kernel

/-- C40: QoS 2 and QoS 0. -/
example : (run exampleEnv (init (askingPeers true 1 .exactlyOnce)) (askingSteps 0)).log.map Prod.fst
      ≠ (run exampleEnv (init (askingPeers true 1 .atMostOnce)) (askingSteps 0)).log.map Prod.fst
    ∧ ((run exampleEnv (init (askingPeers true 1 .exactlyOnce)) (askingSteps 0)).log.map Prod.fst).map (withAsked .atMostOnce)
      = ((run exampleEnv (init (askingPeers true 1 .atMostOnce)) (askingSteps 0)).log.map Prod.fst).map (withAsked .atMostOnce) := by
  decide +kernel

end Ratel
