/-
What the broker never sends, in any execution: C37, C38, C39, C41 and C42 as a whole.
-/
import Verif.Props.Reasons
import Verif.Props.CleanSession

namespace Ratel

open Spec Sys

/-- A reason among the events handled so far. -/
theorem reason_of {env : Env} {peers : ConnId → Peer} {sched : List Step} {d : ConnId} {e : ServerEvent}
    (h : e ∈ ((run env (init peers) sched).conns d).delivered) :
    ∃ evs, evs <+: (run env (init peers) sched).log.map Prod.fst ∧ Reason env.auth evs d e := C184_no_more env peers sched d e h

/-- C39 is violated, in every execution: no connection is ever sent a PUBACK, PUBREC, PUBREL or PUBCOMP. -/
theorem C39_never_fails (env : Env) (peers : ConnId → Peer) (sched : List Step) (d : ConnId) (i : UInt16) :
    .controlPacket (.pubAck i) ∉ ((run env (init peers) sched).conns d).delivered
    ∧ .controlPacket (.pubRec i) ∉ ((run env (init peers) sched).conns d).delivered
    ∧ .controlPacket (.pubRel i) ∉ ((run env (init peers) sched).conns d).delivered
    ∧ .controlPacket (.pubComp i) ∉ ((run env (init peers) sched).conns d).delivered := by
  refine ⟨fun h => ?_, fun h => ?_, fun h => ?_, fun h => ?_⟩ <;>
  · obtain ⟨_, _, hr⟩ := reason_of h
    cases hr

/-- C38 is violated, in every execution: no CONNACK ever says that a session is present. -/
theorem C38_never_fails (env : Env) (peers : ConnId → Peer) (sched : List Step) (d : ConnId) (code : ConnAckReturnCode) :
    .controlPacket (.connAck ⟨true, code⟩) ∉ ((run env (init peers) sched).conns d).delivered := by
  intro h
  obtain ⟨_, _, hr⟩ := reason_of h
  cases hr

/-- Who is told to disconnect. -/
theorem told_off {env : Env} {peers : ConnId → Peer} {sched : List Step} {d : ConnId}
    (h : .disconnect ∈ ((run env (init peers) sched).conns d).delivered) :
    (∃ p a, .connected p a d ∈ (run env (init peers) sched).log.map Prod.fst ∧ BadLogin env.auth p)
    ∨ ∃ pre post id, (run env (init peers) sched).log.map Prod.fst = pre ++ .controlPacket id .pingReq d :: post ∧ ∀ tx, ¬ ReachedOn env.auth pre id tx := by
  obtain ⟨evs, ⟨rest, he⟩, hr⟩ := reason_of h
  generalize hx : ServerEvent.disconnect = x at hr
  cases hr with
  | dismissal p a hm hl => exact .inl ⟨p, a, by rw [← he]; exact List.mem_append_left _ hm, hl⟩
  | stray id pre post hp hn => exact .inr ⟨pre, post ++ rest, id, by rw [← he, hp]; simp, hn⟩
  | _ => cases hx

/-- C37 is violated, in every execution: a connection that has logged in and sends no PINGREQ is never told to close, whoever connects under the same
client id elsewhere. -/
theorem C37_never_fails (env : Env) (peers : ConnId → Peer) (sched : List Step) (d : ConnId)
    (hg : ∀ p a, .connected p a d ∈ (run env (init peers) sched).log.map Prod.fst → GoodLogin env.auth p)
    (hp : ∀ id, .controlPacket id .pingReq d ∉ (run env (init peers) sched).log.map Prod.fst) :
    .disconnect ∉ ((run env (init peers) sched).conns d).delivered := by
  intro h
  rcases told_off h with ⟨p, a, hm, u, pw, e, h1, h2, h3⟩ | ⟨pre, post, id, he, _⟩
  · rcases hg p a hm with hn | ⟨u', pw', h1', h2', h3'⟩
    · rw [hn] at h1; cases h1
    · rw [h1] at h1'; rw [h2] at h2'
      cases h1'; cases h2'
      rw [h3] at h3'
      cases h3'
  · exact hp id (by rw [he]; simp)

/-- C42 is violated, in every execution: a connection that has logged in is not told to close for anything it sends but a PINGREQ without session; not for
any number of further CONNECTs. -/
theorem C42_never_fails (env : Env) (peers : ConnId → Peer) (sched : List Step) (d : ConnId)
    (hg : ∀ p a, .connected p a d ∈ (run env (init peers) sched).log.map Prod.fst → GoodLogin env.auth p)
    (hs : ∀ pre post id, (run env (init peers) sched).log.map Prod.fst = pre ++ .controlPacket id .pingReq d :: post → ∃ tx, ReachedOn env.auth pre id tx) :
    .disconnect ∉ ((run env (init peers) sched).conns d).delivered := by
  intro h
  rcases told_off h with ⟨p, a, hm, u, pw, e, h1, h2, h3⟩ | ⟨pre, post, id, he, hn⟩
  · rcases hg p a hm with hn | ⟨u', pw', h1', h2', h3'⟩
    · rw [hn] at h1; cases h1
    · rw [h1] at h1'; rw [h2] at h2'
      cases h1'; cases h2'
      rw [h3] at h3'
      cases h3'
  · obtain ⟨tx, htx⟩ := hs pre post id he
    exact hn tx htx

/-- Subscriptions come from SUBSCRIBEs. -/
theorem held_from {evs : List ClientEvent} {c : ClientId} {f : String} (h : (c, f) ∈ held evs) :
    ∃ s tx, ClientEvent.controlPacket c (.subscribe s) tx ∈ evs ∧ f ∈ s.subscriptions.map (·.topic) := by
  have h' : (c, f) ∈ held ([] ++ evs) := h
  rcases held_append h' with h0 | ⟨ev, hm, hs⟩
  · cases h0
  · unfold Subscribes at hs
    split at hs
    · obtain ⟨rfl, x, hx, rfl⟩ := hs
      exact ⟨_, _, hm, List.mem_map_of_mem hx⟩
    · exact hs.elim

/-- C41 is violated, in every execution: if all messages, with whatever RETAIN flag, are published before anybody subscribes, nobody gets any. -/
theorem C41_never_fails (env : Env) (peers : ConnId → Peer) (sched : List Step) (d : ConnId)
    (h : ∀ pre post id m tx, (run env (init peers) sched).log.map Prod.fst = pre ++ .controlPacket id (.publish m) tx :: post →
      ∀ c s tx', ClientEvent.controlPacket c (.subscribe s) tx' ∉ pre) :
    messagesOf ((run env (init peers) sched).conns d).delivered = [] := by
  rw [messagesOf, List.filterMap_eq_nil_iff]
  intro e he
  split
  · obtain ⟨evs, ⟨rest, hl⟩, hr⟩ := reason_of he
    obtain ⟨pre, id, tx, post, h1, c, f, h2, _⟩ := publish_reason.mp hr
    obtain ⟨s, tx', h3, _⟩ := held_from h2
    exact (h pre (post ++ rest) id _ tx (by rw [← hl, h1, List.append_assoc]; rfl) c s tx' h3).elim
  · rfl

/-! ### Examples -/

/-- C37: two connections under the same client id. -/
def samePeers : ConnId → Peer := fun _ => ⟨someAddr, "u", [clientBytes [.connect ⟨"MQTT", 4, true, 60, "v", none, none, none⟩]], .silence, []⟩

def sameSteps : List Step := [.read 0, .read 0, .handler 0, .handler 0, .read 1, .read 1, .handler 0, .handler 0]

example : .disconnect ∉ ((run exampleEnv (init samePeers) sameSteps).conns 0).delivered := by
  have e : (run exampleEnv (init samePeers) sameSteps).log.map Prod.fst
      = [.connected ⟨.mqtt3, "v", 60, true, none, none, none⟩ someAddr 0, .connected ⟨.mqtt3, "v", 60, true, none, none, none⟩ someAddr 1] := by
    decide +kernel
  refine C37_never_fails exampleEnv samePeers sameSteps 0 (fun p a h => ?_) (fun id h => ?_)
  · rw [e] at h
    simp only [List.mem_cons, ClientEvent.connected.injEq, List.not_mem_nil, or_false] at h
    rcases h with ⟨rfl, _⟩ | ⟨rfl, _⟩ <;> exact .inl rfl
  · rw [e] at h
    simp at h

/-- C41: a retained message, and a client that subscribes after it. -/
def lateSteps : List Step :=
  [.read 1, .read 1, .handler 0, .handler 0, .read 1, .read 1, .handler 0,
   .read 0, .read 0, .handler 0, .handler 0, .read 0, .read 0, .handler 0, .handler 0]

example : ((run exampleEnv (init (scenePeers "t" .atMostOnce [flagged] [])) lateSteps).conns 0).delivered
      = [.controlPacket (.connAck ⟨false, .accepted⟩), .controlPacket (.subAck ⟨1, [.successQoS0]⟩)]
    ∧ ((run exampleEnv (init (scenePeers "t" .atMostOnce [flagged] [])) lateSteps).log.map Prod.fst).map
        (fun | .controlPacket _ (.publish _) _ => 1 | .controlPacket _ (.subscribe _) _ => 2 | _ => 0) = [0, 1, 0, 2] := by
  decide +kernel

end Ratel
