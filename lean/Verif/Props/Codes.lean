/-
Refusals the broker never makes and the only reasons for which it closes a connection, in any execution: C98, C99, C106, C111 and C112 as a whole.
-/
import Verif.Props.Never

namespace Ratel

open Spec Sys

/-- The only answers to a CONNECT. -/
theorem connack_codes {env : Env} {peers : ConnId → Peer} {sched : List Step} {d : ConnId} {present : Bool} {code : ConnAckReturnCode}
    (h : .controlPacket (.connAck ⟨present, code⟩) ∈ ((run env (init peers) sched).conns d).delivered) :
    present = false ∧ (code = .accepted ∨ code = .notAuthorized) := by
  obtain ⟨_, _, hr⟩ := reason_of h
  generalize hx : ServerEvent.controlPacket (.connAck ⟨present, code⟩) = x at hr
  cases hr with
  | welcome => cases hx; exact ⟨rfl, .inl rfl⟩
  | refusal => cases hx; exact ⟨rfl, .inr rfl⟩
  | _ => cases hx

/-- C98 is violated, in every execution: no connection is ever told that its protocol is not supported, and one refused for whatever reason gave a wrong
password or a user that is not known. -/
theorem C98_never_fails (env : Env) (peers : ConnId → Peer) (sched : List Step) (d : ConnId) (present : Bool) :
    .controlPacket (.connAck ⟨present, .unacceptableProtocolVersion⟩) ∉ ((run env (init peers) sched).conns d).delivered
    ∧ ∀ code, code ≠ .accepted → .controlPacket (.connAck ⟨present, code⟩) ∈ ((run env (init peers) sched).conns d).delivered →
        ∃ p a, .connected p a d ∈ (run env (init peers) sched).log.map Prod.fst ∧ BadLogin env.auth p := by
  refine ⟨fun h => ?_, fun code hc h => ?_⟩
  · rcases (connack_codes h).2 with h | h <;> cases h
  · obtain ⟨evs, ⟨rest, he⟩, hr⟩ := reason_of h
    generalize hx : ServerEvent.controlPacket (.connAck ⟨present, code⟩) = x at hr
    cases hr with
    | welcome => cases hx; exact absurd rfl hc
    | refusal p a hm hl => exact ⟨p, a, by rw [← he]; exact List.mem_append_left _ hm, hl⟩
    | _ => cases hx

/-- C112 is violated, in every execution: no client id is ever refused, none at all for a session that is to last neither. -/
theorem C112_never_fails (env : Env) (peers : ConnId → Peer) (sched : List Step) (d : ConnId) (present : Bool) :
    .controlPacket (.connAck ⟨present, .identifierRejected⟩) ∉ ((run env (init peers) sched).conns d).delivered := by
  intro h
  rcases (connack_codes h).2 with h | h <;> cases h

/-- C111 is violated, in every execution: whenever the broker is at rest, every connection that gave no user name has been welcomed, also with a password. -/
theorem C111_welcome_fails (env : Env) (peers : ConnId → Peer) (sched : List Step) (hi : (run env (init peers) sched).handler = .idle) (d : ConnId)
    (p : ConnectPacket) (a : SocketAddr) (h : .connected p a d ∈ (run env (init peers) sched).log.map Prod.fst) (hn : p.userName = none) :
    .controlPacket (.connAck ⟨false, .accepted⟩) ∈ ((run env (init peers) sched).conns d).delivered :=
  (Reasons.delivered_iff hi).mpr (.welcome p a h (.inl hn))

/-- C99 is violated, in every execution: no subscription is ever refused, and once the broker is at rest all filters have been granted, whatever they are. -/
theorem C99_never_fails (env : Env) (peers : ConnId → Peer) (sched : List Step) (d : ConnId) (i : UInt16) :
    (∀ cs, .controlPacket (.subAck ⟨i, cs⟩) ∈ ((run env (init peers) sched).conns d).delivered → .failure ∉ cs)
    ∧ ((run env (init peers) sched).handler = .idle → ∀ id fs,
        .controlPacket id (.subscribe ⟨i, fs⟩) d ∈ (run env (init peers) sched).log.map Prod.fst →
        .controlPacket (.subAck ⟨i, List.replicate fs.length .successQoS0⟩) ∈ ((run env (init peers) sched).conns d).delivered) := by
  refine ⟨fun cs h hf => ?_, fun hi id fs h => (Reasons.delivered_iff hi).mpr (.subscribed id i fs h)⟩
  obtain ⟨_, _, hr⟩ := reason_of h
  generalize hx : ServerEvent.controlPacket (.subAck ⟨i, cs⟩) = x at hr
  cases hr with
  | subscribed id j fs hm =>
    cases hx
    cases (List.mem_replicate.mp hf).2
  | _ => cases hx

/-- C106, exactly: the broker closes a connection of its own accord exactly if it gave a wrong login, or sent a PINGREQ under a client id that had no session
at the time; for nothing else it sends, packet or not. -/
theorem C106_closed_iff (env : Env) (peers : ConnId → Peer) (sched : List Step) (hi : (run env (init peers) sched).handler = .idle) (d : ConnId) :
    .disconnect ∈ ((run env (init peers) sched).conns d).delivered
      ↔ (∃ p a, .connected p a d ∈ (run env (init peers) sched).log.map Prod.fst ∧ BadLogin env.auth p)
        ∨ ∃ pre post id, (run env (init peers) sched).log.map Prod.fst = pre ++ .controlPacket id .pingReq d :: post ∧ ∀ tx, ¬ ReachedOn env.auth pre id tx := by
  refine ⟨told_off, fun h => (Reasons.delivered_iff hi).mpr ?_⟩
  rcases h with ⟨p, a, hm, hl⟩ | ⟨pre, post, id, he, hn⟩
  · exact .dismissal p a hm hl
  · exact .stray id pre post he hn

/-! ### Examples -/

/-- C98, C112: a CONNECT of MQTT 5 without client id that does not ask for a clean session. C111: with a password alone. -/
def oddPeers : ConnId → Peer := fun _ =>
  ⟨someAddr, "u", [clientBytes [.connect ⟨"MQTT", 5, false, 1, "", none, none, some "secret"⟩, .subscribe 7 [("a/#/b+", .atLeastOnce)]]], .silence, []⟩

def oddSteps : List Step := [.read 0, .read 0, .handler 0, .handler 0, .read 0, .read 0, .handler 1000000, .handler 1000000]

example : (run exampleEnv (init oddPeers) oddSteps).handler = .idle
    ∧ ((run exampleEnv (init oddPeers) oddSteps).conns 0).delivered
      = [.controlPacket (.connAck ⟨false, .accepted⟩), .controlPacket (.subAck ⟨7, [.successQoS0]⟩)]
    ∧ ((run exampleEnv (init oddPeers) oddSteps).log.map Prod.fst).map
        (fun | .connected p _ _ => (p.clientId, p.userName, p.password) | _ => ("", none, none)) = [("u", none, some "secret"), ("", none, none)] := by
  decide +kernel

/-- C106: closed for a wrong login. -/
example : .disconnect ∈ ((run exampleEnv (init examplePeers) [.read 3, .read 3, .handler 0, .handler 0, .handler 0]).conns 3).delivered
    ∧ (run exampleEnv (init examplePeers) [.read 3, .read 3, .handler 0, .handler 0, .handler 0]).handler = .idle := by
  decide +kernel

end Ratel
