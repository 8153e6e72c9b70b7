/-
C184, and what it means for C40, C58, C95 and C110: everything a connection is sent, and why.
-/
import Verif.Proofs.Reasons
import Verif.Props.Conformance

namespace Ratel

open Spec Sys

/-- C184. Whenever the broker is at rest, a connection has been sent exactly what there was a reason to send. -/
theorem C184_reasons_iff (env : Env) (peers : ConnId → Peer) (sched : List Step) (hi : (run env (init peers) sched).handler = .idle) (d : ConnId)
    (e : ServerEvent) :
    e ∈ ((run env (init peers) sched).conns d).delivered ↔ Reason env.auth ((run env (init peers) sched).log.map Prod.fst) d e :=
  Reasons.delivered_iff hi

/-- C184. At any time, at rest or not: nothing without a reason. -/
theorem C184_no_more (env : Env) (peers : ConnId → Peer) (sched : List Step) (d : ConnId) (e : ServerEvent)
    (h : e ∈ ((run env (init peers) sched).conns d).delivered) :
    ∃ evs, evs <+: (run env (init peers) sched).log.map Prod.fst ∧ Reason env.auth evs d e := by
  have hinv := inv_run env peers sched
  obtain ⟨pre, ev, post, b, he, h1, h2⟩ := outputs_mem ((hinv.serves.delivered d).subset h)
  refine ⟨pre ++ [ev], ⟨post, by rw [List.append_assoc]; exact he.symm⟩, (Reasons.reason_iff ?_).mp ((Reasons.outputs_iff ?_).mpr ⟨pre, ev, [], b, rfl, h1, h2⟩)⟩
  all_goals
    cases hs : b.step env.auth ev with
    | none =>
      cases h2 with
      | accepted p addr hl => simp [Broker.step, hl] at hs
      | refused p addr hl => simp [Broker.step, hl] at hs
      | away p addr hl => simp [Broker.step, hl] at hs
      | _ => simp [Broker.step] at hs
    | some r =>
      obtain ⟨b', out⟩ := r
      rw [after_snoc h1 hs]
      rfl

/-- The messages of a list of events. -/
theorem publish_reason {auth : IdentityProvider} {evs : List ClientEvent} {d : ConnId} {m : PublishPacket} :
    Reason auth evs d (.controlPacket (.publish m)) ↔ Wanted auth evs d m :=
  ⟨fun h => by cases h; assumption, .message m⟩

/-- C40, exactly: every subscription is granted QoS 0, so a connection that is sent messages of QoS 0 only is one nobody published others for; and others
are sent as they are. -/
theorem C40_qos_iff (env : Env) (peers : ConnId → Peer) (sched : List Step) (hi : (run env (init peers) sched).handler = .idle) (d : ConnId) :
    (∀ cs i, .controlPacket (.subAck ⟨i, cs⟩) ∈ ((run env (init peers) sched).conns d).delivered → ∀ c ∈ cs, c = .successQoS0)
    ∧ ((∀ m, .controlPacket (.publish m) ∈ ((run env (init peers) sched).conns d).delivered → m.message.qos = .atMostOnce)
      ↔ ∀ m, Wanted env.auth ((run env (init peers) sched).log.map Prod.fst) d m → m.message.qos = .atMostOnce) := by
  refine ⟨fun cs i h c hc => ?_, ?_⟩
  · have h := (Reasons.delivered_iff hi).mp h
    generalize hr : ServerEvent.controlPacket (.subAck ⟨i, cs⟩) = r at h
    cases h with
    | subscribed id j fs hm =>
      simp only [ServerEvent.controlPacket.injEq, ControlPacket.subAck.injEq, SubAckPacket.mk.injEq] at hr
      rw [hr.2] at hc
      exact (List.mem_replicate.mp hc).2
    | _ => cases hr
  · simp only [Reasons.delivered_iff hi, publish_reason]

/-- C95, exactly: a connection is sent messages with DUP or RETAIN set exactly if somebody published such messages for it. -/
theorem C95_flags_iff (env : Env) (peers : ConnId → Peer) (sched : List Step) (hi : (run env (init peers) sched).handler = .idle) (d : ConnId)
    (dup retain : Bool) :
    (∃ m, .controlPacket (.publish m) ∈ ((run env (init peers) sched).conns d).delivered ∧ m.dup = dup ∧ m.message.retain = retain)
      ↔ ∃ m, Wanted env.auth ((run env (init peers) sched).log.map Prod.fst) d m ∧ m.dup = dup ∧ m.message.retain = retain := by
  simp only [Reasons.delivered_iff hi, publish_reason]

/-- C58, exactly: a connection is welcomed exactly if it gave no user name, or a right one with its password. -/
theorem C58_welcome_iff (env : Env) (peers : ConnId → Peer) (sched : List Step) (hi : (run env (init peers) sched).handler = .idle) (d : ConnId) :
    (∃ present, .controlPacket (.connAck ⟨present, .accepted⟩) ∈ ((run env (init peers) sched).conns d).delivered)
      ↔ ∃ p a, .connected p a d ∈ (run env (init peers) sched).log.map Prod.fst ∧ GoodLogin env.auth p := by
  simp only [Reasons.delivered_iff hi]
  constructor
  · rintro ⟨present, h⟩
    generalize hr : ServerEvent.controlPacket (.connAck ⟨present, .accepted⟩) = r at h
    cases h with
    | welcome p a hm hl => exact ⟨p, a, hm, hl⟩
    | _ => cases hr
  · rintro ⟨p, a, hm, hl⟩
    exact ⟨false, .welcome p a hm hl⟩

/-- C110, exactly: a connection is sent a packet with packet id 0 exactly if a message with packet id 0 was published for it, or it itself sent a SUBSCRIBE or
UNSUBSCRIBE with that id. -/
theorem C110_ids_iff (env : Env) (peers : ConnId → Peer) (sched : List Step) (hi : (run env (init peers) sched).handler = .idle) (d : ConnId) :
    (∃ p, .controlPacket p ∈ ((run env (init peers) sched).conns d).delivered
        ∧ ((∃ q, p = .publish q ∧ q.packetId = some 0) ∨ (∃ cs, p = .subAck ⟨0, cs⟩) ∨ p = .unsubAck 0))
      ↔ (∃ q, Wanted env.auth ((run env (init peers) sched).log.map Prod.fst) d q ∧ q.packetId = some 0)
        ∨ (∃ id fs, .controlPacket id (.subscribe ⟨0, fs⟩) d ∈ (run env (init peers) sched).log.map Prod.fst)
        ∨ ∃ id ts, .controlPacket id (.unsubscribe ⟨0, ts⟩) d ∈ (run env (init peers) sched).log.map Prod.fst := by
  simp only [Reasons.delivered_iff hi]
  constructor
  · rintro ⟨p, h, ⟨q, rfl, hq⟩ | ⟨cs, rfl⟩ | rfl⟩
    · exact .inl ⟨q, publish_reason.mp h, hq⟩
    · generalize hr : ServerEvent.controlPacket (.subAck ⟨0, cs⟩) = r at h
      cases h with
      | subscribed id i fs hm =>
        simp only [ServerEvent.controlPacket.injEq, ControlPacket.subAck.injEq, SubAckPacket.mk.injEq] at hr
        rw [← hr.1] at hm
        exact .inr (.inl ⟨id, fs, hm⟩)
      | _ => cases hr
    · generalize hr : ServerEvent.controlPacket (.unsubAck 0) = r at h
      cases h with
      | unsubscribed id i ts hm =>
        simp only [ServerEvent.controlPacket.injEq, ControlPacket.unsubAck.injEq] at hr
        rw [← hr] at hm
        exact .inr (.inr ⟨id, ts, hm⟩)
      | _ => cases hr
  · rintro (⟨q, h, hq⟩ | ⟨id, fs, h⟩ | ⟨id, ts, h⟩)
    · exact ⟨_, .message q h, .inl ⟨q, rfl, hq⟩⟩
    · exact ⟨_, .subscribed id 0 fs h, .inr (.inl ⟨_, rfl⟩)⟩
    · exact ⟨_, .unsubscribed id 0 ts h, .inr (.inr rfl)⟩

/-! ### Examples -/

/-- C184: the broker at rest, a login refused and a ping without a session. -/
example : (run exampleEnv (init examplePeers) [.read 3, .read 3, .handler 0, .handler 0, .handler 0, .read 3, .read 3, .handler 0, .handler 0]).handler = .idle
    ∧ ((run exampleEnv (init examplePeers) [.read 3, .read 3, .handler 0, .handler 0, .handler 0, .read 3, .read 3, .handler 0, .handler 0]).conns 3).delivered
      = [.controlPacket (.connAck ⟨false, .notAuthorized⟩), .disconnect, .disconnect] := by
  decide +kernel

/-- C184: the reasons for that. -/
example : Reason exampleEnv.auth
    ((run exampleEnv (init examplePeers) [.read 3, .read 3, .handler 0, .handler 0, .handler 0, .read 3, .read 3, .handler 0, .handler 0]).log.map Prod.fst) 3
    (.controlPacket (.connAck ⟨false, .notAuthorized⟩)) :=
  (C184_reasons_iff exampleEnv examplePeers _ (by decide +kernel) 3 _).mp (by decide +kernel)

/-- C40, C95: a connection that subscribed, and a message of QoS 2 with DUP and RETAIN for it. -/
def reasonSteps : List Step :=
  [.read 0, .read 0, .handler 0, .handler 0, .read 0, .read 0, .handler 0, .handler 0,
   .read 1, .read 1, .handler 0, .handler 0, .read 1, .read 1, .handler 0, .handler 0]

example : (run exampleEnv (init (scenePeers "t" .atMostOnce [flagged] [])) reasonSteps).handler = .idle
    ∧ ((run exampleEnv (init (scenePeers "t" .atMostOnce [flagged] [])) reasonSteps).conns 0).delivered
      = [.controlPacket (.connAck ⟨false, .accepted⟩), .controlPacket (.subAck ⟨1, [.successQoS0]⟩), .controlPacket (.publish flagged)] := by
  decide +kernel

example : Wanted exampleEnv.auth ((run exampleEnv (init (scenePeers "t" .atMostOnce [flagged] [])) reasonSteps).log.map Prod.fst) 0 flagged :=
  publish_reason.mp ((C184_reasons_iff exampleEnv (scenePeers "t" .atMostOnce [flagged] []) reasonSteps (by decide +kernel) 0 _).mp (by decide +kernel))

end Ratel
