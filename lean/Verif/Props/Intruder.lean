/-
C35 seen from the network.
-/
import Verif.Spec.Intruder
import Verif.Proofs.Reconnect
import Verif.Props.Protocol

namespace Ratel

open Spec Sys

namespace Sys

theorem helloAs_sendable (id user pw : String) (h : (clientRest (helloAs id user pw)).length < 65536) :
    Legal (helloAs id user pw) ∧ NoWill (helloAs id user pw) ∧ (clientRest (helloAs id user pw)).length < 2097152 := by
  have h' := h
  simp [helloAs, clientRest, connectRest, str, Spec.optional] at h'
  refine ⟨⟨(by decide +kernel : (utf8 "MQTT").length < 65536), ?_, ?_, ?_, by simp⟩, rfl, by omega⟩
  · show (utf8 id).length < 65536
    omega
  · intro u hu
    cases Option.mem_some.mp hu
    show (utf8 user).length < 65536
    omega
  · intro u hu
    cases Option.mem_some.mp hu
    show (utf8 pw).length < 65536
    omega

/-- A subscriber and a client that sends a CONNECT which is refused and then one more packet, handled in this order. -/
theorem intrusion (env : Env) (peers : ConnId → Peer) (id user pw : String) (x : ClientPacket) (e : AuthenticationError)
    (ha : env.auth user pw = .error e) (hid : id ≠ "") (hx : Sendable [x])
    (hlen : (clientBytes [helloAs id user pw, x]).length < 4096)
    (h0 : (peers 0).segs.flatten = clientBytes subscriberPackets) (h1 : (peers 1).segs.flatten = clientBytes [helloAs id user pw, x])
    (hout : ∀ d, (Broker.start.outputs env.auth (settles (peers 0).addr ++ [helloSeen id user pw (peers 1).addr 1, .controlPacket id (meaning x) 1]) d).length ≤ 32) :
    ∃ sched, (run env (init peers) sched).handler = .idle
      ∧ (run env (init peers) sched).log.map Prod.fst
        = settles (peers 0).addr ++ [helloSeen id user pw (peers 1).addr 1, .controlPacket id (meaning x) 1]
      ∧ ∀ d, ((run env (init peers) sched).conns d).delivered
        = Broker.start.outputs env.auth (settles (peers 0).addr ++ [helloSeen id user pw (peers 1).addr 1, .controlPacket id (meaning x) 1]) d := by
  refine C77_any_interleaving env peers
    (fun c => if c = 0 then subscriberPackets else if c = 1 then [helloAs id user pw, x] else []) ?_ ?_ ?_ _ ?_ ?_ ?_ hout
  · intro c hc
    by_cases c0 : c = 0
    · subst c0; exact h0
    · by_cases c1 : c = 1
      · subst c1; exact h1
      · simp [c0, c1] at hc
  · intro c
    by_cases c0 : c = 0
    · subst c0; exact subscriber_sendable
    · by_cases c1 : c = 1
      · subst c1
        intro y hy
        rcases List.mem_cons.mp hy with rfl | hy
        · exact helloAs_sendable id user pw (by
            simp [clientBytes, packet] at hlen
            omega)
        · exact hx y hy
      · simp [c0, c1, Sendable]
  · intro c
    by_cases c0 : c = 0
    · subst c0
      show (clientBytes subscriberPackets).length < 4096
      decide +kernel
    · by_cases c1 : c = 1
      · subst c1; exact hlen
      · simp [c0, c1, clientBytes]
  · intro ev hev
    simp only [settles, helloSeen, List.cons_append, List.nil_append, List.mem_cons, List.not_mem_nil, or_false] at hev
    rcases hev with rfl | rfl | rfl | rfl <;> simp [From]
  · intro c
    by_cases c0 : c = 0
    · subst c0
      simp [settles, helloSeen, From, subscriberPackets, hello, meaning, eventsOf, idOf]
    · by_cases c1 : c = 1
      · subst c1
        simp [settles, helloSeen, helloAs, From, meaning, eventsOf, idOf, hid]
      · have h0' : 0 ≠ c := fun h => c0 h.symm
        have h1' : 1 ≠ c := fun h => c1 h.symm
        simp [settles, helloSeen, From, h0', h1']
  · intro p addr c hp
    simp only [settles, helloSeen, List.cons_append, List.nil_append, List.mem_cons, List.not_mem_nil, or_false] at hp
    rcases hp with h | h | h | h <;> cases h <;> simp [login, ha]

end Sys

/-- C35 is violated on the wire: a client is refused for its credentials, and the message it sends next still goes to the subscriber. For
every identity provider, every user name and password it does not accept, every client id and every message on "t" there is such an
execution. -/
theorem C35_refused_publishes_fails (env : Env) (peers : ConnId → Peer) (id user pw : String) (q : PublishPacket) (e : AuthenticationError)
    (ha : env.auth user pw = .error e) (hid : id ≠ "") (hq : Sendable [.publish q]) (ht : q.message.topic = "t")
    (hlen : (clientBytes [helloAs id user pw, .publish q]).length < 4096)
    (h0 : (peers 0).segs.flatten = clientBytes subscriberPackets)
    (h1 : (peers 1).segs.flatten = clientBytes [helloAs id user pw, .publish q]) :
    ∃ sched, (run env (init peers) sched).handler = .idle
      ∧ ((run env (init peers) sched).conns 1).delivered = [.controlPacket (.connAck ⟨false, .notAuthorized⟩), .disconnect]
      ∧ .controlPacket (.publish q) ∈ ((run env (init peers) sched).conns 0).delivered := by
  have hplain : PlainTopic q.message.topic := by rw [ht]; exact ⟨by decide +kernel, by decide +kernel⟩
  obtain ⟨sched, hi, hl, hd⟩ := intrusion env peers id user pw (.publish q) e ha hid hq hlen h0 h1
    (fun d => Nat.le_trans (outputs_quota (by
      intro id' q' tx hq'
      simp only [settles, helloSeen, meaning, List.cons_append, List.nil_append, List.mem_cons, List.not_mem_nil, or_false] at hq'
      rcases hq' with h | h | h | h <;> cases h
      exact hplain) _ d) (by simp [settles, helloSeen, meaning, quota, Broker.start]))
  refine ⟨sched, hi, ?_, ?_⟩
  · rw [hd]
    simp [settles, helloSeen, meaning, Broker.outputs, Broker.step, Broker.packet, Broker.start, Broker.copiesTo, login, ha, to]
  · refine (C73_message_reaches_subscribers env peers sched hi
      (settles (peers 0).addr ++ [helloSeen id user pw (peers 1).addr 1]) [] id q 1 (by rw [hl]; simp [meaning]) "s" "t" 0 ?_ ?_ ?_).1
    · simp [held, settles, helloSeen, subOps, Entries.counted, Entries.counting, Entries.unsubscribe, Entries.filtersOf]
    · exact ⟨[], _, _, _, rfl, rfl, rfl, by simp [ChangesSession, helloSeen, login, ha]⟩
    · rw [ht]
      exact ⟨["t"], ["t"], (C69_levels _ _).mpr (by decide +kernel), (C69_levels _ _).mpr (by decide +kernel), .literal _ _ _ .done⟩

/-- C35 is violated on the wire: a client is refused for its credentials, and the DISCONNECT it sends next, under the client id of the
subscriber, ends the session of that one: whatever happens afterwards, no message is sent to the subscriber any more. -/
theorem C35_refused_silences_fails (env : Env) (peers : ConnId → Peer) (user pw : String) (e : AuthenticationError)
    (ha : env.auth user pw = .error e) (hlen : (clientBytes [helloAs "s" user pw, .disconnect]).length < 4096)
    (h0 : (peers 0).segs.flatten = clientBytes subscriberPackets)
    (h1 : (peers 1).segs.flatten = clientBytes [helloAs "s" user pw, .disconnect]) :
    ∃ sched, (run env (init peers) sched).handler = .idle
      ∧ ((run env (init peers) sched).conns 1).delivered = [.controlPacket (.connAck ⟨false, .notAuthorized⟩), .disconnect]
      ∧ ((run env (init peers) sched).conns 0).delivered
        = [.controlPacket (.connAck ⟨false, .accepted⟩), .controlPacket (.subAck ⟨1, [.successQoS0]⟩)]
      ∧ ∀ sched', messagesOf ((run env (init peers) (sched ++ sched')).conns 0).delivered = [] := by
  obtain ⟨sched, hi, hl, hd⟩ := intrusion env peers "s" user pw .disconnect e ha (by decide)
    (by intro x hx; cases List.mem_singleton.mp hx; exact ⟨trivial, trivial, by decide⟩) hlen h0 h1
    (fun d => Nat.le_trans (outputs_quota (by
      intro id' q' tx hq'
      simp only [settles, helloSeen, meaning, List.cons_append, List.nil_append, List.mem_cons, List.not_mem_nil, or_false] at hq'
      rcases hq' with h | h | h | h <;> cases h) _ d) (by simp [settles, helloSeen, meaning, quota, Broker.start]))
  have hd0 : ((run env (init peers) sched).conns 0).delivered
      = [.controlPacket (.connAck ⟨false, .accepted⟩), .controlPacket (.subAck ⟨1, [.successQoS0]⟩)] := by
    rw [hd]
    simp [settles, helloSeen, meaning, Broker.outputs, Broker.step, Broker.packet, Broker.start, login, ha, to, nothing]
  refine ⟨sched, hi, ?_, hd0, fun sched' => ?_⟩
  · rw [hd]
    simp [settles, helloSeen, meaning, Broker.outputs, Broker.step, Broker.packet, Broker.start, login, ha, to, nothing]
  · have hdec : Decodes env.profile (peers 0).segs.flatten (peers 0).fin [.connect ⟨.mqtt3, "s", 60, true, none, none, none⟩] := by
      rw [h0]
      exact Decodes.pre (a := [_]) (decodes_client env.profile (peers 0).fin subscriberPackets subscriber_sendable)
    rw [deaf_run env peers sched sched' 1 0 _ (settles (peers 0).addr ++ [helloSeen "s" user pw (peers 1).addr 1]) hdec
      (by rw [hl]; simp [idOf, meaning]) ?_ hi, hd0]
    · rfl
    · rw [dealtWith, hl]
      simp [settles, helloSeen, From]

/-- A subscriber, and a client with a wrong password that sends one more packet. -/
def intruders (id : String) (x : ClientPacket) : ConnId → Peer := fun c =>
  ⟨someAddr, "u", [clientBytes (if c = 0 then subscriberPackets else [helloAs id "eve" "guess", x])], .eof, []⟩

example : ∃ sched, .controlPacket (.publish blank) ∈ ((run exampleEnv (init (intruders "x" (.publish blank))) sched).conns 0).delivered :=
  let ⟨sched, _, _, h⟩ := C35_refused_publishes_fails exampleEnv (intruders "x" (.publish blank)) "x" "eve" "guess" blank _ rfl (by decide)
    (by
      intro x hx
      cases List.mem_singleton.mp hx
      exact publisher_sendable _ (by simp [publisherPackets]))
    rfl (by decide +kernel) (by simp [intruders]) (by simp [intruders])
  ⟨sched, h⟩

example : ∃ sched, ∀ sched', messagesOf ((run exampleEnv (init (intruders "s" .disconnect)) (sched ++ sched')).conns 0).delivered = [] :=
  let ⟨sched, _, _, _, h⟩ := C35_refused_silences_fails exampleEnv (intruders "s" .disconnect) "eve" "guess" _ rfl (by decide +kernel)
    (by simp [intruders]) (by simp [intruders])
  ⟨sched, h⟩

end Ratel
