/-
C171: sessions and the users they belong to.
-/
import Verif.Spec.Users
import Verif.Props.Intruder
import Verif.Props.CleanSession
import Verif.Props.Slow

namespace Ratel

open Spec Sys

theorem reachedOn_connected {auth : IdentityProvider} {evs : List ClientEvent} {c : ClientId} {d : ConnId} (h : ReachedOn auth evs c d) :
    ∃ p addr, .connected p addr d ∈ evs ∧ p.clientId = c ∧ login auth p = .accepted := by
  obtain ⟨pre, p, addr, post, rfl, h1, h2, _⟩ := h
  exact ⟨p, addr, by simp, h1, h2⟩

/-- What holds of C171. If no client id is used with two users, every message sent to a connection was asked for on a connection of the same user, and the
user of the receiving connection was accepted. What is missing: nothing keeps another user, or nobody in particular, from using the client id. -/
theorem C171_own_messages_partial (env : Env) (peers : ConnId → Peer) (sched : List Step)
    (h1 : OneUserPerId ((run env (init peers) sched).log.map Prod.fst)) (d : ConnId) (q : PublishPacket)
    (hq : .controlPacket (.publish q) ∈ ((run env (init peers) sched).conns d).delivered) :
    ∃ p addr, .connected p addr d ∈ (run env (init peers) sched).log.map Prod.fst ∧ login env.auth p = .accepted
      ∧ ∃ e f, ClaimsUser ((run env (init peers) sched).log.map Prod.fst) e p.userName
        ∧ AsksFor ((run env (init peers) sched).log.map Prod.fst) e f ∧ Matches f q.message.topic := by
  obtain ⟨pre, id, tx, post, hl, _, _, c, f, hf, hr, hm⟩ := C50_no_invented_messages env peers sched d q hq
  obtain ⟨p, addr, hp, hc, ha⟩ := reachedOn_connected hr
  have hsub : ∀ ev ∈ pre, ev ∈ (run env (init peers) sched).log.map Prod.fst := fun ev hev => by rw [hl]; exact List.mem_append_left _ hev
  refine ⟨p, addr, hsub _ hp, ha, ?_⟩
  rcases held_append (evs := []) (by simpa using hf) with h0 | ⟨ev, hev, hs⟩
  · simp [held, Entries.counted] at h0
  · obtain ⟨s, e, he, x, hx, rfl⟩ : ∃ s e, ev = .controlPacket c (.subscribe s) e ∧ ∃ x ∈ s.subscriptions, x.topic = f := by
      cases ev with
      | controlPacket i p e =>
        cases p with
        | subscribe s =>
          obtain ⟨rfl, x, hx, hxf⟩ := hs
          exact ⟨s, e, rfl, x, hx, hxf⟩
        | _ => exact hs.elim
      | _ => exact hs.elim
    subst he
    obtain ⟨i, j, hij⟩ := List.append_of_mem hev
    have hord := reads_orderly_served (inv_run env peers sched).reads
    unfold served at hord
    rw [hl, hij, List.append_assoc, List.cons_append, List.append_cons] at hord
    obtain ⟨p', addr', hp', hid⟩ := Orderly.connected_before (Orderly.pre hord)
    have hp'' := hsub _ (by rw [hij]; exact List.mem_append_left _ hp')
    exact ⟨e, x.topic, ⟨p', addr', hp'', h1 _ _ _ _ _ _ hp'' (hsub _ hp) (hid.trans hc.symm)⟩, ⟨c, s, hsub _ hev, x, hx, rfl⟩, hm⟩

/-- What the broker takes, in this order: a user logs in and subscribes, somebody takes over, a message comes. -/
def takeover (peers : ConnId → Peer) (user pw : String) (c : Connect) (m : List UInt8) : List ClientEvent :=
  [.connected ⟨.mqtt3, "s", 60, true, none, some user, some pw⟩ (peers 0).addr 0, .controlPacket "s" (.subscribe ⟨1, [⟨"t", .atMostOnce⟩]⟩) 0,
    .connected ⟨.mqtt3, c.clientId, c.keepAlive, c.cleanSession, c.will.map fun (t, m, q, r) => ⟨t, m, q, r⟩, c.userName, c.password⟩ (peers 1).addr 1,
    .connected ⟨.mqtt3, "p", 60, true, none, none, none⟩ (peers 2).addr 2, .controlPacket "p" (.publish (withPayload m)) 2]

/-- C171 fails. A user logs in with a good password as client "s" and subscribes. Anybody whose CONNECT with client id "s" is accepted, for example
because it names no user at all, gets the messages from then on, and the user gets none. For every identity provider, every user
it accepts, every such CONNECT and every message. -/
theorem C171_takeover_fails (env : Env) (peers : ConnId → Peer) (user pw : String) (c : Connect) (m : List UInt8) (hm : m.length ≤ 1000)
    (ha : env.auth user pw = .ok ()) (hid : c.clientId = "s") (hs : Sendable [.connect c]) (hs' : Sendable (owner user pw))
    (hacc : ∀ p, meaning (.connect c) = .connect p → login env.auth p = .accepted)
    (hl : (clientBytes (owner user pw)).length < 4096) (hl' : (clientBytes [.connect c]).length < 4096)
    (h0 : (peers 0).segs.flatten = clientBytes (owner user pw)) (h1 : (peers 1).segs.flatten = clientBytes [.connect c])
    (h2 : (peers 2).segs.flatten = clientBytes (passerBy m)) :
    ∃ sched, (run env (init peers) sched).handler = .idle ∧ (run env (init peers) sched).log.map Prod.fst = takeover peers user pw c m
      ∧ ((run env (init peers) sched).conns 0).delivered = [.controlPacket (.connAck ⟨false, .accepted⟩), .controlPacket (.subAck ⟨1, [.successQoS0]⟩)]
      ∧ ((run env (init peers) sched).conns 1).delivered = [.controlPacket (.connAck ⟨false, .accepted⟩), .controlPacket (.publish (withPayload m))] := by
  let p0 : ConnectPacket := ⟨.mqtt3, "s", 60, true, none, some user, some pw⟩
  let p1 : ConnectPacket := ⟨.mqtt3, c.clientId, c.keepAlive, c.cleanSession, c.will.map fun (t, m, q, r) => ⟨t, m, q, r⟩, c.userName, c.password⟩
  let p2 : ConnectPacket := ⟨.mqtt3, "p", 60, true, none, none, none⟩
  let evs : List ClientEvent := [.connected p0 (peers 0).addr 0, .controlPacket "s" (.subscribe ⟨1, [⟨"t", .atMostOnce⟩]⟩) 0,
    .connected p1 (peers 1).addr 1, .connected p2 (peers 2).addr 2, .controlPacket "p" (.publish (withPayload m)) 2]
  have l0 : login env.auth p0 = .accepted := by simp [p0, login, ha]
  have l1 : login env.auth p1 = .accepted := hacc p1 rfl
  have l2 : login env.auth p2 = .accepted := rfl
  have hout : ∀ d : Nat, Broker.start.outputs env.auth evs d =
      if d = 0 then [.controlPacket (.connAck ⟨false, .accepted⟩), .controlPacket (.subAck ⟨1, [.successQoS0]⟩)]
      else if d = 1 then [.controlPacket (.connAck ⟨false, .accepted⟩), .controlPacket (.publish (withPayload m))]
      else if d = 2 then [.controlPacket (.connAck ⟨false, .accepted⟩)] else [] := by
    intro d
    have hc : ∀ b : Broker, b.session "s" = some 1 → b.subs = [("s", "t")] → b.copiesTo d "t" = if d = 1 then 1 else 0 := by
      intro b h1 h2
      by_cases h : d = 1
      · subst h; simp [Broker.copiesTo, h1, h2, ways_t]
      · have h' : ¬ 1 = d := fun e => h e.symm
        simp [Broker.copiesTo, h1, h2, h, h']
    simp only [evs, Broker.outputs, Broker.step, l0, l1, l2, Broker.packet, Spec.to, List.append_nil, withPayload]
    rw [hc _ (by simp [p1, p2, hid]) (by simp [Broker.start])]
    by_cases d0 : d = 0
    · subst d0; simp
    · by_cases d1 : d = 1
      · subst d1; simp
      · by_cases d2 : d = 2
        · subst d2; simp
        · simp [d0, d1, d2]
  obtain ⟨sched, e1, e2, e3⟩ := C77_any_interleaving env peers
    (fun k => if k = 0 then owner user pw else if k = 1 then [.connect c] else if k = 2 then passerBy m else []) (fun k hk => by
      by_cases k0 : k = 0
      · subst k0; exact h0
      · by_cases k1 : k = 1
        · subst k1; exact h1
        · by_cases k2 : k = 2
          · subst k2; exact h2
          · simp [k0, k1, k2] at hk) (fun k => by
      split
      · exact hs'
      · split
        · exact hs
        · split
          · exact (passerBy_sendable hm).1
          · simp [Sendable]) (fun k => by
      split
      · exact hl
      · split
        · exact hl'
        · split
          · exact (passerBy_sendable hm).2
          · simp [clientBytes]) evs (fun ev hev => by
      simp only [evs, List.mem_cons, List.not_mem_nil, or_false] at hev
      rcases hev with rfl | rfl | rfl | rfl | rfl <;> exact ⟨_, rfl⟩) (fun k => by
      by_cases k0 : k = 0
      · subst k0
        simp [evs, p0, From, owner, meaning, eventsOf, idOf]
      · by_cases k1 : k = 1
        · subst k1
          simp [evs, p1, From, meaning, eventsOf, idOf, hid]
        · by_cases k2 : k = 2
          · subst k2
            simp [evs, p2, From, passerBy, hello, meaning, eventsOf, idOf]
          · have h0' : ¬ 0 = k := fun h => k0 h.symm
            have h1' : ¬ 1 = k := fun h => k1 h.symm
            have h2' : ¬ 2 = k := fun h => k2 h.symm
            simp [evs, From, h0', h1', h2']) (fun p addr k hp => by
      simp only [evs, List.mem_cons, List.not_mem_nil, or_false] at hp
      rcases hp with h | h | h | h | h <;> cases h
      · rw [l0]; decide
      · rw [l1]; decide
      · rw [l2]; decide) (fun d => by
      rw [hout]
      repeat' split
      all_goals simp)
  refine ⟨sched, e1, e2, ?_, ?_⟩
  · rw [e3, hout]; rfl
  · rw [e3, hout]; rfl

/-- A provider that knows one user. -/
def onlyAlice : IdentityProvider := fun u p => if u = "alice" then if p = "x" then .ok () else .error .invalidPassword else .error .userNotFound

theorem owner_sendable : Sendable (owner "alice" "x") ∧ (clientBytes (owner "alice" "x")).length < 4096 := by
  refine ⟨fun x hx => ?_, by decide +kernel⟩
  simp only [owner, List.mem_cons, List.not_mem_nil, or_false] at hx
  rcases hx with rfl | rfl
  · exact helloAs_sendable "s" "alice" "x" (by decide +kernel)
  · exact subscriber_sendable _ (by simp [subscriberPackets])

-- C171_takeover_fails: "alice" logs in, somebody without name takes over
example : onlyAlice "alice" "x" = .ok () ∧ Sendable [hello "s"] ∧ Sendable (owner "alice" "x") ∧ (clientBytes (owner "alice" "x")).length < 4096
    ∧ ∀ p, meaning (hello "s") = .connect p → login onlyAlice p = .accepted := by
  refine ⟨rfl, ?_, owner_sendable.1, owner_sendable.2, fun p hp => ?_⟩
  · intro x hx
    cases List.mem_singleton.mp hx
    exact hello_sendable "s" (by unfold Fits; decide +kernel) (by decide +kernel)
  · cases hp; rfl

-- C171_own_messages_partial: "alice" connects a second time and gets the message there
example : ∃ peers sched, OneUserPerId ((run ⟨exampleEnv.alloc, exampleEnv.profile, onlyAlice⟩ (init peers) sched).log.map Prod.fst)
    ∧ .controlPacket (.publish (withPayload [7])) ∈ ((run ⟨exampleEnv.alloc, exampleEnv.profile, onlyAlice⟩ (init peers) sched).conns 1).delivered := by
  let peers : ConnId → Peer := fun k => ⟨someAddr, "u", if k = 0 then [clientBytes (owner "alice" "x")] else if k = 1 then
    [clientBytes [.connect ⟨"MQTT", 4, true, 60, "s", none, some "alice", some "x"⟩]] else [clientBytes (passerBy [7])], .silence, []⟩
  obtain ⟨sched, _, h2, _, h4⟩ := C171_takeover_fails ⟨exampleEnv.alloc, exampleEnv.profile, onlyAlice⟩ peers "alice" "x"
    ⟨"MQTT", 4, true, 60, "s", none, some "alice", some "x"⟩ [7] (by decide) rfl rfl
    (fun x hx => owner_sendable.1 x (by rw [List.mem_singleton.mp hx]; simp [owner])) owner_sendable.1 (fun p hp => by cases hp; rfl) owner_sendable.2
    (by decide +kernel) (by simp [peers]) (by simp [peers]) (by simp [peers])
  refine ⟨peers, sched, ?_, by rw [h4]; simp⟩
  rw [h2]
  intro p addr c p' addr' c' h h' hid
  simp only [takeover, List.mem_cons, List.not_mem_nil, or_false] at h h'
  rcases h with h | h | h | h | h <;> rcases h' with h' | h' | h' | h' | h' <;> cases h <;> cases h' <;> first | rfl | exact absurd hid (by decide)

end Ratel
