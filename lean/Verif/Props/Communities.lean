/-
C177: communities that share a broker but no topics.
-/
import Verif.Props.Isolation
import Verif.Proofs.Communities
import Verif.Props.Clauses

namespace Ratel

open Decoder Encoder Spec Sys

/-- C177, for events taken one after the other. If no message of a group of clients is on a topic that somebody outside subscribes to, then a
connection not used by the group is sent what it would be sent if the group did nothing at all, provided no CONNECT of the group has a user name and
no password. -/
theorem C177_apart (auth : IdentityProvider) (A : ClientId → Bool) (d : ConnId) (evs : List ClientEvent)
    (hd : ∀ ev ∈ evs, A (clientOf ev) = true → ¬ From d ev)
    (hc : ∀ p addr tx, .connected p addr tx ∈ evs → A p.clientId = true → login auth p ≠ .incomplete)
    (ht : ∀ id q tx id' s tx', .controlPacket id (.publish q) tx ∈ evs → A id = true → .controlPacket id' (.subscribe s) tx' ∈ evs → A id' = false →
      ∀ x ∈ s.subscriptions, ¬ Matches x.topic q.message.topic) :
    Broker.start.outputs auth evs d = Broker.start.outputs auth (evs.filter fun ev => !A (clientOf ev)) d := by
  rw [C93_group auth A d evs hd hc, outputs_unheard auth (fun ev => A (clientOf ev)) _ Broker.start (fun ev hev hA => ?_) d, withoutGroup, List.filter_filter]
  · congr 1
    refine List.filter_congr fun ev _ => ?_
    cases A (clientOf ev) <;> simp
  · obtain ⟨h1, h2⟩ := List.mem_filter.mp hev
    have hp : isPublish ev = true := by simpa [hA] using h2
    cases ev with
    | controlPacket id p tx =>
      cases p with
      | publish q =>
        refine ⟨id, q, tx, rfl, by simp [Broker.start], fun id' s tx' hm x hx => ?_⟩
        obtain ⟨g1, g2⟩ := List.mem_filter.mp hm
        refine ht id q tx id' s tx' h1 hA g1 ?_ x hx
        simpa [isPublish, clientOf] using g2
      | _ => cases hp
    | _ => cases hp

/-- C177. Take any execution of the process and two communities of connections, sending any bytes: they use different client ids, and no message of the
one (`bad`) is on a topic that somebody of the other subscribes to. Everything the other has been sent is explained by events of its own connections alone,
in the order in which these sent them: it is as if it had the broker to itself. -/
theorem C177_communities (env : Env) (W L : Nat) (peers : ConnId → Peer) (ps : List PStep) (bad : ConnId → Prop) (hid : OwnIds env peers bad)
    (ht : ∀ c d qs qs' q s, bad c → ¬ bad d → Decodes env.profile (peers c).segs.flatten (peers c).fin qs →
      Decodes env.profile (peers d).segs.flatten (peers d).fin qs' → .publish q ∈ qs → .subscribe s ∈ qs' →
      ∀ x ∈ s.subscriptions, ¬ Matches x.topic q.message.topic) :
    ∃ evs : List ClientEvent,
      (∀ ev ∈ evs, ∃ c, c ∈ (Proc.run env W (Proc.start L peers) ps).accepted ∧ From c ev ∧ ¬ bad c) ∧ Orderly env peers evs
      ∧ ∀ d, ¬ bad d → ∃ sent : List ControlPacket, sent.map .controlPacket <+: Broker.start.outputs env.auth evs d
        ∧ ((Proc.run env W (Proc.start L peers) ps).sys.conns d).wr = writeOn env.alloc sent (WStream.new 4096 (peers d).script)
        ∧ ((∀ o ∈ (peers d).script, o ≠ .fail) →
            ((Proc.run env W (Proc.start L peers) ps).sys.conns d).wr.wire <+: wireOf sent) := by
  classical
  obtain ⟨evs, h1, h2, h3⟩ := C93_noninterference env W L peers ps bad hid
  have hin : ∀ ev ∈ evs, ∀ c, From c ev → ∀ id p tx, ev = .controlPacket id p tx →
      ∃ qs, Decodes env.profile (peers c).segs.flatten (peers c).fin qs ∧ p ∈ qs := by
    rintro ev hev c hf id p tx rfl
    obtain ⟨qs, h4, h5, _⟩ := h2 c
    have hm := h5.subset (List.mem_filter.mpr ⟨hev, by simpa using hf⟩)
    refine ⟨qs, h4, ?_⟩
    cases qs with
    | nil => cases hm
    | cons q qs =>
      cases q with
      | connect p' =>
        simp only [eventsOf, List.mem_cons, List.mem_map] at hm
        rcases hm with hm | ⟨q, hq, hm⟩
        · cases hm
        · cases hm
          exact List.mem_cons_of_mem _ hq
      | _ => cases hm
  let R : ClientEvent → Bool := fun ev => decide (∃ c, From c ev ∧ bad c)
  have hout := outputs_unheard env.auth R evs Broker.start fun ev hev hR => by
    obtain ⟨c, hf, hb⟩ := of_decide_eq_true hR
    obtain ⟨c', _, hf', hp⟩ := h1 ev hev
    cases from_unique hf hf'
    have hp := hp hb
    cases ev with
    | controlPacket id p tx =>
      cases p with
      | publish q =>
        refine ⟨id, q, tx, rfl, by simp [Broker.start], fun id' s tx' hm x hx => ?_⟩
        obtain ⟨qs, g1, g2⟩ := hin _ hev c hf _ _ _ rfl
        obtain ⟨qs', g3, g4⟩ := hin _ hm tx' rfl _ _ _ rfl
        refine ht c tx' qs qs' q s hb (fun hb' => ?_) g1 g3 g2 g4 x hx
        obtain ⟨c'', _, hf'', hp''⟩ := h1 _ hm
        have hf'' : tx' = c'' := hf''
        subst hf''
        cases hp'' hb'
      | _ => cases hp
    | _ => cases hp
  refine ⟨evs.filter fun ev => !R ev, fun ev hev => ?_, fun c => ?_, fun d hd => ?_⟩
  · obtain ⟨g1, g2⟩ := List.mem_filter.mp hev
    obtain ⟨c, g3, g4, _⟩ := h1 ev g1
    refine ⟨c, g3, g4, fun hb => ?_⟩
    have : R ev = true := decide_eq_true ⟨c, g4, hb⟩
    simp [this] at g2
  · rw [List.filter_filter]
    by_cases hb : bad c
    · refine ⟨[], ⟨_, rfl⟩, ?_⟩
      rw [List.filter_eq_nil_iff.mpr fun ev _ hf => ?_]
      · exact List.nil_prefix
      · have hf : From c ev ∧ R ev = false := by simpa using hf
        rw [show R ev = true from decide_eq_true ⟨c, hf.1, hb⟩] at hf
        cases hf.2
    · obtain ⟨qs, h4, _, h5⟩ := h2 c
      refine ⟨qs, h4, ?_⟩
      rw [show (evs.filter fun ev => decide (From c ev) && !R ev) = evs.filter (From c) from List.filter_congr fun ev _ => ?_]
      · exact h5 hb
      · by_cases hf : From c ev
        · have : R ev = false := decide_eq_false fun ⟨c', g1, g2⟩ => hb (from_unique g1 hf ▸ g2)
          simp [hf, this]
        · simp [hf]
  · obtain ⟨sent, g1, g2, g3⟩ := h3 d hd
    exact ⟨sent, by rw [← hout d]; exact g1, g2, g3⟩

/-- Somebody who subscribes to `a` and publishes there. -/
def ours : List ClientPacket := [hello "s", .subscribe 1 [("a", .atMostOnce)], .publish ⟨none, false, ⟨"a", [1], .atMostOnce, false⟩⟩]

/-- Somebody who subscribes to everything and publishes on `b`. -/
def theirs : List ClientPacket := [hello "p", .subscribe 1 [("#", .atMostOnce)], .publish ⟨none, false, ⟨"b", [2], .atMostOnce, false⟩⟩]

theorem community_sendable (id f t : String) (pl : List UInt8) (h1 : Fits id) (h2 : Fits f) (h3 : Fits t)
    (h : ∀ p ∈ ([hello id, .subscribe 1 [(f, .atMostOnce)], .publish ⟨none, false, ⟨t, pl, .atMostOnce, false⟩⟩] : List ClientPacket),
      (clientRest p).length < 2097152) :
    Sendable [hello id, .subscribe 1 [(f, .atMostOnce)], .publish ⟨none, false, ⟨t, pl, .atMostOnce, false⟩⟩] := by
  intro p hp
  refine ⟨?_, ?_, h p hp⟩ <;> simp only [List.mem_cons, List.not_mem_nil, or_false] at hp <;> rcases hp with rfl | rfl | rfl
  · exact ⟨(by unfold Fits; decide +kernel : Fits "MQTT"), h1, by simp, by simp, by simp⟩
  · simpa [Legal] using h2
  · exact ⟨h3, ⟨fun h => (by cases h), fun h => absurd rfl h⟩⟩
  · rfl
  · trivial
  · trivial

/-- Two communities that meet the conditions, though the second hears what the first publishes. -/
def townPeers : ConnId → Peer := fun c => ⟨someAddr, "u", [clientBytes (if c = 0 then ours else theirs)], .silence, []⟩

theorem town_decodes {env : Env} {c : ConnId} {qs : List ControlPacket} (h : Decodes env.profile (townPeers c).segs.flatten (townPeers c).fin qs) :
    qs <+: (if c = 0 then ours else theirs).map meaning := by
  refine decodes_client_only (pr := env.profile) (fin := .silence) ?_ (by simpa [townPeers] using h)
  by_cases hc : c = 0
  · rw [if_pos hc]
    exact community_sendable "s" "a" "a" [1] (by unfold Fits; decide +kernel) (by unfold Fits; decide +kernel) (by unfold Fits; decide +kernel) (by decide +kernel)
  · rw [if_neg hc]
    exact community_sendable "p" "#" "b" [2] (by unfold Fits; decide +kernel) (by unfold Fits; decide +kernel) (by unfold Fits; decide +kernel) (by decide +kernel)

example (env : Env) (W L : Nat) (ps : List PStep) := C177_communities env W L townPeers ps (· ≠ 0)
  (by
    intro c d hc hd p qs q qs' h1 h2
    have hd : d = 0 := Classical.byContradiction hd
    have h1 := town_decodes h1
    have h2 := town_decodes h2
    rw [if_neg hc] at h1
    rw [if_pos hd] at h2
    obtain ⟨_, h1⟩ := h1
    obtain ⟨_, h2⟩ := h2
    injection h1 with h1
    injection h2 with h2
    injection h1 with h1
    injection h2 with h2
    rw [h1, h2]
    exact (by decide +kernel : idOf ⟨someAddr, "u", [], .silence, []⟩ ⟨.mqtt3, "p", 60, true, none, none, none⟩
      ≠ idOf ⟨someAddr, "u", [], .silence, []⟩ ⟨.mqtt3, "s", 60, true, none, none, none⟩))
  (by
    intro c d qs qs' q s hc hd h1 h2 hq hs x hx
    have hd : d = 0 := Classical.byContradiction hd
    have h1 := (town_decodes h1).subset hq
    have h2 := (town_decodes h2).subset hs
    rw [if_neg hc] at h1
    rw [if_pos hd] at h2
    have e1 : q.message.topic = "b" := by simp [theirs, hello, meaning] at h1; rw [h1]
    have e2 : x.topic = "a" := by
      simp [ours, hello, meaning] at h2
      rw [h2] at hx
      obtain rfl := List.mem_singleton.mp hx
      rfl
    rw [e1, e2, C125_matches_itself _ _ (by unfold PlainTopic; decide +kernel)]
    decide)

-- the conditions of C177_apart
example : (∀ id q tx id' s tx', .controlPacket id (.publish q) tx ∈ ([.controlPacket "s" (.subscribe ⟨1, [⟨"a", .atMostOnce⟩]⟩) 0,
      .controlPacket "p" (.subscribe ⟨1, [⟨"#", .atMostOnce⟩]⟩) 1, .controlPacket "p" (.publish ⟨none, false, ⟨"b", [], .atMostOnce, false⟩⟩) 1] : List ClientEvent) →
      decide (id = "p") = true → .controlPacket id' (.subscribe s) tx' ∈ ([.controlPacket "s" (.subscribe ⟨1, [⟨"a", .atMostOnce⟩]⟩) 0,
      .controlPacket "p" (.subscribe ⟨1, [⟨"#", .atMostOnce⟩]⟩) 1, .controlPacket "p" (.publish ⟨none, false, ⟨"b", [], .atMostOnce, false⟩⟩) 1] : List ClientEvent) →
      decide (id' = "p") = false → ∀ x ∈ s.subscriptions, ¬ Matches x.topic q.message.topic) := by
  intro id q tx id' s tx' h1 _ h2 h3 x hx
  simp only [List.mem_cons, ClientEvent.controlPacket.injEq, reduceCtorEq, false_and, and_false, ControlPacket.publish.injEq, ControlPacket.subscribe.injEq,
    List.not_mem_nil, or_false, false_or] at h1 h2
  obtain ⟨_, rfl, _⟩ := h1
  rcases h2 with ⟨_, rfl, _⟩ | ⟨rfl, _, _⟩
  · obtain rfl := List.mem_singleton.mp hx
    rw [C125_matches_itself _ _ (by unfold PlainTopic; decide +kernel)]
    decide
  · simp at h3

end Ratel
