/-
C93: what a client can do to others.
-/
import Verif.Proofs.Isolation
import Verif.Props.Process

namespace Ratel

open Decoder Encoder Spec Sys

/-! ### C93 -/

/-- C93, for the sequential broker: take any events, any group of clients, and a connection the group does not use. Leave out all the group
does except the messages it publishes: the connection is sent the same, provided no CONNECT of the group has a user name and no
password. -/
theorem C93_group (auth : IdentityProvider) (A : ClientId → Bool) (d : ConnId) (evs : List ClientEvent)
    (hd : ∀ ev ∈ evs, A (clientOf ev) = true → ¬ From d ev)
    (hc : ∀ p addr tx, .connected p addr tx ∈ evs → A p.clientId = true → login auth p ≠ .incomplete) :
    Broker.start.outputs auth evs d = Broker.start.outputs auth (withoutGroup A evs) d :=
  (AgreeBut.outputs (A := A) (d := d) (b := Broker.start) (b' := Broker.start)
    ⟨fun _ _ => rfl, fun _ _ => by simp [Broker.start], fun _ _ => by simp [Broker.start], rfl⟩ auth evs hd).2 hc

theorem from_unique {c c' : ConnId} {ev : ClientEvent} (h : From c ev) (h' : From c' ev) : c = c' := by
  cases ev with
  | connected p addr tx => exact Eq.trans (Eq.symm h) h'
  | controlPacket id p tx => exact Eq.trans (Eq.symm h) h'
  | disconnected id => cases h
  | connectionLost id => cases h

theorem orderly_client {env : Env} {peers : ConnId → Peer} {evs : List ClientEvent} (hord : Orderly env peers evs) {c : ConnId}
    {ev : ClientEvent} (hev : ev ∈ evs) (hf : From c ev) :
    ∃ p ps, Decodes env.profile (peers c).segs.flatten (peers c).fin (.connect p :: ps) ∧ clientOf ev = idOf (peers c) p := by
  obtain ⟨ps, h1, h2⟩ := hord c
  have hm := h2.subset (List.mem_filter.mpr ⟨hev, by simpa using hf⟩)
  cases ps with
  | nil => cases hm
  | cons q ps =>
    cases q with
    | connect p =>
      refine ⟨p, ps, h1, ?_⟩
      simp only [eventsOf, List.mem_cons, List.mem_map] at hm
      rcases hm with rfl | ⟨q, _, rfl⟩
      · rfl
      · rfl
    | _ => cases hm

open Classical in
/-- The client ids of a group of connections. -/
noncomputable def groupIds (env : Env) (peers : ConnId → Peer) (bad : ConnId → Prop) (id : ClientId) : Bool :=
  decide (∃ c p ps, bad c ∧ Decodes env.profile (peers c).segs.flatten (peers c).fin (.connect p :: ps) ∧ idOf (peers c) p = id)

theorem groupIds_iff {env : Env} {peers : ConnId → Peer} {bad : ConnId → Prop} (hid : OwnIds env peers bad) {evs : List ClientEvent}
    (hord : Orderly env peers evs) {c : ConnId} {ev : ClientEvent} (hev : ev ∈ evs) (hf : From c ev) :
    groupIds env peers bad (clientOf ev) = true ↔ bad c := by
  obtain ⟨p, ps, h1, h2⟩ := orderly_client hord hev hf
  simp only [groupIds, decide_eq_true_iff, h2]
  constructor
  · rintro ⟨c', p', ps', h3, h4, h5⟩
    exact Classical.byContradiction fun hn => hid c' c h3 hn p' ps' p ps h4 h1 h5
  · intro hb
    exact ⟨c, p, ps, hb, h1, rfl⟩

/-- An explanation of an execution by events, with what a group of connections does left out except for its messages. -/
theorem isolate {env : Env} {peers : ConnId → Peer} {bad : ConnId → Prop} (hid : OwnIds env peers bad) {evs : List ClientEvent}
    (hord : Orderly env peers evs) :
    ∃ evs', evs'.Sublist evs ∧ (∀ c, ∀ ev ∈ evs', From c ev → bad c → isPublish ev = true)
      ∧ (∀ c, ¬ bad c → evs'.filter (From c) = evs.filter (From c))
      ∧ ∀ d, ¬ bad d → Broker.start.outputs env.auth evs d <+: Broker.start.outputs env.auth evs' d := by
  refine ⟨withoutGroup (groupIds env peers bad) evs, List.filter_sublist, fun c ev hev hf hb => ?_, fun c hb => ?_, fun d hd => ?_⟩
  · obtain ⟨h1, h2⟩ := List.mem_filter.mp hev
    have := (groupIds_iff hid hord h1 hf).mpr hb
    simpa [this] using h2
  · unfold withoutGroup
    rw [List.filter_filter]
    apply List.filter_congr
    intro ev hev
    by_cases hf : From c ev
    · have : groupIds env peers bad (clientOf ev) = false := by
        have := (groupIds_iff hid hord hev hf).mp
        cases h : groupIds env peers bad (clientOf ev) with
        | false => rfl
        | true => exact absurd (this h) hb
      simp [hf, this]
    · simp [hf]
  · refine (AgreeBut.outputs (d := d) (b := Broker.start) (b' := Broker.start)
      ⟨fun _ _ => rfl, fun _ _ => by simp [Broker.start], fun _ _ => by simp [Broker.start], rfl⟩ env.auth evs ?_).1
    intro ev hev hA hf
    exact hd ((groupIds_iff hid hord hev hf).mp hA)

/-- C93. Take any execution of the process and any group of connections, sending any bytes, well-formed or not, under client ids no other
connection uses. Everything the other connections have been sent is explained by events in which the group does nothing but publish
messages that are in its bytes. -/
theorem C93_noninterference (env : Env) (W L : Nat) (peers : ConnId → Peer) (ps : List PStep) (bad : ConnId → Prop)
    (hid : OwnIds env peers bad) :
    ∃ evs : List ClientEvent,
      (∀ ev ∈ evs, ∃ c, c ∈ (Proc.run env W (Proc.start L peers) ps).accepted ∧ From c ev ∧ (bad c → isPublish ev = true))
      ∧ (∀ c, ∃ qs, Decodes env.profile (peers c).segs.flatten (peers c).fin qs ∧ (evs.filter (From c)).Sublist (eventsOf (peers c) c qs)
          ∧ (¬ bad c → evs.filter (From c) <+: eventsOf (peers c) c qs))
      ∧ ∀ d, ¬ bad d → ∃ sent : List ControlPacket, sent.map .controlPacket <+: Broker.start.outputs env.auth evs d
        ∧ ((Proc.run env W (Proc.start L peers) ps).sys.conns d).wr = writeOn env.alloc sent (WStream.new 4096 (peers d).script)
        ∧ ((∀ o ∈ (peers d).script, o ≠ .fail) →
            ((Proc.run env W (Proc.start L peers) ps).sys.conns d).wr.wire <+: wireOf sent) := by
  obtain ⟨evs, h1, h2, h3⟩ := C82_process_linearizable env W L peers ps
  obtain ⟨evs', g1, g2, g3, g4⟩ := isolate hid h2
  refine ⟨evs', fun ev hev => ?_, fun c => ?_, fun d hd => ?_⟩
  · obtain ⟨c, hc, hf⟩ := h1 ev (g1.subset hev)
    exact ⟨c, hc, hf, g2 c ev hev hf⟩
  · obtain ⟨qs, h5, h6⟩ := h2 c
    exact ⟨qs, h5, (g1.filter _).trans h6.sublist, fun hb => by rw [g3 c hb]; exact h6⟩
  · obtain ⟨sent, h5, h6, h7, _⟩ := h3 d
    exact ⟨sent, h5.trans (g4 d hd), h6, h7⟩

/-- C93, a group that publishes nothing: everything the other connections have been sent is explained by events of other connections
alone, in the order in which these sent them. -/
theorem C93_quiet (env : Env) (W L : Nat) (peers : ConnId → Peer) (ps : List PStep) (bad : ConnId → Prop) (hid : OwnIds env peers bad)
    (hq : ∀ c, bad c → ∀ qs, Decodes env.profile (peers c).segs.flatten (peers c).fin qs → ∀ q, .publish q ∉ qs) :
    ∃ evs : List ClientEvent,
      (∀ ev ∈ evs, ∃ c, c ∈ (Proc.run env W (Proc.start L peers) ps).accepted ∧ From c ev ∧ ¬ bad c) ∧ Orderly env peers evs
      ∧ ∀ d, ¬ bad d → ∃ sent : List ControlPacket, sent.map .controlPacket <+: Broker.start.outputs env.auth evs d
        ∧ ((Proc.run env W (Proc.start L peers) ps).sys.conns d).wr = writeOn env.alloc sent (WStream.new 4096 (peers d).script)
        ∧ ((∀ o ∈ (peers d).script, o ≠ .fail) →
            ((Proc.run env W (Proc.start L peers) ps).sys.conns d).wr.wire <+: wireOf sent) := by
  obtain ⟨evs, h1, h2, h3⟩ := C93_noninterference env W L peers ps bad hid
  have hno : ∀ ev ∈ evs, ∀ c, From c ev → ¬ bad c := by
    intro ev hev c hf hb
    obtain ⟨c', hc', hf', hp⟩ := h1 ev hev
    cases from_unique hf hf'
    have hp := hp hb
    obtain ⟨qs, h4, h5, _⟩ := h2 c
    have hm := h5.subset (List.mem_filter.mpr ⟨hev, by simpa using hf⟩)
    cases qs with
    | nil => cases hm
    | cons q qs =>
      cases q with
      | connect p =>
        simp only [eventsOf, List.mem_cons, List.mem_map] at hm
        rcases hm with rfl | ⟨q, hq', rfl⟩
        · cases hp
        · cases q with
          | publish q => exact hq c hb _ h4 q (List.mem_cons_of_mem _ hq')
          | _ => cases hp
      | _ => cases hm
  refine ⟨evs, fun ev hev => ?_, fun c => ?_, h3⟩
  · obtain ⟨c, hc, hf, _⟩ := h1 ev hev
    exact ⟨c, hc, hf, hno ev hev c hf⟩
  · by_cases hb : bad c
    · refine ⟨[], ⟨_, rfl⟩, ?_⟩
      have : evs.filter (From c) = [] := List.filter_eq_nil_iff.mpr fun ev hev hf => hno ev hev c (by simpa using hf) hb
      rw [this]
      exact List.nil_prefix
    · obtain ⟨qs, h4, _, h5⟩ := h2 c
      exact ⟨qs, h4, h5 hb⟩

-- a busy client that publishes once: it subscribes to everything, pings, publishes, leaves; the subscriber on connection 0 sees the message
example : withoutGroup (fun id => id = "x")
    [.connected ⟨.mqtt3, "x", 60, true, none, none, none⟩ someAddr 1, .controlPacket "x" (.subscribe ⟨1, [⟨"#", .atMostOnce⟩]⟩) 1,
      .connected ⟨.mqtt3, "s", 60, true, none, none, none⟩ someAddr 0, .controlPacket "s" (.subscribe ⟨1, [⟨"t", .atMostOnce⟩]⟩) 0,
      .controlPacket "x" (.publish blank) 1, .controlPacket "x" .pingReq 1, .controlPacket "x" .disconnect 1]
    = [.connected ⟨.mqtt3, "s", 60, true, none, none, none⟩ someAddr 0, .controlPacket "s" (.subscribe ⟨1, [⟨"t", .atMostOnce⟩]⟩) 0,
      .controlPacket "x" (.publish blank) 1] := by decide +kernel

/-- The publisher of the examples acts under an id of its own. -/
theorem example_ownIds : OwnIds exampleEnv (fun c => if c = 1 then examplePeers 1 else examplePeers 0) (· = 1) := by
  intro c d hc hd p ps q qs h1 h2
  subst hc
  have hd : ¬ d = 1 := hd
  simp only [↓reduceIte, hd] at h1 h2 ⊢
  have e1 : (examplePeers 1).segs.flatten = clientBytes publisherPackets := by simp [examplePeers]
  have e2 : (examplePeers 0).segs.flatten = clientBytes subscriberPackets := by simp [examplePeers]
  rw [e1] at h1
  rw [e2] at h2
  have g1 := Ratel.Sys.Decodes.head h1 (Sys.decodes_client exampleEnv.profile (examplePeers 1).fin publisherPackets publisher_sendable)
  have g2 := Ratel.Sys.Decodes.head h2 (Sys.decodes_client exampleEnv.profile (examplePeers 0).fin subscriberPackets subscriber_sendable)
  injection g1 with g1
  injection g2 with g2
  rw [g1, g2]
  decide +kernel

example (W L : Nat) (ps : List PStep) :=
  C93_noninterference exampleEnv W L (fun c => if c = 1 then examplePeers 1 else examplePeers 0) ps (· = 1) example_ownIds

end Ratel
