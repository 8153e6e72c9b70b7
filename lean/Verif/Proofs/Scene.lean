/-
An execution in which one connection subscribes and two others publish.
-/
import Verif.Spec.Conformance
import Verif.Props.Protocol

namespace Ratel

open Decoder Encoder Spec Sys

theorem filter_other {c d : ConnId} (id : ClientId) (qs : List PublishPacket) (h : d ≠ c) :
    (qs.map fun m => ClientEvent.controlPacket id (.publish m) d).filter (From c) = [] := by
  rw [List.filter_eq_nil_iff]
  intro ev hev
  obtain ⟨m, _, rfl⟩ := List.mem_map.mp hev
  simp [From, h]

theorem filter_own {c : ConnId} (id : ClientId) (qs : List PublishPacket) :
    (qs.map fun m => ClientEvent.controlPacket id (.publish m) c).filter (From c)
      = qs.map fun m => ClientEvent.controlPacket id (.publish m) c := by
  rw [List.filter_eq_self]
  intro ev hev
  obtain ⟨m, _, rfl⟩ := List.mem_map.mp hev
  simp [From]

theorem clientBytes_part {cs : List ClientPacket} {c : ClientPacket} (h : c ∈ cs) :
    (clientRest c).length ≤ (clientBytes cs).length := by
  induction cs with
  | nil => cases h
  | cons d cs ih =>
    simp only [clientBytes, List.flatMap_cons, List.length_append] at ih ⊢
    rcases List.mem_cons.mp h with rfl | h
    · have : (clientRest c).length ≤ (packet (clientFirst c) (clientRest c)).length := by
        simp [packet]
        omega
      omega
    · have := ih h
      omega

/-- Messages to a broker with the one subscription. -/
theorem publishes_outputs (auth : IdentityProvider) (b : Broker) (id : ClientId) (tx : ConnId) (d : ConnId) (n : Nat) (qs : List PublishPacket)
    (h : ∀ m ∈ qs, b.copiesTo d m.message.topic = n) :
    b.after auth (qs.map fun m => .controlPacket id (.publish m) tx) = some b
    ∧ b.outputs auth (qs.map fun m => .controlPacket id (.publish m) tx) d
      = qs.flatMap fun m => List.replicate n (.controlPacket (.publish m)) := by
  induction qs with
  | nil => exact ⟨rfl, rfl⟩
  | cons m qs ih =>
    obtain ⟨h1, h2⟩ := ih fun m hm => h m (List.mem_cons_of_mem _ hm)
    simp only [List.map_cons, Broker.after, Broker.outputs, Broker.step, Broker.packet, List.flatMap_cons]
    exact ⟨h1, by rw [h2, h m List.mem_cons_self]⟩

theorem flatMap_replicate_one {α β : Type} (f : α → β) (l : List α) : (l.flatMap fun a => List.replicate 1 (f a)) = l.map f := by
  induction l with
  | nil => rfl
  | cons a l ih => rw [List.flatMap_cons, ih]; rfl

theorem flatMap_replicate_zero {α β : Type} (f : α → β) (l : List α) : (l.flatMap fun a => List.replicate 0 (f a)) = [] := by
  induction l with
  | nil => rfl
  | cons a l ih => simp

theorem ways_one {f t : String} (ht : PlainTopic t) (h : Matches f t) : ways f t = 1 := by
  have h1 := ways_pos.mpr h
  have h2 := ways_plain (f := f) ht
  omega

/-- What the scene makes the sequential broker send. -/
theorem scene_outputs (auth : IdentityProvider) {peers : ConnId → Peer} {f : String} {q : QoS} {qs₁ qs₂ : List PublishPacket}
    (hw : ∀ m ∈ qs₁ ++ qs₂, PlainTopic m.message.topic ∧ Matches f m.message.topic) (d : ConnId) :
    Broker.start.outputs auth (sceneEvents peers f q qs₁ qs₂) d =
      if d = 0 then .controlPacket (.connAck ⟨false, .accepted⟩) :: .controlPacket (.subAck ⟨1, [.successQoS0]⟩)
        :: (qs₁ ++ qs₂).map fun m => .controlPacket (.publish m)
      else if d = 1 ∨ d = 2 then [.controlPacket (.connAck ⟨false, .accepted⟩)] else [] := by
  let b₁ : Broker := ⟨fun c => if c = "p" then some 1 else if c = "s" then some 0 else none, [("s", f)]⟩
  let b₂ : Broker := ⟨fun c => if c = "q" then some 2 else if c = "p" then some 1 else if c = "s" then some 0 else none, [("s", f)]⟩
  have hc₁ : ∀ m ∈ qs₁, b₁.copiesTo d m.message.topic = if d = 0 then 1 else 0 := by
    intro m hm
    obtain ⟨h1, h2⟩ := hw m (List.mem_append_left _ hm)
    by_cases hd : d = 0
    · subst hd
      simp [b₁, Broker.copiesTo, ways_one h1 h2]
    · have : ¬ 0 = d := fun h => hd h.symm
      simp [b₁, Broker.copiesTo, hd, this]
  have hc₂ : ∀ m ∈ qs₂, b₂.copiesTo d m.message.topic = if d = 0 then 1 else 0 := by
    intro m hm
    obtain ⟨h1, h2⟩ := hw m (List.mem_append_right _ hm)
    by_cases hd : d = 0
    · subst hd
      simp [b₂, Broker.copiesTo, ways_one h1 h2]
    · have : ¬ 0 = d := fun h => hd h.symm
      simp [b₂, Broker.copiesTo, hd, this]
  obtain ⟨h1, h2⟩ := publishes_outputs auth b₁ "p" 1 d _ qs₁ hc₁
  obtain ⟨_, h3⟩ := publishes_outputs auth b₂ "q" 2 d _ qs₂ hc₂
  have hs1 : Broker.start.after auth [.connected ⟨.mqtt3, "s", 60, true, none, none, none⟩ (peers 0).addr 0,
      .controlPacket "s" (.subscribe ⟨1, [⟨f, q⟩]⟩) 0,
      .connected ⟨.mqtt3, "p", 60, true, none, none, none⟩ (peers 1).addr 1] = some b₁ := by
    simp [Broker.after, Broker.step, login, Broker.packet, Broker.start, b₁]
  have hs2 : b₁.after auth [.connected ⟨.mqtt3, "q", 60, true, none, none, none⟩ (peers 2).addr 2] = some b₂ := by
    simp [Broker.after, Broker.step, login, b₁, b₂]
  unfold sceneEvents
  rw [List.append_assoc, List.append_assoc, outputs_append, hs1]
  simp only
  rw [outputs_append, h1]
  simp only
  rw [outputs_append, hs2]
  simp only
  rw [h2, h3]
  by_cases h0 : d = 0
  · subst h0
    have e1 := flatMap_replicate_one (fun m : PublishPacket => ServerEvent.controlPacket (.publish m)) qs₁
    have e2 := flatMap_replicate_one (fun m : PublishPacket => ServerEvent.controlPacket (.publish m)) qs₂
    simp only [if_pos, e1, e2]
    have n1 : ¬ (0 : ConnId) = 1 := by decide
    have n2 : ¬ (0 : ConnId) = 2 := by decide
    simp [Broker.outputs, Broker.step, login, Broker.packet, to, n1, n2]
  · have e1 := flatMap_replicate_zero (fun m : PublishPacket => ServerEvent.controlPacket (.publish m)) qs₁
    have e2 := flatMap_replicate_zero (fun m : PublishPacket => ServerEvent.controlPacket (.publish m)) qs₂
    simp only [if_neg h0, e1, e2]
    by_cases h1 : d = 1
    · subst h1
      have n1 : ¬ (1 : ConnId) = 0 := by decide
      have n2 : ¬ (1 : ConnId) = 2 := by decide
      simp [Broker.outputs, Broker.step, login, Broker.packet, to, n1, n2]
    · by_cases h2 : d = 2
      · subst h2
        have n1 : ¬ (2 : ConnId) = 0 := by decide
        have n2 : ¬ (2 : ConnId) = 1 := by decide
        simp [Broker.outputs, Broker.step, login, Broker.packet, to, n1, n2]
      · simp [Broker.outputs, Broker.step, login, Broker.packet, to, h0, h1, h2]

theorem scene_from {peers : ConnId → Peer} {f : String} {q : QoS} {qs₁ qs₂ : List PublishPacket} (c : ConnId) :
    (sceneEvents peers f q qs₁ qs₂).filter (From c) <+:
      eventsOf (peers c) c ((if c = 0 then oneFilter f q else if c = 1 then messages "p" qs₁ else if c = 2 then messages "q" qs₂
        else []).map meaning) := by
  have n01 : ¬ (0 : ConnId) = 1 := by decide
  have n02 : ¬ (0 : ConnId) = 2 := by decide
  have n12 : ¬ (1 : ConnId) = 2 := by decide
  unfold sceneEvents
  rw [List.filter_append, List.filter_append, List.filter_append]
  by_cases h0 : c = 0
  · subst h0
    rw [filter_other "p" qs₁ (fun h => n01 h.symm), filter_other "q" qs₂ (fun h => n02 h.symm)]
    have m01 : ¬ (1 : ConnId) = 0 := by decide
    have m02 : ¬ (2 : ConnId) = 0 := by decide
    simp [From, oneFilter, hello, meaning, eventsOf, idOf, m01, m02]
  · by_cases h1 : c = 1
    · subst h1
      rw [filter_own, filter_other "q" qs₂ (fun h => n12 h.symm)]
      have m12 : ¬ (2 : ConnId) = 1 := by decide
      simp [From, messages, hello, meaning, eventsOf, idOf, n01, m12, h0]
      exact List.prefix_refl _
    · by_cases h2 : c = 2
      · subst h2
        rw [filter_own, filter_other "p" qs₁ n12]
        simp [From, messages, hello, meaning, eventsOf, idOf, n02, n12, h0, h1]
        exact List.prefix_refl _
      · rw [filter_other "p" qs₁ (fun h => h1 h.symm), filter_other "q" qs₂ (fun h => h2 h.symm)]
        have m0 : ¬ 0 = c := fun h => h0 h.symm
        have m1 : ¬ 1 = c := fun h => h1 h.symm
        have m2 : ¬ 2 = c := fun h => h2 h.symm
        simp [From, m0, m1, m2]

theorem messages_sendable {id : String} (hid : id = "p" ∨ id = "q") {qs : List PublishPacket} (hq : ∀ m ∈ qs, LegalPublish m)
    (hs : (clientBytes (messages id qs)).length < 4096) : Sendable (messages id qs) := by
  intro c hc
  have hl := clientBytes_part hc
  have hc' := hc
  unfold messages at hc'
  rcases List.mem_cons.mp hc' with rfl | h
  · refine hello_sendable id ?_ (by omega)
    rcases hid with rfl | rfl <;> unfold Fits <;> decide +kernel
  · obtain ⟨m, hm, rfl⟩ := List.mem_map.mp h
    exact ⟨hq m hm, trivial, by omega⟩

theorem oneFilter_sendable {f : String} {q : QoS} (hs : (clientBytes (oneFilter f q)).length < 4096) : Sendable (oneFilter f q) := by
  intro c hc
  have hl := clientBytes_part hc
  have hc' := hc
  simp only [oneFilter, List.mem_cons, List.not_mem_nil, or_false] at hc'
  rcases hc' with rfl | rfl
  · exact hello_sendable "s" (by unfold Fits; decide +kernel) (by omega)
  · refine ⟨⟨by simp, fun g hg => ?_⟩, trivial, by omega⟩
    rw [List.mem_singleton.mp hg]
    simp [clientRest, str, twoBytes] at hl
    show (utf8 f).length < 65536
    omega

/-- The scene can be played: the subscriber is sent every message just as it was published, the publishers get their CONNACK and nothing
else. -/
theorem relay (env : Env) {peers : ConnId → Peer} {f : String} {q : QoS} {qs₁ qs₂ : List PublishPacket} (h : Scene peers f q qs₁ qs₂) :
    ∃ sched, (run env (init peers) sched).handler = .idle
      ∧ (run env (init peers) sched).log.map Prod.fst = sceneEvents peers f q qs₁ qs₂
      ∧ ((run env (init peers) sched).conns 0).delivered = .controlPacket (.connAck ⟨false, .accepted⟩)
          :: .controlPacket (.subAck ⟨1, [.successQoS0]⟩) :: (qs₁ ++ qs₂).map (fun m => .controlPacket (.publish m))
      ∧ ((run env (init peers) sched).conns 1).delivered = [.controlPacket (.connAck ⟨false, .accepted⟩)]
      ∧ ((run env (init peers) sched).conns 2).delivered = [.controlPacket (.connAck ⟨false, .accepted⟩)] := by
  have n01 : ¬ (1 : ConnId) = 0 := by decide
  have n02 : ¬ (2 : ConnId) = 0 := by decide
  have n12 : ¬ (2 : ConnId) = 1 := by decide
  have ho := scene_outputs env.auth (peers := peers) (q := q) h.wanted
  obtain ⟨sched, h1, h2, h3⟩ := C77_any_interleaving env peers
    (fun c => if c = 0 then oneFilter f q else if c = 1 then messages "p" qs₁ else if c = 2 then messages "q" qs₂ else [])
    (fun c hc => by
      by_cases h0 : c = 0
      · subst h0; exact h.bytes₀
      · by_cases h1 : c = 1
        · subst h1; simp only [if_neg h0]; exact h.bytes₁
        · by_cases h2 : c = 2
          · subst h2; simp only [if_neg h0, if_neg h1]; exact h.bytes₂
          · simp [h0, h1, h2] at hc)
    (fun c => by
      by_cases h0 : c = 0
      · simp only [if_pos h0]; exact oneFilter_sendable h.short₀
      · by_cases h1 : c = 1
        · simp only [if_neg h0, if_pos h1]
          exact messages_sendable (.inl rfl) (fun m hm => h.legal m (List.mem_append_left _ hm)) h.short₁
        · by_cases h2 : c = 2
          · simp only [if_neg h0, if_neg h1, if_pos h2]
            exact messages_sendable (.inr rfl) (fun m hm => h.legal m (List.mem_append_right _ hm)) h.short₂
          · simp [h0, h1, h2, Sendable])
    (fun c => by
      by_cases h0 : c = 0
      · simp only [if_pos h0]; exact h.short₀
      · by_cases h1 : c = 1
        · simp only [if_neg h0, if_pos h1]; exact h.short₁
        · by_cases h2 : c = 2
          · simp only [if_neg h0, if_neg h1, if_pos h2]; exact h.short₂
          · simp [h0, h1, h2, clientBytes])
    (sceneEvents peers f q qs₁ qs₂)
    (fun ev hev => by
      unfold sceneEvents at hev
      simp only [List.mem_append, List.mem_cons, List.not_mem_nil, or_false, List.mem_map] at hev
      rcases hev with (((rfl | rfl | rfl) | ⟨m, _, rfl⟩) | rfl) | ⟨m, _, rfl⟩
      · exact ⟨0, rfl⟩
      · exact ⟨0, rfl⟩
      · exact ⟨1, rfl⟩
      · exact ⟨1, rfl⟩
      · exact ⟨2, rfl⟩
      · exact ⟨2, rfl⟩)
    scene_from
    (fun p addr c hp => by
      unfold sceneEvents at hp
      simp only [List.mem_append, List.mem_cons, List.not_mem_nil, or_false, List.mem_map] at hp
      rcases hp with (((hp | hp | hp) | ⟨m, _, hp⟩) | hp) | ⟨m, _, hp⟩
      all_goals cases hp
      all_goals simp [login])
    (fun d => by
      rw [ho d]
      have := h.few
      split
      · simp only [List.length_cons, List.length_map, List.length_append]; omega
      · split <;> simp)
  refine ⟨sched, h1, h2, ?_, ?_, ?_⟩
  · rw [h3, ho, if_pos rfl]
  · rw [h3, ho, if_neg n01, if_pos (.inl rfl)]
  · rw [h3, ho, if_neg n02, if_pos (.inr rfl)]

end Ratel
