/-
C95–C99: rules of MQTT 3.1.1 about relayed messages, versions, topics and filters.
-/
import Verif.Proofs.Scene
import Verif.Proofs.Language

namespace Ratel

open Decoder Encoder Spec Sys

/-! ### What holds of the messages sent to a connection -/

/-- The messages published by some events. -/
def published (evs : List ClientEvent) : List PublishPacket :=
  evs.filterMap fun
    | .controlPacket _ (.publish q) _ => some q
    | _ => none

theorem messagesOf_append (a b : List ServerEvent) : messagesOf (a ++ b) = messagesOf a ++ messagesOf b := by
  simp [messagesOf]

theorem messagesOf_to (c d : ConnId) (evs : List ServerEvent) (h : messagesOf evs = []) : messagesOf (to c evs d) = [] := by
  unfold to
  split
  · exact h
  · rfl

/-- If no message is called for twice, a connection is sent some of the messages published, in the order they were. -/
theorem messages_sublist (auth : IdentityProvider) (d : ConnId) (evs : List ClientEvent) (b : Broker)
    (h : ∀ pre id q tx post b', evs = pre ++ .controlPacket id (.publish q) tx :: post → b.after auth pre = some b' →
      b'.copiesTo d q.message.topic ≤ 1) : (messagesOf (b.outputs auth evs d)).Sublist (published evs) := by
  induction evs generalizing b with
  | nil => exact List.Sublist.refl _
  | cons ev evs ih =>
    have hrest : ∀ b₁ out, b.step auth ev = some (b₁, out) → (messagesOf (b₁.outputs auth evs d)).Sublist (published evs) := by
      intro b₁ out hb
      refine ih b₁ fun pre id q tx post b' he hb' => h (ev :: pre) id q tx post b' (by rw [he]; rfl) ?_
      simp only [Broker.after, hb]
      exact hb'
    cases hs : b.step auth ev with
    | none => simp only [Broker.outputs, hs]; exact List.nil_sublist _
    | some x =>
      obtain ⟨b₁, out⟩ := x
      simp only [Broker.outputs, hs]
      rw [messagesOf_append]
      have hr := hrest b₁ out hs
      have hquiet : messagesOf (out d) = [] → (messagesOf (out d) ++ messagesOf (b₁.outputs auth evs d)).Sublist (published (ev :: evs)) := by
        intro hq
        rw [hq, List.nil_append]
        refine hr.trans ?_
        unfold published
        rw [List.filterMap_cons]
        split
        · exact List.Sublist.refl _
        · exact List.sublist_cons_self _ _
      cases ev with
      | connected p addr tx =>
        refine hquiet ?_
        simp only [Broker.step] at hs
        split at hs
        · cases hs; exact messagesOf_to _ _ _ rfl
        · cases hs; exact messagesOf_to _ _ _ rfl
        · cases hs
      | disconnected id => cases hs; exact hquiet rfl
      | connectionLost id => cases hs; exact hquiet rfl
      | controlPacket id p tx =>
        cases p with
        | publish q =>
          have h1 := h [] id q tx evs b rfl rfl
          cases hs
          have : published (.controlPacket id (.publish q) tx :: evs) = q :: published evs := rfl
          rw [this]
          generalize hn : b.copiesTo d q.message.topic = n at h1
          match n, h1 with
          | 0, _ =>
            show (messagesOf (List.replicate (b.copiesTo d q.message.topic) _) ++ _).Sublist _
            rw [hn]
            exact hr.trans (List.sublist_cons_self _ _)
          | 1, _ =>
            show (messagesOf (List.replicate (b.copiesTo d q.message.topic) _) ++ _).Sublist _
            rw [hn]
            exact hr.cons_cons q
        | subscribe s => cases hs; exact hquiet (messagesOf_to _ _ _ rfl)
        | unsubscribe s => cases hs; exact hquiet (messagesOf_to _ _ _ rfl)
        | pingReq =>
          cases hs
          refine hquiet (messagesOf_to _ _ _ ?_)
          split <;> rfl
        | connect _ | connAck _ | pubAck _ | pubRec _ | pubRel _ | pubComp _ | subAck _ | unsubAck _ | pingResp | disconnect =>
          cases hs; exact hquiet rfl

open Classical in
/-- In every execution whose messages are on plain topics and are never called for by two subscriptions on connection `d`, what `d` is
sent are some of the messages published, each once, in the order the broker took them. -/
theorem delivered_sublist (env : Env) (peers : ConnId → Peer) (sched : List Step) (d : ConnId)
    (h : OneEach env.auth ((run env (init peers) sched).log.map Prod.fst) d) :
    (messagesOf ((run env (init peers) sched).conns d).delivered).Sublist
      (published ((run env (init peers) sched).log.map Prod.fst)) := by
  have hinv := inv_run env peers sched
  obtain ⟨t, ht⟩ := hinv.serves.delivered d
  have hs := messages_sublist env.auth d (run env (init peers) sched).served Broker.start (by
    intro pre id q tx post b' he hb'
    obtain ⟨hp, hc⟩ := h pre id q tx post he
    refine Nat.le_trans (Nat.le_of_eq ?_) hc
    unfold Broker.copiesTo
    have hsub : b'.subs = held pre := after_subs hb'
    rw [hsub]
    generalize held pre = es
    induction es with
    | nil => rfl
    | cons e es ih =>
      rw [List.filter_cons, List.countP_cons]
      by_cases hr : ReachedOn env.auth pre e.1 d
      · have hr' := (after_session hb' e.1 d).mpr hr
        simp only [hr', decide_true, ↓reduceIte, List.map_cons, List.sum_cons, ih, hr, true_and]
        by_cases hm : Matches e.2 q.message.topic
        · simp only [ways_one hp hm, hm, decide_true, ↓reduceIte]
          omega
        · have : ways e.2 q.message.topic = 0 := Nat.eq_zero_of_not_pos fun h => hm (ways_pos.mp h)
          simp [this, hm]
      · have hr' : ¬ b'.session e.1 = some d := fun h => hr ((after_session hb' e.1 d).mp h)
        simp [hr', hr, ih])
  rw [← ht, messagesOf_append] at hs
  exact (List.sublist_append_left _ _).trans hs

/-! ### C95 -/

/-- C95 is violated: a message published with DUP or RETAIN set is sent to a subscriber with the same bits set, whatever the message. -/
theorem C95_flags_fails (env : Env) (peers : ConnId → Peer) (f : String) (q : QoS) (m : PublishPacket) (h : Scene peers f q [m] []) :
    ∃ sched, .controlPacket (.publish m) ∈ ((run env (init peers) sched).conns 0).delivered := by
  obtain ⟨sched, _, _, h3, _⟩ := relay env h
  exact ⟨sched, by rw [h3]; simp⟩

/-- C95, the part that holds: the broker sets neither bit by itself. If nobody sends messages with DUP set, nobody is sent such messages;
and the same for RETAIN. Missing: that the bits are cleared when a message is relayed. -/
theorem C95_flags_partial (env : Env) (peers : ConnId → Peer) (sched : List Step) (d : ConnId) (m : PublishPacket)
    (h : .controlPacket (.publish m) ∈ ((run env (init peers) sched).conns d).delivered) :
    ((∀ c ps, Decodes env.profile (peers c).segs.flatten (peers c).fin ps → ∀ q, .publish q ∈ ps → q.dup = false) → m.dup = false)
    ∧ ((∀ c ps, Decodes env.profile (peers c).segs.flatten (peers c).fin ps → ∀ q, .publish q ∈ ps → q.message.retain = false) →
        m.message.retain = false) := by
  obtain ⟨_, _, tx, _, _, _, ⟨ps, h1, h2⟩, _⟩ := C50_no_invented_messages env peers sched d m h
  exact ⟨fun h => h tx ps h1 m h2, fun h => h tx ps h1 m h2⟩

/-! ### C96 -/

/-- C96 is violated: two clients each publish one message with QoS above 0 under the same packet id, which they are free to; a subscriber,
which has not acknowledged anything, is sent both under this id. -/
theorem C96_packet_ids_fails (env : Env) (peers : ConnId → Peer) (f : String) (q : QoS) (m₁ m₂ : PublishPacket) (i : UInt16)
    (h₁ : m₁.packetId = some i) (h₂ : m₂.packetId = some i) (h : Scene peers f q [m₁] [m₂]) :
    ∃ sched, (messagesOf ((run env (init peers) sched).conns 0).delivered).map (·.packetId) = [some i, some i] := by
  obtain ⟨sched, _, _, h3, _⟩ := relay env h
  exact ⟨sched, by rw [h3]; simp [messagesOf, h₁, h₂]⟩

/-- C96, the part that holds: a message carries a packet id exactly when its QoS is above 0; and if no two of the messages published, by
whomever, have the same packet id, and no two subscriptions of a connection overlap, then no two messages sent to this connection have.
Missing: that the broker itself chooses packet ids that are free. -/
theorem C96_packet_ids_partial (env : Env) (peers : ConnId → Peer) (sched : List Step) (d : ConnId) :
    (∀ m ∈ messagesOf ((run env (init peers) sched).conns d).delivered, m.packetId.isSome = true ↔ m.message.qos ≠ .atMostOnce)
    ∧ (OneEach env.auth ((run env (init peers) sched).log.map Prod.fst) d →
        ((published ((run env (init peers) sched).log.map Prod.fst)).filterMap (·.packetId)).Nodup →
        ((messagesOf ((run env (init peers) sched).conns d).delivered).filterMap (·.packetId)).Nodup) := by
  constructor
  · intro m hm
    have hinv := inv_run env peers sched
    unfold messagesOf at hm
    obtain ⟨e, he, h⟩ := List.mem_filterMap.mp hm
    split at h
    · cases h
      have := delivered_server (reads_orderly_served hinv.reads) (d := d) ((hinv.serves.delivered d).subset he)
      exact this.id
    · cases h
  · intro h1 h2
    exact List.Nodup.sublist ((delivered_sublist env peers sched d h1).filterMap _) h2

/-! ### C97 -/

/-- C97 is violated: a client publishes a message with QoS 2, gets no PUBREC, and sends it again with DUP set, as it must; the subscriber
gets it twice. -/
theorem C97_exactly_once_fails (env : Env) (peers : ConnId → Peer) (f : String) (q : QoS) (m : PublishPacket)
    (_hm : m.message.qos = .exactlyOnce) (h : Scene peers f q [m, { m with dup := true }] []) :
    ∃ sched, messagesOf ((run env (init peers) sched).conns 0).delivered = [m, { m with dup := true }]
      ∧ ((run env (init peers) sched).conns 1).delivered = [.controlPacket (.connAck ⟨false, .accepted⟩)] := by
  obtain ⟨sched, _, _, h3, h4, _⟩ := relay env h
  exact ⟨sched, by rw [h3]; simp [messagesOf], h4⟩

/-- C97, the part that holds, for messages of any QoS: a connection whose subscriptions do not overlap is sent a message at most as often
as it was published. Missing: recognising a retransmission. -/
theorem C97_exactly_once_partial (env : Env) (peers : ConnId → Peer) (sched : List Step) (d : ConnId)
    (h : OneEach env.auth ((run env (init peers) sched).log.map Prod.fst) d) (P : PublishPacket → Bool) :
    (messagesOf ((run env (init peers) sched).conns d).delivered).countP P
      ≤ (published ((run env (init peers) sched).log.map Prod.fst)).countP P :=
  (delivered_sublist env peers sched d h).countP_le

/-! ### C98 -/

/-- C98 is violated: a CONNECT is accepted whatever protocol name and protocol level it announces. -/
theorem C98_protocol_fails (env : Env) (peers : ConnId → Peer) (c : Connect) (hid : c.clientId ≠ "") (hn : c.userName = none)
    (hw : c.will = none) (hl : Legal (.connect c)) (hs : (clientBytes [.connect c]).length < 4096)
    (hb : (peers 0).segs.flatten = clientBytes [.connect c]) :
    ∃ sched, ((run env (init peers) sched).conns 0).delivered = [.controlPacket (.connAck ⟨false, .accepted⟩)] := by
  have hlog : login env.auth ⟨.mqtt3, c.clientId, c.keepAlive, c.cleanSession, none, c.userName, c.password⟩ = .accepted := by
    simp [login, hn]
  have hout : ∀ d, Broker.start.outputs env.auth [.connected ⟨.mqtt3, c.clientId, c.keepAlive, c.cleanSession, none, c.userName, c.password⟩
      (peers 0).addr 0] d = if d = 0 then [.controlPacket (.connAck ⟨false, .accepted⟩)] else [] := by
    intro d
    simp [Broker.outputs, Broker.step, hlog, to]
  obtain ⟨sched, _, _, h3⟩ := C77_any_interleaving env peers (fun d => if d = 0 then [.connect c] else [])
    (fun d hd => by
      by_cases h0 : d = 0
      · subst h0; exact hb
      · simp [h0] at hd)
    (fun d => by
      by_cases h0 : d = 0
      · simp only [if_pos h0]
        intro x hx
        have := clientBytes_part hx
        rw [List.mem_singleton.mp hx] at this ⊢
        exact ⟨hl, hw, by omega⟩
      · simp [h0, Sendable])
    (fun d => by
      by_cases h0 : d = 0
      · simp only [if_pos h0]; exact hs
      · simp [h0, clientBytes])
    [.connected ⟨.mqtt3, c.clientId, c.keepAlive, c.cleanSession, none, c.userName, c.password⟩ (peers 0).addr 0]
    (fun ev hev => ⟨0, by rw [List.mem_singleton.mp hev]; rfl⟩)
    (fun d => by
      by_cases h0 : d = 0
      · subst h0
        simp [From, meaning, eventsOf, idOf, hid, hw]
      · have : ¬ 0 = d := fun h => h0 h.symm
        simp [From, this])
    (fun p addr d hp => by
      rw [List.mem_singleton] at hp
      cases hp
      rw [hlog]
      decide)
    (fun d => by
      rw [hout]
      split <;> simp)
  exact ⟨sched, by rw [h3, hout, if_pos rfl]⟩

/-- C98, also: so is one with the reserved flag set, or with will flags and no will, in both builds. -/
theorem C98_reserved_flag_fails (pr : Profile) (c : Connect) (flags : UInt8) (hw : c.will = none) (hl : Legal (.connect c))
    (hf : flags.toNat / 2 % 2 = (if c.cleanSession then 1 else 0)) (hu : flags.toNat / 128 % 2 = (if c.userName.isSome then 1 else 0))
    (hp : flags.toNat / 64 % 2 = (if c.password.isSome then 1 else 0)) (rest : List UInt8) (fin : Ending)
    (hs : (connectRest c).length < 2097152) :
    decoded pr (packet 0x10 (str c.protocolName ++ [c.protocolLevel, flags] ++ twoBytes c.keepAlive.toNat ++ str c.clientId
      ++ optional str c.userName ++ optional str c.password) ++ rest) fin = (.ok (meaning (.connect c)), ⟨rest, fin⟩) := by
  obtain ⟨h1, h2, h3, h4, _⟩ := hl
  refine PReads.run (bs := packet 0x10 _) (Plain.laws.readWhole pr (first := 0x10) (lengthField_varInt _) (length_varInt_small ?_) (p := meaning (.connect c)) ?_
    fun h => False.elim h) rest fin
  · have : (connectRest c).length = (str c.protocolName ++ [c.protocolLevel, flags] ++ twoBytes c.keepAlive.toNat ++ str c.clientId
      ++ optional str c.userName ++ optional str c.password).length := by
      simp [connectRest, hw, Spec.optional]
    omega
  · simp only [meaning, hw]
    refine ⟨by decide, rfl, rfl, h2, h3, h4, c.protocolName, c.protocolLevel, flags, h1, rfl, ?_, ?_, ?_⟩
    · rw [hf]; cases c.cleanSession <;> simp
    · rw [hu]; cases c.userName.isSome <;> simp
    · rw [hp]; cases c.password.isSome <;> simp

/-- C98, the part that holds: a CONNECT of MQTT 3.1.1 is accepted. Missing: that others are not. -/
theorem C98_protocol_partial (env : Env) (peers : ConnId → Peer) (id : String) (keepAlive : UInt16) (clean : Bool) (hid : id ≠ "")
    (hs : (clientBytes [.connect ⟨"MQTT", 4, clean, keepAlive, id, none, none, none⟩]).length < 4096)
    (hb : (peers 0).segs.flatten = clientBytes [.connect ⟨"MQTT", 4, clean, keepAlive, id, none, none, none⟩]) :
    ∃ sched, ((run env (init peers) sched).conns 0).delivered = [.controlPacket (.connAck ⟨false, .accepted⟩)] := by
  refine C98_protocol_fails env peers ⟨"MQTT", 4, clean, keepAlive, id, none, none, none⟩ hid rfl rfl ⟨(by decide +kernel : (utf8 "MQTT").length < 65536), ?_, by simp, by simp, by simp⟩ hs hb
  have := clientBytes_part (c := .connect ⟨"MQTT", 4, clean, keepAlive, id, none, none, none⟩) (List.mem_singleton.mpr rfl)
  simp [clientRest, connectRest, str, twoBytes] at this
  show (utf8 id).length < 65536
  omega

/-! ### C99 -/

/-- C99 is violated: whatever the filter, also an empty one or one with wildcards where none may be, the SUBSCRIBE is answered by
success. -/
theorem C99_filter_fails (env : Env) (peers : ConnId → Peer) (f : String) (q : QoS) (h : Scene peers f q [] []) :
    ∃ sched, .controlPacket (.subAck ⟨1, [.successQoS0]⟩) ∈ ((run env (init peers) sched).conns 0).delivered := by
  obtain ⟨sched, _, _, h3, _⟩ := relay env h
  exact ⟨sched, by rw [h3]; simp⟩

/-- C99 is violated: a message on any topic free of wildcards, also the empty one or one with null characters, is relayed. -/
theorem C99_topic_fails (env : Env) (peers : ConnId → Peer) (f : String) (q : QoS) (m : PublishPacket) (_hm : ¬ ValidTopic m.message.topic)
    (h : Scene peers f q [m] []) :
    ∃ sched, .controlPacket (.publish m) ∈ ((run env (init peers) sched).conns 0).delivered :=
  C95_flags_fails env peers f q m h

theorem misplaced_level {fs ts : List String} (h : LevelsMatch fs ts) (ht : ∀ t ∈ ts, '+' ∉ t.toList ∧ '#' ∉ t.toList) :
    (∀ pre l post, fs = pre ++ l :: post → '#' ∈ l.toList → l = "#" ∧ post = []) ∧ ∀ l ∈ fs, '+' ∈ l.toList → l = "+" := by
  induction h with
  | done => exact ⟨fun pre l post h => by (cases pre <;> cases h), fun l hl => by cases hl⟩
  | hash t ts =>
    refine ⟨fun pre l post h hh => ?_, fun l hl hp => ?_⟩
    · cases pre with
      | nil => cases h; exact ⟨rfl, rfl⟩
      | cons a pre => cases pre <;> cases h
    · rw [List.mem_singleton.mp hl] at hp
      exact absurd hp (by decide +kernel)
  | plus t fs ts _ ih =>
    obtain ⟨h1, h2⟩ := ih fun t' h' => ht t' (List.mem_cons_of_mem _ h')
    refine ⟨fun pre l post h hh => ?_, fun l hl hp => ?_⟩
    · cases pre with
      | nil => cases h; exact absurd hh (by decide +kernel)
      | cons a pre => cases h; exact h1 pre l post rfl hh
    · rcases List.mem_cons.mp hl with rfl | hl
      · rfl
      · exact h2 l hl hp
  | literal t fs ts _ ih =>
    obtain ⟨h1, h2⟩ := ih fun t' h' => ht t' (List.mem_cons_of_mem _ h')
    have h0 := ht t List.mem_cons_self
    refine ⟨fun pre l post h hh => ?_, fun l hl hp => ?_⟩
    · cases pre with
      | nil => cases h; exact absurd hh h0.2
      | cons a pre => cases h; exact h1 pre l post rfl hh
    · rcases List.mem_cons.mp hl with rfl | hl
      · exact absurd hp h0.1
      · exact h2 l hl hp

theorem mem_joinLevels {ch : Char} {l : List Char} {ls : List (List Char)} (hl : l ∈ ls) (h : ch ∈ l) : ch ∈ joinLevels ls := by
  induction ls with
  | nil => cases hl
  | cons a ls ih =>
    cases ls with
    | nil =>
      rw [List.mem_singleton.mp hl] at h
      exact h
    | cons b ls =>
      simp only [joinLevels, List.mem_append, List.mem_cons]
      rcases List.mem_cons.mp hl with rfl | hl
      · exact .inl h
      · exact .inr (.inr (ih hl))

/-- A filter with a wildcard where none may be matches no topic without wildcards. -/
theorem misplaced_matches {f t : String} (ht : PlainTopic t) (h : Matches f t) : ¬ MisplacedWildcard f := by
  obtain ⟨fs, ts, hf, hts, hm⟩ := h
  have hplain : ∀ l ∈ ts, '+' ∉ l.toList ∧ '#' ∉ l.toList := by
    intro l hl
    refine ⟨fun h => ht.1 ?_, fun h => ht.2 ?_⟩
    · rw [← hts.join]; exact mem_joinLevels (List.mem_map_of_mem hl) h
    · rw [← hts.join]; exact mem_joinLevels (List.mem_map_of_mem hl) h
  obtain ⟨h1, h2⟩ := misplaced_level hm hplain
  rintro ⟨ls, hls, h⟩
  rw [levels_unique hls, ← levels_unique hf] at h
  rcases h with ⟨pre, l, post, he, hh, hne⟩ | ⟨l, hl, hp, hne⟩
  · obtain ⟨g1, g2⟩ := h1 pre l post he hh
    rcases hne with hne | hne
    · exact hne g1
    · exact hne g2
  · exact hne (h2 l hl hp)

/-- C99, the part that holds: filters with misplaced wildcards, though accepted, do no harm. Every message on a topic without wildcards
that a connection is sent is called for by a subscription whose filter has its wildcards in the right places. Missing: that such filters,
empty filters and topics, and null characters are rejected. -/
theorem C99_filter_partial (env : Env) (peers : ConnId → Peer) (sched : List Step) (d : ConnId) (m : PublishPacket)
    (ht : PlainTopic m.message.topic) (h : .controlPacket (.publish m) ∈ ((run env (init peers) sched).conns d).delivered) :
    ∃ pre id tx post c f, (run env (init peers) sched).log.map Prod.fst = pre ++ .controlPacket id (.publish m) tx :: post
      ∧ (c, f) ∈ held pre ∧ ReachedOn env.auth pre c d ∧ Matches f m.message.topic ∧ ¬ MisplacedWildcard f := by
  obtain ⟨pre, id, tx, post, h1, _, _, c, f, h2, h3, h4⟩ := C50_no_invented_messages env peers sched d m h
  exact ⟨pre, id, tx, post, c, f, h1, h2, h3, h4, misplaced_matches ht h4⟩

/-! ### Concrete cases -/

/-- Peers that play a scene. -/
def scenePeers (f : String) (q : QoS) (qs₁ qs₂ : List PublishPacket) : ConnId → Peer := fun c =>
  if c = 0 then ⟨someAddr, "u0", [clientBytes (oneFilter f q)], .silence, []⟩
  else if c = 1 then ⟨someAddr, "u1", [clientBytes (messages "p" qs₁)], .silence, []⟩
  else if c = 2 then ⟨someAddr, "u2", [clientBytes (messages "q" qs₂)], .silence, []⟩
  else ⟨someAddr, "u", [], .eof, []⟩

theorem levels_one {t : String} (h : '/' ∉ t.toList) : Levels t [t] :=
  ⟨by simp, fun l hl => by rw [List.mem_singleton.mp hl]; exact h, rfl⟩

theorem matches_self {t : String} (h : '/' ∉ t.toList) : Matches t t :=
  ⟨[t], [t], levels_one h, levels_one h, .literal t [] [] .done⟩

/-- A message with DUP and RETAIN set, QoS 2. -/
def flagged : PublishPacket := ⟨some 7, true, ⟨"t", [1, 2, 3], .exactlyOnce, true⟩⟩

theorem plain_t : PlainTopic "t" ∧ Matches "t" "t" := ⟨⟨by decide +kernel, by decide +kernel⟩, matches_self (by decide +kernel)⟩

theorem scene_flagged : Scene (scenePeers "t" .atMostOnce [flagged] []) "t" .atMostOnce [flagged] [] where
  bytes₀ := List.append_nil _
  bytes₁ := List.append_nil _
  bytes₂ := List.append_nil _
  short₀ := by decide +kernel
  short₁ := by decide +kernel
  short₂ := by decide +kernel
  few := by decide
  legal m hm := by
    rw [List.append_nil, List.mem_singleton] at hm
    subst hm
    exact ⟨by decide +kernel, by decide⟩
  wanted m hm := by
    rw [List.append_nil, List.mem_singleton] at hm
    subst hm
    exact plain_t

example : ∃ sched, .controlPacket (.publish flagged)
    ∈ ((run exampleEnv (init (scenePeers "t" .atMostOnce [flagged] [])) sched).conns 0).delivered :=
  C95_flags_fails exampleEnv _ _ _ _ scene_flagged

/-- Two messages of two clients, same packet id. -/
theorem scene_same_id : Scene (scenePeers "t" .atLeastOnce [⟨some 1, false, ⟨"t", [1], .atLeastOnce, false⟩⟩] [⟨some 1, false, ⟨"t", [2], .atLeastOnce, false⟩⟩])
    "t" .atLeastOnce [⟨some 1, false, ⟨"t", [1], .atLeastOnce, false⟩⟩] [⟨some 1, false, ⟨"t", [2], .atLeastOnce, false⟩⟩] where
  bytes₀ := List.append_nil _
  bytes₁ := List.append_nil _
  bytes₂ := List.append_nil _
  short₀ := by decide +kernel
  short₁ := by decide +kernel
  short₂ := by decide +kernel
  few := by decide
  legal m hm := by
    simp only [List.cons_append, List.nil_append, List.mem_cons, List.not_mem_nil, or_false] at hm
    rcases hm with rfl | rfl <;> exact ⟨by decide +kernel, by decide⟩
  wanted m hm := by
    simp only [List.cons_append, List.nil_append, List.mem_cons, List.not_mem_nil, or_false] at hm
    rcases hm with rfl | rfl <;> exact plain_t

example := C96_packet_ids_fails exampleEnv _ _ _ _ _ 1 rfl rfl scene_same_id

/-- A message sent again. -/
theorem scene_again : Scene (scenePeers "t" .exactlyOnce [⟨some 7, false, ⟨"t", [1], .exactlyOnce, false⟩⟩, ⟨some 7, true, ⟨"t", [1], .exactlyOnce, false⟩⟩] [])
    "t" .exactlyOnce [⟨some 7, false, ⟨"t", [1], .exactlyOnce, false⟩⟩, ⟨some 7, true, ⟨"t", [1], .exactlyOnce, false⟩⟩] [] where
  bytes₀ := List.append_nil _
  bytes₁ := List.append_nil _
  bytes₂ := List.append_nil _
  short₀ := by decide +kernel
  short₁ := by decide +kernel
  short₂ := by decide +kernel
  few := by decide
  legal m hm := by
    simp only [List.append_nil, List.mem_cons, List.not_mem_nil, or_false] at hm
    rcases hm with rfl | rfl <;> exact ⟨by decide +kernel, by decide⟩
  wanted m hm := by
    simp only [List.append_nil, List.mem_cons, List.not_mem_nil, or_false] at hm
    rcases hm with rfl | rfl <;> exact plain_t

example := C97_exactly_once_fails exampleEnv _ _ _ ⟨some 7, false, ⟨"t", [1], .exactlyOnce, false⟩⟩ rfl scene_again

/-- A protocol nobody has heard of. -/
example : ∃ sched, ((run exampleEnv (init fun _ => ⟨someAddr, "u", [clientBytes [.connect ⟨"XYZ", 99, true, 0, "c", none, none, none⟩]], .eof, []⟩)
    sched).conns 0).delivered = [.controlPacket (.connAck ⟨false, .accepted⟩)] :=
  C98_protocol_fails exampleEnv _ ⟨"XYZ", 99, true, 0, "c", none, none, none⟩ (by decide) rfl rfl
    ⟨(by decide +kernel : (utf8 "XYZ").length < 65536), (by decide +kernel : (utf8 "c").length < 65536), by simp, by simp, by simp⟩
    (by decide +kernel) (List.append_nil _)

/-- "#/b", "a+" and the empty filter. -/
example : MisplacedWildcard "#/b" ∧ MisplacedWildcard "a+" ∧ ¬ ValidFilter "" :=
  ⟨⟨["#", "b"], ⟨by simp, by decide +kernel, by decide +kernel⟩, .inl ⟨[], "#", ["b"], rfl, by decide +kernel, .inr (by simp)⟩⟩,
    ⟨["a+"], levels_one (by decide +kernel), .inr ⟨"a+", by simp, by decide +kernel, by decide⟩⟩, fun h => h.nonempty rfl⟩

theorem scene_filter {f : String} (h : (clientBytes (oneFilter f .atMostOnce)).length < 4096) :
    Scene (scenePeers f .atMostOnce [] []) f .atMostOnce [] [] where
  bytes₀ := List.append_nil _
  bytes₁ := List.append_nil _
  bytes₂ := List.append_nil _
  short₀ := h
  short₁ := by decide +kernel
  short₂ := by decide +kernel
  few := by decide
  legal m hm := by cases hm
  wanted m hm := by cases hm

example := C99_filter_fails exampleEnv _ "#/b" _ (scene_filter (by decide +kernel))
example := C99_filter_fails exampleEnv _ "" _ (scene_filter (by decide +kernel))

/-- A message on the empty topic. -/
theorem scene_empty : Scene (scenePeers "" .atMostOnce [⟨none, false, ⟨"", [1], .atMostOnce, false⟩⟩] []) "" .atMostOnce
    [⟨none, false, ⟨"", [1], .atMostOnce, false⟩⟩] [] where
  bytes₀ := List.append_nil _
  bytes₁ := List.append_nil _
  bytes₂ := List.append_nil _
  short₀ := by decide +kernel
  short₁ := by decide +kernel
  short₂ := by decide +kernel
  few := by decide
  legal m hm := by
    rw [List.append_nil, List.mem_singleton] at hm
    subst hm
    exact ⟨by decide +kernel, by decide⟩
  wanted m hm := by
    rw [List.append_nil, List.mem_singleton] at hm
    subst hm
    exact ⟨⟨by decide +kernel, by decide +kernel⟩, matches_self (by decide +kernel)⟩

example := C99_topic_fails exampleEnv _ _ _ _ (fun h => h.1 rfl) scene_empty

end Ratel
