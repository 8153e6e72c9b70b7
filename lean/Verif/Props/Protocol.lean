/-
C71–C77: what a single connection sees of the running broker. See Verif/Props/System.lean for the setting.
-/
import Verif.Proofs.SysProtocol
import Verif.Proofs.SysRealize
import Verif.Props.System
import Verif.Props.Subscriptions

namespace Ratel

open Decoder Encoder Spec Sys

/-- Connections for the examples: 0 subscribes, 1 publishes after its DISCONNECT, all others send nothing. -/
def quitterPeers : ConnId → Peer := fun c =>
  if c = 0 then ⟨someAddr, "u0", [clientBytes subscriberPackets], .eof, []⟩
  else if c = 1 then ⟨someAddr, "u1", [clientBytes quitterPackets], .eof, []⟩
  else ⟨someAddr, "u", [], .eof, []⟩

/-- C71. The first thing sent to a connection is a CONNACK, and it is the only CONNACK; and unless a write failed, the first four bytes
the socket gets are (a beginning of) those of a CONNACK "accepted" or "not authorized" without session. -/
theorem C71_connack_first (env : Env) (peers : ConnId → Peer) (sched : List Step) (d : ConnId) :
    (((run env (init peers) sched).conns d).delivered = []
      ∨ ∃ code rest, ((run env (init peers) sched).conns d).delivered = .controlPacket (.connAck ⟨false, code⟩) :: rest
        ∧ ∀ a, .controlPacket (.connAck a) ∉ rest)
    ∧ ((∀ o ∈ (peers d).script, o ≠ .fail) →
      ∃ code, (code = 0 ∨ code = 5) ∧ ((run env (init peers) sched).conns d).wr.wire.take 4 <+: [0x20, 0x02, 0x00, code]) := by
  have hinv := inv_run env peers sched
  have hord := reads_orderly_served hinv.reads
  have key : ∀ l : List ServerEvent, l <+: Broker.start.outputs env.auth (run env (init peers) sched).served d → l = []
      ∨ ∃ code rest, (code = .accepted ∨ code = .notAuthorized) ∧ l = .controlPacket (.connAck ⟨false, code⟩) :: rest
        ∧ ∀ a, .controlPacket (.connAck a) ∉ rest := by
    intro l hl
    rcases connAck_first d _ hord with h | ⟨code, rest, h0, h1, h2⟩
    · rw [h] at hl; exact .inl (List.prefix_nil.mp hl)
    · rw [h1] at hl
      cases l with
      | nil => exact .inl rfl
      | cons e l =>
        obtain ⟨rfl, h3⟩ := List.cons_prefix_cons.mp hl
        exact .inr ⟨code, l, h0, rfl, fun a ha => h2 a (h3.subset ha)⟩
  constructor
  · rcases key _ (hinv.serves.delivered d) with h | ⟨code, rest, _, h1, h2⟩
    · exact .inl h
    · exact .inr ⟨code, rest, h1, h2⟩
  · intro hf
    have hsent := ((List.prefix_append _ _).trans (hinv.writes d).sent).trans (hinv.serves.delivered d)
    have hs : ∀ p ∈ ((run env (init peers) sched).conns d).written, ServerPacket p := by
      intro p hp
      refine delivered_server hord (d := d) ((hinv.serves.delivered d).subset ((hinv.writes d).sent.subset ?_))
      exact List.mem_append_left _ (List.mem_map_of_mem hp)
    have hw := (List.prefix_append _ _).trans ((hinv.writes d).clean hf hs).2.2
    generalize ((run env (init peers) sched).conns d).written = ps at hsent hw
    generalize ((run env (init peers) sched).conns d).wr.wire = w at hw ⊢
    rcases key _ hsent with h | ⟨code, rest, h0, h1, _⟩
    · have : ps = [] := by simpa using h
      subst this
      have : w = [] := List.prefix_nil.mp hw
      subst this
      exact ⟨0, .inl rfl, by simp⟩
    · cases ps with
      | nil => cases h1
      | cons p ps =>
        simp only [List.map_cons, List.cons.injEq, ServerEvent.controlPacket.injEq] at h1
        rw [h1.1] at hw
        have hb : wireOf (.connAck ⟨false, code⟩ :: ps) = [0x20, 0x02, 0x00, byte (connAckNum code)] ++ wireOf ps := by
          have : (serverBytes (.connAck ⟨false, code⟩)).getD [] = [0x20, 0x02, 0x00, byte (connAckNum code)] := by
            rcases h0 with rfl | rfl <;> decide +kernel
          rw [wireOf, List.flatMap_cons, this]
          rfl
        rw [hb] at hw
        refine ⟨byte (connAckNum code), by rcases h0 with rfl | rfl <;> decide, ?_⟩
        obtain ⟨t, ht⟩ := hw
        have := congrArg (List.take 4) ht
        rw [List.take_append, List.take_left' (by simp)] at this
        exact ⟨_, this⟩

/-- C72. The SUBACKs and UNSUBACKs sent to a connection are, in order, the answers to the SUBSCRIBEs and UNSUBSCRIBEs among the packets of
this connection that were taken; when the handler is at rest they are all there. -/
theorem C72_acks_in_order (env : Env) (peers : ConnId → Peer) (sched : List Step) (d : ConnId) :
    ∃ ps n, Decodes env.profile (peers d).segs.flatten (peers d).fin ps
      ∧ ((run env (init peers) sched).log.map Prod.fst).filter (From d) = eventsOf (peers d) d (ps.take n)
      ∧ acksIn ((run env (init peers) sched).conns d).delivered <+: (ps.take n).filterMap ackOf
      ∧ ((run env (init peers) sched).handler = .idle →
          acksIn ((run env (init peers) sched).conns d).delivered = (ps.take n).filterMap ackOf) := by
  have hinv := inv_run env peers sched
  obtain ⟨ps, hd, hp⟩ := reads_orderly_served hinv.reads d
  have hacks : ∀ ps', (run env (init peers) sched).served.filter (From d) = eventsOf (peers d) d ps' →
      (eventsOf (peers d) d ps').filterMap (evAck d) = ps'.filterMap ackOf →
      acksIn ((run env (init peers) sched).conns d).delivered <+: ps'.filterMap ackOf
      ∧ ((run env (init peers) sched).handler = .idle →
          acksIn ((run env (init peers) sched).conns d).delivered = ps'.filterMap ackOf) := by
    intro ps' h1 h2
    obtain ⟨h3, h4⟩ := outputs_acks (auth := env.auth) d (run env (init peers) sched).served .start
    rw [← evAck_filter, h1, h2] at h3 h4
    refine ⟨?_, fun hh => ?_⟩
    · obtain ⟨t, ht⟩ := hinv.serves.delivered d
      rw [← ht, acksIn_append] at h3
      exact (List.prefix_append _ _).trans h3
    · cases hinv.serves with
      | rest b _ ha _ ho => rw [ho d]; exact h4 (by rw [ha]; rfl)
      | sending _ _ _ _ _ _ h' => rw [hh] at h'; cases h'
      | failed _ _ _ h' => rw [hh] at h'; cases h'
      | broken _ _ _ _ _ _ h' => rw [hh] at h'; cases h'
  have hnone : ∀ ps : List ControlPacket, eventsOf (peers d) d ps = [] → (run env (init peers) sched).served.filter (From d) = []
      → (run env (init peers) sched).served.filter (From d) = eventsOf (peers d) d (ps.take 0) :=
    fun ps _ h => h
  show ∃ ps n, _ ∧ (run env (init peers) sched).served.filter (From d) = _ ∧ _
  cases ps with
  | nil => exact ⟨[], 0, hd, List.prefix_nil.mp hp, hacks [] (List.prefix_nil.mp hp) rfl⟩
  | cons p ps =>
    cases p with
    | connect p =>
      have hlen := List.prefix_iff_eq_take.mp hp
      generalize hn : ((run env (init peers) sched).served.filter (From d)).length = n at hlen
      have he : (eventsOf (peers d) d (.connect p :: ps)).take n = eventsOf (peers d) d ((ControlPacket.connect p :: ps).take n) := by
        cases n with
        | zero => rfl
        | succ n => simp [eventsOf]
      rw [he] at hlen
      refine ⟨_, n, hd, hlen, hacks _ hlen ?_⟩
      cases n with
      | zero => rfl
      | succ n => exact evAck_eventsOf _ _ _ _
    | _ => exact ⟨_, 0, hd, List.prefix_nil.mp hp, hacks [] (List.prefix_nil.mp hp) rfl⟩

/-- C73. When the handler is at rest, a message published has been sent to every connection on which, at that point, a client holding a
matching subscription was reached; it is written or in the queue if the connection is open. -/
theorem C73_message_reaches_subscribers (env : Env) (peers : ConnId → Peer) (sched : List Step)
    (hh : (run env (init peers) sched).handler = .idle) (pre post : List ClientEvent) (id : ClientId) (q : PublishPacket) (tx : ConnId)
    (hl : (run env (init peers) sched).log.map Prod.fst = pre ++ .controlPacket id (.publish q) tx :: post) (c : ClientId) (f : String)
    (d : ConnId) (hf : (c, f) ∈ held pre) (hr : ReachedOn env.auth pre c d) (hm : Matches f q.message.topic) :
    .controlPacket (.publish q) ∈ ((run env (init peers) sched).conns d).delivered
    ∧ (((run env (init peers) sched).conns d).rxOpen = true → .publish q ∈ ((run env (init peers) sched).conns d).written
      ∨ .controlPacket (.publish q) ∈ ((run env (init peers) sched).conns d).queue) := by
  have hinv := inv_run env peers sched
  have hdel : ServerEvent.controlPacket (.publish q) ∈ ((run env (init peers) sched).conns d).delivered := by
    cases hinv.serves with
    | rest b _ ha _ ho =>
      rw [ho d]
      unfold served at ha ⊢
      rw [hl] at ha ⊢
      obtain ⟨b₁, h1, h2⟩ := after_prefix ha
      rw [outputs_append, h1]
      refine List.mem_append_right _ ?_
      simp only [Broker.outputs, Broker.step, Broker.packet]
      refine List.mem_append_left _ (List.mem_replicate.mpr ⟨?_, rfl⟩)
      have hs := (after_session h1 c d).mpr hr
      have he : (c, f) ∈ b₁.subs := by rw [after_subs h1]; exact hf
      have hpos : 0 < b₁.copiesTo d q.message.topic := by
        refine Nat.lt_of_lt_of_le (Nat.pos_of_ne_zero ?_) (le_sum_of_mem (List.mem_map_of_mem (a := (c, f))
          (List.mem_filter.mpr ⟨he, by simpa using hs⟩)))
        exact Nat.pos_iff_ne_zero.mp (ways_pos.mpr hm)
      omega
    | sending _ _ _ _ _ _ h' => rw [hh] at h'; cases h'
    | failed _ _ _ h' => rw [hh] at h'; cases h'
    | broken _ _ _ _ _ _ h' => rw [hh] at h'; cases h'
  refine ⟨hdel, fun hx => ?_⟩
  rw [(hinv.writes d).all hx] at hdel
  rcases List.mem_append.mp hdel with h | h
  · obtain ⟨p, hp, he⟩ := List.mem_map.mp h
    cases he
    exact .inl hp
  · exact .inr h

/-- C74. A connection whose first packet is a CONNECT that is not accepted is never sent a message. -/
theorem C74_refused_hears_nothing (env : Env) (peers : ConnId → Peer) (sched : List Step) (d : ConnId) (p : ConnectPacket)
    (ps : List ControlPacket) (hd : Decodes env.profile (peers d).segs.flatten (peers d).fin (.connect p :: ps))
    (hl : login env.auth p ≠ .accepted) : messagesOf ((run env (init peers) sched).conns d).delivered = [] := by
  apply List.eq_nil_iff_forall_not_mem.mpr
  intro q hq
  unfold messagesOf at hq
  obtain ⟨e, he, hq⟩ := List.mem_filterMap.mp hq
  have hpub : e = .controlPacket (.publish q) := by
    split at hq
    · cases hq; rfl
    · cases hq
  rw [hpub] at he
  obtain ⟨pre, id, tx, post, hlog, _, _, c, f, _, ⟨pre', p', addr, post', hr, _, hacc, _⟩, _⟩ := C50_no_invented_messages env peers sched d q he
  obtain ⟨ps', hd', hp'⟩ := reads_orderly_served (inv_run env peers sched).reads d
  have hmem : ClientEvent.connected p' addr d ∈ (run env (init peers) sched).served := by
    unfold served
    rw [hlog, hr]
    simp
  have hmem : ClientEvent.connected p' addr d ∈ eventsOf (peers d) d ps' := hp'.subset (List.mem_filter.mpr ⟨hmem, by simp [From]⟩)
  cases ps' with
  | nil => cases hmem
  | cons a ps' =>
    have := Decodes.head hd hd'
    subst this
    rcases List.mem_cons.mp hmem with h | h
    · simp only [ClientEvent.connected.injEq] at h
      rw [h.1] at hacc
      exact hl hacc
    · obtain ⟨_, _, h⟩ := List.mem_map.mp h
      cases h

/-- C75. Once the handler has dealt with a DISCONNECT of a connection, no message is sent to that connection any more. -/
theorem C75_silence_after_disconnect (env : Env) (peers : ConnId → Peer) (sched : List Step) (id : ClientId) (d : ConnId)
    (hh : (run env (init peers) sched).handler = .idle)
    (hl : .controlPacket id .disconnect d ∈ (run env (init peers) sched).log.map Prod.fst) (sched' : List Step) :
    messagesOf ((run env (init peers) (sched ++ sched')).conns d).delivered
      = messagesOf ((run env (init peers) sched).conns d).delivered := by
  have hgrow := run_grows env (run env (init peers) sched) sched'
  rw [← run_append] at hgrow
  have hinv := inv_run env peers sched
  have hinv' := inv_run env peers (sched ++ sched')
  obtain ⟨t, ht⟩ := hgrow.2 d
  rw [← ht, messagesOf_append]
  suffices h : messagesOf t = [] by rw [h, List.append_nil]
  apply List.eq_nil_iff_forall_not_mem.mpr
  intro q hq
  unfold messagesOf at hq
  obtain ⟨e, he, hq⟩ := List.mem_filterMap.mp hq
  have hpub : e = .controlPacket (.publish q) := by
    split at hq
    · cases hq; rfl
    · cases hq
  rw [hpub] at he
  -- it is due to a later event
  obtain ⟨more, hmore⟩ : ∃ more, (run env (init peers) (sched ++ sched')).served = (run env (init peers) sched).served ++ more := by
    obtain ⟨l, hl⟩ := hgrow.1
    exact ⟨l.map Prod.fst, by unfold served; rw [← hl, List.map_append]⟩
  have hord := reads_orderly_served hinv'.reads
  have hrest : ∃ b, Broker.start.after env.auth (run env (init peers) sched).served = some b
      ∧ ((run env (init peers) sched).conns d).delivered = Broker.start.outputs env.auth (run env (init peers) sched).served d := by
    cases hinv.serves with
    | rest b _ ha _ ho => exact ⟨b, ha, ho d⟩
    | sending _ _ _ _ _ _ h' => rw [hh] at h'; cases h'
    | failed _ _ _ h' => rw [hh] at h'; cases h'
    | broken _ _ _ _ _ _ h' => rw [hh] at h'; cases h'
  obtain ⟨b, ha, ho⟩ := hrest
  have hout := hinv'.serves.delivered d
  rw [hmore] at hout hord
  rw [outputs_append, ha, ← ho, ← ht, List.prefix_append_right_inj] at hout
  have he := hout.subset he
  simp only at he
  obtain ⟨pre, ev, post, b', rfl, h1, h2⟩ := outputs_mem' he
  have h1' : Broker.start.after env.auth ((run env (init peers) sched).served ++ pre) = some b' := by
    rw [after_append, ha]; exact h1
  have hord' : Orderly env peers ((run env (init peers) sched).served ++ pre) := Orderly.pre (post := ev :: post) (by simpa using hord)
  cases h2 with
  | publish id' q tx x hx hs hm =>
    exact disconnected_unreached hord' (List.mem_append_left _ hl) ((after_session h1' x.1 d).mp hs)

/-! ### C77, C76 -/

/-- C77. Whatever the clients send, the broker may serve it in any order that keeps the order on each connection: for every such order that
does not contain a CONNECT with a user name and no password, and calls for at most 32 packets to each connection, there is an execution
that takes the events in exactly this order and sends every connection what the sequential broker sends. -/
theorem C77_any_interleaving (env : Env) (peers : ConnId → Peer) (cs : ConnId → List ClientPacket)
    (hb : ∀ c, cs c ≠ [] → (peers c).segs.flatten = clientBytes (cs c)) (hs : ∀ c, Sendable (cs c))
    (hl : ∀ c, (clientBytes (cs c)).length < 4096) (evs : List ClientEvent) (hf : ∀ ev ∈ evs, ∃ c, From c ev)
    (hp : ∀ c, evs.filter (From c) <+: eventsOf (peers c) c ((cs c).map meaning))
    (hi : ∀ p addr c, .connected p addr c ∈ evs → login env.auth p ≠ .incomplete)
    (h32 : ∀ d, (Broker.start.outputs env.auth evs d).length ≤ 32) :
    ∃ sched, (run env (init peers) sched).handler = .idle ∧ (run env (init peers) sched).log.map Prod.fst = evs
      ∧ ∀ d, ((run env (init peers) sched).conns d).delivered = Broker.start.outputs env.auth evs d := by
  obtain ⟨sched, h⟩ := realize env peers cs hb hs hl evs hf hp (after_isSome hi _) h32
  refine ⟨sched, h.idle, ?_, fun d => ?_⟩
  · rw [h.log, List.map_map]; exact List.map_id evs
  · cases (inv_run env peers sched).serves with
    | rest b _ _ _ ho => rw [ho d, served, h.log, List.map_map]; exact congrArg (fun l => Broker.start.outputs env.auth l d) (List.map_id evs)
    | sending _ _ _ _ _ _ h' => rw [h.idle] at h'; cases h'
    | failed _ _ _ h' => rw [h.idle] at h'; cases h'
    | broken _ _ _ _ _ _ h' => rw [h.idle] at h'; cases h'

/-- C77, in stages: the broker may serve the events in the given order and come to rest in between, after any number of them. -/
theorem C77_in_stages (env : Env) (peers : ConnId → Peer) (cs : ConnId → List ClientPacket)
    (hb : ∀ c, cs c ≠ [] → (peers c).segs.flatten = clientBytes (cs c)) (hs : ∀ c, Sendable (cs c))
    (hl : ∀ c, (clientBytes (cs c)).length < 4096) (evs evs' : List ClientEvent) (hf : ∀ ev ∈ evs ++ evs', ∃ c, From c ev)
    (hp : ∀ c, (evs ++ evs').filter (From c) <+: eventsOf (peers c) c ((cs c).map meaning))
    (hi : ∀ p addr c, .connected p addr c ∈ evs ++ evs' → login env.auth p ≠ .incomplete)
    (h32 : ∀ d, (Broker.start.outputs env.auth (evs ++ evs') d).length ≤ 32) :
    ∃ sched sched', ((run env (init peers) sched).handler = .idle ∧ (run env (init peers) sched).log.map Prod.fst = evs
        ∧ ∀ d, ((run env (init peers) sched).conns d).delivered = Broker.start.outputs env.auth evs d)
      ∧ (run env (init peers) (sched ++ sched')).handler = .idle ∧ (run env (init peers) (sched ++ sched')).log.map Prod.fst = evs ++ evs'
        ∧ ∀ d, ((run env (init peers) (sched ++ sched')).conns d).delivered = Broker.start.outputs env.auth (evs ++ evs') d := by
  have hout : ∀ {sched : List Step} {evs : List ClientEvent}, Realized peers cs evs (run env (init peers) sched) →
      (run env (init peers) sched).handler = .idle ∧ (run env (init peers) sched).log.map Prod.fst = evs
        ∧ ∀ d, ((run env (init peers) sched).conns d).delivered = Broker.start.outputs env.auth evs d := by
    intro sched evs h
    refine ⟨h.idle, ?_, fun d => ?_⟩
    · rw [h.log, List.map_map]; exact List.map_id evs
    · cases (inv_run env peers sched).serves with
      | rest b _ _ _ ho => rw [ho d, served, h.log, List.map_map]; exact congrArg (fun l => Broker.start.outputs env.auth l d) (List.map_id evs)
      | sending _ _ _ _ _ _ h' => rw [h.idle] at h'; cases h'
      | failed _ _ _ h' => rw [h.idle] at h'; cases h'
      | broken _ _ _ _ _ _ h' => rw [h.idle] at h'; cases h'
  have ha := after_isSome hi Broker.start
  obtain ⟨b', ha'⟩ := Option.isSome_iff_exists.mp ha
  obtain ⟨b, hb1, _⟩ := after_prefix ha'
  obtain ⟨sched, h⟩ := realize env peers cs hb hs hl evs (fun ev hev => hf ev (List.mem_append_left _ hev))
    (fun c => List.IsPrefix.trans (by rw [List.filter_append]; exact List.prefix_append _ _) (hp c)) (by rw [hb1]; rfl)
    (fun d => by
      have := h32 d
      rw [outputs_append, List.length_append] at this
      omega)
  obtain ⟨sched', h'⟩ := h.more evs' (fun ev hev => hf ev (List.mem_append_right _ hev)) hp ha h32
  exact ⟨sched, sched', hout h, hout h'⟩

theorem quitter_sendable : Sendable quitterPackets := by
  intro c hc
  simp only [quitterPackets, List.mem_cons, List.not_mem_nil, or_false] at hc
  rcases hc with rfl | hc | hc
  · exact publisher_sendable _ (by simp [publisherPackets])
  · subst hc; exact ⟨trivial, trivial, by decide⟩
  · exact publisher_sendable _ (by rw [hc]; simp [publisherPackets])

theorem quitter (env : Env) (peers : ConnId → Peer) (h0 : (peers 0).segs.flatten = clientBytes subscriberPackets)
    (h1 : (peers 1).segs.flatten = clientBytes quitterPackets) :
    ∃ sched, (run env (init peers) sched).handler = .idle ∧ (run env (init peers) sched).log.map Prod.fst
      = quitterEvents (peers 0).addr (peers 1).addr := by
  obtain ⟨sched, h⟩ := C77_any_interleaving env peers (fun c => if c = 0 then subscriberPackets else if c = 1 then quitterPackets else [])
    (by
      intro c hc
      by_cases c0 : c = 0
      · subst c0; exact h0
      · by_cases c1 : c = 1
        · subst c1; exact h1
        · simp [c0, c1] at hc)
    (by
      intro c
      by_cases c0 : c = 0
      · subst c0; exact subscriber_sendable
      · by_cases c1 : c = 1
        · subst c1; exact quitter_sendable
        · simp [c0, c1, Sendable])
    (by
      intro c
      by_cases c0 : c = 0
      · subst c0; decide +kernel
      · by_cases c1 : c = 1
        · subst c1; decide +kernel
        · simp [c0, c1, clientBytes])
    (quitterEvents (peers 0).addr (peers 1).addr)
    (by
      intro ev hev
      simp only [quitterEvents, List.mem_cons, List.not_mem_nil, or_false] at hev
      rcases hev with rfl | rfl | rfl | rfl | rfl <;> simp [From])
    (by
      intro c
      by_cases c0 : c = 0
      · subst c0
        simp [quitterEvents, From, subscriberPackets, hello, meaning, eventsOf, idOf]
      · by_cases c1 : c = 1
        · subst c1
          simp [quitterEvents, From, quitterPackets, hello, meaning, eventsOf, idOf]
        · have h0' : 0 ≠ c := fun h => c0 h.symm
          have h1' : 1 ≠ c := fun h => c1 h.symm
          simp [quitterEvents, From, h0', h1'])
    (by
      intro p addr c hp
      simp only [quitterEvents, List.mem_cons, List.not_mem_nil, or_false] at hp
      rcases hp with h | h | h | h | h <;> cases h <;> simp [login])
    (fun d => Nat.le_trans (outputs_quota (by
      intro id q tx hq
      simp only [quitterEvents, List.mem_cons, List.not_mem_nil, or_false] at hq
      rcases hq with h | h | h | h | h <;> cases h
      exact ⟨by decide +kernel, by decide +kernel⟩) _ d) (by simp [quitterEvents, quota, Broker.start]))
  exact ⟨sched, h.1, h.2.1⟩

/-- C76 is violated: connection 0 subscribes to "t"; connection 1 sends CONNECT, DISCONNECT and a PUBLISH on "t". There is an execution
in which the DISCONNECT is dealt with first and the message is still relayed to the subscriber. -/
theorem C76_after_disconnect_fails (env : Env) (peers : ConnId → Peer) (h0 : (peers 0).segs.flatten = clientBytes subscriberPackets)
    (h1 : (peers 1).segs.flatten = clientBytes quitterPackets) :
    ∃ sched pre mid post, (run env (init peers) sched).log.map Prod.fst
        = pre ++ .controlPacket "p" .disconnect 1 :: mid ++ .controlPacket "p" (.publish blank) 1 :: post
      ∧ .controlPacket (.publish blank) ∈ ((run env (init peers) sched).conns 0).delivered := by
  obtain ⟨sched, hi, hl⟩ := quitter env peers h0 h1
  refine ⟨sched, (quitterEvents (peers 0).addr (peers 1).addr).take 3, [], [], hl, ?_⟩
  refine (C73_message_reaches_subscribers env peers sched hi ((quitterEvents (peers 0).addr (peers 1).addr).take 4) [] "p" blank 1 hl
    "s" "t" 0 ?_ ?_ ?_).1
  · simp [held, quitterEvents, subOps, Entries.counted, Entries.counting, Entries.unsubscribe, Entries.filtersOf]
  · exact ⟨[], _, _, _, rfl, rfl, rfl, by simp [ChangesSession]⟩
  · exact ⟨["t"], ["t"], (C69_levels _ _).mpr (by decide +kernel), (C69_levels _ _).mpr (by decide +kernel), .literal _ _ _ .done⟩

/-- C76, the part that holds: after its DISCONNECT a client that has not connected again counts as gone: a PINGREQ on that connection makes
the broker close it. Missing: other packets are still processed. -/
theorem C76_after_disconnect_partial (env : Env) (peers : ConnId → Peer) (sched : List Step) (pre mid post : List ClientEvent)
    (id : ClientId) (d : ConnId) (hh : (run env (init peers) sched).handler = .idle)
    (hl : (run env (init peers) sched).log.map Prod.fst
      = pre ++ .controlPacket id .disconnect d :: mid ++ .controlPacket id .pingReq d :: post)
    (hm : ∀ p addr c, .connected p addr c ∈ mid → p.clientId ≠ id) :
    .disconnect ∈ ((run env (init peers) sched).conns d).delivered := by
  cases (inv_run env peers sched).serves with
  | rest b _ ha _ ho =>
    rw [ho d]
    unfold served at ha ⊢
    rw [hl] at ha ⊢
    obtain ⟨b₁, h1, h2⟩ := after_prefix ha
    rw [outputs_append, h1]
    refine List.mem_append_right _ ?_
    simp only [Broker.outputs, Broker.step, Broker.packet]
    refine List.mem_append_left _ ?_
    have hs : b₁.session id = none := by
      cases hs : b₁.session id with
      | none => rfl
      | some c =>
        obtain ⟨pre', p, addr, post', he, hid, _, hno⟩ := (after_session h1 id c).mp hs
        exfalso
        rcases List.append_eq_append_iff.mp he with ⟨t, h3, h4⟩ | ⟨t, h3, h4⟩
        · cases t with
          | nil => simp at h4
          | cons x t =>
            have := (List.cons.inj h4).2
            have hmem : ClientEvent.connected p addr c ∈ mid := by rw [this]; simp
            exact hm p addr c hmem hid
        · cases t with
          | nil => simp at h4
          | cons x t =>
            have := (List.cons.inj h4).2
            exact hno (.controlPacket id .disconnect d) (by rw [this]; simp) rfl
    simp [Spec.to, hs]
  | sending _ _ _ _ _ _ h' => rw [hh] at h'; cases h'
  | failed _ _ _ h' => rw [hh] at h'; cases h'
  | broken _ _ _ _ _ _ h' => rw [hh] at h'; cases h'

/-! ### The hypotheses can be met -/

/-- A run at rest in which a client has subscribed, and another has sent a DISCONNECT and a message: C71 to C73 and C75 speak about it. -/
theorem example_quitter : ∃ sched, (run exampleEnv (init quitterPeers) sched).handler = .idle
    ∧ (run exampleEnv (init quitterPeers) sched).log.map Prod.fst = quitterEvents someAddr someAddr :=
  quitter exampleEnv quitterPeers (by simp [quitterPeers]) (by simp [quitterPeers])

example : ∃ sched pre mid post, (run exampleEnv (init quitterPeers) sched).log.map Prod.fst
    = pre ++ .controlPacket "p" .disconnect 1 :: mid ++ .controlPacket "p" (.publish blank) 1 :: post :=
  let ⟨sched, pre, mid, post, h, _⟩ := C76_after_disconnect_fails exampleEnv quitterPeers (by simp [quitterPeers]) (by simp [quitterPeers])
  ⟨sched, pre, mid, post, h⟩

-- C71, C72: the subscriber has got its CONNACK and its SUBACK
example : ∃ sched code rest, ((run exampleEnv (init quitterPeers) sched).conns 0).delivered = .controlPacket (.connAck ⟨false, code⟩) :: rest
    ∧ acksIn ((run exampleEnv (init quitterPeers) sched).conns 0).delivered = [.subAck ⟨1, [.successQoS0]⟩] := by
  obtain ⟨sched, hi, hl⟩ := example_quitter
  obtain ⟨ps, n, _, h1, _, h2⟩ := C72_acks_in_order exampleEnv quitterPeers sched 0
  have hps : (ps.take n).filterMap ackOf = [.subAck ⟨1, [.successQoS0]⟩] := by
    rw [hl] at h1
    generalize ps.take n = l at h1 ⊢
    cases l with
    | nil => simp [quitterEvents, From, eventsOf] at h1
    | cons a l =>
      cases a with
      | connect p =>
        simp [quitterEvents, From, eventsOf] at h1
        obtain ⟨_, h1⟩ := h1
        cases l with
        | nil => simp at h1
        | cons a l =>
          simp at h1
          obtain ⟨⟨_, rfl⟩, rfl⟩ := h1
          rfl
      | _ => simp [quitterEvents, From, eventsOf] at h1
  have hacks := h2 hi
  rw [hps] at hacks
  rcases (C71_connack_first exampleEnv quitterPeers sched 0).1 with h | ⟨code, rest, h, _⟩
  · rw [h] at hacks; cases hacks
  · exact ⟨sched, code, rest, h, hacks⟩

-- C74: a CONNECT with a wrong password
example : Decodes exampleEnv.profile (examplePeers 3).segs.flatten (examplePeers 3).fin
      ([Spec.ClientPacket.connect ⟨"MQTT", 4, true, 60, "y", none, some "u", some "p"⟩, .pingReq].map meaning)
    ∧ login exampleEnv.auth ⟨.mqtt3, "y", 60, true, none, some "u", some "p"⟩ ≠ .accepted :=
  ⟨by
    have := decodes_client exampleEnv.profile .eof _ example_wrong
    simpa [examplePeers] using this, by simp [login, exampleEnv, denyAll]⟩

-- C75
example : ∃ sched, (run exampleEnv (init quitterPeers) sched).handler = .idle
    ∧ .controlPacket "p" .disconnect 1 ∈ (run exampleEnv (init quitterPeers) sched).log.map Prod.fst :=
  let ⟨sched, h1, h2⟩ := example_quitter
  ⟨sched, h1, by rw [h2]; simp [quitterEvents]⟩

-- C76_after_disconnect_partial: a client that sends CONNECT, DISCONNECT, PINGREQ
example : ∃ sched, (run exampleEnv (init fun _ => ⟨someAddr, "u", [clientBytes [hello "p", .disconnect, .pingReq]], .eof, []⟩) sched).handler = .idle
    ∧ (run exampleEnv (init fun _ => ⟨someAddr, "u", [clientBytes [hello "p", .disconnect, .pingReq]], .eof, []⟩) sched).log.map Prod.fst
      = [.connected ⟨.mqtt3, "p", 60, true, none, none, none⟩ someAddr 0] ++ .controlPacket "p" .disconnect 0 :: []
        ++ .controlPacket "p" .pingReq 0 :: [] := by
  obtain ⟨sched, h⟩ := C77_any_interleaving exampleEnv
    (fun _ => ⟨someAddr, "u", [clientBytes [hello "p", .disconnect, .pingReq]], .eof, []⟩) (fun _ => [hello "p", .disconnect, .pingReq])
    (by intro c _; simp)
    (by
      intro c x hx
      simp only [List.mem_cons, List.not_mem_nil, or_false] at hx
      rcases hx with rfl | rfl | rfl
      · exact publisher_sendable _ (by simp [publisherPackets])
      · exact ⟨trivial, trivial, by decide⟩
      · exact ⟨trivial, trivial, by decide⟩)
    (by intro c; decide +kernel)
    [.connected ⟨.mqtt3, "p", 60, true, none, none, none⟩ someAddr 0, .controlPacket "p" .disconnect 0, .controlPacket "p" .pingReq 0]
    (by
      intro ev hev
      simp only [List.mem_cons, List.not_mem_nil, or_false] at hev
      rcases hev with rfl | rfl | rfl <;> simp [From])
    (by
      intro c
      by_cases c0 : c = 0
      · subst c0
        simp [From, hello, meaning, eventsOf, idOf]
      · have h0' : 0 ≠ c := fun h => c0 h.symm
        simp [From, h0'])
    (by
      intro p addr c hp
      simp only [List.mem_cons, List.not_mem_nil, or_false] at hp
      rcases hp with h | h | h <;> cases h <;> simp [login])
    (fun d => Nat.le_trans (outputs_quota (by
      intro id q tx hq
      simp only [List.mem_cons, List.not_mem_nil, or_false] at hq
      rcases hq with h | h | h <;> cases h) _ d) (by simp [quota, Broker.start]))
  exact ⟨sched, h.1, h.2.1⟩

end Ratel
