/-
Clients that react: C136 to C139.
-/
import Verif.Proofs.Open
import Verif.Proofs.Unambiguous
import Verif.Props.View

namespace Ratel

open Encoder Spec Sys

/-! ### C136 -/

/-- C136. Clients may send whatever they like whenever they like, depending on what they have received, and take their time to read what they
are sent: an execution in which they do so cannot be told, at any time, from one in which everything they will ever do was settled at the
start; a client has been sent the same bytes. -/
theorem C136_reactive (env : Env) (peers : ConnId → Peer) :
    ∃ did : List OStep → List Step, (∀ a b, did a <+: did (a ++ b))
      ∧ (∀ a b, SameAs (Open.run env (Open.init peers) a).sys (run env (init (given peers (a ++ b))) (did a)))
      ∧ ∀ a c, (Open.run env (Open.init peers) a).seen env c = ((run env (init (given peers a)) (did a)).conns c).wr.wire := by
  refine ⟨fun a => (Open.run env (Open.init peers) a).did, fun a b => ?_, fun a b => ?_, fun a c => ?_⟩
  · simp only [Open.run_append]
    exact Open.did_grows env _ b
  · have h := Open.agree env peers a
    obtain ⟨F, hF⟩ := Open.given_future (given peers a) b
    have e : given peers (a ++ b) = fun c => (F c).peer (given peers a c) := by
      rw [Open.given_append]
      funext c
      exact hF c
    rw [e, h.same F]
    exact Open.complete_same env F _ h.fine
  · have h := (Open.agree env peers a).same Open.nothing
    simp only [Open.nothing, Open.nothing_peer] at h
    rw [h]
    exact (Open.complete_seen env _ c).symm

/-- C136, conversely: an execution with everything settled at the start is one in which the clients have done everything before the broker
begins. -/
theorem C136_includes (env : Env) (peers : ConnId → Peer) (sched : List Step) :
    SameAs (Open.run env (Open.init peers) (sched.map .task)).sys (run env (init peers) sched)
    ∧ ∀ c, (Open.run env (Open.init peers) (sched.map .task)).seen env c = ((run env (init peers) sched).conns c).wr.wire := by
  have ha := Open.agree_init env peers
  have h0 : Open.complete env Open.nothing (Open.init peers) = init peers := by
    have := ha.same Open.nothing
    simp only [Open.nothing, Open.nothing_peer] at this
    exact this.symm
  obtain ⟨h1, h2⟩ := Open.run_alone env ha.fine (fun c p h => by cases h) sched
  rw [h0] at h1
  rw [← h1]
  exact ⟨Open.complete_same env _ _ h2, fun c => (Open.complete_seen env _ c).symm⟩

/-- C136, as a principle: what holds in all executions with everything settled at the start, of the state and of the bytes a client has been
sent, and does not depend on what is still in sockets, holds at any moment among clients that react. -/
theorem C136_transfer (env : Env) (P : (ConnId → Peer) → Sys → (ConnId → List UInt8) → Prop)
    (hP : ∀ peers s t wire, SameAs s t → P peers t wire → P peers s wire)
    (h : ∀ peers sched, P peers (run env (init peers) sched) fun c => ((run env (init peers) sched).conns c).wr.wire)
    (peers : ConnId → Peer) (exec : List OStep) :
    P (given peers exec) (Open.run env (Open.init peers) exec).sys ((Open.run env (Open.init peers) exec).seen env) := by
  obtain ⟨did, _, h2, h3⟩ := C136_reactive env peers
  have hs := h2 exec []
  rw [List.append_nil] at hs
  rw [funext (h3 exec)]
  exact hP _ _ _ _ hs (h _ _)

/-- For instance C51: channels are bounded also among clients that react. -/
example (env : Env) (peers : ConnId → Peer) (exec : List OStep) :
    (Open.run env (Open.init peers) exec).sys.events.length ≤ 32 ∧ ∀ c, ((Open.run env (Open.init peers) exec).sys.conns c).queue.length ≤ 32 :=
  C136_transfer env (fun _ s _ => s.events.length ≤ 32 ∧ ∀ c, (s.conns c).queue.length ≤ 32)
    (fun _ _ _ _ hs h => by rw [hs.events]; exact ⟨h.1, fun c => by rw [hs.queue]; exact h.2 c⟩) (fun peers sched => C51_bounded env peers sched)
    peers exec

/-! ### C137 -/

namespace Sys

/-- The packets a connection's write task has begun to write. -/
theorem wire_sent (env : Env) (peers : ConnId → Peer) (sched : List Step) (d : ConnId) (hf : ∀ o ∈ (peers d).script, o ≠ .fail) :
    ∃ sent : List ControlPacket, sent.map .controlPacket <+: ((run env (init peers) sched).conns d).delivered ∧ (∀ p ∈ sent, ServerPacket p)
      ∧ ((run env (init peers) sched).conns d).wr.wire <+: wireOf sent := by
  have hinv := inv_run env peers sched
  have hord := reads_orderly_served hinv.reads
  have hs : ∀ p ∈ ((run env (init peers) sched).conns d).written, ServerPacket p := by
    intro p hp
    refine delivered_server hord (d := d) ((hinv.serves.delivered d).subset ((hinv.writes d).sent.subset ?_))
    exact List.mem_append_left _ (List.mem_map_of_mem hp)
  exact ⟨_, (List.prefix_append _ _).trans (hinv.writes d).sent, hs, (List.prefix_append _ _).trans ((hinv.writes d).clean hf hs).2.2⟩

end Sys

/-- C137. The broker is linearizable: at any time there is a sequence of events it has dealt with, which only grows; it consists of packets
that have arrived by that time, those of each connection in the order sent; and whatever clients have received by that time are answers of
the sequential broker to that sequence. So what is sent after an answer has been received comes after what the answer is to. -/
theorem C137_linearizable (env : Env) (peers : ConnId → Peer) :
    ∃ evs : List OStep → List ClientEvent, (∀ a b, evs a <+: evs (a ++ b))
      ∧ ∀ a, (∀ ev ∈ evs a, ∃ c, From c ev) ∧ Orderly env (given peers a) (evs a)
        ∧ (∀ d, ((Open.run env (Open.init peers) a).sys.conns d).delivered <+: Broker.start.outputs env.auth (evs a) d)
        ∧ ((Open.run env (Open.init peers) a).sys.handler = .idle →
            ∀ d, ((Open.run env (Open.init peers) a).sys.conns d).delivered = Broker.start.outputs env.auth (evs a) d)
        ∧ ∀ d, (∀ o ∈ (given peers a d).script, o ≠ .fail) → ∀ xs : List ControlPacket, (∀ p ∈ xs, ServerPacket p) →
            wireOf xs <+: (Open.run env (Open.init peers) a).seen env d → xs.map .controlPacket <+: Broker.start.outputs env.auth (evs a) d := by
  obtain ⟨did, h1, h2, h3⟩ := C136_reactive env peers
  refine ⟨fun a => (Open.run env (Open.init peers) a).sys.log.map Prod.fst, fun a b => ?_, fun a => ?_⟩
  · have hab := h2 (a ++ b) []
    rw [List.append_nil] at hab
    obtain ⟨t, ht⟩ := h1 a b
    rw [← ht] at hab
    simp only [(h2 a b).log, hab.log, Sys.run_append]
    exact (run_grows env (run env (init (given peers (a ++ b))) (did a)) t).1.map _
  · have hs := h2 a []
    rw [List.append_nil] at hs
    have hinv := inv_run env (given peers a) (did a)
    have hdel : ∀ d, ((Open.run env (Open.init peers) a).sys.conns d).delivered
        <+: Broker.start.outputs env.auth ((Open.run env (Open.init peers) a).sys.log.map Prod.fst) d := by
      intro d
      rw [hs.delivered, hs.log]
      exact hinv.serves.delivered d
    refine ⟨?_, ?_, hdel, ?_, fun d hf xs hxs hx => ?_⟩
    · simp only [hs.log]
      exact fun ev hev => hinv.reads.from_conn ev (List.mem_append_left _ hev)
    · simp only [hs.log]
      exact reads_orderly_served hinv.reads
    · intro hh d
      simp only [hs.delivered, hs.log]
      rw [hs.handler] at hh
      obtain ⟨_, _, ho⟩ := rest_of_idle hinv.serves hh
      exact ho d
    · obtain ⟨sent, g1, g2, g3⟩ := wire_sent env (given peers a) (did a) d hf
      rw [h3 a d] at hx
      have := wireOf_prefix hxs g2 (hx.trans g3)
      rw [← hs.delivered] at g1
      exact ((this.map _).trans g1).trans (hdel d)

namespace Sys

/-- A packet that had not arrived has not been dealt with. -/
theorem not_dealt {env : Env} {peers : ConnId → Peer} {a : List OStep} {c : ConnId} {i : Nat}
    (hn : ∀ ps, Decodes env.profile (given peers a c).segs.flatten (given peers a c).fin ps → ps.length ≤ i) :
    dealtWith (Open.run env (Open.init peers) a).sys c ≤ i := by
  obtain ⟨did, _, h2, _⟩ := C136_reactive env peers
  have hs := h2 a []
  rw [List.append_nil] at hs
  obtain ⟨ps, g1, g2⟩ := reads_orderly_served (inv_run env (given peers a) (did a)).reads c
  have hl : (eventsOf (given peers a c) c ps).length ≤ ps.length := by
    cases ps with
    | nil => exact Nat.le_refl _
    | cons p ps => cases p <;> simp [eventsOf]
  unfold dealtWith
  rw [hs.log]
  exact Nat.le_trans g2.length_le (Nat.le_trans hl (hn ps g1))

end Sys

/-- C137, for messages: a message sent after somebody has been sent another one is nowhere received before that one. -/
theorem C137_real_time (env : Env) (peers : ConnId → Peer) (a b : List OStep) (d e : ConnId) (q₁ q₂ : PublishPacket)
    (h₁ : SentOnce env (given peers (a ++ b)) q₁) (h₂ : SentOnce env (given peers (a ++ b)) q₂)
    (hd : q₁ ∈ messagesOf ((Open.run env (Open.init peers) a).sys.conns d).delivered)
    (c : ConnId) (ps : List ControlPacket) (i : Nat)
    (hps : Decodes env.profile (given peers (a ++ b) c).segs.flatten (given peers (a ++ b) c).fin ps) (hi : ps[i]? = some (.publish q₂))
    (hlate : ∀ ps, Decodes env.profile (given peers a c).segs.flatten (given peers a c).fin ps → ps.length ≤ i) :
    ¬ [q₂, q₁].Sublist (messagesOf ((Open.run env (Open.init peers) (a ++ b)).sys.conns e).delivered) := by
  have hn := not_dealt (env := env) hlate
  obtain ⟨did, h1, h2, _⟩ := C136_reactive env peers
  have hab := h2 (a ++ b) []
  rw [List.append_nil] at hab
  obtain ⟨t, ht⟩ := h1 a b
  rw [(h2 a b).delivered] at hd
  rw [hab.delivered, ← ht]
  refine C101_causal env _ (did a) t d e q₁ q₂ h₁ h₂ hd c ps i hps hi ?_
  unfold dealtWith at hn ⊢
  rw [← (h2 a b).log]
  exact hn

/-! ### C138 -/

namespace Sys

theorem filter_split {α : Type} {P : α → Bool} {l : List α} {i : Nat} {x : α} (h : (l.filter P)[i]? = some x) :
    ∃ pre post, l = pre ++ x :: post ∧ (pre.filter P).length = i := by
  induction l generalizing i with
  | nil => simp at h
  | cons y l ih =>
    by_cases hy : P y = true
    · rw [List.filter_cons, if_pos hy] at h
      cases i with
      | zero =>
        simp only [List.getElem?_cons_zero, Option.some.injEq] at h
        exact ⟨[], l, by rw [h]; rfl, rfl⟩
      | succ i =>
        obtain ⟨pre, post, h1, h2⟩ := ih (by simpa using h)
        exact ⟨y :: pre, post, by rw [h1]; rfl, by rw [List.filter_cons, if_pos hy, List.length_cons, h2]⟩
    · rw [List.filter_cons, if_neg hy] at h
      obtain ⟨pre, post, h1, h2⟩ := ih h
      exact ⟨y :: pre, post, by rw [h1]; rfl, by rw [List.filter_cons, if_neg hy, h2]⟩

/-- Where the event of a packet is. -/
theorem find_event {env : Env} {peers : ConnId → Peer} {evs : List ClientEvent} (h : Orderly env peers evs) {c : ConnId} {i : Nat}
    (hi : i < (evs.filter (From c)).length) {ps : List ControlPacket} {q : PublishPacket}
    (hps : Decodes env.profile (peers c).segs.flatten (peers c).fin ps) (hq : ps[i]? = some (.publish q)) :
    ∃ pre id post, evs = pre ++ .controlPacket id (.publish q) c :: post ∧ (pre.filter (From c)).length = i := by
  obtain ⟨packets, hp⟩ := all_packets env peers
  have ho := orderly_packets h (fun c => (hp c).2) c
  have hq' : (packets c)[i]? = some (.publish q) := by
    obtain ⟨t, ht⟩ := (hp c).2 ps hps
    rw [← ht, List.getElem?_append_left (List.getElem?_eq_some_iff.mp hq).1]
    exact hq
  obtain ⟨x, hx⟩ : ∃ x, (evs.filter (From c))[i]? = some x := ⟨_, List.getElem?_eq_getElem hi⟩
  have hx' : (eventsOf (peers c) c (packets c))[i]? = some x := by
    obtain ⟨t, ht⟩ := ho
    rw [← ht, List.getElem?_append_left hi]
    exact hx
  obtain ⟨pre, post, h1, h2⟩ := filter_split hx
  have hev : ∃ id, x = .controlPacket id (.publish q) c := by
    cases hk : packets c with
    | nil => rw [hk] at hq'; simp at hq'
    | cons p rest =>
      rw [hk] at hq' hx'
      cases p with
      | connect p =>
        cases i with
        | zero => simp at hq'
        | succ i =>
          simp only [List.getElem?_cons_succ] at hq'
          simp only [eventsOf, List.getElem?_cons_succ, List.getElem?_map, hq', Option.map_some, Option.some.injEq] at hx'
          exact ⟨_, hx'.symm⟩
      | _ => simp [eventsOf] at hx'
  obtain ⟨id, rfl⟩ := hev
  exact ⟨pre, id, post, h1, h2⟩

theorem acks_mono {xs ys : List ServerEvent} (h : xs <+: ys) : (acksIn xs).length ≤ (acksIn ys).length := (h.filterMap _).length_le

end Sys

/-- C138. Subscribe, then publish: if a client whose client id no other connection uses has read the SUBACK for a filter, and then somebody
sends a message that matches the filter, the message is sent to the client once the broker has dealt with it, unless the client has
disconnected or unsubscribed. -/
theorem C138_subscribe_then_publish (env : Env) (peers : ConnId → Peer) (a b : List OStep) (d : ConnId) (p : ConnectPacket)
    (ps : List ControlPacket) (sub : SubscribePacket) (f : String)
    (hp : Decodes env.profile (given peers (a ++ b) d).segs.flatten (given peers (a ++ b) d).fin (.connect p :: ps ++ [.subscribe sub]))
    (hl : login env.auth p = .accepted) (ho : OwnIds env (given peers (a ++ b)) (· ≠ d)) (hf : f ∈ sub.subscriptions.map fun x => x.topic)
    (xs : List ControlPacket) (hxs : ∀ x ∈ xs, ServerPacket x) (hok : ∀ o ∈ (given peers a d).script, o ≠ .fail)
    (hread : wireOf xs <+: (Open.run env (Open.init peers) a).seen env d)
    (hack : (ps.filterMap ackOf).length < (acksIn (xs.map .controlPacket)).length)
    (hstay : ∀ qs, Decodes env.profile (given peers (a ++ b) d).segs.flatten (given peers (a ++ b) d).fin
      (.connect p :: ps ++ .subscribe sub :: qs) → .disconnect ∉ ps ++ qs ∧ ∀ u, .unsubscribe u ∈ qs → f ∉ u.topics)
    (c : ConnId) (qs : List ControlPacket) (i : Nat) (q : PublishPacket)
    (hqs : Decodes env.profile (given peers (a ++ b) c).segs.flatten (given peers (a ++ b) c).fin qs) (hi : qs[i]? = some (.publish q))
    (hlate : ∀ qs, Decodes env.profile (given peers a c).segs.flatten (given peers a c).fin qs → qs.length ≤ i)
    (hdone : i < dealtWith (Open.run env (Open.init peers) (a ++ b)).sys c)
    (hidle : (Open.run env (Open.init peers) (a ++ b)).sys.handler = .idle) (hmatch : Matches f q.message.topic) :
    .controlPacket (.publish q) ∈ ((Open.run env (Open.init peers) (a ++ b)).sys.conns d).delivered := by
  have hn := not_dealt (env := env) hlate
  obtain ⟨did, h1, h2, h3⟩ := C136_reactive env peers
  have hab := h2 (a ++ b) []
  have haa := h2 a []
  rw [List.append_nil] at hab haa
  obtain ⟨sent, g1, g2, g3⟩ := wire_sent env (given peers a) (did a) d hok
  rw [h3 a d] at hread
  have hsent := ((wireOf_prefix hxs g2 (hread.trans g3)).map ServerEvent.controlPacket).trans g1
  rw [← haa.delivered, (h2 a b).delivered] at hsent
  unfold dealtWith at hn hdone
  rw [hab.log] at hdone
  rw [(h2 a b).log] at hn
  rw [hab.handler] at hidle
  rw [hab.delivered]
  have hord := reads_orderly_served (inv_run env (given peers (a ++ b)) (did (a ++ b))).reads
  obtain ⟨t, ht⟩ := h1 a b
  rw [← ht] at hidle hdone hord ⊢
  obtain ⟨pre, id, post, he, hpre⟩ := find_event hord hdone hqs hi
  refine C104_suback_promise env _ (did a) t d p ps sub f hp hl ho hf (Nat.lt_of_lt_of_le hack (acks_mono hsent)) hstay hidle pre post id q c he
    ?_ hmatch
  apply Classical.byContradiction
  intro hlen
  have hg := (run_grows env (run env (init (given peers (a ++ b))) (did a)) t).1
  rw [← Sys.run_append] at hg
  have hg := hg.map Prod.fst
  have hpf : pre ++ [.controlPacket id (.publish q) c] <+: (run env (init (given peers (a ++ b))) (did a)).log.map Prod.fst := by
    refine List.prefix_of_prefix_length_le (l₃ := (run env (init (given peers (a ++ b))) (did a ++ t)).log.map Prod.fst) ?_ hg ?_
    · have he' : (run env (init (given peers (a ++ b))) (did a ++ t)).log.map Prod.fst = pre ++ .controlPacket id (.publish q) c :: post := he
      rw [he']
      exact ⟨post, by simp⟩
    · simp only [List.length_append, List.length_cons, List.length_nil, List.length_map]
      omega
  have hcount := (hpf.filter (From c)).length_le
  have hone : ([ClientEvent.controlPacket id (.publish q) c].filter (From c)).length = 1 := by simp [From]
  rw [List.filter_append, List.length_append, hpre, hone] at hcount
  omega

/-! ### C139 -/

/-- C139. What the broker writes can be read in one way only: if two sequences of bytes begin with encoded packets, then these are the same
packet, and what follows is the same. -/
theorem C139_unambiguous (p q : ControlPacket) (hp : ServerPacket p) (hq : ServerPacket q) (r s : List UInt8)
    (h : (encoded p).2 ++ r = (encoded q).2 ++ s) : p = q ∧ r = s := by
  obtain ⟨bs, e1, e2⟩ := C04_wire_format p hp
  obtain ⟨cs, e3, e4⟩ := C04_wire_format q hq
  obtain ⟨h1, h2⟩ := serverBytes_parts hp
  obtain ⟨h3, h4⟩ := serverBytes_parts hq
  rw [e1] at h1
  rw [e3] at h3
  rw [e2, e4] at h
  simp only [Option.getD_some] at h1 h3
  rw [h1, h3] at h
  obtain ⟨g1, g2, g3⟩ := packet_unique h2 h4 h
  exact ⟨serverParts_inj hp hq (Prod.ext g1 g2), g3⟩

/-- C139, for a connection: unless a write fails, whatever packets a client can read from what it has got are the first ones of those the
broker has put into its channel. -/
theorem C139_read_back (env : Env) (peers : ConnId → Peer) (sched : List Step) (d : ConnId) (hf : ∀ o ∈ (peers d).script, o ≠ .fail)
    (xs : List ControlPacket) (hxs : ∀ p ∈ xs, ServerPacket p)
    (hx : xs.flatMap (fun p => (encoded p).2) <+: ((run env (init peers) sched).conns d).wr.wire) :
    xs.map .controlPacket <+: ((run env (init peers) sched).conns d).delivered := by
  obtain ⟨sent, g1, g2, g3⟩ := wire_sent env peers sched d hf
  have he : xs.flatMap (fun p => (encoded p).2) = wireOf xs := by
    clear hx
    unfold wireOf
    induction xs with
    | nil => rfl
    | cons p xs ih =>
      obtain ⟨bs, e1, e2⟩ := C04_wire_format p (hxs p List.mem_cons_self)
      rw [List.flatMap_cons, List.flatMap_cons, e1, e2, ih fun q hq => hxs q (List.mem_cons_of_mem _ hq)]
      rfl
  rw [he] at hx
  exact ((wireOf_prefix hxs g2 (hx.trans g3)).map _).trans g1

/-! ### The hypotheses can be met -/

/-- Nobody has done anything yet. -/
def quiet (_ : ConnId) : Peer := ⟨someAddr, "u", [], .silence, []⟩

/-- The first packets of three clients: "a" subscribes to "t"; "b" and "c" publish there. -/
def talk (c : ConnId) : List ClientPacket :=
  if c = 0 then [hello "a", .subscribe 1 [("t", .atMostOnce)]]
  else if c = 1 then [hello "b", .publish blank]
  else if c = 2 then [hello "c", .publish second]
  else []

/-- A client sends its packets, and they are dealt with. -/
def speak (c : ConnId) : List OStep :=
  .arrive c (clientBytes (talk c)) :: [.read c, .read c, .handler 0, .handler 0, .read c, .read c, .handler 0, .handler 0].map .task

/-- "a" reads what it is sent. -/
def listen : List OStep :=
  [.answer 0 (.accept 4095), .answer 0 (.accept 4095), .answer 0 (.accept 4095), .task (.write 0), .task (.write 0)]

/-- "a" subscribes and reads the SUBACK. -/
def actOne : List OStep := speak 0 ++ listen

theorem actOne_seen : (Open.run exampleEnv (Open.init quiet) actOne).seen exampleEnv 0 = wireOf [.connAck ⟨false, .accepted⟩, .subAck ⟨1, [.successQoS0]⟩] := by
  decide +kernel

-- C136: in the middle of a packet, the socket takes no more at the moment
example : (Open.run exampleEnv (Open.init quiet) (speak 0 ++ [.answer 0 (.accept 0), .task (.write 0), .task (.write 0)])).seen exampleEnv 0 = [0x20]
    ∧ (Open.run exampleEnv (Open.init quiet) (speak 0 ++ [.answer 0 (.accept 0), .task (.write 0), .task (.write 0)])).hand 0
      = some (.subAck ⟨1, [.successQoS0]⟩) := by
  constructor <;> decide +kernel

-- C136: and "a" could have broken off before reading anything
example : ((Open.run exampleEnv (Open.init quiet) (speak 0 ++ [.hangUp 0 .eof, .arrive 0 [0xC0, 0], .task (.read 0)])).sys.conns 0).phase = .ended := by
  decide +kernel

theorem talk_sendable (c : ConnId) : Sendable (talk c) := by
  have h0 := chat_sendable 0
  have h1 := chat_sendable 1
  have h2 := chat_sendable 2
  intro x hx
  unfold talk at hx
  split at hx
  · exact h0 x hx
  · split at hx
    · refine h1 x ?_
      simp only [List.mem_cons, List.not_mem_nil, or_false] at hx
      rcases hx with rfl | rfl <;> simp [chatPackets]
    · split at hx
      · exact h2 x hx
      · cases hx

theorem talk_given (c : ConnId) : given quiet (actOne ++ (speak 1 ++ speak 2)) c
    = ⟨someAddr, "u", if c ≤ 2 then [clientBytes (talk c)] else [], .silence, if c = 0 then [.accept 4095, .accept 4095, .accept 4095] else []⟩ := by
  simp only [given, actOne, speak, listen, List.map, List.cons_append, List.nil_append, List.foldl_cons, List.foldl_nil, quiet]
  match c with
  | 0 => rfl
  | 1 => rfl
  | 2 => rfl
  | n + 3 =>
    simp [give]

theorem talk_flat (c : ConnId) : (given quiet (actOne ++ (speak 1 ++ speak 2)) c).segs.flatten = clientBytes (talk c)
    ∧ (given quiet (actOne ++ (speak 1 ++ speak 2)) c).fin = .silence := by
  rw [talk_given]
  refine ⟨?_, rfl⟩
  match c with
  | 0 => simp
  | 1 => simp
  | 2 => simp
  | n + 3 => simp [talk, clientBytes]

theorem talk_decodes {c : ConnId} {ps : List ControlPacket}
    (h : Decodes exampleEnv.profile (given quiet (actOne ++ (speak 1 ++ speak 2)) c).segs.flatten (given quiet (actOne ++ (speak 1 ++ speak 2)) c).fin ps) :
    ps <+: (talk c).map meaning := by
  rw [(talk_flat c).1, (talk_flat c).2] at h
  exact decodes_client_only (talk_sendable c) h

theorem talk_sent (c : ConnId) : Decodes exampleEnv.profile (given quiet (actOne ++ (speak 1 ++ speak 2)) c).segs.flatten
    (given quiet (actOne ++ (speak 1 ++ speak 2)) c).fin ((talk c).map meaning) := by
  rw [(talk_flat c).1, (talk_flat c).2]
  exact decodes_client exampleEnv.profile .silence (talk c) (talk_sendable c)

theorem nothing_decodes {pr : Profile} {ps : List ControlPacket} (h : Decodes pr [] .silence ps) : ps = [] :=
  List.prefix_nil.mp (decodes_client_only (cs := []) (fun _ hx => by cases hx) h)

theorem talk_once (q : PublishPacket) (x : Origin) (hx : ∀ c i, ((talk c).map meaning)[i]? = some (.publish q) → (c, i) = x) :
    SentOnce exampleEnv (given quiet (actOne ++ (speak 1 ++ speak 2))) q :=
  ⟨x, fun c _ hd i hi => hx c i (get_of_prefix (talk_decodes hd) hi)⟩

theorem talk_blank : SentOnce exampleEnv (given quiet (actOne ++ (speak 1 ++ speak 2))) blank := by
  refine talk_once blank (1, 1) fun c i hi => ?_
  unfold talk at hi
  split at hi
  · match i with
    | 0 | 1 => simp [hello, meaning] at hi
    | i + 2 => simp at hi
  · split at hi
    · rename_i h1
      subst h1
      match i with
      | 0 => simp [hello, meaning] at hi
      | 1 => rfl
      | i + 2 => simp at hi
    · split at hi
      · match i with
        | 0 => simp [hello, meaning] at hi
        | 1 => simp [meaning, blank, second] at hi
        | i + 2 => simp at hi
      · simp at hi

theorem talk_second : SentOnce exampleEnv (given quiet (actOne ++ (speak 1 ++ speak 2))) second := by
  refine talk_once second (2, 1) fun c i hi => ?_
  unfold talk at hi
  split at hi
  · match i with
    | 0 | 1 => simp [hello, meaning] at hi
    | i + 2 => simp at hi
  · split at hi
    · match i with
      | 0 => simp [hello, meaning] at hi
      | 1 => simp [meaning, blank, second] at hi
      | i + 2 => simp at hi
    · split at hi
      · rename_i h2
        subst h2
        match i with
        | 0 => simp [hello, meaning] at hi
        | 1 => rfl
        | i + 2 => simp at hi
      · simp at hi

-- C137: "c" sends its message after that of "b" has been sent to "a"; both get there, and nobody could get them the other way round
example : messagesOf ((Open.run exampleEnv (Open.init quiet) (actOne ++ (speak 1 ++ speak 2))).sys.conns 0).delivered = [blank, second]
    ∧ ∀ e, ¬ [second, blank].Sublist (messagesOf ((Open.run exampleEnv (Open.init quiet) (actOne ++ (speak 1 ++ speak 2))).sys.conns e).delivered) := by
  refine ⟨by decide +kernel, fun e => ?_⟩
  rw [← List.append_assoc]
  refine C137_real_time exampleEnv quiet (actOne ++ speak 1) (speak 2) 0 e blank second ?_ ?_ ?_ 2 ((talk 2).map meaning) 1 ?_ rfl ?_
  · rw [List.append_assoc]; exact talk_blank
  · rw [List.append_assoc]; exact talk_second
  · decide +kernel
  · rw [List.append_assoc]; exact talk_sent 2
  · intro ps hps
    have h : given quiet (actOne ++ speak 1) 2 = quiet 2 := rfl
    rw [h] at hps
    rw [nothing_decodes hps]
    exact Nat.zero_le _

-- C138: "a" has read its SUBACK when "b" comes along and publishes
example : .controlPacket (.publish blank) ∈ ((Open.run exampleEnv (Open.init quiet) (actOne ++ (speak 1 ++ speak 2))).sys.conns 0).delivered := by
  refine C138_subscribe_then_publish exampleEnv quiet actOne (speak 1 ++ speak 2) 0 ⟨.mqtt3, "a", 60, true, none, none, none⟩ []
    ⟨1, [⟨"t", .atMostOnce⟩]⟩ "t" (talk_sent 0) rfl ?_ (by simp) _ ?_ ?_ (by rw [actOne_seen]; exact List.prefix_rfl) (by decide +kernel) ?_ 1 _ 1 blank
    (talk_sent 1) rfl ?_ ?_ ?_ ?_
  · intro c d hc hd p ps q qs h1 h2
    have hd : d = 0 := Classical.not_not.mp hd
    subst hd
    have hc : c ≠ 0 := hc
    have g1 := talk_decodes h1
    have g2 := talk_decodes h2
    rw [talk_given, talk_given]
    simp only [talk, hello, meaning, hc, ↓reduceIte, List.map_cons, List.map_nil] at g1 g2
    have e2 := (List.cons_prefix_cons.mp g2).1
    simp only [ControlPacket.connect.injEq] at e2
    subst e2
    split at g1
    · simp [meaning] at g1
      rw [g1.1]
      simp [idOf]
    · split at g1
      · simp [meaning] at g1
        rw [g1.1]
        simp [idOf]
      · simp at g1
  · simp [ServerPacket]
  · intro o ho
    have h : (given quiet actOne 0).script = [.accept 4095, .accept 4095, .accept 4095] := rfl
    rw [h] at ho
    simp only [List.mem_cons, List.not_mem_nil, or_false] at ho
    rcases ho with rfl | rfl | rfl <;> simp
  · intro qs hqs
    have g := talk_decodes hqs
    have hl := g.length_le
    have hq : qs = [] := by
      cases qs with
      | nil => rfl
      | cons x qs => simp [talk] at hl
    subst hq
    simp
  · intro qs hqs
    have h : given quiet actOne 1 = quiet 1 := rfl
    rw [h] at hqs
    rw [nothing_decodes hqs]
    exact Nat.zero_le _
  · decide +kernel
  · decide +kernel
  · exact ⟨["t"], ["t"], (C69_levels _ _).mpr (by decide +kernel), (C69_levels _ _).mpr (by decide +kernel), .literal _ _ _ .done⟩

-- C139: a CONNACK and a PINGRESP are read as such
example : ServerPacket (.connAck ⟨false, .accepted⟩) ∧ ServerPacket .pingResp ∧ (encoded (.connAck ⟨false, .accepted⟩)).2 = [0x20, 2, 0, 0]
    ∧ (encoded .pingResp).2 = [0xD0, 0] := ⟨trivial, trivial, by decide +kernel, by decide +kernel⟩

end Ratel
