/-
C167: what a client that reads slowly costs.
-/
import Verif.Proofs.Slow
import Verif.Spec.Slow
import Verif.Props.Orders
import Verif.Props.Sizes
import Verif.Props.View

namespace Ratel

open Decoder Encoder Spec Sys

/-- What the clients of `Trickle` do: the subscriber settles in, then the others come, send and go, one after the other. -/
def trickleEvents (peers : ConnId → Peer) (m : List UInt8) (n : Nat) : List ClientEvent :=
  [.connected ⟨.mqtt3, "s", 60, true, none, none, none⟩ (peers 0).addr 0, .controlPacket "s" (.subscribe ⟨1, [⟨"t", .atMostOnce⟩]⟩) 0] ++
  (List.range n).flatMap fun i =>
    [.connected ⟨.mqtt3, "p", 60, true, none, none, none⟩ (peers (i + 1)).addr (i + 1), .controlPacket "p" (.publish (withPayload m)) (i + 1),
      .controlPacket "p" .disconnect (i + 1)]

theorem trickle_succ (peers : ConnId → Peer) (m : List UInt8) (n : Nat) : trickleEvents peers m (n + 1) = trickleEvents peers m n ++
    [.connected ⟨.mqtt3, "p", 60, true, none, none, none⟩ (peers (n + 1)).addr (n + 1), .controlPacket "p" (.publish (withPayload m)) (n + 1),
      .controlPacket "p" .disconnect (n + 1)] := by
  unfold trickleEvents
  rw [List.range_succ, List.flatMap_append, ← List.append_assoc]
  simp

theorem trickle_from (peers : ConnId → Peer) (m : List UInt8) (n : Nat) (c : Nat) :
    (trickleEvents peers m n).filter (From c) = if c = 0 then
      [.connected ⟨.mqtt3, "s", 60, true, none, none, none⟩ (peers 0).addr 0, .controlPacket "s" (.subscribe ⟨1, [⟨"t", .atMostOnce⟩]⟩) 0]
    else if c ≤ n then
      [.connected ⟨.mqtt3, "p", 60, true, none, none, none⟩ (peers c).addr c, .controlPacket "p" (.publish (withPayload m)) c,
        .controlPacket "p" .disconnect c] else [] := by
  induction n with
  | zero =>
    by_cases h : c = 0
    · subst h; simp [trickleEvents, From]
    · have h' : ¬ 0 = c := fun e => h e.symm
      simp [trickleEvents, From, h, h']
  | succ n ih =>
    rw [trickle_succ, List.filter_append, ih]
    by_cases h : c = 0
    · subst h
      have : ¬ n + 1 = 0 := by omega
      simp [From]
    · simp only [h, ↓reduceIte]
      by_cases h1 : c = n + 1
      · subst h1
        have : ¬ n + 1 ≤ n := by omega
        simp [From]
      · have h2 : ¬ n + 1 = c := fun e => h1 e.symm
        by_cases h3 : c ≤ n
        · have : c ≤ n + 1 := by omega
          simp [From, h2, h3, this]
        · have : ¬ c ≤ n + 1 := by omega
          simp [From, h2, h3, this]

/-- The subscriber is there, nobody else is. -/
def settled : Broker := ⟨fun c => if c = "s" then some 0 else none, [("s", "t")]⟩

theorem trickle_after (auth : IdentityProvider) (peers : ConnId → Peer) (m : List UInt8) (n : Nat) :
    Broker.start.after auth (trickleEvents peers m n) = some settled := by
  induction n with
  | zero => rfl
  | succ n ih =>
    rw [trickle_succ, after_append, ih]
    simp only [Option.bind_some, Broker.after, Broker.step, login, Broker.packet]
    simp [settled, Broker.forget, SubOp.client, Entries.counting]
    refine ⟨?_, ?_⟩
    · funext c
      by_cases h : c = "p"
      · subst h; simp
      · simp [h]
    · decide +kernel

theorem trickle_outputs (auth : IdentityProvider) (peers : ConnId → Peer) (m : List UInt8) (n : Nat) (d : Nat) :
    Broker.start.outputs auth (trickleEvents peers m n) d =
      (if d = 0 then [.controlPacket (.connAck ⟨false, .accepted⟩), .controlPacket (.subAck ⟨1, [.successQoS0]⟩)]
          ++ List.replicate n (.controlPacket (.publish (withPayload m)))
        else if d ≤ n then [.controlPacket (.connAck ⟨false, .accepted⟩)] else []) := by
  induction n with
  | zero =>
    by_cases h : d = 0
    · subst h
      simp [trickleEvents, Broker.outputs, Broker.step, login, Broker.packet, to]
    · simp [trickleEvents, Broker.outputs, Broker.step, login, Broker.packet, to, h]
  | succ n ih =>
    rw [trickle_succ, outputs_append, trickle_after, ih]
    have hc : ∀ b : Broker, b.session "s" = some 0 → b.subs = [("s", "t")] → b.copiesTo d "t" = if d = 0 then 1 else 0 := by
      intro b h1 h2
      by_cases h : d = 0
      · subst h; simp [Broker.copiesTo, h1, h2, ways_t]
      · have h' : ¬ 0 = d := fun e => h e.symm
        simp [Broker.copiesTo, h1, h2, h, h']
    simp only [Broker.outputs, Broker.step, login, Broker.packet, to, nothing, List.append_nil, withPayload]
    rw [hc _ (by simp [settled]) (by simp [settled])]
    by_cases h : d = 0
    · subst h
      have : ¬ 0 = n + 1 := by omega
      simp [List.replicate_succ']
    · simp only [h, ↓reduceIte, List.replicate_zero, List.append_nil]
      by_cases h1 : d = n + 1
      · subst h1
        have : ¬ n + 1 ≤ n := by omega
        simp
      · by_cases h3 : d ≤ n
        · have : d ≤ n + 1 := by omega
          simp [h1, h3, this]
        · have : ¬ d ≤ n + 1 := by omega
          simp [h1, h3, this]

theorem passerBy_sendable {m : List UInt8} (hm : m.length ≤ 1000) : Sendable (passerBy m) ∧ (clientBytes (passerBy m)).length < 4096 := by
  have hr : (clientRest (.publish (withPayload m))).length ≤ 1010 := by
    have : (str "t").length = 3 := by decide +kernel
    simp only [clientRest, publishRest, withPayload, List.length_append, this, Spec.optional, List.length_nil]
    omega
  constructor
  · intro c hc
    simp only [passerBy, List.mem_cons, List.not_mem_nil, or_false] at hc
    rcases hc with rfl | rfl | rfl
    · exact hello_sendable "p" (by unfold Fits; decide +kernel) (by decide +kernel)
    · exact ⟨⟨(by unfold Fits; decide +kernel : Fits "t"), by simp [withPayload]⟩, trivial, by omega⟩
    · exact ⟨trivial, trivial, by decide⟩
  · have h1 : (packet (clientFirst (hello "p")) (clientRest (hello "p"))).length = 15 := by decide +kernel
    have h3 : (packet (clientFirst .disconnect) (clientRest .disconnect)).length = 2 := by decide +kernel
    have h2 : (packet (clientFirst (.publish (withPayload m))) (clientRest (.publish (withPayload m)))).length ≤ 1016 := by
      have := length_varInt_small (n := (clientRest (.publish (withPayload m))).length) (by omega)
      simp only [packet, List.length_append, List.length_cons]
      omega
    simp only [clientBytes, passerBy, List.flatMap_cons, List.flatMap_nil, List.length_append, List.append_nil, h1, h3]
    omega

theorem trickle_orderly {env : Env} {n : Nat} {m : List UInt8} (hm : m.length ≤ 1000) {peers : ConnId → Peer} (h : Trickle n m peers) :
    Orderly env peers (trickleEvents peers m n) := by
  intro (c : Nat)
  rw [trickle_from]
  by_cases h0 : c = 0
  · subst h0
    refine ⟨subscriberPackets.map meaning, ?_, ?_⟩
    · rw [h.subscriber]; exact decodes_client _ _ _ subscriber_sendable
    · simp [subscriberPackets, hello, meaning, eventsOf, idOf]
  · by_cases hc : c ≤ n
    · refine ⟨(passerBy m).map meaning, ?_, ?_⟩
      · have := h.senders (c - 1) (by omega)
        rw [Nat.sub_add_cancel (by omega)] at this
        rw [this]
        exact decodes_client _ _ _ (passerBy_sendable hm).1
      · rw [if_neg h0, if_pos hc]
        simp [passerBy, hello, meaning, eventsOf, idOf]
    · rw [if_neg h0, if_neg hc]
      exact ⟨[], ⟨_, rfl⟩, List.nil_prefix⟩

theorem trickle_short {n : Nat} {m : List UInt8} (hm : m.length ≤ 1000) {peers : ConnId → Peer} (h : Trickle n m peers) (c : Nat) :
    (peers c).segs.flatten.length < 4096 := by
  by_cases h0 : c = 0
  · subst h0; rw [h.subscriber]; decide +kernel
  · by_cases hc : (c : Nat) ≤ n
    · have := h.senders (c - 1) (by omega)
      rw [Nat.sub_add_cancel (by omega)] at this
      rw [this]
      exact (passerBy_sendable hm).2
    · rw [h.rest c (by omega)]; decide

theorem withPayload_bytes {m : List UInt8} (hm : m.length ≤ 1000) : WStream.Small (.publish (withPayload m)) ∧ ServerPacket (.publish (withPayload m))
    ∧ ∃ bs, serverBytes (.publish (withPayload m)) = some bs ∧ m.length + 5 ≤ bs.length := by
  refine ⟨.publish _ (by decide +kernel : (strBytes "t").length ≤ 1000) hm, ⟨(by unfold Fits; decide +kernel : Fits "t"), by simp [withPayload]⟩, _, rfl, ?_⟩
  have h1 : (str "t").length = 3 := by decide +kernel
  have h2 : 1 ≤ (varInt (publishRest (withPayload m)).length).length := by
    rw [varInt]
    split <;> simp
  simp only [packet, List.length_cons, List.length_append]
  have : (publishRest (withPayload m)).length = m.length + 3 := by
    simp only [publishRest, withPayload, List.length_append, h1, Spec.optional, List.length_nil]
    omega
  omega

theorem wireOf_replicate {p : ControlPacket} {bs : List UInt8} (h : serverBytes p = some bs) (n : Nat) :
    (wireOf (List.replicate n p)).length = n * bs.length := by
  induction n with
  | zero => simp [wireOf]
  | succ n ih =>
    rw [wireOf] at *
    rw [List.replicate_succ, List.flatMap_cons, List.length_append, ih, h, Nat.succ_mul, Nat.add_comm]
    rfl

/-- C167 fails. A subscriber takes everything it is sent, one byte at a time; no write to it fails, and none is kept waiting. Others come one
after the other, send it a message `m` and go. When `n` of them have come, the broker holds at least `n` times the length of the message, less
ten bytes each, in the write buffer of the subscriber; for every `n`. -/
theorem C167_slow_reader_fails (env : Env) (m : List UInt8) (hm : 16 ≤ m.length) (hm' : m.length ≤ 1000) (n : Nat) :
    ∃ w : Nat, ∀ peers, Trickle n m peers → (∀ c, w ≤ (peers c).script.length) →
      ∃ sched, (run env (init peers) sched).handler = .idle ∧ (run env (init peers) sched).log.map Prod.fst = trickleEvents peers m n
        ∧ ((run env (init peers) sched).conns 0).wrBlocked = false ∧ ((run env (init peers) sched).conns 0).wr.script ≠ []
        ∧ n * (m.length - 10) ≤ ((run env (init peers) sched).conns 0).wr.buf.len := by
  have hout : ∀ (peers : ConnId → Peer) (d : Nat), packetsIn (Broker.start.outputs env.auth (trickleEvents peers m n) d)
      = if d = 0 then .connAck ⟨false, .accepted⟩ :: .subAck ⟨1, [.successQoS0]⟩ :: List.replicate n (.publish (withPayload m))
        else if d ≤ n then [.connAck ⟨false, .accepted⟩] else [] := by
    intro peers d
    rw [trickle_outputs]
    split
    · simp [packetsIn]
    · split <;> simp [packetsIn]
  refine ⟨writesForAll env.alloc (.connAck ⟨false, .accepted⟩ :: .subAck ⟨1, [.successQoS0]⟩ :: List.replicate n (.publish (withPayload m)))
    + writesForAll env.alloc [.connAck ⟨false, .accepted⟩] + (8 * (n + 2) + 1), fun peers h hw => ?_⟩
  have hshort := trickle_short hm' h
  have hA : Ample env peers (trickleEvents peers m n) := by
    intro d
    have := hw d
    rw [hout]
    split
    · omega
    · split
      · omega
      · exact Nat.zero_le _
  obtain ⟨ps, h1, h2⟩ := possible_packets ((inOrder_short hshort _).mpr (trickle_orderly (env := env) hm' h))
  obtain ⟨sched, hs⟩ := servedAll h1 (trickleEvents peers m n) hA (fun ev hev => by
      simp only [trickleEvents, List.mem_append, List.mem_cons, List.not_mem_nil, or_false, List.mem_flatMap] at hev
      rcases hev with (rfl | rfl) | ⟨i, _, rfl | rfl | rfl⟩ <;> exact ⟨_, rfl⟩) h2 (by rw [trickle_after]; rfl) (fun d => by
      have : fromAway (Broker.start.outputs env.auth (trickleEvents peers m n) d) = [] := by
        refine fromAway_nil fun e he => ?_
        rw [trickle_outputs] at he
        split at he
        · simp only [List.mem_cons, List.mem_append, List.mem_replicate, List.mem_map] at he
          intro hd; subst hd; simp at he
        · split at he
          · intro hd; subst hd; simp at he
          · simp at he
      rw [this]; decide)
  have hinv := inv_run env peers sched
  have hserved : (run env (init peers) sched).served = trickleEvents peers m n := hs.served
  have hblock := ample_open hA sched (by rw [hserved]; exact List.prefix_rfl) 0
  have hwritten : ((run env (init peers) sched).conns 0).written
      = .connAck ⟨false, .accepted⟩ :: .subAck ⟨1, [.successQoS0]⟩ :: List.replicate n (.publish (withPayload m)) := by
    obtain ⟨b, _, _, ho⟩ := idle_rest hinv.serves hs.idle
    have hd := ho 0
    obtain ⟨hx, hq⟩ := hs.calm 0
    rw [hserved, (hinv.writes 0).all hx] at hd
    have hd' := congrArg packetsIn hd
    rw [hout, if_pos rfl] at hd'
    rw [← hd']
    rcases hq with hq | ⟨r, hq⟩
    · rw [hq, List.append_nil, packetsIn_map]
    · have := trickle_outputs env.auth peers m n 0
      rw [← hd, hq, if_pos rfl] at this
      have hm : ServerEvent.disconnect ∈ List.map ServerEvent.controlPacket ((run env (init peers) sched).conns 0).written ++ ServerEvent.disconnect :: r := by simp
      rw [this] at hm
      simp at hm
  obtain ⟨hsmall, hsp, bs, hbs, hlen⟩ := withPayload_bytes hm'
  have hc := (hinv.writes 0).clean (fun o ho => by rw [h.slow o ho]; simp) (by
    rw [hwritten]
    intro p hp
    simp only [List.mem_cons] at hp
    rcases hp with rfl | rfl | hp
    · trivial
    · trivial
    · rw [List.eq_of_mem_replicate hp]; exact hsp)
  have hout' := hc.2.1 hblock
  have hwr := (hinv.writes 0).wr
  rw [hwritten] at hwr hout'
  have hl0 : 8 * (n + 2) < (peers 0).script.length := by have := hw 0; omega
  obtain ⟨c2, c3⟩ := WStream.slow_all env.alloc h.slow n hl0 hsmall hsp hbs (by omega)
  rw [← hwr] at c2 c3
  refine ⟨sched, hs.idle, hs.served, hblock, c3, ?_⟩
  · have hT : n * (m.length + 5) + 9 ≤ ((run env (init peers) sched).conns 0).wr.out.length := by
      rw [hout']
      have e1 : serverBytes (.connAck ⟨false, .accepted⟩) = some [0x20, 2, 0, 0] := by decide +kernel
      have e2 : serverBytes (.subAck ⟨1, [.successQoS0]⟩) = some [0x90, 3, 0, 1, 0] := by decide +kernel
      have := Nat.mul_le_mul_left n hlen
      have e3 := wireOf_replicate hbs n
      rw [wireOf, List.flatMap_cons, List.flatMap_cons, e1, e2] at *
      simp only [Option.getD_some, List.length_append, List.length_cons, List.length_nil]
      omega
    have hsum : ((run env (init peers) sched).conns 0).wr.out.length
        = ((run env (init peers) sched).conns 0).wr.wire.length + ((run env (init peers) sched).conns 0).wr.buf.len := by
      simp [WStream.out, BytesMut.len]
    have e1 : n * (m.length + 5) = n * (m.length - 10) + n * 15 := by
      rw [← Nat.mul_add]; congr 1; omega
    rcases Nat.eq_zero_or_pos n with h0 | h0
    · simp [h0]
    · omega

/-- Such clients, for any number and any message. -/
def trickling (n : Nat) (m : List UInt8) (w : Nat) : ConnId → Peer := fun c =>
  ⟨⟨127, c⟩, "u", if c = 0 then [clientBytes subscriberPackets] else if c ≤ n then [clientBytes (passerBy m)] else [], .silence,
    List.replicate w (.accept 0)⟩

example (n w : Nat) (m : List UInt8) : Trickle n m (trickling n m w) ∧ ∀ c, w ≤ (trickling n m w c).script.length := by
  refine ⟨⟨by simp [trickling], fun o ho => List.eq_of_mem_replicate ho, fun i hi => ?_, fun c hc => ?_⟩, fun c => by simp [trickling]⟩
  · have h1 : i + 1 ≠ 0 := by omega
    have h2 : i + 1 ≤ n := hi
    simp [trickling, h2]
  · have h1 : c ≠ 0 := by omega
    have h2 : ¬ c ≤ n := by omega
    simp [trickling, h1, h2]

/-- So no bound holds of the write buffer: for every `b` there are clients, none of which sends more than 80 bytes, no write to which fails or is kept
waiting, and a schedule, after which the broker keeps more than `b` bytes for one of them. -/
theorem C167_no_bound_fails (env : Env) (b : Nat) : ∃ peers sched, (∀ c, (peers c).segs.flatten.length ≤ 80 ∧ ∀ o ∈ (peers c).script, o = .accept 0)
    ∧ ((run env (init peers) sched).conns 0).wrBlocked = false ∧ b < ((run env (init peers) sched).conns 0).wr.buf.len := by
  obtain ⟨w, hw⟩ := C167_slow_reader_fails env (List.replicate 16 0) (by decide) (by decide) (b + 1)
  obtain ⟨sched, _, _, h1, _, h2⟩ := hw (trickling (b + 1) (List.replicate 16 0) w) ⟨by simp [trickling], fun o ho => List.eq_of_mem_replicate ho, fun i hi => by
    have h2 : i + 1 ≤ b + 1 := hi
    simp [trickling, h2], fun c hc => by
    have h1 : c ≠ 0 := by omega
    have h2 : ¬ c ≤ b + 1 := by omega
    simp [trickling, h1, h2]⟩ (fun c => by simp [trickling])
  refine ⟨_, sched, fun c => ⟨?_, fun o ho => List.eq_of_mem_replicate ho⟩, h1, ?_⟩
  · unfold trickling
    simp only
    split
    · decide +kernel
    · split
      · decide +kernel
      · decide +kernel
  · have e : (List.replicate 16 (0 : UInt8)).length = 16 := List.length_replicate
    rw [e] at h2
    omega

theorem writeOn_roomy (al : Alloc) (ps : List ControlPacket) {s : WStream} (h : WStream.Roomy 4096 [] s) : WStream.Roomy 4096 [] (writeOn al ps s) := by
  induction ps generalizing s with
  | nil => exact h
  | cons p ps ih => exact ih (WStream.writePacket_roomy al (by decide) p h).2.1

/-- What holds of C167. While the socket of a client takes all that the broker has buffered in one write, or nothing, the write buffer stays an allocation
of 4096 bytes, whatever the client is sent; at most 32 packets wait for the client, and no text in them is longer than 4096 bytes. What is
missing: sockets that take a part of what they are given. -/
theorem C167_buffer_partial (env : Env) (peers : ConnId → Peer) (hu : ∀ c, (utf8 (peers c).uuid).length ≤ 4096) (sched : List Step) (c : ConnId) :
    (TakesFull (peers c) → ((run env (init peers) sched).conns c).wr.buf.off + ((run env (init peers) sched).conns c).wr.buf.cap = 4096
      ∧ ((run env (init peers) sched).conns c).wr.buf.len ≤ 4096)
    ∧ ((run env (init peers) sched).conns c).queue.length ≤ 32
    ∧ ∀ e ∈ ((run env (init peers) sched).conns c).queue, ServerUpTo 4096 e := by
  have hw := (inv_run env peers sched).writes c
  refine ⟨fun hf => ?_, hw.bound, fun e he => (C121_sizes env peers hu sched).2 c e (hw.sent.subset (List.mem_append_right _ he))⟩
  have hr := writeOn_roomy env.alloc ((run env (init peers) sched).conns c).written (s := WStream.new 4096 (peers c).script)
    ⟨by simp [WStream.new, BytesMut.withCapacity, BytesMut.len], rfl, hf, List.nil_prefix⟩
  rw [← hw.wr] at hr
  have := hr.wf
  have := hr.total
  exact ⟨hr.total, by omega⟩

example : TakesFull ⟨⟨127, 1⟩, "u", [], .silence, [.accept 4095, .accept 65535]⟩ := by
  intro o ho
  simp at ho
  rcases ho with rfl | rfl <;> exact ⟨_, rfl, by decide⟩

end Ratel
