/-
C168: how the bytes of the clients arrive makes no difference. C169: what comes later takes nothing away.
-/
import Verif.Spec.Alike
import Verif.Proofs.More
import Verif.Props.Lasting

namespace Ratel

open Decoder Encoder Spec Sys

theorem eventsOf_same {peer peer' : Peer} (h : SameClient peer peer') (c : ConnId) : eventsOf peer' c = eventsOf peer c := by
  funext l
  unfold eventsOf idOf
  rw [h.1, h.2]

/-- What is in order for some clients is for clients from which at least the same is received. -/
theorem inOrder_more {env : Env} {peers peers' : ConnId → Peer} (hc : ∀ c, SameClient (peers c) (peers' c))
    (hr : ∀ c ps, Receives env (peers c) ps → Receives env (peers' c) ps) {evs : List ClientEvent} (h : InOrder env peers evs) :
    InOrder env peers' evs := by
  intro c
  obtain ⟨ps, h1, h2⟩ := h c
  exact ⟨ps, hr c ps h1, by rw [eventsOf_same (hc c)]; exact h2⟩

/-- C169. Take clients from which at least the packets can be received that can be received from some others. What the broker can do with the others, it
can do with them, as long as their sockets take enough writes: take the same events in the same order and send everybody the same, or crash. -/
theorem C169_more_packets (env : Env) (evs : List ClientEvent) (out : ConnId → List ServerEvent) : ∃ n : ConnId → Nat, ∀ (peers peers' : ConnId → Peer),
    (∀ c, SameClient (peers c) (peers' c)) → (∀ c ps, Receives env (peers c) ps → Receives env (peers' c) ps) →
    (∀ c, n c ≤ (peers c).script.length ∧ n c ≤ (peers' c).script.length) →
    (CanServe env peers evs out → CanServe env peers' evs out) ∧ (CanCrash env peers evs → CanCrash env peers' evs) := by
  obtain ⟨n1, hn1⟩ := C77_any_length_iff env evs
  obtain ⟨n2, hn2⟩ := C77_any_possible env evs
  obtain ⟨n3, hn3⟩ := C135_any_length_iff env evs
  refine ⟨fun c => max (n1 c) (max (n2 c) (n3 c)), fun peers peers' hc hr hn => ?_⟩
  have hm : ∀ c, n1 c ≤ max (n1 c) (max (n2 c) (n3 c)) ∧ n2 c ≤ max (n1 c) (max (n2 c) (n3 c)) ∧ n3 c ≤ max (n1 c) (max (n2 c) (n3 c)) := fun c => by omega
  refine ⟨?_, fun h => ?_⟩
  · rintro ⟨sched, h1, h2, h3⟩
    obtain ⟨g1, g2, g3, g4⟩ := (hn1 peers (fun c => Nat.le_trans (hm c).1 (hn c).1)).mp ⟨sched, h1, h2⟩
    obtain ⟨sched', k1, k2, k3⟩ := hn2 peers' (fun c => Nat.le_trans (hm c).2.1 (hn c).2) ⟨inOrder_more hc hr g1, g2, g3, g4⟩
    refine ⟨sched', k1, k2, fun d => ?_⟩
    obtain ⟨b, _, _, ho⟩ := idle_rest (inv_run env peers sched).serves h1
    have hd := ho d
    rw [show (run env (init peers) sched).served = evs from h2] at hd
    rw [(k3 d).1, ← hd, h3 d]
  · obtain ⟨⟨g1, g2, g3, g4⟩, g5, g6, g7⟩ := (hn3 peers (fun c => Nat.le_trans (hm c).2.2 (hn c).1)).mp h
    exact (hn3 peers' (fun c => Nat.le_trans (hm c).2.2 (hn c).2)).mpr ⟨⟨inOrder_more hc hr g1, g2, g3, g4⟩, inOrder_more hc hr g5, g6, g7⟩

theorem receives_followed {env : Env} {peer peer' : Peer} {more : List (List UInt8)} (h : peer'.segs = peer.segs ++ more) {ps : List ControlPacket}
    (hr : Receives env peer ps) : Receives env peer' ps := by
  letI := RStream.source env.alloc
  obtain ⟨rd, hrd⟩ := receives_iff.mp hr
  have L := RStream.followed_laws env.alloc more peer'.fin
  have key : ∀ k, More (RStream.Followed more peer'.fin) (readMany env.profile k : M RStream _) (readMany env.profile k : M RStream _) := by
    intro k
    induction k with
    | zero => exact More.pure _
    | succ k ih => exact (L.readPacket env.profile).bind fun _ => ih.bind fun _ => More.pure _
  obtain ⟨t, h1, _⟩ := key ps.length _ (RStream.followed more peer'.fin (RStream.new 4096 peer.segs peer.fin)) rfl ps rd hrd
  refine receives_iff.mpr ⟨t, ?_⟩
  rw [show RStream.new 4096 peer'.segs peer'.fin = RStream.followed more peer'.fin (RStream.new 4096 peer.segs peer.fin) by rw [h]; rfl]
  exact h1

/-- C169. Whatever the broker can do with some clients it can do when some of them send more later, when others join (a connection on which nothing came
before is one on which more comes), and however their connections end. -/
theorem C169_later (env : Env) (evs : List ClientEvent) (out : ConnId → List ServerEvent) : ∃ n : ConnId → Nat, ∀ (peers peers' : ConnId → Peer),
    (∀ c, SendsMore (peers c) (peers' c)) → (∀ c, n c ≤ (peers c).script.length ∧ n c ≤ (peers' c).script.length) →
    (CanServe env peers evs out → CanServe env peers' evs out) ∧ (CanCrash env peers evs → CanCrash env peers' evs) := by
  obtain ⟨n, hn⟩ := C169_more_packets env evs out
  exact ⟨n, fun peers peers' h => hn peers peers' (fun c => (h c).1) fun c ps => receives_followed (h c).2.choose_spec⟩

/-- C168. What the broker can do with some clients depends on nothing but the packets received from them: if the same packets can be received from
others, in whatever pieces the bytes come and however the connections end, it can do the same with those. -/
theorem C168_only_packets (env : Env) (evs : List ClientEvent) (out : ConnId → List ServerEvent) : ∃ n : ConnId → Nat, ∀ (peers peers' : ConnId → Peer),
    (∀ c, SameClient (peers c) (peers' c)) → (∀ c ps, Receives env (peers c) ps ↔ Receives env (peers' c) ps) →
    (∀ c, n c ≤ (peers c).script.length ∧ n c ≤ (peers' c).script.length) →
    (CanServe env peers evs out ↔ CanServe env peers' evs out) ∧ (CanCrash env peers evs ↔ CanCrash env peers' evs) := by
  obtain ⟨n, hn⟩ := C169_more_packets env evs out
  refine ⟨n, fun peers peers' hc hr hs => ?_⟩
  have h1 := hn peers peers' hc (fun c ps => (hr c ps).mp) hs
  have h2 := hn peers' peers (fun c => ⟨(hc c).1.symm, (hc c).2.symm⟩) (fun c ps => (hr c ps).mpr) fun c => ⟨(hs c).2, (hs c).1⟩
  exact ⟨⟨h1.1, h2.1⟩, ⟨h1.2, h2.2⟩⟩

/-- From the same bytes in other pieces the same packets are received. -/
theorem receives_split {env : Env} {peer peer' : Peer} (h : peer'.segs.flatten = peer.segs.flatten)
    (hs : env.alloc.clearOnFullAdvance = false ∨ peer.segs.flatten.length < 4096) {ps : List ControlPacket} (hr : Receives env peer ps) :
    Receives env peer' ps := by
  have hr : Receives env { peer with fin := peer'.fin } ps := receives_followed (peer := peer) (peer' := { peer with fin := peer'.fin }) (more := []) (List.append_nil _).symm hr
  rcases hs with hal | hl
  · unfold Receives at *
    rw [← C91_split_partial env.alloc hal env.profile 4096 (by decide) peer.segs peer'.segs peer'.fin ps.length h.symm]
    exact hr
  · have hd := receives_decodes hr
    simp only at hd
    rw [← h] at hd
    exact receives_iff.mpr (finds_new env peer' hd (by rw [h]; exact hl)).2

/-- C168. If the clients send the same bytes, in whatever pieces TCP brings them, and however the connections end, the broker can do the same with them:
the same events in the same order with the same packets sent to each, and the same crashes. What is missing: releases of the library that
reset an emptied view, on connections of 4096 bytes or more (C91). -/
theorem C168_pieces_partial (env : Env) (evs : List ClientEvent) (out : ConnId → List ServerEvent) : ∃ n : ConnId → Nat, ∀ (peers peers' : ConnId → Peer),
    (∀ c, SameClient (peers c) (peers' c)) → (∀ c, (peers' c).segs.flatten = (peers c).segs.flatten) →
    (env.alloc.clearOnFullAdvance = false ∨ ∀ c, (peers c).segs.flatten.length < 4096) →
    (∀ c, n c ≤ (peers c).script.length ∧ n c ≤ (peers' c).script.length) →
    (CanServe env peers evs out ↔ CanServe env peers' evs out) ∧ (CanCrash env peers evs ↔ CanCrash env peers' evs) := by
  obtain ⟨n, hn⟩ := C168_only_packets env evs out
  refine ⟨n, fun peers peers' hc hb hs => hn peers peers' hc fun c ps => ⟨receives_split (hb c) (hs.imp_right fun h => h c),
    receives_split (hb c).symm (hs.imp_right fun h => by rw [hb c]; exact h c)⟩⟩

theorem readMany_part {σ : Type} [ByteSource σ] (pr : Profile) (k n : Nat) {s s' : σ} {ps : List ControlPacket}
    (h : (readMany pr (k + n) : M σ _) s = (.ok ps, s')) : ∃ s₁, (readMany pr k : M σ _) s = (.ok (ps.take k), s₁) := by
  induction k generalizing s ps with
  | zero => exact ⟨s, by simp [readMany]⟩
  | succ k ih =>
    rw [Nat.add_right_comm, readMany] at h
    obtain ⟨p, s₁, h1, h2⟩ := M.bind_eq_ok.mp h
    obtain ⟨qs, s₂, h3, h4⟩ := M.bind_eq_ok.mp h2
    cases h4
    obtain ⟨s₃, h5⟩ := ih h3
    refine ⟨s₃, ?_⟩
    rw [readMany, M.bind_ok h1, M.bind_ok h5]
    rfl

/-- Of packets that can be received so can the first ones. -/
theorem receives_prefix {env : Env} {peer : Peer} {ps qs : List ControlPacket} (h : Receives env peer ps) (hp : qs <+: ps) : Receives env peer qs := by
  letI := RStream.source env.alloc
  obtain ⟨t, rfl⟩ := hp
  obtain ⟨rd, hrd⟩ := receives_iff.mp h
  rw [List.length_append] at hrd
  obtain ⟨s₁, h1⟩ := readMany_part env.profile qs.length t.length hrd
  rw [List.take_left] at h1
  exact receives_iff.mpr ⟨s₁, h1⟩

/-- C168, for clients that send legal packets: what counts are the packets that fit into the windows of the read buffer, up to the first that does not. -/
theorem C168_clients_partial (env : Env) (hal : env.alloc.clearOnFullAdvance = false) (evs : List ClientEvent) (out : ConnId → List ServerEvent) :
    ∃ n : ConnId → Nat, ∀ (peers peers' : ConnId → Peer) (cs cs' : ConnId → List ClientPacket), (∀ c, SameClient (peers c) (peers' c)) →
    (∀ c, (peers c).segs.flatten = clientBytes (cs c)) → (∀ c, (peers' c).segs.flatten = clientBytes (cs' c)) →
    (∀ c, Sendable (cs c) ∧ Sendable (cs' c)) → (∀ c, (fitting 4096 4096 (cs' c)).map meaning = (fitting 4096 4096 (cs c)).map meaning) →
    (∀ c, n c ≤ (peers c).script.length ∧ n c ≤ (peers' c).script.length) →
    (CanServe env peers evs out ↔ CanServe env peers' evs out) ∧ (CanCrash env peers evs ↔ CanCrash env peers' evs) := by
  obtain ⟨n, hn⟩ := C168_only_packets env evs out
  refine ⟨n, fun peers peers' cs cs' hc hb hb' hs hf => hn peers peers' hc fun c ps => ?_⟩
  obtain ⟨h1, h2⟩ := receives_client hal (hs c).1 (hb c)
  obtain ⟨h1', h2'⟩ := receives_client hal (hs c).2 (hb' c)
  rw [hf c] at h1' h2'
  exact ⟨fun h => receives_prefix h1' (h2 ps h), fun h => receives_prefix h1 (h2' ps h)⟩

/-! ### Where it makes a difference -/

/-- CONNECT, `k` PINGREQs and a message. -/
def pinger (k : Nat) : List ClientPacket := hello "c" :: List.replicate k .pingReq ++ [.publish testMessage]

/-- CONNECT comes in one piece, the bytes of the PINGREQs one by one, and then the message. -/
def oneByOne (k : Nat) : List (List UInt8) := [clientBytes [hello "c"]] ++ pingsOneByOne k [packet (publishFirst testMessage) (publishRest testMessage)]

theorem oneByOne_flatten (k : Nat) : (oneByOne k).flatten = clientBytes (pinger k) := by
  unfold oneByOne pinger
  rw [List.flatten_append, pingsOneByOne_flatten]
  simp [clientBytes, sentBytes, clientFirst, clientRest]

theorem hello_legal : Legal (hello "c") := ⟨(by unfold Fits; decide +kernel : Fits "MQTT"), (by unfold Fits; decide +kernel : Fits "c"), by simp, by simp, by simp⟩

/-- All is received. -/
theorem oneByOne_received {env : Env} (hal : env.alloc.clearOnFullAdvance = true) {peer : Peer} {k : Nat} (h : peer.segs = oneByOne k) :
    Receives env peer ((pinger k).map meaning) := by
  letI := RStream.source env.alloc
  have hsmall : (publishRest testMessage).length < 2097152 := by rw [testMessage_rest]; decide
  have hlen : (clientBytes [hello "c"]).length = 15 := by decide +kernel
  have hc : clientBytes [hello "c"] = packetWith (varInt (clientRest (hello "c")).length) (clientFirst (hello "c")) (clientRest (hello "c")) := by
    simp [clientBytes]; rfl
  obtain ⟨s₁, h1, h2, _, h3⟩ := (RStream.laws env.alloc).readPacket env.profile (hello "c") hello_legal rfl _ (lengthField_varInt _)
    (length_varInt_small (by decide +kernel)) (RStream.new 4096 [clientBytes [hello "c"]] peer.fin) [] 4081
    (by show [] ++ [clientBytes [hello "c"]].flatten = _; rw [← hc]; simp) (by
      rw [← hc, hlen]
      exact ⟨by simp [RStream.Wf, RStream.new, BytesMut.withCapacity, BytesMut.len], Nat.le_refl 4096⟩)
  obtain ⟨t, h4, h5⟩ := ((RStream.followed_laws env.alloc (pingsOneByOne k [packet (publishFirst testMessage) (publishRest testMessage)]) peer.fin).readPacket
    env.profile) _ _ rfl _ _ h1
  obtain rfl : t = RStream.followed _ _ s₁ := h5
  rcases s₁ with ⟨⟨off, cap, data⟩, segs, f⟩
  have h2' : data ++ segs.flatten = [] := h2
  obtain ⟨rfl, hsegs⟩ := List.append_eq_nil_iff.mp h2'
  have hcap : 4081 ≤ cap := h3.2
  have hde : ∀ l : List (List UInt8), l.flatten = [] → ∀ r, RStream.dropEmpty (l ++ r) = RStream.dropEmpty r := by
    intro l hl r
    induction l with
    | nil => rfl
    | cons x l ih =>
      rw [List.flatten_cons] at hl
      obtain ⟨rfl, hl⟩ := List.append_eq_nil_iff.mp hl
      exact ih hl
  obtain ⟨segs', h6, h7⟩ := readPings_alone env.alloc hal env.profile off cap k (by omega) _ _ peer.fin
    (hde segs hsegs (pingsOneByOne k [packet (publishFirst testMessage) (publishRest testMessage)]))
  obtain ⟨s', h8, _⟩ := (RStream.laws env.alloc).readPacket env.profile (.publish testMessage) testMessage_legal trivial _
      (lengthField_varInt _) (length_varInt_small hsmall) ⟨⟨off, cap, []⟩, segs', peer.fin⟩ [] 0
      (by
        show [] ++ segs'.flatten = _
        rw [← RStream.flatten_dropEmpty segs', h7, RStream.flatten_dropEmpty]
        simp only [List.nil_append, List.flatten_cons, List.flatten_nil, List.append_nil]
        rfl)
      ⟨by simp [RStream.Wf, BytesMut.len], by
        show 0 + (packet (publishFirst testMessage) (publishRest testMessage)).length ≤ cap
        rw [testMessage_packet]
        simp
        omega⟩
  refine receives_iff.mpr ?_
  have h9 : (readMany env.profile 1 : M RStream _) ⟨⟨off, cap, []⟩, segs', peer.fin⟩ = (.ok [meaning (.publish testMessage)], s') := by
    rw [readMany, M.bind_ok h8]
    rfl
  have h10 := readMany_add env.profile k 1 _ _ _ _ h6 (by rw [h9])
  rcases hm : (readMany env.profile (k + 1) : M RStream _) (RStream.followed (pingsOneByOne k [packet (publishFirst testMessage) (publishRest testMessage)]) peer.fin
    ⟨⟨off, cap, []⟩, segs, f⟩) with ⟨r, rd⟩
  rw [show RStream.followed (pingsOneByOne k [packet (publishFirst testMessage) (publishRest testMessage)]) peer.fin ⟨⟨off, cap, []⟩, segs, f⟩
    = ⟨⟨off, cap, []⟩, segs ++ pingsOneByOne k [packet (publishFirst testMessage) (publishRest testMessage)], peer.fin⟩ from rfl] at hm
  rw [hm] at h10
  simp only at h10
  subst h10
  refine ⟨rd, ?_⟩
  have hlen' : ((pinger k).map meaning).length = k + 1 + 1 := by simp [pinger]
  rw [hlen', readMany, h]
  have h4' : (readPacket env.profile : M RStream _) (RStream.new 4096 (oneByOne k) peer.fin) = _ := h4
  rw [M.bind_ok h4']
  rw [show RStream.followed (pingsOneByOne k [packet (publishFirst testMessage) (publishRest testMessage)]) peer.fin ⟨⟨off, cap, []⟩, segs, f⟩
    = ⟨⟨off, cap, []⟩, segs ++ pingsOneByOne k [packet (publishFirst testMessage) (publishRest testMessage)], peer.fin⟩ from rfl]
  rw [M.bind_ok hm]
  simp [pinger, meaning]

/-- The message is not received if all comes at once and it lies across the end of the buffer. -/
theorem atOnce_hangs (al : Alloc) (pr : Profile) (fin : Ending) :
    (received al pr 4096 [clientBytes (pinger 2032)] fin 2034).1 = .hang := by
  have hsmall : (publishRest testMessage).length < 2097152 := by rw [testMessage_rest]; decide
  have key := C90_small_messages_fails al pr (hello "c" :: List.replicate 2032 .pingReq)
      (by
        intro c hc
        rcases List.mem_cons.mp hc with rfl | hc
        · exact ⟨hello_legal, rfl, by decide +kernel⟩
        · rw [List.eq_of_mem_replicate hc]
          exact bare_legal trivial)
      testMessage testMessage_legal hsmall [clientBytes (pinger 2032)] fin []
      (by
        rw [List.flatten_cons, List.flatten_nil, List.append_nil, List.append_nil]
        unfold pinger clientBytes sentBytes
        rw [List.flatMap_append, List.flatMap_singleton]
        rfl)
      (.inr ⟨_, rfl⟩)
      (by
        right
        have hp : (packet (clientFirst .pingReq) (clientRest .pingReq)).length = 2 := by
          unfold packet
          rw [show clientRest .pingReq = [] from rfl]
          simp only [List.length_nil]
          rw [varInt]
          rfl
        have hh : (packet (clientFirst (hello "c")) (clientRest (hello "c"))).length = 15 := by decide +kernel
        have hpay : testMessage.message.payload.length = 9 := by decide +kernel
        have hs : (sentBytes (hello "c" :: List.replicate 2032 .pingReq)).length = 15 + 2032 * 2 := by
          have := sentBytes_replicate 2032 .pingReq
          rw [hp] at this
          unfold sentBytes at *
          rw [List.flatMap_cons, List.length_append, hh, this]
        rw [List.length_append, hs, testMessage_packet, hpay]
        decide)
  rwa [List.length_cons, List.length_replicate] at key

/-- What the broker makes of it. -/
def pingerEvents (k : Nat) : List ClientEvent :=
  .connected ⟨.mqtt3, "c", 60, true, none, none, none⟩ someAddr 0 :: List.replicate k (.controlPacket "c" .pingReq 0) ++ [.controlPacket "c" (.publish testMessage) 0]

/-- All that the one client is sent. -/
def pingerAnswers (k : Nat) (c : ConnId) : List ServerEvent :=
  if c = 0 then .controlPacket (.connAck ⟨false, .accepted⟩) :: List.replicate k (.controlPacket .pingResp) else []

/-- One client, with these pieces; all sockets take `n` writes. -/
def pingerPeers (segs : List (List UInt8)) (n : ConnId → Nat) : ConnId → Peer := fun c =>
  ⟨someAddr, "u", if c = 0 then segs else [], .eof, List.replicate (n c) (.accept 4096)⟩

theorem pings_outputs (auth : IdentityProvider) (b : Broker) (hb : b.session "c" ≠ none) (k : Nat) (d : ConnId) (evs : List ClientEvent) :
    b.outputs auth (List.replicate k (.controlPacket "c" .pingReq 0) ++ evs) d
      = (if d = 0 then List.replicate k (.controlPacket .pingResp) else []) ++ b.outputs auth evs d := by
  induction k with
  | zero => simp
  | succ k ih =>
    rw [List.replicate_succ, List.cons_append, Broker.outputs]
    simp only [Broker.step, Broker.packet, ih]
    by_cases h : d = 0
    · subst h; simp [Spec.to, List.replicate_succ, hb]
    · simp [Spec.to, h]

theorem pinger_outputs (auth : IdentityProvider) (k : Nat) (d : ConnId) : Broker.start.outputs auth (pingerEvents k) d = pingerAnswers k d := by
  unfold pingerEvents pingerAnswers
  rw [List.cons_append, Broker.outputs]
  simp only [Broker.step, login]
  rw [pings_outputs _ _ (by simp)]
  by_cases h : d = 0
  · subst h
    simp [Broker.outputs, Broker.step, Broker.packet, testMessage, Broker.copiesTo, Broker.start, Spec.to]
  · simp [Broker.outputs, Broker.step, Broker.packet, testMessage, Broker.copiesTo, Broker.start, Spec.to, h]

/-- C168 fails with releases of the library that reset emptied views: two sets of clients that send the same bytes, on the one connection in other
pieces; with the one the broker can take all packets and answer them, with the other it cannot. -/
theorem C168_pieces_fails (env : Env) (hal : env.alloc.clearOnFullAdvance = true) : ∃ evs out, ∀ n : ConnId → Nat, ∃ peers peers' : ConnId → Peer,
    (∀ c, SameClient (peers c) (peers' c)) ∧ (∀ c, (peers' c).segs.flatten = (peers c).segs.flatten)
    ∧ (∀ c, n c ≤ (peers c).script.length ∧ n c ≤ (peers' c).script.length)
    ∧ CanServe env peers evs out ∧ ¬ CanServe env peers' evs out := by
  obtain ⟨w, hw⟩ := C77_any_possible env (pingerEvents 2032)
  refine ⟨pingerEvents 2032, pingerAnswers 2032, fun n => ⟨pingerPeers (oneByOne 2032) fun c => n c + w c,
    pingerPeers [clientBytes (pinger 2032)] fun c => n c + w c, fun c => ⟨rfl, rfl⟩, fun c => ?_, fun c => by simp [pingerPeers], ?_, ?_⟩⟩
  · unfold pingerPeers
    simp only
    split
    · rw [oneByOne_flatten, List.flatten_cons, List.flatten_nil, List.append_nil]
    · rfl
  · have hmem : ∀ ev ∈ pingerEvents 2032, From 0 ev := by
      intro ev hev
      unfold pingerEvents at hev
      rw [List.cons_append, List.mem_cons, List.mem_append, List.mem_replicate, List.mem_singleton] at hev
      rcases hev with rfl | ⟨_, rfl⟩ | rfl <;> rfl
    have hfil : ∀ (c : Nat), (pingerEvents 2032).filter (From c) = if c = 0 then pingerEvents 2032 else [] := by
      intro c
      by_cases h : c = 0
      · subst h
        rw [if_pos rfl, List.filter_eq_self]
        intro ev hev
        simpa using hmem ev hev
      · rw [if_neg h, List.filter_eq_nil_iff]
        intro ev hev hf
        have h0 := hmem ev hev
        have h1 : From c ev := by simpa using hf
        cases ev <;> simp only [From] at h0 h1
        · exact h (h1.symm.trans h0)
        · exact h (h1.symm.trans h0)
    suffices hposs : Possible env (pingerPeers (oneByOne 2032) fun c => n c + w c) (pingerEvents 2032) by
      obtain ⟨sched, h1, h2, h3⟩ := hw (pingerPeers (oneByOne 2032) fun c => n c + w c) (fun c => by simp [pingerPeers]) hposs
      exact ⟨sched, h1, h2, fun d => by rw [(h3 d).1, pinger_outputs]⟩
    refine ⟨fun c => ?_, fun ev h => ⟨0, hmem ev h⟩, fun p addr c h => ?_, fun d => ?_⟩
    · rw [hfil]
      by_cases hc : c = 0
      · subst hc
        refine ⟨_, oneByOne_received hal (k := 2032) rfl, ?_⟩
        rw [if_pos rfl]
        have : eventsOf (pingerPeers (oneByOne 2032) (fun c => n c + w c) 0) 0 ((pinger 2032).map meaning) = pingerEvents 2032 := by
          unfold pinger pingerEvents
          rw [List.cons_append, List.cons_append, List.map_cons, List.map_append, List.map_replicate]
          show _ :: List.map _ _ = _
          rw [List.map_append, List.map_replicate]
          rfl
        rw [this]
        exact List.prefix_rfl
      · rw [if_neg hc]
        exact ⟨[], rfl, List.nil_prefix⟩
    · unfold pingerEvents at h
      rw [List.cons_append, List.mem_cons, List.mem_append, List.mem_replicate, List.mem_singleton] at h
      rcases h with h | ⟨_, h⟩ | h
      · cases h; simp [login]
      · cases h
      · cases h
    · rw [pinger_outputs, fromAway_nil]
      · decide
      · unfold pingerAnswers
        intro e he
        split at he
        · rw [List.mem_cons, List.mem_replicate] at he
          rcases he with rfl | ⟨_, rfl⟩ <;> simp
        · cases he
  · rintro ⟨sched, _, h2, _⟩
    have hord := inOrder_run env (pingerPeers [clientBytes (pinger 2032)] fun c => n c + w c) sched
    rw [h2] at hord
    obtain ⟨ps, hr, hp⟩ := hord 0
    have hl : 2034 ≤ ps.length := by
      have h1 := hp.length_le
      have h3 : (pingerEvents 2032).filter (From 0) = pingerEvents 2032 := by
        rw [List.filter_eq_self]
        intro ev hev
        unfold pingerEvents at hev
        rw [List.cons_append, List.mem_cons, List.mem_append, List.mem_replicate, List.mem_singleton] at hev
        rcases hev with rfl | ⟨_, rfl⟩ | rfl <;> simp [From]
      rw [h3] at h1
      have h4 : (pingerEvents 2032).length = 2034 := by
        unfold pingerEvents
        rw [List.length_append, List.length_cons, List.length_replicate]
        rfl
      have h5 : (eventsOf (pingerPeers [clientBytes (pinger 2032)] (fun c => n c + w c) 0) 0 ps).length ≤ ps.length := by
        unfold eventsOf
        split
        · simp
        · exact Nat.zero_le _
      omega
    have hr' := receives_prefix hr (List.take_prefix 2034 ps)
    unfold Receives at hr'
    rw [List.length_take, Nat.min_eq_left hl] at hr'
    have := atOnce_hangs env.alloc env.profile .eof
    have hseg : (pingerPeers [clientBytes (pinger 2032)] (fun c => n c + w c) 0).segs = [clientBytes (pinger 2032)] := rfl
    have hfin : (pingerPeers [clientBytes (pinger 2032)] (fun c => n c + w c) 0).fin = .eof := rfl
    rw [hseg, hfin, this] at hr'
    cases hr'

/-! ### Examples -/

-- C168_pieces_partial: the same bytes at once and one by one, on one connection that is closed and one that is left open
example (n : Nat) : let peers : List (List UInt8) → Ending → ConnId → Peer := fun segs fin c => ⟨someAddr, "u", if c = 0 then segs else [], fin, List.replicate n (.accept 1)⟩
    (∀ c, SameClient (peers [[0x10, 13], [0, 4]] .eof c) (peers [[0x10, 13, 0, 4]] .silence c))
    ∧ (∀ c, (peers [[0x10, 13, 0, 4]] .silence c).segs.flatten = (peers [[0x10, 13], [0, 4]] .eof c).segs.flatten)
    ∧ ∀ c, (peers [[0x10, 13], [0, 4]] .eof c).segs.flatten.length < 4096 := by
  refine ⟨fun c => ⟨rfl, rfl⟩, fun c => ?_, fun c => ?_⟩ <;> (dsimp only; split <;> decide)

-- C169_later: somebody else comes, and the first sends another packet
example (n : Nat) : ∀ c : Nat, SendsMore (⟨someAddr, "u", if c = 0 then [clientBytes [hello "c"]] else [], .eof, List.replicate n (.accept 1)⟩ : Peer)
    ⟨someAddr, "u", if c = 0 then [clientBytes [hello "c"], clientBytes [.pingReq]] else if c = 1 then [clientBytes [hello "d"]] else [], .silence, List.replicate n (.accept 1)⟩ := by
  intro c
  refine ⟨⟨rfl, rfl⟩, ?_⟩
  dsimp only
  by_cases h : c = 0
  · rw [if_pos h, if_pos h]; exact ⟨[clientBytes [.pingReq]], rfl⟩
  · rw [if_neg h, if_neg h]; exact ⟨_, rfl⟩

-- C168_clients_partial: a CONNECT of either version
example : (fitting 4096 4096 [hello "c", .pingReq]).map meaning
    = (fitting 4096 4096 [.connect ⟨"MQIsdp", 3, true, 60, "c", none, none, none⟩, .pingReq]).map meaning := by decide +kernel

end Ratel
