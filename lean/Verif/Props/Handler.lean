/-
C28–C42, C58, C66–C68: what the broker does with one event, in any state or after any history. `serve auth MessagingService.new h` is the
broker's state after the events `h`; `Handler.handle auth now m ev` gives the new state and the events sent, each to a connection.
-/
import Verif.Proofs.Sessions

namespace Ratel

open Spec

/-! ### Shorthands -/

/-- Events, each handled at time 0, for examples. -/
def atZero (evs : List ClientEvent) : List (ClientEvent × Instant) := evs.map fun e => (e, 0)

/-- A CONNECT without user name. -/
def plainConnect (id : ClientId) : ConnectPacket := ⟨.mqtt3, id, 60, true, none, none, none⟩

/-- Where the examples' clients connect from. -/
def someAddr : SocketAddr := ⟨1, 2⟩

/-- A SUBSCRIBE to one filter. -/
def subscribeTo (filter : String) : ControlPacket := .subscribe ⟨1, [⟨filter, .atMostOnce⟩]⟩

/-- Nobody authenticates. -/
def denyAll : IdentityProvider := fun _ _ => .error .userNotFound

/-- Client "v" connects on connection 1 and subscribes to a filter. -/
def victim (filter : String) : List ClientEvent :=
  [.connected (plainConnect "v") someAddr 1, .controlPacket "v" (subscribeTo filter) 1]

/-! ### C32 -/

/-- The subscriptions the service holds after a history are those of the history. -/
theorem serve_state (auth : IdentityProvider) (h : List (ClientEvent × Instant)) (m : MessagingService)
    (hm : serve auth MessagingService.new h = some m) :
    ∃ b : Broker, Rep m b ∧ b.subs = held (h.map Prod.fst)
      ∧ ∀ c tx, b.session c = some tx ↔ ReachedOn auth (h.map Prod.fst) c tx := by
  obtain ⟨b, h1, h2⟩ := serve_refines auth h rep_new hm
  refine ⟨b, h2, ?_, after_session h1⟩
  rw [after_subs h1]
  rfl

open Classical in
/-- C32. After any history, a PUBLISH on a topic of any shape: the broker's state does not change; only the PUBLISH itself, unmodified,
is sent; and a connection gets it once for each way a subscription held by a client reached on that connection matches. -/
theorem C32_any_topic (auth : IdentityProvider) (h : List (ClientEvent × Instant)) (m : MessagingService)
    (hm : serve auth MessagingService.new h = some m) (now : Instant) (id : ClientId) (tx : ConnId) (q : PublishPacket) :
    ∃ sends, Handler.handle auth now m (.controlPacket id (.publish q) tx) = some (m, sends)
      ∧ (∀ e ∈ sends, e.2 = .controlPacket (.publish q))
      ∧ ∀ d, (sends.map Prod.fst).count d
          = (((held (h.map Prod.fst)).filter fun e => ReachedOn auth (h.map Prod.fst) e.1 d).map
              fun e => ways e.2 q.message.topic).sum := by
  obtain ⟨b, h1, h2, h3⟩ := serve_state auth h m hm
  refine ⟨_, rfl, ?_, ?_⟩
  · intro e he
    obtain ⟨_, _, rfl⟩ := List.mem_map.mp he
    rfl
  · intro d
    rw [List.map_map, show (Prod.fst ∘ fun sender => (sender, ServerEvent.controlPacket (ControlPacket.publish q))) = fun d => d by rfl,
      List.map_id']
    show (m.sendersToPublish q.message.topic).count d = _
    rw [sendersToPublish_count h1, Broker.copiesTo, h2]
    congr 2
    apply List.filter_congr
    intro e _
    simp only [h3]

open Classical in
/-- C32. The same for plain topics: once for each matching subscription of a client reached on that connection. -/
theorem C32_fan_out (auth : IdentityProvider) (h : List (ClientEvent × Instant)) (m : MessagingService)
    (hm : serve auth MessagingService.new h = some m) (now : Instant) (id : ClientId) (tx : ConnId) (q : PublishPacket)
    (ht : PlainTopic q.message.topic) :
    ∃ sends, Handler.handle auth now m (.controlPacket id (.publish q) tx) = some (m, sends)
      ∧ (∀ e ∈ sends, e.2 = .controlPacket (.publish q))
      ∧ ∀ d, (sends.map Prod.fst).count d
          = (held (h.map Prod.fst)).countP fun e => decide (ReachedOn auth (h.map Prod.fst) e.1 d ∧ Matches e.2 q.message.topic) := by
  obtain ⟨sends, h1, h2, h3⟩ := C32_any_topic auth h m hm now id tx q
  refine ⟨sends, h1, h2, fun d => ?_⟩
  rw [h3]
  generalize held (h.map Prod.fst) = es
  induction es with
  | nil => rfl
  | cons e es ih =>
    rw [List.countP_cons, List.filter_cons, ← ih]
    by_cases hr : ReachedOn auth (h.map Prod.fst) e.1 d
    · have hp := ways_plain (f := e.2) ht
      simp only [hr, decide_true, ↓reduceIte, List.map_cons, List.sum_cons, true_and, decide_eq_true_eq, ← ways_pos]
      by_cases hw : 0 < ways e.2 q.message.topic <;> simp only [hw, ↓reduceIte] <;> omega
    · simp [hr]

/-- Two clients, one subscribed twice over; a third publishes. -/
example : (serve denyAll .new (atZero (victim "a/+" ++ [.controlPacket "v" (subscribeTo "#") 1,
    .connected (plainConnect "w") someAddr 2, .controlPacket "w" (subscribeTo "a/b") 2]))).bind
      (fun m => (Handler.handle denyAll 0 m (.controlPacket "p" (.publish ⟨none, false, ⟨"a/b", [1], .atMostOnce, false⟩⟩) 3)).map (·.2))
    = some (([1, 2, 1] : List ConnId).map fun d => (d, .controlPacket (.publish ⟨none, false, ⟨"a/b", [1], .atMostOnce, false⟩⟩))) := by
  decide +kernel

/-! ### C28 -/

/-- C28 is violated: whatever the filter, a PUBLISH whose topic is that very text, wildcards and all, is sent to its subscriber. -/
theorem C28_wildcard_topic_fails (auth : IdentityProvider) (filter : String) (now : Instant) (q : PublishPacket)
    (hq : q.message.topic = filter) (id : ClientId) (tx : ConnId) :
    ∃ m sends, serve auth .new (atZero (victim filter)) = some m
      ∧ Handler.handle auth now m (.controlPacket id (.publish q) tx) = some (m, sends)
      ∧ (1, .controlPacket (.publish q)) ∈ sends := by
  classical
  have hm : ∃ m, serve auth .new (atZero (victim filter)) = some m := ⟨_, rfl⟩
  obtain ⟨m, hm⟩ := hm
  obtain ⟨sends, h1, h2, h3⟩ := C32_any_topic auth _ m hm now id tx q
  refine ⟨m, sends, hm, h1, ?_⟩
  have hmap : (atZero (victim filter)).map Prod.fst = victim filter := rfl
  have hheld : held (victim filter) = [("v", filter)] := rfl
  have hreach : ReachedOn auth (victim filter) "v" 1 :=
    ⟨[], _, _, [.controlPacket "v" (subscribeTo filter) 1], rfl, rfl, rfl, by
      intro ev hev
      simp only [List.mem_singleton] at hev
      subst hev
      exact fun h => h⟩
  have h4 := h3 1
  rw [hmap, hheld] at h4
  simp only [List.filter_cons, hreach, decide_true, ↓reduceIte, List.filter_nil, List.map_cons, List.map_nil, List.sum_cons, List.sum_nil,
    Nat.add_zero, hq] at h4
  have hw : 0 < ways filter filter := by
    rw [ways_pos]
    refine ⟨_, _, levels_splitTopic filter, levels_splitTopic filter, ?_⟩
    generalize splitTopic filter = ls
    induction ls with
    | nil => exact .done
    | cons l ls ih => exact .literal l ls ls ih
  rw [← h4, List.count_pos_iff, List.mem_map] at hw
  obtain ⟨⟨d, ev⟩, he, rfl⟩ := hw
  rw [← h2 _ he]
  exact he

/-- C28, worse: a topic "+" is delivered twice to a subscriber of "+". -/
theorem C28_wildcard_topic_twice_fails :
    (serve denyAll .new (atZero (victim "+"))).bind
      (fun m => (Handler.handle denyAll 0 m (.controlPacket "p" (.publish ⟨none, false, ⟨"+", [], .atMostOnce, false⟩⟩) 3)).map (·.2))
    = some [(1, .controlPacket (.publish ⟨none, false, ⟨"+", [], .atMostOnce, false⟩⟩)),
        (1, .controlPacket (.publish ⟨none, false, ⟨"+", [], .atMostOnce, false⟩⟩))] := by decide +kernel

/-- C28, the part that holds: such a PUBLISH reaches only connections of clients holding a filter that matches its text, and changes
nothing. Missing: it is delivered at all. -/
theorem C28_wildcard_topic_partial (auth : IdentityProvider) (h : List (ClientEvent × Instant)) (m : MessagingService)
    (hm : serve auth MessagingService.new h = some m) (now : Instant) (id : ClientId) (tx : ConnId) (q : PublishPacket) :
    ∃ sends, Handler.handle auth now m (.controlPacket id (.publish q) tx) = some (m, sends)
      ∧ ∀ e ∈ sends, ∃ c f, ReachedOn auth (h.map Prod.fst) c e.1 ∧ (c, f) ∈ held (h.map Prod.fst) ∧ Matches f q.message.topic := by
  classical
  obtain ⟨sends, h1, h2, h3⟩ := C32_any_topic auth h m hm now id tx q
  refine ⟨sends, h1, fun e he => ?_⟩
  have hpos : 0 < (sends.map Prod.fst).count e.1 := List.count_pos_iff.mpr (List.mem_map_of_mem he)
  rw [h3] at hpos
  have : ∀ l : List (ClientId × String), 0 < (l.map fun e => ways e.2 q.message.topic).sum →
      ∃ x ∈ l, 0 < ways x.2 q.message.topic := by
    intro l
    induction l with
    | nil => simp
    | cons x l ih =>
      intro hl
      rw [List.map_cons, List.sum_cons] at hl
      by_cases hx : 0 < ways x.2 q.message.topic
      · exact ⟨x, List.mem_cons_self, hx⟩
      · obtain ⟨y, h1, h2⟩ := ih (by omega)
        exact ⟨y, List.mem_cons_of_mem _ h1, h2⟩
  obtain ⟨⟨c, f⟩, hx, hw⟩ := this _ hpos
  rw [List.mem_filter] at hx
  exact ⟨c, f, by simpa using hx.2, hx.1, ways_pos.mp hw⟩

/-! ### C29, C30, C31 -/

/-- C29. In every state a SUBSCRIBE is answered by one SUBACK, to the sender, with its packet id and one granted QoS 0 per filter;
sessions do not change. -/
theorem C29_suback (auth : IdentityProvider) (now : Instant) (m : MessagingService) (id : ClientId) (s : SubscribePacket) (tx : ConnId) :
    ∃ m', Handler.handle auth now m (.controlPacket id (.subscribe s) tx)
        = some (m', [(tx, .controlPacket (.subAck ⟨s.packetId, List.replicate s.subscriptions.length .successQoS0⟩))])
      ∧ m'.sessions = m.sessions := by
  refine ⟨_, ?_, subscribeAll_sessions id s.subscriptions m⟩
  have : ∀ (ss : List Subscription) (m : MessagingService),
      (Handler.subscribeAll id ss m).1 = List.replicate ss.length .successQoS0 := by
    intro ss
    induction ss with
    | nil => intro m; rfl
    | cons s ss ih =>
      intro m
      simp only [Handler.subscribeAll, MessagingService.request, MessagingService.exec, List.length_cons, List.replicate_succ, ih]
      rfl
  show some (_, [(tx, ServerEvent.controlPacket (.subAck ⟨s.packetId, (Handler.subscribeAll id s.subscriptions m).1⟩))]) = _
  rw [this]

/-- C29. And the subscription is in force from then on: a message on a plain topic one of the filters matches is sent to the
subscriber's connection. -/
theorem C29_effective (auth : IdentityProvider) (h : List (ClientEvent × Instant)) (m : MessagingService)
    (id : ClientId) (s : SubscribePacket) (tx : ConnId) (now now' : Instant)
    (hm : serve auth MessagingService.new (h ++ [(.controlPacket id (.subscribe s) tx, now)]) = some m)
    (x : Subscription) (hx : x ∈ s.subscriptions) (hr : ReachedOn auth (h.map Prod.fst) id tx) (q : PublishPacket)
    (hq : Matches x.topic q.message.topic) (id' : ClientId) (tx' : ConnId) :
    ∃ sends, Handler.handle auth now' m (.controlPacket id' (.publish q) tx') = some (m, sends)
      ∧ (tx, .controlPacket (.publish q)) ∈ sends := by
  classical
  obtain ⟨sends, h1, h2, h3⟩ := C32_any_topic auth _ m hm now' id' tx' q
  refine ⟨sends, h1, ?_⟩
  have hr' : ReachedOn auth ((h ++ [(ClientEvent.controlPacket id (.subscribe s) tx, now)]).map Prod.fst) id tx := by
    rw [List.map_append]
    exact reachedOn_append.mpr (.inr ⟨fun h => h, hr⟩)
  have hheld : (id, x.topic) ∈ held ((h ++ [(ClientEvent.controlPacket id (.subscribe s) tx, now)]).map Prod.fst) := by
    unfold held Entries.counted
    rw [List.map_append, List.flatMap_append, List.foldl_append]
    generalize List.foldl Entries.counting [] _ = es
    simp only [List.map_cons, List.map_nil, List.flatMap_cons, List.flatMap_nil, List.append_nil, subOps]
    have : ∀ (ss : List Subscription) (es : Entries),
        (ss.map (SubOp.subscribe id)).foldl Entries.counting es = es ++ ss.map fun y => (id, y.topic) := by
      intro ss
      induction ss with
      | nil => simp
      | cons y ss ih => intro es; simp [ih, Entries.counting]
    rw [this, List.mem_append]
    exact .inr (List.mem_map.mpr ⟨x, hx, rfl⟩)
  have hpos : 0 < (sends.map Prod.fst).count tx := by
    rw [h3]
    have hmem : (id, x.topic) ∈ (held ((h ++ [(ClientEvent.controlPacket id (.subscribe s) tx, now)]).map Prod.fst)).filter
        fun e => ReachedOn auth ((h ++ [(ClientEvent.controlPacket id (.subscribe s) tx, now)]).map Prod.fst) e.1 tx := by
      rw [List.mem_filter]
      exact ⟨hheld, by simpa using hr'⟩
    exact Nat.lt_of_lt_of_le (ways_pos.mpr hq)
      (le_sum_of_mem (List.mem_map_of_mem (f := fun e : ClientId × String => ways e.2 q.message.topic) hmem))
  rw [List.count_pos_iff, List.mem_map] at hpos
  obtain ⟨⟨d, ev⟩, he, rfl⟩ := hpos
  rw [← h2 _ he]
  exact he

example : (Handler.handle denyAll 0 .new (.controlPacket "c" (.subscribe ⟨7, [⟨"a", .exactlyOnce⟩, ⟨"b", .atMostOnce⟩]⟩) 4)).map (·.2)
    = some [(4, .controlPacket (.subAck ⟨7, [.successQoS0, .successQoS0]⟩))] := by decide +kernel
example : (serve denyAll .new (atZero [.connected (plainConnect "v") someAddr 1])).isSome
    ∧ ReachedOn denyAll ((atZero [.connected (plainConnect "v") someAddr 1]).map Prod.fst) "v" 1 :=
  ⟨by decide +kernel, [], _, _, [], rfl, rfl, rfl, by simp⟩

/-- C30. In every state an UNSUBSCRIBE is answered by one UNSUBACK, to the sender, with its packet id; sessions do not change. -/
theorem C30_unsuback (auth : IdentityProvider) (now : Instant) (m : MessagingService) (id : ClientId) (u : UnsubscribePacket) (tx : ConnId) :
    ∃ m', Handler.handle auth now m (.controlPacket id (.unsubscribe u) tx)
        = some (m', [(tx, .controlPacket (.unsubAck u.packetId))])
      ∧ m'.sessions = m.sessions := ⟨_, rfl, rfl⟩

/-- C30. And the UNSUBSCRIBE takes effect: if the client held the filters matching a topic once each, and named them all, a connection on
which only this client is reached gets no message on that topic any more. (A filter subscribed to twice survives, see C23.) -/
theorem C30_effective (auth : IdentityProvider) (h : List (ClientEvent × Instant)) (m : MessagingService)
    (id : ClientId) (u : UnsubscribePacket) (tx : ConnId) (now now' : Instant)
    (hm : serve auth MessagingService.new (h ++ [(.controlPacket id (.unsubscribe u) tx, now)]) = some m) (d : ConnId)
    (hd : ∀ c, ReachedOn auth (h.map Prod.fst) c d → c = id) (q : PublishPacket)
    (hu : ∀ f, (id, f) ∈ held (h.map Prod.fst) → Matches f q.message.topic → f ∈ u.topics ∧ (held (h.map Prod.fst)).count (id, f) ≤ 1)
    (id' : ClientId) (tx' : ConnId) :
    ∃ sends, Handler.handle auth now' m (.controlPacket id' (.publish q) tx') = some (m, sends) ∧ ∀ e ∈ sends, e.1 ≠ d := by
  classical
  obtain ⟨sends, h1, h2, h3⟩ := C32_any_topic auth _ m hm now' id' tx' q
  refine ⟨sends, h1, fun e he hed => ?_⟩
  have hpos : 0 < (sends.map Prod.fst).count d := by
    rw [List.count_pos_iff]
    exact List.mem_map.mpr ⟨e, he, hed⟩
  rw [h3] at hpos
  have hzero : ∀ n ∈ (((held ((h ++ [(ClientEvent.controlPacket id (.unsubscribe u) tx, now)]).map Prod.fst)).filter fun e =>
      ReachedOn auth ((h ++ [(ClientEvent.controlPacket id (.unsubscribe u) tx, now)]).map Prod.fst) e.1 d).map
        fun e => ways e.2 q.message.topic), n = 0 := by
    intro n hn
    obtain ⟨⟨c, f⟩, hx, rfl⟩ := List.mem_map.mp hn
    obtain ⟨hx1, hx2⟩ := List.mem_filter.mp hx
    have hx2 : ReachedOn auth ((h ++ [(ClientEvent.controlPacket id (.unsubscribe u) tx, now)]).map Prod.fst) c d := by simpa using hx2
    rw [List.map_append] at hx2
    have hc : c = id := by
      rcases reachedOn_append.mp hx2 with ⟨_, _, h', _⟩ | ⟨_, h'⟩
      · cases h'
      · exact hd c h'
    subst hc
    have hheld : held ((h ++ [(ClientEvent.controlPacket c (.unsubscribe u) tx, now)]).map Prod.fst)
        = (held (h.map Prod.fst)).unsubscribe c u.topics := by
      unfold held Entries.counted
      rw [List.map_append, List.flatMap_append, List.foldl_append]
      rfl
    rw [hheld] at hx1
    refine Nat.eq_zero_of_not_pos fun hw => ?_
    have herase : ∀ (fs : List String) (es : Entries), (c, f) ∈ es.unsubscribe c fs →
        (c, f) ∈ es ∧ (f ∈ fs → 1 < es.count (c, f)) := by
      intro fs
      induction fs with
      | nil => intro es h; exact ⟨h, by simp⟩
      | cons g fs ih =>
        intro es h
        obtain ⟨i1, i2⟩ := ih (es.erase (c, g)) h
        refine ⟨List.mem_of_mem_erase i1, fun hf => ?_⟩
        by_cases hg : f = g
        · subst hg
          have := List.count_pos_iff.mpr i1
          rw [List.count_erase_self] at this
          omega
        · have := i2 ((List.mem_cons.mp hf).resolve_left hg)
          rwa [List.count_erase_of_ne (by simp [hg])] at this
    obtain ⟨e1, e2⟩ := herase _ _ hx1
    obtain ⟨u1, u2⟩ := hu f e1 (ways_pos.mp hw)
    have := e2 u1
    omega
  have hsum : ∀ l : List Nat, (∀ n ∈ l, n = 0) → l.sum = 0 := by
    intro l
    induction l with
    | nil => intro _; rfl
    | cons a l ih => intro h; simp [h a List.mem_cons_self, ih fun n hn => h n (List.mem_cons_of_mem _ hn)]
  rw [hsum _ hzero] at hpos
  exact absurd hpos (Nat.lt_irrefl _)

-- a client that subscribes to "t" and unsubscribes
example : (serve denyAll .new (atZero (victim "t") ++ [(.controlPacket "v" (.unsubscribe ⟨2, ["t"]⟩) 1, 0)])).isSome
    ∧ (held (victim "t")).count ("v", "t") = 1 := by decide +kernel

example : (Handler.handle denyAll 0 .new (.controlPacket "c" (.unsubscribe ⟨9, ["a"]⟩) 4)).map (·.2)
    = some [(4, .controlPacket (.unsubAck 9))] := by decide +kernel

/-- C31. PINGREQ: with a session one PINGRESP, without one a request to close; nothing changes. -/
theorem C31_ping (auth : IdentityProvider) (now : Instant) (m : MessagingService) (id : ClientId) (tx : ConnId) :
    ((m.sessions.get id).isSome → Handler.handle auth now m (.controlPacket id .pingReq tx) = some (m, [(tx, .controlPacket .pingResp)]))
    ∧ (m.sessions.get id = none → Handler.handle auth now m (.controlPacket id .pingReq tx) = some (m, [(tx, .disconnect)])) := by
  have he : m.sessionExists id = (m.sessions.get id).isSome := rfl
  simp only [Handler.handle, Handler.onPacket, Handler.onPingReq, MessagingService.request, MessagingService.exec, he]
  constructor
  · intro h; rw [h]
  · intro h; rw [h]; rfl

/-- C31. After any history: PINGRESP exactly if the client is reached on some connection. -/
theorem C31_ping_history (auth : IdentityProvider) (h : List (ClientEvent × Instant)) (m : MessagingService)
    (hm : serve auth MessagingService.new h = some m) (now : Instant) (id : ClientId) (tx : ConnId) :
    Handler.handle auth now m (.controlPacket id .pingReq tx) = some (m, [(tx, .controlPacket .pingResp)])
      ↔ ∃ d, ReachedOn auth (h.map Prod.fst) id d := by
  obtain ⟨b, h1, _, h3⟩ := serve_state auth h m hm
  have hp := C31_ping auth now m id tx
  have hs := h1.session id
  cases hg : m.sessions.get id with
  | none =>
    rw [hp.2 hg]
    rw [hg] at hs
    simp only [Option.map_none] at hs
    constructor
    · intro h; simp at h
    · rintro ⟨d, hd⟩
      rw [← h3, ← hs] at hd
      cases hd
  | some s =>
    rw [hp.1 (by simp [hg])]
    rw [hg] at hs
    exact ⟨fun _ => ⟨s.sender, (h3 _ _).mp hs.symm⟩, fun _ => rfl⟩

example : (Handler.handle denyAll 0 .new (.controlPacket "v" .pingReq 1)).map (·.2) = some [(1, .disconnect)] ∧
    (serve denyAll .new (atZero (victim "a"))).bind (fun m => (Handler.handle denyAll 0 m (.controlPacket "v" .pingReq 1)).map (·.2))
      = some [(1, .controlPacket .pingResp)] := by decide +kernel

/-! ### C33, C34, C35, C58, C68 -/

/-- C33. Credentials that do not authenticate: CONNACK "not authorized", then a close request, and nothing changes. -/
theorem C33_refused (auth : IdentityProvider) (now : Instant) (m : MessagingService) (p : ConnectPacket) (addr : SocketAddr) (tx : ConnId)
    (user pw : String) (hu : p.userName = some user) (hp : p.password = some pw) (e : AuthenticationError) (ha : auth user pw = .error e) :
    Handler.handle auth now m (.connected p addr tx)
      = some (m, [(tx, .controlPacket (.connAck ⟨false, .notAuthorized⟩)), (tx, .disconnect)]) := by
  simp only [Handler.handle, Handler.onConnect, hu, hp, ha]

/-- C34. A CONNECT whose credentials authenticate, or which has no user name, is accepted with one CONNACK to its connection;
afterwards its client id has a session bound to that connection, and all else is as before. -/
theorem C34_accepted (auth : IdentityProvider) (now : Instant) (m : MessagingService) (p : ConnectPacket) (addr : SocketAddr) (tx : ConnId)
    (h : p.userName = none ∨ ∃ user pw, p.userName = some user ∧ p.password = some pw ∧ auth user pw = .ok ()) :
    ∃ m', Handler.handle auth now m (.connected p addr tx) = some (m', [(tx, .controlPacket (.connAck ⟨false, .accepted⟩))])
      ∧ m'.sessions.get p.clientId = some ⟨p.clientId, addr.ip, !p.cleanSession, tx, p.keepAliveSeconds, now⟩
      ∧ (∀ c, c ≠ p.clientId → m'.sessions.get c = m.sessions.get c)
      ∧ m'.subscriptions = m.subscriptions := by
  have hfin : ∀ s : Session, s = ⟨p.clientId, addr.ip, !p.cleanSession, tx, p.keepAliveSeconds, now⟩ →
      (m.sessionInsert s).sessions.get p.clientId = some s
      ∧ (∀ c, c ≠ p.clientId → (m.sessionInsert s).sessions.get c = m.sessions.get c)
      ∧ (m.sessionInsert s).subscriptions = m.subscriptions := by
    rintro s rfl
    refine ⟨?_, ?_, rfl⟩
    · simp [MessagingService.sessionInsert, SessionRepository.insert, SessionRepository.get, AssocMap.get?_insert]
    · intro c hc
      simp [MessagingService.sessionInsert, SessionRepository.insert, SessionRepository.get, AssocMap.get?_insert, hc]
  simp only [Handler.handle, Handler.onConnect, MessagingService.request, MessagingService.exec]
  rcases h with hu | ⟨user, pw, hu, hp, ha⟩
  · rw [hu]
    exact ⟨_, rfl, hfin _ rfl⟩
  · rw [hu, hp]
    dsimp only
    rw [ha]
    exact ⟨_, rfl, hfin _ rfl⟩

/-- C35 is violated: a connection whose credentials were refused (a) can publish to other clients, (b) can end another client's session
by choosing its client id and sending DISCONNECT, (c) can unsubscribe it; whatever the identity provider. -/
theorem C35_refused_acts_fails (auth : IdentityProvider) (user pw : String) (e : AuthenticationError) (ha : auth user pw = .error e) :
    let refused : ClientEvent := .connected { plainConnect "v" with userName := some user, password := some pw } someAddr 2
    let msg : ControlPacket := .publish ⟨none, false, ⟨"a", [1], .atMostOnce, false⟩⟩
    ∃ m, serve auth .new (atZero (victim "a")) = some m
      ∧ Handler.handle auth 0 m refused = some (m, [(2, .controlPacket (.connAck ⟨false, .notAuthorized⟩)), (2, .disconnect)])
      ∧ (Handler.handle auth 0 m (.controlPacket "v" msg 2)).map (·.2) = some [(1, .controlPacket msg)]
      ∧ ((m.sessions.get "v").isSome ∧ ∃ m', Handler.handle auth 0 m (.controlPacket "v" .disconnect 2) = some (m', [])
          ∧ m'.sessions.get "v" = none)
      ∧ ∃ m', (Handler.handle auth 0 m (.controlPacket "v" (.unsubscribe ⟨1, ["a"]⟩) 2)).map (·.1) = some m'
          ∧ (Handler.handle auth 0 m' (.controlPacket "x" msg 3)).map (·.2) = some [] := by
  intro refused msg
  have hauth : ∀ m id p tx, Handler.handle auth 0 m (.controlPacket id p tx) = Handler.handle denyAll 0 m (.controlPacket id p tx) :=
    fun _ _ _ _ => rfl
  refine ⟨_, rfl, ?_, ?_, ⟨?_, ?_⟩, ?_⟩
  · simp only [refused, Handler.handle, Handler.onConnect, ha]
  · rw [hauth]; decide +kernel
  · decide +kernel
  · exact ⟨_, rfl, by decide +kernel⟩
  · exact ⟨_, rfl, by rw [hauth]; decide +kernel⟩

/-- C35, the part that holds: a refused CONNECT changes nothing (C33), and no packet that follows ever creates or alters a session,
so a refused connection never gets one. Missing: its packets do act on other clients. -/
theorem C35_refused_acts_partial (auth : IdentityProvider) (now : Instant) (m m' : MessagingService) (id : ClientId) (p : ControlPacket)
    (tx : ConnId) (sends : List (ConnId × ServerEvent)) (h : Handler.handle auth now m (.controlPacket id p tx) = some (m', sends))
    (c : ClientId) (s : Session) (hs : m'.sessions.get c = some s) : m.sessions.get c = some s := by
  cases p with
  | subscribe q => cases h; rw [subscribeAll_sessions] at hs; exact hs
  | pingReq =>
    simp only [Handler.handle, Handler.onPacket, Handler.onPingReq, MessagingService.request, MessagingService.exec] at h
    cases he : m.sessionExists id <;> rw [he] at h <;> cases h <;> exact hs
  | disconnect =>
    cases h
    have hs : AssocMap.get? (AssocMap.erase m.sessions.sessions id) c = some s := hs
    rw [AssocMap.get?_erase] at hs
    by_cases hc : c = id
    · simp [hc] at hs
    · rw [if_neg hc] at hs; exact hs
  | _ => cases h; exact hs

/-- C58 is violated: a CONNECT without user name is accepted whatever the identity provider. -/
theorem C58_mandatory_fails (auth : IdentityProvider) (now : Instant) (m : MessagingService) (p : ConnectPacket) (addr : SocketAddr)
    (tx : ConnId) (h : p.userName = none) :
    ∃ m', Handler.handle auth now m (.connected p addr tx) = some (m', [(tx, .controlPacket (.connAck ⟨false, .accepted⟩))])
      ∧ (m'.sessions.get p.clientId).isSome := by
  obtain ⟨m', h1, h2, _⟩ := C34_accepted auth now m p addr tx (.inl h)
  exact ⟨m', h1, by simp [h2]⟩

/-- C58, the part that holds: a CONNECT with a user name gets a session only if its user name and password authenticate. Missing:
CONNECT without user name. -/
theorem C58_mandatory_partial (auth : IdentityProvider) (now : Instant) (m m' : MessagingService) (p : ConnectPacket) (addr : SocketAddr)
    (tx : ConnId) (user : String) (hu : p.userName = some user) (sends : List (ConnId × ServerEvent))
    (h : Handler.handle auth now m (.connected p addr tx) = some (m', sends)) (c : ClientId)
    (hn : m'.sessions.get c ≠ m.sessions.get c) : ∃ pw, p.password = some pw ∧ auth user pw = .ok () := by
  simp only [Handler.handle, Handler.onConnect, hu] at h
  cases hp : p.password with
  | none => rw [hp] at h; cases h
  | some pw =>
    rw [hp] at h
    dsimp only at h
    cases ha : auth user pw with
    | error e => rw [ha] at h; cases h; exact absurd rfl hn
    | ok u => exact ⟨pw, rfl, ha⟩

/-- C68. What a client learns from a failed login does not depend on why it failed. -/
theorem C68_same_refusal (auth auth' : IdentityProvider) (now now' : Instant) (m m' : MessagingService) (p p' : ConnectPacket)
    (addr addr' : SocketAddr) (tx : ConnId) (user pw user' pw' : String) (hu : p.userName = some user) (hp : p.password = some pw)
    (hu' : p'.userName = some user') (hp' : p'.password = some pw') (e e' : AuthenticationError)
    (ha : auth user pw = .error e) (ha' : auth' user' pw' = .error e') :
    (Handler.handle auth now m (.connected p addr tx)).map (·.2) = (Handler.handle auth' now' m' (.connected p' addr' tx)).map (·.2) := by
  rw [C33_refused auth now m p addr tx user pw hu hp e ha, C33_refused auth' now' m' p' addr' tx user' pw' hu' hp' e' ha']
  rfl

example : denyAll "u" "p" = .error .userNotFound := rfl
example : ∃ p : ConnectPacket, p.userName = some "u" ∧ p.password = some "p" := ⟨{ plainConnect "c" with userName := some "u", password := some "p" }, rfl, rfl⟩
example : (plainConnect "c").userName = none := rfl

/-! ### C36, C37, C38 -/

/-- C36. After any history each session is stored once, under its own client id, and a client's session is bound to the connection of
its most recent accepted CONNECT, if it has not disconnected since; otherwise it has none. -/
theorem C36_newest_wins (auth : IdentityProvider) (h : List (ClientEvent × Instant)) (m : MessagingService)
    (hm : serve auth MessagingService.new h = some m) :
    (m.sessions.sessions.map Prod.fst).Nodup
    ∧ (∀ k s, (k, s) ∈ m.sessions.sessions → s.clientId = k)
    ∧ ∀ c tx, (∃ s, m.sessions.get c = some s ∧ s.sender = tx) ↔ ReachedOn auth (h.map Prod.fst) c tx := by
  have hok := serve_sessionsOk auth h sessionsOk_default hm
  obtain ⟨b, h1, _, h3⟩ := serve_state auth h m hm
  refine ⟨hok.nodup, fun k s hs => hok.own k s ((AssocMap.mem_iff hok.nodup k s).mp hs), fun c tx => ?_⟩
  rw [← h3, ← h1.session c, Option.map_eq_some_iff]

/-- C36. Hence a message reaches a client only on that connection: at most one connection per client. -/
theorem C36_one_connection (auth : IdentityProvider) (evs : List ClientEvent) (c : ClientId) (tx tx' : ConnId)
    (b : Broker) (hb : Broker.start.after auth evs = some b) (h : ReachedOn auth evs c tx) (h' : ReachedOn auth evs c tx') : tx = tx' := by
  rw [← after_session hb] at h h'
  rw [h] at h'
  exact Option.some.inj h'

example : ReachedOn denyAll [.connected (plainConnect "v") someAddr 1, .connected (plainConnect "v") someAddr 2] "v" 2 :=
  ⟨[.connected (plainConnect "v") someAddr 1], _, _, [], rfl, rfl, rfl, by simp⟩
example : (serve denyAll .new (atZero [.connected (plainConnect "v") someAddr 1, .connected (plainConnect "v") someAddr 2])).map
    (fun m => (m.sessions.get "v").map (·.sender)) = some (some 2) := by decide +kernel

/-- C37 is violated: no CONNECT, in any state, makes the broker send anything to any connection but its own, so the old connection
is never told to close; and packets on the old connection are still taken as the client's: here the old connection unsubscribes and
disconnects the client served on the new one. -/
theorem C37_takeover_fails :
    (∀ auth now m p addr tx m' sends, Handler.handle auth now m (.connected p addr tx) = some (m', sends) → ∀ e ∈ sends, e.1 = tx)
    ∧ ∃ m m', serve denyAll .new (atZero (victim "a" ++ [.connected (plainConnect "v") someAddr 2])) = some m
      ∧ (m.sessions.get "v").map Session.sender = some 2
      ∧ Handler.handle denyAll 0 m (.controlPacket "v" .disconnect 1) = some (m', [])
      ∧ m'.sessions.get "v" = none := by
  constructor
  · intro auth now m p addr tx m' sends h e he
    simp only [Handler.handle, Handler.onConnect, MessagingService.request, MessagingService.exec] at h
    cases hu : p.userName with
    | none => rw [hu] at h; cases h; simp at he; rw [he]
    | some u =>
      cases hp : p.password with
      | none => rw [hu, hp] at h; cases h
      | some pw =>
        rw [hu, hp] at h
        dsimp only at h
        cases ha : auth u pw with
        | error x => rw [ha] at h; cases h; simp at he; rcases he with rfl | rfl <;> rfl
        | ok _ => rw [ha] at h; cases h; simp at he; rw [he]
  · exact ⟨_, _, rfl, by decide +kernel, rfl, by decide +kernel⟩

/-- C37, the part that holds: after the takeover messages for the client go to the new connection, and the client is no longer reached
on the old one. Missing: the old connection stays open and may act. -/
theorem C37_takeover_partial (auth : IdentityProvider) (h : List (ClientEvent × Instant)) (p : ConnectPacket) (addr : SocketAddr)
    (old new : ConnId) (now : Instant) (m : MessagingService) (hne : old ≠ new) (hl : login auth p = .accepted)
    (hm : serve auth MessagingService.new (h ++ [(ClientEvent.connected p addr new, now)]) = some m) :
    ReachedOn auth ((h ++ [(ClientEvent.connected p addr new, now)]).map Prod.fst) p.clientId new
    ∧ ¬ ReachedOn auth ((h ++ [(ClientEvent.connected p addr new, now)]).map Prod.fst) p.clientId old := by
  have h1 : ReachedOn auth ((h ++ [(ClientEvent.connected p addr new, now)]).map Prod.fst) p.clientId new := by
    rw [List.map_append]
    exact reachedOn_append.mpr (.inl ⟨p, addr, rfl, rfl, hl⟩)
  refine ⟨h1, fun h2 => hne ?_⟩
  obtain ⟨b, hb, _⟩ := serve_refines auth _ rep_new hm
  exact C36_one_connection auth _ _ _ _ b hb h2 h1

/-- C38 is violated: CONNACK never says "session present", and DISCONNECT discards the subscriptions of a client that asked to keep
them. -/
theorem C38_persistent_fails :
    (∀ auth now m p addr tx m' sends, Handler.handle auth now m (.connected p addr tx) = some (m', sends) →
      ∀ d a, (d, ServerEvent.controlPacket (.connAck a)) ∈ sends → a.sessionPresent = false)
    ∧ (serve denyAll .new (atZero [.connected { plainConnect "v" with cleanSession := false } someAddr 1,
          .controlPacket "v" (subscribeTo "a") 1, .controlPacket "v" .disconnect 1,
          .connected { plainConnect "v" with cleanSession := false } someAddr 2])).bind
        (fun m => (Handler.handle denyAll 0 m (.controlPacket "p" (.publish ⟨none, false, ⟨"a", [1], .atMostOnce, false⟩⟩) 3)).map (·.2))
      = some [] := by
  constructor
  · intro auth now m p addr tx m' sends h d a hd
    simp only [Handler.handle, Handler.onConnect, MessagingService.request, MessagingService.exec] at h
    cases hu : p.userName with
    | none => rw [hu] at h; cases h; simp at hd; rw [hd.2]
    | some u =>
      cases hp : p.password with
      | none => rw [hu, hp] at h; cases h
      | some pw =>
        rw [hu, hp] at h
        dsimp only at h
        cases ha : auth u pw with
        | error x => rw [ha] at h; cases h; simp at hd; rw [hd.2]
        | ok _ => rw [ha] at h; cases h; simp at hd; rw [hd.2]
  · decide +kernel

/-- C38, the part that holds: a client that reconnects without having disconnected (its connection broke) keeps all its subscriptions:
no CONNECT changes them. Missing: the session-present flag, and subscriptions after DISCONNECT. -/
theorem C38_persistent_partial (auth : IdentityProvider) (now : Instant) (m m' : MessagingService) (p : ConnectPacket) (addr : SocketAddr)
    (tx : ConnId) (sends : List (ConnId × ServerEvent)) (h : Handler.handle auth now m (.connected p addr tx) = some (m', sends)) :
    m'.subscriptions = m.subscriptions := by
  simp only [Handler.handle, Handler.onConnect, MessagingService.request, MessagingService.exec] at h
  cases hu : p.userName with
  | none => rw [hu] at h; cases h; rfl
  | some u =>
    cases hp : p.password with
    | none => rw [hu, hp] at h; cases h
    | some pw =>
      rw [hu, hp] at h
      dsimp only at h
      cases ha : auth u pw with
      | error x => rw [ha] at h; cases h; rfl
      | ok _ => rw [ha] at h; cases h; rfl

/-! ### C39, C40, C41, C42 -/

/-- C39 is violated: in no state is a PUBLISH of any QoS answered; all that is sent is the PUBLISH itself, to subscribers. -/
theorem C39_acks_fails (auth : IdentityProvider) (now : Instant) (m m' : MessagingService) (id : ClientId) (q : PublishPacket) (tx : ConnId)
    (sends : List (ConnId × ServerEvent)) (h : Handler.handle auth now m (.controlPacket id (.publish q) tx) = some (m', sends)) :
    ∀ d p, (d, ServerEvent.controlPacket p) ∈ sends → p = .publish q ∧ (∀ i, p ≠ .pubAck i) ∧ ∀ i, p ≠ .pubRec i := by
  intro d p hp
  cases h
  obtain ⟨_, _, he⟩ := List.mem_map.mp hp
  cases he
  exact ⟨rfl, by simp, by simp⟩

/-- C39, the part that holds: the publisher of a QoS 0 message rightly gets no answer: a connection on which no subscriber is reached is
sent nothing. Missing: acknowledgements for QoS 1 and 2. -/
theorem C39_acks_partial (auth : IdentityProvider) (h : List (ClientEvent × Instant)) (m : MessagingService)
    (hm : serve auth MessagingService.new h = some m) (now : Instant) (id : ClientId) (q : PublishPacket) (tx : ConnId)
    (hno : ∀ c f, (c, f) ∈ held (h.map Prod.fst) → Matches f q.message.topic → ¬ ReachedOn auth (h.map Prod.fst) c tx) :
    ∃ sends, Handler.handle auth now m (.controlPacket id (.publish q) tx) = some (m, sends) ∧ ∀ e ∈ sends, e.1 ≠ tx := by
  obtain ⟨sends, h1, h2⟩ := C28_wildcard_topic_partial auth h m hm now id tx q
  refine ⟨sends, h1, ?_⟩
  rintro e he rfl
  obtain ⟨c, f, h3, h4, h5⟩ := h2 e he
  exact hno c f h4 h5 h3

/-- C40 is violated: every SUBACK grants QoS 0, but a message published with a higher QoS is delivered with that QoS. -/
theorem C40_qos_fails (q : PublishPacket) (hq : q.message.topic = "a") :
    (∃ m, serve denyAll .new (atZero [.connected (plainConnect "v") someAddr 1]) = some m ∧
      (Handler.handle denyAll 0 m (.controlPacket "v" (subscribeTo "a") 1)).map (·.2)
        = some [(1, .controlPacket (.subAck ⟨1, [.successQoS0]⟩))])
    ∧ ∃ m, serve denyAll .new (atZero (victim "a")) = some m ∧
        (Handler.handle denyAll 0 m (.controlPacket "p" (.publish q) 3)).map (·.2) = some [(1, .controlPacket (.publish q))] := by
  refine ⟨⟨_, rfl, by decide +kernel⟩, _, rfl, ?_⟩
  have : ∀ m : MessagingService, (Handler.handle denyAll 0 m (.controlPacket "p" (.publish q) 3)).map (·.2)
      = some ((m.sendersToPublish q.message.topic).map fun d => (d, .controlPacket (.publish q))) := fun _ => rfl
  rw [this, hq]
  rw [show ((_ : MessagingService).sendersToPublish "a") = [1] by decide +kernel]
  rfl

/-- C40, the part that holds: a message is never delivered with more than the QoS it was published with, in particular QoS 0 messages
respect every grant. Missing: messages with a higher QoS. -/
theorem C40_qos_partial (auth : IdentityProvider) (now : Instant) (m m' : MessagingService) (id : ClientId) (q q' : PublishPacket) (tx d : ConnId)
    (sends : List (ConnId × ServerEvent)) (h : Handler.handle auth now m (.controlPacket id (.publish q) tx) = some (m', sends))
    (hd : (d, ServerEvent.controlPacket (.publish q')) ∈ sends) : q'.message.qos = q.message.qos := by
  have := (C39_acks_fails auth now m m' id q tx sends h d _ hd).1
  cases this
  rfl

/-- C41 is violated: no SUBSCRIBE, in any state, is answered by anything but a SUBACK; retained messages are never sent. -/
theorem C41_retained_fails (auth : IdentityProvider) (now : Instant) (m m' : MessagingService) (id : ClientId) (s : SubscribePacket) (tx : ConnId)
    (sends : List (ConnId × ServerEvent)) (h : Handler.handle auth now m (.controlPacket id (.subscribe s) tx) = some (m', sends)) :
    ∀ d q, (d, ServerEvent.controlPacket (.publish q)) ∉ sends := by
  intro d q hd
  obtain ⟨m1, h1, _⟩ := C29_suback auth now m id s tx
  rw [h1] at h
  cases h
  simp at hd

/-- C41, the part that holds: a message with the retain flag reaches the current subscribers like any other. Missing: later
subscribers. -/
theorem C41_retained_partial (auth : IdentityProvider) (now : Instant) (m : MessagingService) (id : ClientId) (q : PublishPacket) (tx : ConnId) :
    (Handler.handle auth now m (.controlPacket id (.publish { q with message := { q.message with retain := true } }) tx)).map
        (fun r => r.2.map Prod.fst)
      = (Handler.handle auth now m (.controlPacket id (.publish { q with message := { q.message with retain := false } }) tx)).map
        (fun r => r.2.map Prod.fst) := by
  have : ∀ q : PublishPacket, (Handler.handle auth now m (.controlPacket id (.publish q) tx)).map (fun r => r.2.map Prod.fst)
      = some (m.sendersToPublish q.message.topic) := by
    intro q
    show some (List.map Prod.fst (List.map _ (m.sendersToPublish q.message.topic))) = _
    rw [List.map_map]
    exact congrArg some (List.map_id _)
  rw [this, this]

/-- C42 is violated: a second CONNECT is ignored; nothing is sent, in particular no request to close. -/
theorem C42_second_connect_fails (auth : IdentityProvider) (now : Instant) (m : MessagingService) (id : ClientId) (p : ConnectPacket)
    (tx : ConnId) : Handler.handle auth now m (.controlPacket id (.connect p) tx) = some (m, []) := rfl

/-- C42, the part that holds: a second CONNECT has no effect on the broker at all: no session is opened or replaced, and every later
history goes on as if it had not been sent. Missing: the connection is not closed. -/
theorem C42_second_connect_partial (auth : IdentityProvider) (now : Instant) (id : ClientId) (p : ConnectPacket) (tx : ConnId)
    (h h' : List (ClientEvent × Instant)) (m : MessagingService) :
    serve auth m (h ++ (.controlPacket id (.connect p) tx, now) :: h') = serve auth m (h ++ h') := by
  rw [serve_append, serve_append]
  rfl

/-! ### C66, C67 -/

/-- C66. After any operations on the messaging service, the session count is the number of clients connected: the sessions inserted and
not removed since; and `exists` answers for exactly these. -/
theorem C66_bookkeeping (ops : List MessagingOperation) :
    ∃ ids : List ClientId, ids.Nodup ∧ (∀ c, c ∈ ids ↔ ConnectedAfter ops c)
      ∧ (MessagingService.exec .sessionCount (execAll ops .new)).1 = (ids.length : Nat)
      ∧ ∀ c, (MessagingService.exec (.sessionExists c) (execAll ops .new)).1 = (true : Bool) ↔ c ∈ ids := by
  refine ⟨(execAll ops .new).sessions.sessions.keys, (execAll_sessionsOk ops sessionsOk_default).nodup, ?_, ?_, ?_⟩
  · intro c
    rw [AssocMap.mem_keys_iff, ← execAll_get]
    rfl
  · show List.length _ = _
    rw [AssocMap.keys, List.length_map]
  · intro c
    rw [AssocMap.mem_keys_iff]
    rfl

/-- C66. And the same for histories of client events: the sessions are those of the clients reached on some connection. -/
theorem C66_bookkeeping_events (auth : IdentityProvider) (h : List (ClientEvent × Instant)) (m : MessagingService)
    (hm : serve auth MessagingService.new h = some m) :
    ∃ ids : List ClientId, ids.Nodup ∧ (∀ c, c ∈ ids ↔ ∃ tx, ReachedOn auth (h.map Prod.fst) c tx)
      ∧ m.sessionCount = ids.length := by
  obtain ⟨h1, _, h3⟩ := C36_newest_wins auth h m hm
  refine ⟨m.sessions.sessions.map Prod.fst, h1, ?_, by simp [MessagingService.sessionCount, SessionRepository.count]⟩
  intro c
  have := AssocMap.mem_keys_iff m.sessions.sessions c
  unfold AssocMap.keys at this
  rw [this]
  constructor
  · intro hs
    obtain ⟨s, hs⟩ := Option.isSome_iff_exists.mp hs
    exact ⟨s.sender, (h3 c s.sender).mp ⟨s, hs, rfl⟩⟩
  · rintro ⟨tx, ht⟩
    obtain ⟨s, hs, _⟩ := (h3 c tx).mpr ht
    exact Option.isSome_iff_exists.mpr ⟨s, hs⟩

example : ConnectedAfter [.sessionInsert ⟨"a", 0, false, 1, 60, 0⟩, .sessionInsert ⟨"b", 0, false, 2, 60, 0⟩, .connectionLost "a"] "b" :=
  ⟨[.sessionInsert ⟨"a", 0, false, 1, 60, 0⟩], _, [.connectionLost "a"], rfl, rfl, by simp⟩
example : (MessagingService.exec .sessionCount (execAll [.sessionInsert ⟨"a", 0, false, 1, 60, 0⟩, .sessionInsert ⟨"b", 0, false, 2, 60, 0⟩,
    .sessionInsert ⟨"a", 0, false, 3, 60, 0⟩, .connectionLost "a"] .new)).1 = (1 : Nat) := by
  show MessagingService.sessionCount _ = 1
  decide +kernel

/-- C67 is violated: in every state the Publish operation is acknowledged and sends nothing, although there may be subscribers. -/
theorem C67_publish_op_fails :
    (∀ m message publish, (MessagingService.exec (.publish message publish) m).2.1 = [])
    ∧ ∃ m, serve denyAll .new (atZero (victim "a")) = some m
        ∧ m.publishSends ⟨"a", [], .atMostOnce, false⟩ ⟨none, false, ⟨"a", [], .atMostOnce, false⟩⟩ ≠ [] := by
  exact ⟨fun _ _ _ => rfl, _, rfl, by decide +kernel⟩

/-- C67, the part that holds: the operation the broker itself uses, SendersToPublish, answers with the connections of the matching
sessions, to which the handler then sends (C32). Missing: Publish itself. -/
theorem C67_publish_op_partial (m : MessagingService) (message : Message) (publish : PublishPacket) :
    m.publishSends message publish
      = ((MessagingService.exec (.sendersToPublish message.topic) m).1 : List ConnId).map fun d => (d, .controlPacket (.publish publish)) := by
  show _ = List.map _ (m.sendersToPublish message.topic)
  unfold MessagingService.publishSends MessagingService.sendersToPublish
  rw [subscribedClients_eq]
  simp only [List.map_filterMap, Option.map_map, Function.comp_def]

end Ratel
