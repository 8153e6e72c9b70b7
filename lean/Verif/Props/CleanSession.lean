/-
C142: a client that asks for a clean session starts without subscriptions.
-/
import Verif.Props.Handler
import Verif.Props.System

namespace Ratel

open Spec

/-! ### Subscriptions come from SUBSCRIBE -/

/-- An event subscribes client `c` to filter `f`. -/
def Subscribes (c : ClientId) (f : String) : ClientEvent → Prop
  | .controlPacket id (.subscribe s) _ => id = c ∧ ∃ x ∈ s.subscriptions, x.topic = f
  | _ => False

theorem mem_unsubscribe {c : ClientId} {fs : List String} {es : Entries} {e : ClientId × String}
    (h : e ∈ Entries.unsubscribe c fs es) : e ∈ es := by
  induction fs generalizing es with
  | nil => exact h
  | cons f fs ih => exact List.mem_of_mem_erase (ih h)

/-- Where a subscription held after some operations comes from. -/
theorem mem_counting {ops : List SubOp} {es : Entries} {c : ClientId} {f : String} (h : (c, f) ∈ ops.foldl Entries.counting es) :
    (c, f) ∈ es ∨ ∃ x : Subscription, x.topic = f ∧ SubOp.subscribe c x ∈ ops := by
  induction ops generalizing es with
  | nil => exact .inl h
  | cons op ops ih =>
    rcases ih h with h1 | ⟨x, h1, h2⟩
    · cases op with
      | subscribe d s =>
        rcases List.mem_append.mp h1 with h1 | h1
        · exact .inl h1
        · rw [List.mem_singleton] at h1
          cases h1
          exact .inr ⟨s, rfl, List.mem_cons_self⟩
      | unsubscribe d fs => exact .inl (mem_unsubscribe h1)
      | disconnected d => exact .inl (mem_unsubscribe h1)
      | connectionLost d => exact .inl (mem_unsubscribe h1)
    · exact .inr ⟨x, h1, List.mem_cons_of_mem _ h2⟩

/-- A SUBSCRIBE in an event. -/
theorem subscribes_of_subOps {c : ClientId} {x : Subscription} {ev : ClientEvent} (h : SubOp.subscribe c x ∈ subOps ev) :
    Subscribes c x.topic ev := by
  unfold subOps at h
  split at h
  · obtain ⟨y, hy, he⟩ := List.mem_map.mp h
    cases he
    exact ⟨rfl, _, hy, rfl⟩
  all_goals simp at h

/-- A subscription held after `evs ++ evs'` was held after `evs`, or its client subscribed in `evs'`. -/
theorem held_append {evs evs' : List ClientEvent} {c : ClientId} {f : String} (h : (c, f) ∈ held (evs ++ evs')) :
    (c, f) ∈ held evs ∨ ∃ ev ∈ evs', Subscribes c f ev := by
  unfold held Entries.counted at h
  rw [List.flatMap_append, List.foldl_append] at h
  rcases mem_counting h with h1 | ⟨x, rfl, h2⟩
  · exact .inl h1
  · obtain ⟨ev, h3, h4⟩ := List.mem_flatMap.mp h2
    exact .inr ⟨ev, h3, subscribes_of_subOps h4⟩

/-! ### C142 -/

/-- C142 is violated: whatever the client subscribed to before and still holds — its connection broke without DISCONNECT — is in force
again as soon as it has connected with a clean session: a matching PUBLISH, by anybody, is sent to the new connection although nothing
was subscribed to on it. -/
theorem C142_clean_session_fails :
    (∀ (auth : IdentityProvider) (h : List (ClientEvent × Instant)) (m : MessagingService),
      serve auth MessagingService.new h = some m → ∀ (p : ConnectPacket) (f : String), p.cleanSession = true → login auth p = .accepted →
      (p.clientId, f) ∈ held (h.map Prod.fst) → ∀ (addr : SocketAddr) (tx tx' : ConnId) (now now' : Instant) (id' : ClientId)
        (q : PublishPacket), Matches f q.message.topic →
      ∃ m' acks sends, Handler.handle auth now m (.connected p addr tx) = some (m', acks)
        ∧ Handler.handle auth now' m' (.controlPacket id' (.publish q) tx') = some (m', sends)
        ∧ (tx, .controlPacket (.publish q)) ∈ sends)
    ∧ (let peers : ConnId → Sys.Peer := fun c =>
        if c = 0 then ⟨someAddr, "u", [clientBytes subscriberPackets], .eof, []⟩
        else if c = 1 then ⟨someAddr, "u", [clientBytes [hello "s"]], .eof, []⟩
        else ⟨someAddr, "u", [clientBytes [hello "p", .publish blank]], .eof, []⟩
      ((Sys.init peers).run exampleEnv
        [.read 0, .read 0, .handler 0, .handler 0, .read 0, .read 0, .handler 0, .handler 0, .read 0,
         .read 1, .read 1, .handler 0, .handler 0,
         .read 2, .read 2, .handler 0, .handler 0, .read 2, .read 2, .handler 0, .handler 0]).conns 1 |>.delivered)
      = [.controlPacket (.connAck ⟨false, .accepted⟩), .controlPacket (.publish blank)] := by
  constructor
  · intro auth h m hm p f _ hl hf addr tx tx' now now' id' q hq
    classical
    have hcon : ∃ m' acks, Handler.handle auth now m (.connected p addr tx) = some (m', acks) := by
      obtain ⟨b, h1, _, _⟩ := serve_state auth h m hm
      have hr := handle_refines auth now h1 (.connected p addr tx)
      cases hh : Handler.handle auth now m (.connected p addr tx) with
      | some r => exact ⟨r.1, r.2, rfl⟩
      | none =>
        rw [hh] at hr
        simp only [Broker.step, hl] at hr
        cases hr
    obtain ⟨m', acks, hcon⟩ := hcon
    have hm' : serve auth .new (h ++ [(.connected p addr tx, now)]) = some m' := by
      rw [serve_append, hm]
      simp [serve, hcon]
    obtain ⟨sends, h1, h2, h3⟩ := C32_any_topic auth _ m' hm' now' id' tx' q
    refine ⟨m', acks, sends, hcon, h1, ?_⟩
    have hpos : 0 < (sends.map Prod.fst).count tx := by
      rw [h3]
      have hmem : (p.clientId, f) ∈ (held ((h ++ [(ClientEvent.connected p addr tx, now)]).map Prod.fst)).filter
          fun e => ReachedOn auth ((h ++ [(ClientEvent.connected p addr tx, now)]).map Prod.fst) e.1 tx := by
        rw [List.mem_filter, List.map_append]
        refine ⟨?_, decide_eq_true (reachedOn_append.mpr (.inl ⟨p, addr, rfl, rfl, hl⟩))⟩
        unfold held at hf ⊢
        rw [List.flatMap_append]
        simpa [subOps] using hf
      have hw := ways_pos.mpr hq
      exact Nat.lt_of_lt_of_le hw
        (le_sum_of_mem (List.mem_map_of_mem (f := fun e : ClientId × String => ways e.2 q.message.topic) hmem))
    rw [List.count_pos_iff, List.mem_map] at hpos
    obtain ⟨⟨d, ev⟩, he, rfl⟩ := hpos
    rw [← h2 _ he]
    exact he
  · decide +kernel

/-- C142, the part that holds: if the client holds no subscription when it connects, then — as long as it is the only client reached on
that connection — every message sent there matches a filter it subscribed to since. Missing: that connecting with a clean session ends
the subscriptions still held. -/
theorem C142_clean_session_partial (auth : IdentityProvider) (before since : List (ClientEvent × Instant)) (p : ConnectPacket)
    (addr : SocketAddr) (tx : ConnId) (now : Instant) (m : MessagingService)
    (hm : serve auth MessagingService.new (before ++ (.connected p addr tx, now) :: since) = some m)
    (hn : ∀ f, (p.clientId, f) ∉ held (before.map Prod.fst))
    (ho : ∀ c, ReachedOn auth ((before ++ (ClientEvent.connected p addr tx, now) :: since).map Prod.fst) c tx → c = p.clientId)
    (now' : Instant) (id' : ClientId) (tx' : ConnId) (q : PublishPacket) :
    ∃ sends, Handler.handle auth now' m (.controlPacket id' (.publish q) tx') = some (m, sends)
      ∧ ∀ e ∈ sends, e.1 = tx → ∃ f, Matches f q.message.topic ∧ ∃ ev ∈ since, Subscribes p.clientId f ev.1 := by
  obtain ⟨sends, h1, h2⟩ := C28_wildcard_topic_partial auth _ m hm now' id' tx' q
  refine ⟨sends, h1, fun e he het => ?_⟩
  obtain ⟨c, f, h3, h4, h5⟩ := h2 e he
  rw [het] at h3
  obtain rfl := ho c h3
  rw [List.map_append, List.map_cons] at h4
  rcases held_append h4 with h6 | ⟨ev, h6, h7⟩
  · exact absurd h6 (hn f)
  · rcases List.mem_cons.mp h6 with rfl | h6
    · exact absurd h7 (fun h => h)
    · obtain ⟨x, hx, rfl⟩ := List.mem_map.mp h6
      exact ⟨f, h5, x, hx, h7⟩

/-- C142. When that is so: the client said DISCONNECT, had never subscribed to a filter it already held, and has not subscribed
since. -/
theorem C142_after_disconnect_partial (evs since : List ClientEvent) (c : ClientId) (tx : ConnId)
    (hn : NoRepeatBy c (evs.flatMap subOps)) (hs : ∀ ev ∈ since, ∀ f, ¬ Subscribes c f ev) (f : String) :
    (c, f) ∉ held (evs ++ .controlPacket c .disconnect tx :: since) := by
  intro h
  rw [List.append_cons] at h
  rcases held_append h with h1 | ⟨ev, h1, h2⟩
  · have hn' : NoRepeatBy c (evs.flatMap subOps ++ [.disconnected c]) := noRepeatBy_snoc hn fun s h => by cases h
    have hc := count_counted_eq c f _ hn'
    unfold held at h1
    rw [List.flatMap_append] at h1
    simp only [List.flatMap_cons, List.flatMap_nil, List.append_nil, subOps] at h1
    rw [← List.count_pos_iff, hc, current_append] at h1
    simp [Entries.standard] at h1
  · exact hs ev h1 f h2

/-- A client that subscribed, said DISCONNECT and connects again with a clean session, on another connection. -/
example : (serve denyAll .new (atZero (victim "a" ++ [.controlPacket "v" .disconnect 1, .connected (plainConnect "v") someAddr 2]))).bind
    (fun m => (Handler.handle denyAll 0 m (.controlPacket "p" (.publish ⟨none, false, ⟨"a", [1], .atMostOnce, false⟩⟩) 3)).map (·.2))
    = some [] := by
  decide +kernel

/-- It meets the conditions. -/
example : NoRepeatBy "v" ((victim "a").flatMap subOps) ∧ held (victim "a" ++ [.controlPacket "v" .disconnect 1]) = [] := by
  constructor
  · intro pre s post he
    have : (victim "a").flatMap subOps = [.subscribe "v" ⟨"a", .atMostOnce⟩] := rfl
    rw [this] at he
    cases pre with
    | nil => simp [Entries.current]
    | cons x pre => simp at he
  · decide +kernel

/-- A client whose connection broke: it holds its subscription when it connects again, asking for a clean session. -/
example : (plainConnect "v").cleanSession = true ∧ ("v", "a") ∈ held (victim "a") := by
  decide +kernel

end Ratel
