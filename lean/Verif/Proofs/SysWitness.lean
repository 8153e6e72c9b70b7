/-
The executions behind the violated system properties.
-/
import Verif.Proofs.SysRun
import Verif.Props.Handler

namespace Ratel

open Decoder Encoder Spec

theorem writeConnAck_buffered (al : Alloc) (p : ConnAckPacket) (script : List WriteOutcome) :
    letI := WStream.sink al
    (writeBody (.connAck p) : M WStream Unit) (WStream.new 4096 script)
      = (.ok (), ⟨⟨0, 4096, [0x20, 2, if p.sessionPresent then 1 else 0, p.returnCode.toByte]⟩, [], script⟩) := by
  letI := WStream.sink al
  show (writeConnAck p : M WStream Unit) _ = _
  unfold writeConnAck
  have h1 : (ByteSink.putU8 (packetTypeConnAck <<< 4) : M WStream Unit) (WStream.new 4096 script)
    = (.ok (), ⟨⟨0, 4096, [0x20]⟩, [], script⟩) := putU8_buffered al _ _ _ _ _ (by decide)
  rw [M.bind_ok h1, encodeRemainingLength]
  have h2 : (ByteSink.putU8 2 : M WStream Unit) ⟨⟨0, 4096, [0x20]⟩, [], script⟩
    = (.ok (), ⟨⟨0, 4096, [0x20] ++ [2]⟩, [], script⟩) := putU8_buffered al _ _ _ _ _ (by decide)
  simp only [show (2 / 128 : Nat) = 0 by rfl, show (2 % 128 : Nat) = 2 by rfl, gt_iff_lt, Nat.lt_irrefl, ↓reduceIte, ↓reduceDIte]
  rw [show UInt8.ofNat 2 = 2 by rfl, M.bind_assoc', M.bind_ok h2]
  have h3 : (ByteSink.putU8 (if p.sessionPresent then 1 else 0) : M WStream Unit) ⟨⟨0, 4096, [0x20] ++ [2]⟩, [], script⟩
    = (.ok (), ⟨⟨0, 4096, [0x20] ++ [2] ++ [if p.sessionPresent then 1 else 0]⟩, [], script⟩) := putU8_buffered al _ _ _ _ _ (by decide)
  have h4 : (ByteSink.putU8 p.returnCode.toByte : M WStream Unit) ⟨⟨0, 4096, [0x20] ++ [2] ++ [if p.sessionPresent then 1 else 0]⟩, [], script⟩
    = (.ok (), ⟨⟨0, 4096, [0x20] ++ [2] ++ [if p.sessionPresent then 1 else 0] ++ [p.returnCode.toByte]⟩, [], script⟩) :=
    putU8_buffered al _ _ _ _ _ (by simp)
  rw [M.bind_ok (show (pure () : M WStream Unit) _ = (.ok (), _) from rfl), M.bind_ok h3, h4]
  rfl

theorem writeConnAck_blocked (al : Alloc) (p : ConnAckPacket) :
    letI := WStream.sink al
    ((writePacket (.connAck p) : M WStream Unit) (WStream.new 4096 [])).1 = .pending := by
  letI := WStream.sink al
  unfold writePacket
  rw [M.bind_ok (writeConnAck_buffered al p [])]
  rfl

theorem writeConnAck_returns (al : Alloc) (p : ConnAckPacket) (o : WriteOutcome) (script : List WriteOutcome) :
    letI := WStream.sink al
    ((writePacket (.connAck p) : M WStream Unit) (WStream.new 4096 (o :: script))).1 = .ok ()
    ∨ ((writePacket (.connAck p) : M WStream Unit) (WStream.new 4096 (o :: script))).1 = .err .other := by
  letI := WStream.sink al
  unfold writePacket
  rw [M.bind_ok (writeConnAck_buffered al p (o :: script))]
  cases o with
  | accept k => exact .inl rfl
  | fail => exact .inr rfl

namespace Sys

/-! ### Crashing the handler -/

/-- A read event the handler crashes on. -/
theorem enter_crash (env : Env) (now : Instant) {s : Sys} {m : MessagingService} (hq : Quiet s m) {c : ConnId} {ev : ClientEvent} {k' : Conn}
    (hs : Speaks env c (s.conns c) ev k') (hm : Handler.handle env.auth now m ev = none) :
    (run env s [.read c, .read c, .handler now]).handler = .crashed := by
  show (run env s ([.read c, .read c] ++ [.handler now])).handler = .crashed
  rw [run_append, enter env hq hs, run_cons]
  unfold step stepHandler
  simp only [setConn_handler, hq.idle, setConn_events, setConn_messaging, hq.messaging, hm]
  rfl

/-- An event gets from the socket into the handler, which has something to send. -/
theorem enter_busy (env : Env) (now : Instant) {s : Sys} {m m' : MessagingService} (hq : Quiet s m) {c : ConnId} {ev : ClientEvent} {k' : Conn}
    (hs : Speaks env c (s.conns c) ev k') {x : ConnId × ServerEvent} {sends : List (ConnId × ServerEvent)}
    (hm : Handler.handle env.auth now m ev = some (m', x :: sends)) :
    run env s [.read c, .read c, .handler now]
      = { s.setConn c k' with log := s.log ++ [(ev, now)], messaging := m', handler := .busy (x :: sends), events := [] } := by
  show run env s ([.read c, .read c] ++ [.handler now]) = _
  rw [run_append, enter env hq hs, run_cons]
  show step env ({ s with events := [ev] }.setConn c k') (.handler now) = _
  unfold step stepHandler
  simp only [setConn_handler, hq.idle, setConn_events, setConn_messaging, hq.messaging, hm, setConn_log]
  rfl

/-- A read event the handler is to answer to a connection whose write task has ended. -/
theorem enter_closed (env : Env) (now : Instant) {s : Sys} {m m' : MessagingService} (hq : Quiet s m) {c : ConnId} {ev : ClientEvent} {k' : Conn}
    (hs : Speaks env c (s.conns c) ev k') {d : ConnId} {e : ServerEvent} {sends : List (ConnId × ServerEvent)}
    (hm : Handler.handle env.auth now m ev = some (m', (d, e) :: sends)) (hx : ((s.setConn c k').conns d).rxOpen = false) :
    (run env s [.read c, .read c, .handler now, .handler now]).handler = .crashed := by
  show (run env s ([.read c, .read c, .handler now] ++ [.handler now])).handler = .crashed
  rw [run_append, enter_busy env now hq hs hm, run_cons]
  simp only [run, List.foldl_nil, step, stepHandler]
  rw [if_neg (by rw [hx]; decide)]

/-- A write task with a CONNACK and a close request to handle, on a socket that takes one write. -/
theorem write_refusal (env : Env) {s : Sys} {c : ConnId} (hx : (s.conns c).rxOpen = true) (hb : (s.conns c).wrBlocked = false)
    (p : ConnAckPacket) (hq : (s.conns c).queue = [.controlPacket (.connAck p), .disconnect]) (o : WriteOutcome) (more : List WriteOutcome)
    (hw : (s.conns c).wr = WStream.new 4096 (o :: more)) :
    ∃ k, run env s [.write c, .write c] = s.setConn c k ∧ k.rxOpen = false ∧ k.rd = (s.conns c).rd ∧ k.outbox = (s.conns c).outbox
      ∧ k.phase = (s.conns c).phase := by
  letI := WStream.sink env.alloc
  have hret := writeConnAck_returns env.alloc p o more
  have h1 : ∃ wr, step env s (.write c) = s.setConn c { s.conns c with queue := [.disconnect], wr := wr, written := (s.conns c).written ++ [.connAck p] } := by
    rcases hm : (writePacket (.connAck p) : M WStream Unit) (WStream.new 4096 (o :: more)) with ⟨r, wr⟩
    rw [hm] at hret
    refine ⟨wr, ?_⟩
    unfold step stepWrite
    simp only [hx, hb, Bool.not_false, Bool.and_self, ↓reduceIte, hq, hw]
    rcases hret with h | h <;> simp only at h <;> subst h <;> rw [hm]
  obtain ⟨wr, h1⟩ := h1
  refine ⟨{ s.conns c with queue := [], wr := wr, written := (s.conns c).written ++ [.connAck p], rxOpen := false }, ?_, rfl, rfl, rfl, rfl⟩
  rw [run_cons, h1]
  show step env _ (.write c) = _
  unfold step stepWrite
  simp only [setConn_self, hx, hb, Bool.not_false, Bool.and_self, ↓reduceIte]
  rw [setConn_setConn]

/-- A write task with a CONNACK to handle, on a socket that takes nothing. -/
theorem write_parks (env : Env) {s : Sys} {c : ConnId} (hx : (s.conns c).rxOpen = true) (hb : (s.conns c).wrBlocked = false)
    (p : ConnAckPacket) (hq : (s.conns c).queue = [.controlPacket (.connAck p)]) (hw : (s.conns c).wr = WStream.new 4096 []) :
    ∃ wr, step env s (.write c)
      = s.setConn c { s.conns c with queue := [], wr := wr, written := (s.conns c).written ++ [.connAck p], wrBlocked := true } := by
  letI := WStream.sink env.alloc
  have hret := writeConnAck_blocked env.alloc p
  rcases hm : (writePacket (.connAck p) : M WStream Unit) (WStream.new 4096 []) with ⟨r, wr⟩
  rw [hm] at hret
  simp only at hret
  subst hret
  refine ⟨wr, ?_⟩
  unfold step stepWrite
  simp only [hx, hb, Bool.not_false, Bool.and_self, ↓reduceIte, hq, hw]
  rw [hm]

/-! ### Stalling the handler -/

theorem hello_sendable (id : String) (h : Fits id) (h' : (clientRest (hello id)).length < 2097152) :
    Legal (hello id) ∧ NoWill (hello id) ∧ (clientRest (hello id)).length < 2097152 :=
  ⟨⟨(by decide +kernel : (utf8 "MQTT").length < 65536), h, by simp, by simp, by simp⟩, rfl, h'⟩

theorem next_hello {env : Env} {c : ConnId} {k : Conn} {id : String} {cs : List ClientPacket} {fin : Ending} (hid : id ≠ "")
    (h : Next k (hello id :: cs) fin) (hp : k.phase = .first) :
    ∃ rd, Speaks env c k (.connected ⟨.mqtt3, id, 60, true, none, none, none⟩ k.addr c) { k with rd := rd, phase := .running id }
      ∧ Next { k with rd := rd, phase := .running id } cs fin := by
  have he : effectiveClientId k ⟨.mqtt3, id, 60, true, none, none, none⟩ = id := by simp [effectiveClientId, hid]
  have := next_first (env := env) (c := c) h hp ⟨.mqtt3, id, 60, true, none, none, none⟩ rfl
  rw [he] at this
  exact this

theorem subscriber_sendable : Sendable subscriberPackets := by
  intro c hc
  simp only [subscriberPackets, List.mem_cons, List.not_mem_nil, or_false] at hc
  rcases hc with rfl | rfl
  · exact hello_sendable "s" (by unfold Fits; decide +kernel) (by decide +kernel)
  · exact ⟨⟨by simp, by unfold Fits; decide +kernel⟩, trivial, by decide +kernel⟩

theorem publisher_sendable : Sendable publisherPackets := by
  intro c hc
  rcases List.mem_cons.mp hc with rfl | hc
  · exact hello_sendable "p" (by unfold Fits; decide +kernel) (by decide +kernel)
  · rw [(List.mem_replicate.mp hc).2]
    exact ⟨⟨by decide +kernel, by decide⟩, trivial, by decide +kernel⟩

/-- The session of client `id` on connection `c`, begun at time 0. -/
def someSession (id : ClientId) (addr : SocketAddr) (c : ConnId) : Session := ⟨id, addr.ip, false, c, 60, 0⟩

/-- After the subscriber's CONNECT and SUBSCRIBE and the publisher's CONNECT. -/
def stallService (a b : SocketAddr) : MessagingService :=
  ((MessagingService.new.sessionInsert (someSession "s" a 0)).subscribe "s" ⟨"t", .atMostOnce⟩).2.sessionInsert (someSession "p" b 1)

theorem stall_senders (a b : SocketAddr) : (stallService a b).sendersToPublish "t" = [0] := by
  have h1 : (stallService a b).subscriptions.subscribedClients "t" = some ["s"] := by
    show ((MessagingService.new.subscriptions.subscribe "s" ⟨"t", .atMostOnce⟩).2).subscribedClients "t" = some ["s"]
    decide +kernel
  unfold MessagingService.sendersToPublish
  rw [h1]
  rfl

theorem handle_hello (auth : IdentityProvider) (m : MessagingService) (id : ClientId) (addr : SocketAddr) (c : ConnId) :
    Handler.handle auth 0 m (.connected ⟨.mqtt3, id, 60, true, none, none, none⟩ addr c)
      = some (m.sessionInsert (someSession id addr c), [(c, .controlPacket (.connAck ⟨false, .accepted⟩))]) := rfl

theorem handle_subscribe (auth : IdentityProvider) (m : MessagingService) (id : ClientId) (i : UInt16) (f : Subscription) (c : ConnId) :
    Handler.handle auth 0 m (.controlPacket id (.subscribe ⟨i, [f]⟩) c)
      = some ((m.subscribe id f).2, [(c, .controlPacket (.subAck ⟨i, [(m.subscribe id f).1]⟩))]) := rfl

theorem handle_publish (auth : IdentityProvider) (m : MessagingService) (id : ClientId) (q : PublishPacket) (c : ConnId) :
    Handler.handle auth 0 m (.controlPacket id (.publish q) c)
      = some (m, (m.sendersToPublish q.message.topic).map fun d => (d, .controlPacket (.publish q))) := rfl

theorem sentTo_one (d : ConnId) (e : ServerEvent) (c : ConnId) : sentTo [(d, e)] c = if d = c then [e] else [] := by
  rw [sentTo_cons]; simp [sentTo]

/-- A turn with one send, to a connection with room. -/
theorem turn_one (env : Env) {s : Sys} {m m' : MessagingService} (hq : Quiet s m) {c : ConnId} {ev : ClientEvent} {k' : Conn}
    (hs : Speaks env c (s.conns c) ev k') {d : ConnId} {e : ServerEvent} (hm : Handler.handle env.auth 0 m ev = some (m', [(d, e)]))
    (hx : ((s.setConn c k').conns d).rxOpen = true) (hr : ((s.setConn c k').conns d).queue.length < 32) :
    ∃ sched, Quiet (run env s sched) m' ∧ (run env s sched).log = s.log ++ [(ev, 0)] ∧ (run env s sched).ctrlC = s.ctrlC
      ∧ (run env s sched).conns d = { (s.setConn c k').conns d with
          queue := ((s.setConn c k').conns d).queue ++ [e], delivered := ((s.setConn c k').conns d).delivered ++ [e] }
      ∧ ∀ x, x ≠ d → (run env s sched).conns x = (s.setConn c k').conns x := by
  obtain ⟨sched, h1, h2, h3, h4⟩ := turn env 0 hq hs hm (by
    intro x hx'
    rw [sentTo_one] at hx' ⊢
    by_cases h : d = x
    · subst h
      refine ⟨hx, ?_⟩
      simp only [↓reduceIte, List.length_singleton, channelCapacity]
      omega
    · simp [h] at hx')
  refine ⟨sched, h1, h2, h3, ?_, fun x hxd => ?_⟩
  · rw [h4]; simp [withSends, sentTo_one]
  · rw [h4]
    have : d ≠ x := fun h => hxd h.symm
    simp [withSends, sentTo_one, this]

/-- The stall is being prepared: `n` messages have been sent to the subscriber, whose write task is parked. -/
structure Stalling (peers : ConnId → Peer) (s : Sys) (n : Nat) : Prop where
  quiet : Quiet s (stallService (peers 0).addr (peers 1).addr)
  rx : (s.conns 0).rxOpen = true
  parked : (s.conns 0).wrBlocked = true
  queue : (s.conns 0).queue.length = 1 + n
  next : Next (s.conns 1) (List.replicate (32 - n) (.publish blank)) (peers 1).fin
  phase : (s.conns 1).phase = .running "p"
  others : ∀ d, d ≠ 0 → d ≠ 1 → s.conns d = (peers d).conn
  one : (s.conns 0).written.length = 1

theorem stalling_start (env : Env) (peers : ConnId → Peer) (h0 : (peers 0).segs.flatten = clientBytes subscriberPackets)
    (h1 : (peers 1).segs.flatten = clientBytes publisherPackets) (hw : (peers 0).script = []) :
    ∃ sched, Stalling peers (run env (init peers) sched) 0 := by
  have n0 : Next (peers 0).conn subscriberPackets (peers 0).fin := next_new _ _ h0 subscriber_sendable (by decide +kernel)
  have n1 : Next (peers 1).conn publisherPackets (peers 1).fin := next_new _ _ h1 publisher_sendable (by decide +kernel)
  -- the subscriber's CONNECT
  obtain ⟨rd, hsp, hn⟩ := next_hello (env := env) (c := 0) (by decide) n0 rfl
  obtain ⟨sa, qa, _, _, ca, oa⟩ := turn_one env (s := init peers) (m := .new) ⟨rfl, rfl, rfl⟩ hsp (handle_hello _ _ _ _ _) (by simp [Peer.conn]) (by simp [Peer.conn])
  generalize hsA : run env (init peers) sa = sA at *
  simp only [setConn_self] at ca
  -- its write task parks
  obtain ⟨wr, hwr⟩ := write_parks env (s := sA) (c := 0) (by rw [ca]; rfl) (by rw [ca]; rfl) ⟨false, .accepted⟩ (by rw [ca]; rfl)
    (by rw [ca]; simp only [Peer.conn]; rw [hw])
  have qb : Quiet (step env sA (.write 0)) (MessagingService.new.sessionInsert (someSession "s" (peers 0).conn.addr 0)) := by rw [hwr]; exact ⟨qa.idle, qa.events, qa.messaging⟩
  have cb := congrArg (fun s : Sys => s.conns 0) hwr
  simp only [setConn_self] at cb
  have ob : ∀ d, d ≠ 0 → (step env sA (.write 0)).conns d = (peers d).conn := by
    intro d hd
    rw [hwr, setConn_other _ _ hd, oa d hd, setConn_other _ _ hd]
    rfl
  generalize hsB : step env sA (.write 0) = sB at *
  rw [ca] at cb
  -- its SUBSCRIBE
  have nb : Next (sB.conns 0) [.subscribe 1 [("t", .atMostOnce)]] (peers 0).fin := hn.congr (by rw [cb]) (by rw [cb])
  obtain ⟨rd', hsp', hn'⟩ := next_running (env := env) (c := 0) nb (id := "s") (by rw [cb])
  obtain ⟨sc, qc, _, _, cc, oc⟩ := turn_one env qb hsp' (handle_subscribe _ _ _ _ _ _) (by rw [setConn_self, cb]; rfl)
    (by rw [setConn_self, cb]; simp)
  generalize hsC : run env sB sc = sC at *
  simp only [setConn_self] at cc
  have o1 : sC.conns 1 = (peers 1).conn := by rw [oc 1 (by decide), setConn_other _ _ (by decide), ob 1 (by decide)]
  -- the publisher's CONNECT
  obtain ⟨rd'', hsp'', hn''⟩ := next_hello (env := env) (c := 1) (k := sC.conns 1) (id := "p") (by decide) (by rw [o1]; exact n1) (by rw [o1]; rfl)
  obtain ⟨sd, qd, _, _, cd, od⟩ := turn_one env qc hsp'' (handle_hello _ _ _ _ _) (by rw [setConn_self, o1]; rfl) (by rw [setConn_self, o1]; simp [Peer.conn])
  generalize hsD : run env sC sd = sD at *
  simp only [setConn_self] at cd
  refine ⟨sa ++ (.write 0 :: (sc ++ sd)), ?_⟩
  rw [run_append, hsA, run_cons, hsB, run_append, hsC, hsD]
  have c0 := od 0 (by decide)
  rw [setConn_other _ _ (by decide), cc] at c0
  refine ⟨?_, ?_, ?_, ?_, ?_, ?_, ?_, ?_⟩
  · rw [o1] at qd; exact qd
  · rw [c0, cb]; rfl
  · rw [c0, cb]
  · rw [c0, cb]; rfl
  · exact hn''.congr (by rw [cd]) (by rw [cd])
  · rw [cd, o1]
  · intro d hd0 hd1
    rw [od d hd1, setConn_other _ _ hd1, oc d hd0, setConn_other _ _ hd0, ob d hd0]
  · rw [c0, cb]; rfl

theorem stalling_step (env : Env) (peers : ConnId → Peer) {s : Sys} {n : Nat} (h : Stalling peers s n) (hn : n < 31) :
    ∃ sched, Stalling peers (run env s sched) (n + 1) := by
  have hnext : Next (s.conns 1) (.publish blank :: List.replicate (32 - (n + 1)) (.publish blank)) (peers 1).fin := by
    have := h.next
    rw [show 32 - n = 32 - (n + 1) + 1 by omega, List.replicate_succ] at this
    exact this
  obtain ⟨rd, hsp, hnx⟩ := next_running (env := env) (c := 1) hnext h.phase
  have hm : Handler.handle env.auth 0 (stallService (peers 0).addr (peers 1).addr) (.controlPacket "p" (.publish blank) 1)
      = some (stallService (peers 0).addr (peers 1).addr, [(0, .controlPacket (.publish blank))]) := by
    rw [handle_publish, show blank.message.topic = "t" from rfl, stall_senders]; rfl
  obtain ⟨sched, h1, _, _, h2, h3⟩ := turn_one env h.quiet hsp hm (by rw [setConn_other _ _ (by decide)]; exact h.rx)
    (by rw [setConn_other _ _ (by decide), h.queue]; omega)
  rw [setConn_other _ _ (by decide)] at h2
  refine ⟨sched, h1, ?_, ?_, ?_, ?_, ?_, ?_, ?_⟩
  · rw [h2]; exact h.rx
  · rw [h2]; exact h.parked
  · rw [h2]; simp [h.queue]; omega
  · rw [h3 1 (by decide), setConn_self]; exact hnx
  · rw [h3 1 (by decide), setConn_self]; exact h.phase
  · intro d hd0 hd1
    rw [h3 d hd0, setConn_other _ _ hd1]; exact h.others d hd0 hd1
  · rw [h2]; exact h.one

/-- The stall can be prepared to any degree. -/
theorem stalling (env : Env) (peers : ConnId → Peer) (h0 : (peers 0).segs.flatten = clientBytes subscriberPackets)
    (h1 : (peers 1).segs.flatten = clientBytes publisherPackets) (hw : (peers 0).script = []) (n : Nat) (hn : n ≤ 31) :
    ∃ sched, Stalling peers (run env (init peers) sched) n := by
  induction n with
  | zero => exact stalling_start env peers h0 h1 hw
  | succ n ih =>
    obtain ⟨sched, h⟩ := ih (by omega)
    obtain ⟨sched', h'⟩ := stalling_step env peers h (by omega)
    exact ⟨sched ++ sched', by rw [run_append]; exact h'⟩

/-- A state in which the handler is stuck, one packet was taken by the write task of connection 0, and only connections 0 and 1 ever got
anything. -/
theorem stall_publish (env : Env) (peers : ConnId → Peer) (h0 : (peers 0).segs.flatten = clientBytes subscriberPackets)
    (h1 : (peers 1).segs.flatten = clientBytes publisherPackets) (hw : (peers 0).script = []) :
    ∃ sched, Stuck (run env (init peers) sched) 0 (.controlPacket (.publish blank)) []
      ∧ ((run env (init peers) sched).conns 0).written.length = 1
      ∧ ∀ d, d ≠ 0 → d ≠ 1 → ((run env (init peers) sched).conns d).delivered = [] := by
  obtain ⟨sched, h⟩ := stalling env peers h0 h1 hw 31 (by omega)
  obtain ⟨rd, hsp, _⟩ := next_running (env := env) (c := 1) h.next h.phase
  have hm : Handler.handle env.auth 0 (stallService (peers 0).addr (peers 1).addr) (.controlPacket "p" (.publish blank) 1)
      = some (stallService (peers 0).addr (peers 1).addr, [(0, .controlPacket (.publish blank))]) := by
    rw [handle_publish, show blank.message.topic = "t" from rfl, stall_senders]; rfl
  have hb := enter_busy env 0 h.quiet hsp hm
  refine ⟨sched ++ [.read 1, .read 1, .handler 0], ?_, ?_, fun d hd0 hd1 => ?_⟩
  · rw [run_append, hb]
    refine ⟨rfl, ?_, ?_, ?_⟩
    · simpa [setConn] using h.rx
    · simp [setConn, h.queue]
    · simpa [setConn] using h.parked
  · rw [run_append, hb]
    simpa [setConn] using h.one
  · rw [run_append, hb]
    simp [setConn, hd1, h.others d hd0 hd1, Peer.conn]

theorem stall (env : Env) (peers : ConnId → Peer) (h0 : (peers 0).segs.flatten = clientBytes subscriberPackets)
    (h1 : (peers 1).segs.flatten = clientBytes publisherPackets) (hw : (peers 0).script = []) :
    ∃ sched e, Stuck (run env (init peers) sched) 0 e [] ∧ ∀ d, d ≠ 0 → d ≠ 1 → ((run env (init peers) sched).conns d).delivered = [] :=
  let ⟨sched, h, _, h'⟩ := stall_publish env peers h0 h1 hw
  ⟨sched, _, h, h'⟩

/-- A state in which a message was sent to connection 0. -/
theorem stall_delivered (env : Env) (peers : ConnId → Peer) (h0 : (peers 0).segs.flatten = clientBytes subscriberPackets)
    (h1 : (peers 1).segs.flatten = clientBytes publisherPackets) (hw : (peers 0).script = []) :
    ∃ sched, .controlPacket (.publish blank) ∈ ((run env (init peers) sched).conns 0).delivered := by
  obtain ⟨sched, h⟩ := stalling_start env peers h0 h1 hw
  obtain ⟨rd, hsp, _⟩ := next_running (env := env) (c := 1) h.next h.phase
  have hm : Handler.handle env.auth 0 (stallService (peers 0).addr (peers 1).addr) (.controlPacket "p" (.publish blank) 1)
      = some (stallService (peers 0).addr (peers 1).addr, [(0, .controlPacket (.publish blank))]) := by
    rw [handle_publish, show blank.message.topic = "t" from rfl, stall_senders]; rfl
  obtain ⟨sched', _, _, _, h2, _⟩ := turn_one env h.quiet hsp hm (by rw [setConn_other _ _ (by decide)]; exact h.rx)
    (by rw [setConn_other _ _ (by decide), h.queue]; omega)
  exact ⟨sched ++ sched', by rw [run_append, h2]; simp⟩

/-! ### A lost connection -/

theorem read_eof (al : Alloc) (pr : Profile) {rd : RStream} (hr : Rel rd ⟨[], .eof⟩) (hs : Small rd) :
    letI := RStream.source al
    ∃ e rd', (Decoder.readPacket pr : M RStream ControlPacket) rd = (.err e, rd') := by
  letI := RStream.source al
  have hsim := Sim.readPacket al closed_small pr rd _ hr hs
  have hp : (Decoder.readPacket pr : M Plain ControlPacket) ⟨[], .eof⟩ = (.err .connectionReset, ⟨[], .eof⟩) := by
    unfold Decoder.readPacket
    rw [M.bind_err (show (ByteSource.getU8 : M Plain UInt8) ⟨[], .eof⟩ = (.err .connectionReset, ⟨[], .eof⟩) from rfl)]
  rcases hm : (Decoder.readPacket pr : M RStream ControlPacket) rd with ⟨r, rd'⟩
  rw [hm, hp] at hsim
  cases r with
  | ok a => obtain ⟨p', h1, _⟩ := hsim; cases h1
  | err e => exact ⟨e, rd', rfl⟩
  | panic => obtain ⟨_, h⟩ := hsim; cases h
  | pending => obtain ⟨_, h⟩ := hsim; cases h
  | hang => exact hsim.elim

/-- After the subscriber's CONNECT and SUBSCRIBE. -/
def lostService (a : SocketAddr) : MessagingService :=
  ((MessagingService.new.sessionInsert (someSession "s" a 0)).subscribe "s" ⟨"t", .atMostOnce⟩).2

/-- The subscriber is gone and everybody else has never said anything sensible. -/
structure Lost (a : SocketAddr) (s : Sys) : Prop where
  handler : s.handler = .idle ∨ s.handler = .stopped
  events : s.events = []
  messaging : s.messaging = lostService a
  phase : (s.conns 0).phase = .ended
  outbox : (s.conns 0).outbox = none

theorem lost_start (env : Env) (peers : ConnId → Peer) (h0 : (peers 0).segs.flatten = clientBytes subscriberPackets)
    (hf : (peers 0).fin = .eof) : ∃ sched, Lost (peers 0).addr (run env (init peers) sched) := by
  have n0 : Next (peers 0).conn subscriberPackets (peers 0).fin := next_new _ _ h0 subscriber_sendable (by decide +kernel)
  obtain ⟨rd, hsp, hn⟩ := next_hello (env := env) (c := 0) (by decide) n0 rfl
  obtain ⟨sa, qa, _, _, ca, _⟩ := turn_one env (s := init peers) (m := .new) ⟨rfl, rfl, rfl⟩ hsp (handle_hello _ _ _ _ _) (by simp [Peer.conn]) (by simp [Peer.conn])
  generalize hsA : run env (init peers) sa = sA at *
  simp only [setConn_self] at ca
  have nb : Next (sA.conns 0) [.subscribe 1 [("t", .atMostOnce)]] (peers 0).fin := hn.congr (by rw [ca]) (by rw [ca])
  obtain ⟨rd', hsp', hn'⟩ := next_running (env := env) (c := 0) nb (id := "s") (by rw [ca])
  obtain ⟨sc, qc, _, _, cc, _⟩ := turn_one env qa hsp' (handle_subscribe _ _ _ _ _ _) (by rw [setConn_self, ca]; rfl)
    (by rw [setConn_self, ca]; simp [Peer.conn])
  generalize hsC : run env sA sc = sC at *
  simp only [setConn_self] at cc
  have hn'' : Next (sC.conns 0) [] (peers 0).fin := hn'.congr (by rw [cc]) (by rw [cc])
  have hph : (sC.conns 0).phase = .running "s" := by rw [cc, ca]
  refine ⟨sa ++ (sc ++ [.read 0]), ?_⟩
  rw [run_append, hsA, run_append, hsC]
  have hrel := hn''.rel
  rw [hf] at hrel
  obtain ⟨e, rd'', hr⟩ := read_eof env.alloc env.profile hrel hn''.small
  have : run env sC [.read 0] = sC.setConn 0 { sC.conns 0 with rd := rd'', phase := .ended } := by
    show step env sC (.read 0) = _
    unfold step stepRead readTask
    simp only [hn''.free, hph]
    rw [hr]
  rw [this]
  exact ⟨.inl qc.idle, qc.events, qc.messaging, by simp, by simp [hn''.free]⟩

theorem lost_forever (env : Env) (peers : ConnId → Peer) (hd : ∀ d, d ≠ 0 → NoConnect (peers d).segs.flatten) (sched : List Step)
    {a : SocketAddr} (h : Lost a (run env (init peers) sched)) (sched' : List Step) : Lost a (run env (init peers) (sched ++ sched')) := by
  refine snoc_induction (P := fun l => Lost a (run env (init peers) (sched ++ l))) (by simpa using h) ?_ sched'
  intro l st ih
  rw [← List.append_assoc, run_append]
  have hout : ∀ d, ((run env (init peers) (sched ++ l)).conns d).outbox = none := by
    intro d
    by_cases h0 : d = 0
    · subst h0; exact ih.outbox
    · exact no_outbox env peers _ (hd d h0)
  generalize run env (init peers) (sched ++ l) = s at *
  obtain ⟨i1, i2, i3, i4, i5⟩ := ih
  show Lost a (step env s st)
  cases st with
  | read d =>
    unfold step stepRead
    simp only [hout d]
    by_cases h0 : d = 0
    · subst h0
      have : readTask env 0 (s.conns 0) = s.conns 0 := by unfold readTask; rw [i4]
      rw [this]
      exact ⟨i1, i2, i3, by simpa using i4, by simpa using i5⟩
    · have h0' : (0 : ConnId) ≠ d := fun h => h0 h.symm
      exact ⟨i1, i2, i3, by rw [setConn_other _ _ h0']; exact i4, by rw [setConn_other _ _ h0']; exact i5⟩
  | write d =>
    obtain ⟨r1, r2, r3, _, _⟩ := stepWrite_rest env s d
    have hr := stepWrite_reader env s d 0
    simp only [step]
    exact ⟨by rw [r2]; exact i1, r1.trans i2, r3.trans i3, hr.phase.trans i4, hr.outbox.trans i5⟩
  | handler now =>
    have : stepHandler env now s = s := by
      unfold stepHandler
      rcases i1 with h | h
      · rw [h, i2]
      · rw [h]
    rw [step, this]
    exact ⟨i1, i2, i3, i4, i5⟩
  | ctrlC => exact ⟨i1, i2, i3, i4, i5⟩
  | stop =>
    unfold step
    rcases i1 with h | h
    · rw [h]
      simp only
      split
      · exact ⟨.inr rfl, i2, i3, i4, i5⟩
      · exact ⟨.inl h, i2, i3, i4, i5⟩
    · rw [h]
      exact ⟨.inr h, i2, i3, i4, i5⟩

end Sys

end Ratel
