/-
C77, exactly: which sequences of events the broker can serve. C135: which sequences crash it.
-/
import Verif.Proofs.Orders
import Verif.Proofs.SysTook
import Verif.Props.Protocol

namespace Ratel

open Decoder Encoder Spec Sys

/-- The packets of each connection, chosen for all connections. -/
theorem possible_packets {env : Env} {peers : ConnId → Peer} {evs : List ClientEvent} (h : InOrder env peers evs) :
    ∃ ps : ConnId → List ControlPacket, (∀ c, Finds env (peers c).conn (ps c))
      ∧ ∀ c, evs.filter (From c) <+: eventsOf (peers c) c (ps c) :=
  ⟨fun c => (h c).choose, fun c => ⟨rfl, receives_iff.mp (h c).choose_spec.1⟩, fun c => (h c).choose_spec.2⟩

theorem inOrder_run (env : Env) (peers : ConnId → Peer) (sched : List Step) : InOrder env peers ((run env (init peers) sched).log.map Prod.fst) := by
  intro c
  obtain ⟨_, _, ps, rd, h1, _, _, _, _, h2⟩ := took_run env peers sched c
  refine ⟨ps, receives_iff.mpr ⟨rd, h1⟩, List.IsPrefix.trans ?_ h2⟩
  unfold taken
  rw [List.filter_append]
  exact List.prefix_append _ _

theorem inOrder_pre {env : Env} {peers : ConnId → Peer} {pre post : List ClientEvent} (h : InOrder env peers (pre ++ post)) :
    InOrder env peers pre := fun c => by
  obtain ⟨ps, h1, h2⟩ := h c
  refine ⟨ps, h1, List.IsPrefix.trans ?_ h2⟩
  rw [List.filter_append]
  exact List.prefix_append _ _

/-- On connections of fewer than 4096 bytes all packets can be received. -/
theorem inOrder_short {env : Env} {peers : ConnId → Peer} (hl : ∀ c, (peers c).segs.flatten.length < 4096) (evs : List ClientEvent) :
    InOrder env peers evs ↔ Orderly env peers evs := by
  refine ⟨fun h c => ?_, fun h c => ?_⟩
  · obtain ⟨ps, h1, h2⟩ := h c
    exact ⟨ps, receives_decodes h1, h2⟩
  · obtain ⟨ps, h1, h2⟩ := h c
    exact ⟨ps, receives_iff.mpr (finds_new env (peers c) h1 (hl c)).2, h2⟩

theorem possible_short {env : Env} {peers : ConnId → Peer} (hl : ∀ c, (peers c).segs.flatten.length < 4096) (evs : List ClientEvent) :
    Possible env peers evs ↔ Servable env peers evs :=
  ⟨fun ⟨h1, h2, h3, h4⟩ => ⟨(inOrder_short hl evs).mp h1, h2, h3, h4⟩, fun ⟨h1, h2, h3, h4⟩ => ⟨(inOrder_short hl evs).mpr h1, h2, h3, h4⟩⟩

/-- C77, exactly, for connections of any length. If the clients' sockets take enough writes, the broker can take the events `evs` in this order
and come to rest if and only if the events of each connection are a beginning of those of the packets that can be received from it through
its buffer, there is no CONNECT with a user name and no password, and nobody is sent more than 31 things after being told to go away. -/
theorem C77_any_length_iff (env : Env) (evs : List ClientEvent) : ∃ n : ConnId → Nat, ∀ peers, (∀ c, n c ≤ (peers c).script.length) →
    ((∃ sched, (run env (init peers) sched).handler = .idle ∧ (run env (init peers) sched).log.map Prod.fst = evs)
      ↔ Possible env peers evs) := by
  refine ⟨fun d => writesForAll env.alloc (packetsIn (Broker.start.outputs env.auth evs d)), fun peers hn => ⟨?_, fun h => ?_⟩⟩
  · rintro ⟨sched, hi, hlog⟩
    have hinv := inv_run env peers sched
    have hs : (run env (init peers) sched).served = evs := hlog
    obtain ⟨b, ha, _, ho⟩ := idle_rest hinv.serves hi
    refine ⟨hlog ▸ inOrder_run env peers sched, fun ev hev => ?_, after_complete (hs ▸ ha), fun d => ?_⟩
    · exact hinv.reads.from_conn ev (List.mem_append_left _ (by rw [hlog]; exact hev))
    · rw [← hs, ← ho]; exact away_room env peers sched d
  · obtain ⟨ps, h1, h2⟩ := possible_packets h.inOrder
    obtain ⟨sched, hs⟩ := servedAll h1 evs hn h.from_conn h2 (after_isSome h.complete _) h.room
    exact ⟨sched, hs.idle, hs.served⟩

/-- C77, in full, for connections of any length. For such events there is an execution that takes them in this order and comes to rest, in
which every connection has been sent what the sequential broker sends, and all of it is written up to a request to go away. -/
theorem C77_any_possible (env : Env) (evs : List ClientEvent) : ∃ n : ConnId → Nat, ∀ peers,
    (∀ c, n c ≤ (peers c).script.length) → Possible env peers evs →
    ∃ sched, (run env (init peers) sched).handler = .idle ∧ (run env (init peers) sched).log.map Prod.fst = evs
      ∧ ∀ d, ((run env (init peers) sched).conns d).delivered = Broker.start.outputs env.auth evs d
        ∧ ((run env (init peers) sched).conns d).written.map .controlPacket
          = (Broker.start.outputs env.auth evs d).takeWhile (· ≠ .disconnect) := by
  refine ⟨fun d => writesForAll env.alloc (packetsIn (Broker.start.outputs env.auth evs d)), fun peers hn h => ?_⟩
  obtain ⟨ps, h1, h2⟩ := possible_packets h.inOrder
  obtain ⟨sched, hs⟩ := servedAll h1 evs hn h.from_conn h2 (after_isSome h.complete _) h.room
  refine ⟨sched, hs.idle, hs.served, fun d => ?_⟩
  have hinv := inv_run env peers sched
  obtain ⟨b, _, _, ho⟩ := idle_rest hinv.serves hs.idle
  have hd := ho d
  rw [hs.served] at hd
  refine ⟨hd, ?_⟩
  obtain ⟨hx, hq⟩ := hs.calm d
  rw [← hd, (hinv.writes d).all hx]
  generalize ((run env (init peers) sched).conns d).written = w
  have hw : ∀ l : List ServerEvent, l.takeWhile (· ≠ .disconnect) = [] →
      (w.map ServerEvent.controlPacket ++ l).takeWhile (· ≠ .disconnect) = w.map .controlPacket := by
    intro l hl
    rw [List.takeWhile_append_of_pos (by simp), hl, List.append_nil]
  rcases hq with hq | ⟨r, hq⟩ <;> rw [hq, hw] <;> simp

/-- C77, exactly. If clients send fewer than 4096 bytes each, and their sockets take enough writes, the broker can take the events `evs`
in this order and come to rest if and only if `evs` is servable: the events of each connection are a beginning of what its bytes stand
for, there is no CONNECT with a user name and no password, and nobody is sent more than 31 things after being told to go away. -/
theorem C77_orders_iff (env : Env) (evs : List ClientEvent) : ∃ n : ConnId → Nat, ∀ peers,
    (∀ c, (peers c).segs.flatten.length < 4096) → (∀ c, n c ≤ (peers c).script.length) →
    ((∃ sched, (run env (init peers) sched).handler = .idle ∧ (run env (init peers) sched).log.map Prod.fst = evs)
      ↔ Servable env peers evs) := by
  obtain ⟨n, h⟩ := C77_any_length_iff env evs
  exact ⟨n, fun peers hl hn => (h peers hn).trans (possible_short hl evs)⟩

/-- C77, in full. For servable events there is an execution that takes them in this order and comes to rest, in which every connection
has been sent what the sequential broker sends, and all of it is written up to a request to go away. -/
theorem C77_any_servable (env : Env) (evs : List ClientEvent) : ∃ n : ConnId → Nat, ∀ peers,
    (∀ c, (peers c).segs.flatten.length < 4096) → (∀ c, n c ≤ (peers c).script.length) → Servable env peers evs →
    ∃ sched, (run env (init peers) sched).handler = .idle ∧ (run env (init peers) sched).log.map Prod.fst = evs
      ∧ ∀ d, ((run env (init peers) sched).conns d).delivered = Broker.start.outputs env.auth evs d
        ∧ ((run env (init peers) sched).conns d).written.map .controlPacket
          = (Broker.start.outputs env.auth evs d).takeWhile (· ≠ .disconnect) := by
  obtain ⟨n, h⟩ := C77_any_possible env evs
  exact ⟨n, fun peers hl hn hs => h peers hn ((possible_short hl evs).mpr hs)⟩

/-- C135, for connections of any length. If the clients' sockets take enough writes, the broker can crash having taken the events `evs` if and
only if all but the last can be served, the events of each connection are a beginning of those of the packets that can be received from it,
and the last one is a CONNECT with a user name and no password, or a SUBSCRIBE, UNSUBSCRIBE or PINGREQ on a connection that had been told to
go away. -/
theorem C135_any_length_iff (env : Env) (evs : List ClientEvent) : ∃ n : ConnId → Nat, ∀ peers, (∀ c, n c ≤ (peers c).script.length) →
    ((∃ sched, (run env (init peers) sched).handler = .crashed ∧ (run env (init peers) sched).log.map Prod.fst = evs)
      ↔ Possible env peers evs.dropLast ∧ InOrder env peers evs ∧ (∀ ev ∈ evs, ∃ c, From c ev) ∧ Fatal env.auth evs) := by
  refine ⟨fun d => writesForAll env.alloc (packetsIn (Broker.start.outputs env.auth evs.dropLast d)), fun peers hn => ⟨?_, ?_⟩⟩
  · rintro ⟨sched, hc, hlog⟩
    have hs : (run env (init peers) sched).served = evs := hlog
    have hinv := inv_run env peers sched
    have hord : InOrder env peers evs := hlog ▸ inOrder_run env peers sched
    have hfrom : ∀ ev ∈ evs, ∃ c, From c ev := fun ev hev =>
      hinv.reads.from_conn ev (List.mem_append_left _ (by rw [hlog]; exact hev))
    obtain ⟨pre, ev, he, ⟨b, ha⟩, hr⟩ := crash_room env peers sched hc
    rw [hs] at he
    subst he
    rw [List.dropLast_concat]
    exact ⟨⟨inOrder_pre hord, fun ev' h => hfrom ev' (List.mem_append_left _ h), after_complete ha, hr⟩, hord, hfrom, hs ▸ crashed_run env peers sched hc⟩
  · rintro ⟨hsv, hord, hfrom, pre, ev, rfl, hfatal⟩
    rw [List.dropLast_concat] at hsv hn
    obtain ⟨ps, h1, h2⟩ := possible_packets hord
    have hsome := after_isSome hsv.complete Broker.start
    obtain ⟨sched, hs⟩ := servedAll h1 pre hn hsv.from_conn
      (fun c => List.IsPrefix.trans (by rw [List.filter_append]; exact List.prefix_append _ _) (h2 c)) hsome hsv.room
    have hinv := inv_run env peers sched
    obtain ⟨b, ha, hrep, ho⟩ := idle_rest hinv.serves hs.idle
    rw [hs.served] at ha
    obtain ⟨c, hc⟩ := hfrom ev (by simp)
    obtain ⟨k', hsp, _⟩ := (hs.ready c).speaks hc (h2 c)
    have hlog : ∀ s : Sys, s.served = pre → ∀ now, (s.log ++ [(ev, now)]).map Prod.fst = pre ++ [ev] := by
      intro s h now
      unfold served at h
      simp [h]
    rcases hfatal with ⟨p, addr, tx, rfl, hli⟩ | ⟨id, p, tx, rfl, hp, haway⟩
    · have hm : Handler.handle env.auth 0 (run env (init peers) sched).messaging (.connected p addr tx) = none := by
        have := handle_refines env.auth 0 hrep (.connected p addr tx)
        simp only [Broker.step, hli] at this
        cases hh : Handler.handle env.auth 0 (run env (init peers) sched).messaging (.connected p addr tx) with
        | none => rfl
        | some r => rw [hh] at this; exact this.elim
      refine ⟨sched ++ [.read c, .read c, .handler 0], by rw [run_append]; exact enter_crash env 0 ⟨hs.idle, hs.events, rfl⟩ hsp hm, ?_⟩
      have : sched ++ [Step.read c, .read c, .handler 0] = sched ++ [.read c, .read c] ++ [.handler 0] := by simp
      rw [this, run_snoc, run_append, enter env ⟨hs.idle, hs.events, rfl⟩ hsp]
      simp only [step, stepHandler, setConn_handler, hs.idle, setConn_events, setConn_messaging, hm, setConn_log]
      exact hlog _ hs.served 0
    · have hct : tx = c := hc
      subst hct
      have hdis := turnedAway_disconnect ha haway
      rw [← hs.served, ← ho] at hdis
      obtain ⟨hx, hq⟩ := hs.calm tx
      have hq : ∃ r, ((run env (init peers) sched).conns tx).queue = .disconnect :: r := by
        rcases hq with hq | hq
        · rw [(hinv.writes tx).all hx, hq] at hdis
          simp at hdis
        · exact hq
      obtain ⟨r, hq⟩ := hq
      have hb : ((run env (init peers) sched).conns tx).wrBlocked = false :=
        ample_open (evs := pre) hn sched (by rw [hs.served]; exact List.prefix_refl _) tx
      have e1 : run env (init peers) (sched ++ [.write tx]) = (run env (init peers) sched).setConn tx
          { (run env (init peers) sched).conns tx with queue := [], rxOpen := false } := by
        rw [run_snoc]
        simp only [step, stepWrite, hx, hb, hq, Bool.not_false, Bool.and_self, ↓reduceIte]
      have hready : ReadTo env peers (ps tx) pre tx ((run env (init peers) (sched ++ [.write tx])).conns tx) := by
        refine (hs.ready tx).congr rfl ?_
        rw [e1, setConn_self]
        exact ⟨rfl, rfl, rfl, rfl, rfl⟩
      obtain ⟨k', hsp, _, k1, _⟩ := hready.speaks hc (h2 tx)
      have hquiet : Quiet (run env (init peers) (sched ++ [.write tx])) (run env (init peers) sched).messaging := by
        rw [e1]; exact ⟨hs.idle, hs.events, rfl⟩
      have hm : ∃ m' e' sends, Handler.handle env.auth 0 (run env (init peers) sched).messaging (.controlPacket id p tx)
          = some (m', (tx, e') :: sends) := by
        rcases hp with ⟨q, rfl⟩ | ⟨q, rfl⟩ | rfl
        · obtain ⟨m', h, _⟩ := C29_suback env.auth 0 (run env (init peers) sched).messaging id q tx
          exact ⟨_, _, _, h⟩
        · obtain ⟨m', h, _⟩ := C30_unsuback env.auth 0 (run env (init peers) sched).messaging id q tx
          exact ⟨_, _, _, h⟩
        · cases hg : (run env (init peers) sched).messaging.sessions.get id with
          | some x => exact ⟨_, _, _, (C31_ping _ _ _ _ _).1 (by rw [hg]; rfl)⟩
          | none => exact ⟨_, _, _, (C31_ping _ _ _ _ _).2 hg⟩
      obtain ⟨m', e', sends, hm⟩ := hm
      have hclosed : (((run env (init peers) (sched ++ [.write tx])).setConn tx k').conns tx).rxOpen = false := by
        rw [setConn_self, k1, e1, setConn_self]
      refine ⟨sched ++ [.write tx] ++ [.read tx, .read tx, .handler 0, .handler 0], ?_, ?_⟩
      · rw [run_append]
        exact enter_closed env 0 hquiet hsp hm hclosed
      · have : sched ++ [.write tx] ++ [Step.read tx, .read tx, .handler 0, .handler 0]
            = sched ++ [.write tx] ++ [.read tx, .read tx, .handler 0] ++ [.handler 0] := by simp
        rw [this, run_snoc, run_append env (init peers) (sched ++ [Step.write tx]), enter_busy env 0 hquiet hsp hm]
        have hcl : (((run env (init peers) (sched ++ [.write tx])).setConn tx k').conns tx).rxOpen ≠ true := by rw [hclosed]; simp
        simp only [step, stepHandler]
        rw [if_neg hcl]
        simp only
        refine hlog _ ?_ 0
        rw [e1]
        exact hs.served

/-- C135. If clients send fewer than 4096 bytes each, and their sockets take enough writes, the broker can crash having taken the events
`evs` if and only if all but the last are servable, the events are those of their connections in order, and the last one is a CONNECT
with a user name and no password, or a SUBSCRIBE, UNSUBSCRIBE or PINGREQ on a connection that had been told to go away. -/
theorem C135_crash_iff (env : Env) (evs : List ClientEvent) : ∃ n : ConnId → Nat, ∀ peers,
    (∀ c, (peers c).segs.flatten.length < 4096) → (∀ c, n c ≤ (peers c).script.length) →
    ((∃ sched, (run env (init peers) sched).handler = .crashed ∧ (run env (init peers) sched).log.map Prod.fst = evs)
      ↔ Servable env peers evs.dropLast ∧ Orderly env peers evs ∧ (∀ ev ∈ evs, ∃ c, From c ev) ∧ Fatal env.auth evs) := by
  obtain ⟨n, h⟩ := C135_any_length_iff env evs
  refine ⟨n, fun peers hl hn => ?_⟩
  rw [h peers hn, possible_short hl, inOrder_short hl]

/-- Peers for the example: connection 3 gives a wrong password and then sends PINGREQ; the sockets take as many writes as wanted. -/
def refusedPeers (n : ConnId → Nat) : ConnId → Peer := fun c =>
  if c = 3 then ⟨someAddr, "u3", [clientBytes [.connect ⟨"MQTT", 4, true, 60, "y", none, some "u", some "p"⟩, .pingReq]], .eof, List.replicate (n c) (.accept 4)⟩
  else ⟨someAddr, "u", [], .eof, List.replicate (n c) (.accept 4)⟩

/-- Its CONNECT. -/
def refusedEvent : ClientEvent := .connected ⟨.mqtt3, "y", 60, true, none, some "u", some "p"⟩ someAddr 3

theorem refused_orderly (n : ConnId → Nat) : Orderly exampleEnv (refusedPeers n) [refusedEvent, .controlPacket "y" .pingReq 3] := by
  intro c
  by_cases hc : c = 3
  · subst hc
    refine ⟨[.connect ⟨.mqtt3, "y", 60, true, none, some "u", some "p"⟩, .pingReq], ?_, ?_⟩
    · have := decodes_client exampleEnv.profile .eof _ example_wrong
      simpa [refusedPeers, meaning] using this
    · simp [refusedEvent, From, eventsOf, idOf, refusedPeers]
  · refine ⟨[], ⟨_, rfl⟩, ?_⟩
    have : 3 ≠ c := fun h => hc h.symm
    simp [refusedEvent, From, this]

-- C77_orders_iff, C77_any_servable, C135_crash_iff
example (n : ConnId → Nat) : (∀ c, (refusedPeers n c).segs.flatten.length < 4096) ∧ (∀ c, n c ≤ (refusedPeers n c).script.length)
    ∧ Servable exampleEnv (refusedPeers n) [refusedEvent, .controlPacket "y" .pingReq 3].dropLast
    ∧ Servable exampleEnv (refusedPeers n) [refusedEvent, .controlPacket "y" .pingReq 3]
    ∧ Fatal exampleEnv.auth [refusedEvent, .controlPacket "y" .pingReq 3] := by
  have hf : ∀ ev ∈ [refusedEvent, .controlPacket "y" .pingReq 3], ∃ c, From c ev := by
    intro ev hev
    simp only [List.mem_cons, List.not_mem_nil, or_false] at hev
    rcases hev with rfl | rfl <;> exact ⟨3, rfl⟩
  have hl : login exampleEnv.auth ⟨.mqtt3, "y", 60, true, none, some "u", some "p"⟩ = .refused := by
    simp [login, exampleEnv, denyAll]
  have ho : ∀ evs : List ClientEvent, (∀ ev ∈ evs, ev ∈ [refusedEvent, .controlPacket "y" .pingReq 3]) → ∀ p addr c, .connected p addr c ∈ evs →
      login exampleEnv.auth p ≠ .incomplete := by
    intro evs hevs p addr c hp
    have := hevs _ hp
    simp only [List.mem_cons, List.not_mem_nil, or_false, refusedEvent, reduceCtorEq] at this
    cases this
    rw [hl]
    simp
  have hr : ∀ d, Broker.start.outputs exampleEnv.auth [refusedEvent, .controlPacket "y" .pingReq 3] d
      = if d = 3 then [.controlPacket (.connAck ⟨false, .notAuthorized⟩), .disconnect, .disconnect] else [] := by
    intro d
    simp only [Broker.outputs, Broker.step, refusedEvent, hl, Broker.packet]
    by_cases hd : d = 3
    · simp [Spec.to, hd, Broker.start]
    · have hd' : 3 ≠ d := fun h => hd h.symm
      simp [Spec.to, hd]
  have hroom : ∀ d, (fromAway (Broker.start.outputs exampleEnv.auth [refusedEvent, .controlPacket "y" .pingReq 3] d)).length ≤ 32 := by
    intro d
    refine Nat.le_trans (fromAway_le _) ?_
    rw [hr]
    split <;> simp
  refine ⟨fun c => ?_, fun c => ?_, ⟨(refused_orderly n).pre (post := [.controlPacket "y" .pingReq 3]), fun ev h => hf ev (List.dropLast_subset _ h), ho _ fun ev h => List.dropLast_subset _ h, fun d => ?_⟩,
    ⟨refused_orderly n, hf, ho _ fun _ h => h, hroom⟩, ?_⟩
  · unfold refusedPeers
    split
    · simp only
      decide +kernel
    · simp
  · unfold refusedPeers
    split <;> simp
  · obtain ⟨t, ht⟩ := outputs_pre (auth := exampleEnv.auth) (List.prefix_append [refusedEvent] [.controlPacket "y" .pingReq 3]) d
    refine Nat.le_trans (fromAway_append_le _ t) ?_
    have := hroom d
    rw [show [refusedEvent, .controlPacket "y" .pingReq 3] = [refusedEvent] ++ [.controlPacket "y" .pingReq 3] from rfl, ← ht] at this
    exact this
  · exact ⟨[refusedEvent], .controlPacket "y" .pingReq 3, rfl, .inr ⟨"y", .pingReq, 3, rfl, .inr (.inr rfl),
      .inl ⟨_, _, List.mem_singleton_self _, hl⟩⟩⟩

end Ratel
