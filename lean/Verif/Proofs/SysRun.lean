/-
Concrete executions of the running broker, built turn by turn.
-/
import Verif.Proofs.SysLive

namespace Ratel

open Decoder Encoder Spec

namespace Sys

theorem read_legal (al : Alloc) (pr : Profile) {rd : RStream} {c : ClientPacket} {rest : List UInt8} {fin : Ending}
    (h1 : Legal c) (h2 : NoWill c) (h3 : (clientRest c).length < 2097152)
    (hr : Rel rd ⟨Spec.packet (clientFirst c) (clientRest c) ++ rest, fin⟩) (hs : Small rd) :
    letI := RStream.source al
    ∃ rd', (Decoder.readPacket pr : M RStream _) rd = (.ok (meaning c), rd') ∧ Rel rd' ⟨rest, fin⟩ ∧ Small rd' := by
  letI := RStream.source al
  have hsim := Sim.readPacket al closed_small pr rd _ hr hs
  have hp : (Decoder.readPacket pr : M Plain _) ⟨Spec.packet (clientFirst c) (clientRest c) ++ rest, fin⟩ = (.ok (meaning c), ⟨rest, fin⟩) :=
    C07_client_packets pr c h1 h2 h3 rest fin
  rcases hm : (Decoder.readPacket pr : M RStream ControlPacket) rd with ⟨r, rd'⟩
  rw [hm, hp] at hsim
  cases r with
  | ok a =>
    obtain ⟨p', h1, h2, h3⟩ := hsim
    cases h1
    exact ⟨rd', rfl, h2, h3⟩
  | err e => obtain ⟨_, h⟩ := hsim; cases h
  | panic => obtain ⟨_, h⟩ := hsim; cases h
  | pending => obtain ⟨_, h⟩ := hsim; cases h
  | hang => exact hsim.elim

/-- The read task of a connection will next find the packets `cs`. -/
structure Next (k : Conn) (cs : List ClientPacket) (fin : Ending) : Prop where
  rel : Rel k.rd ⟨clientBytes cs, fin⟩
  small : Small k.rd
  legal : Sendable cs
  free : k.outbox = none

/-- The read task of a connection makes an event out of its next packet. -/
def Speaks (env : Env) (c : ConnId) (k : Conn) (ev : ClientEvent) (k' : Conn) : Prop :=
  k.outbox = none ∧ k'.outbox = none ∧ readTask env c k = { k' with outbox := some ev }

theorem next_first {env : Env} {c : ConnId} {k : Conn} {q : Spec.Connect} {cs : List ClientPacket} {fin : Ending}
    (h : Next k (.connect q :: cs) fin) (hp : k.phase = .first) (p : ConnectPacket) (hq : meaning (.connect q) = .connect p) :
    ∃ rd, Speaks env c k (.connected { p with clientId := effectiveClientId k p } k.addr c)
        { k with rd := rd, phase := .running (effectiveClientId k p) }
      ∧ Next { k with rd := rd, phase := .running (effectiveClientId k p) } cs fin := by
  obtain ⟨h1, h2, h3⟩ := h.legal _ List.mem_cons_self
  obtain ⟨rd, h4, h5, h6⟩ := read_legal env.alloc env.profile h1 h2 h3 (rest := clientBytes cs) (fin := fin) h.rel h.small
  refine ⟨rd, ⟨h.free, h.free, ?_⟩, h5, h6, fun c hc => h.legal c (List.mem_cons_of_mem _ hc), h.free⟩
  unfold readTask
  simp only [hp]
  rw [h4, hq]

theorem next_running {env : Env} {c : ConnId} {k : Conn} {q : ClientPacket} {cs : List ClientPacket} {fin : Ending}
    (h : Next k (q :: cs) fin) {id : ClientId} (hp : k.phase = .running id) :
    ∃ rd, Speaks env c k (.controlPacket id (meaning q) c) { k with rd := rd } ∧ Next { k with rd := rd } cs fin := by
  obtain ⟨h1, h2, h3⟩ := h.legal _ List.mem_cons_self
  obtain ⟨rd, h4, h5, h6⟩ := read_legal env.alloc env.profile h1 h2 h3 (rest := clientBytes cs) (fin := fin) h.rel h.small
  refine ⟨rd, ⟨h.free, h.free, ?_⟩, h5, h6, fun c hc => h.legal c (List.mem_cons_of_mem _ hc), h.free⟩
  unfold readTask
  simp only [hp]
  rw [h4]

theorem next_new (peer : Peer) (cs : List ClientPacket) (h : peer.segs.flatten = clientBytes cs) (hc : Sendable cs)
    (hl : (clientBytes cs).length < 4096) : Next peer.conn cs peer.fin where
  rel := by
    have := rel_new 4096 peer.segs peer.fin
    rw [h] at this
    exact this
  small := by
    simp only [Small, Peer.conn, RStream.total, RStream.new, BytesMut.withCapacity, List.nil_append, h]
    exact hl
  legal := hc
  free := rfl

/-- Only what the read task looks at matters. -/
theorem Next.congr {k k' : Conn} {cs : List ClientPacket} {fin : Ending} (h : Next k cs fin) (h1 : k'.rd = k.rd) (h2 : k'.outbox = k.outbox) :
    Next k' cs fin := ⟨by rw [h1]; exact h.rel, by rw [h1]; exact h.small, h.legal, by rw [h2]; exact h.free⟩

/-- The handler is waiting for events. -/
structure Quiet (s : Sys) (m : MessagingService) : Prop where
  idle : s.handler = .idle
  events : s.events = []
  messaging : s.messaging = m

theorem setConn_setConn (s : Sys) (c : ConnId) (k k' : Conn) : (s.setConn c k).setConn c k' = s.setConn c k' := by
  unfold setConn
  simp only [Sys.mk.injEq, and_true]
  funext d
  by_cases h : d = c <;> simp [h]

/-- An event gets from the socket into the handler. -/
theorem enter (env : Env) {s : Sys} {m : MessagingService} (hq : Quiet s m) {c : ConnId} {ev : ClientEvent} {k' : Conn}
    (hs : Speaks env c (s.conns c) ev k') :
    run env s [.read c, .read c] = { s with events := [ev] }.setConn c k' := by
  obtain ⟨h1, h2, h3⟩ := hs
  have e1 : step env s (.read c) = s.setConn c { k' with outbox := some ev } := by
    unfold step stepRead
    simp only [h1]
    rw [h3]
  have hal : s.handlerAlive = true := by unfold handlerAlive; rw [hq.idle]
  rw [run_cons, e1, run_cons]
  unfold step stepRead
  simp only [setConn_self, setConn_alive, hal, ↓reduceIte, setConn_events, hq.events, List.length_nil]
  rw [if_pos (by decide)]
  simp only [List.nil_append]
  have : ({ k' with outbox := none } : Conn) = k' := by rw [← h2]
  rw [this]
  show (({ s with events := [ev] }.setConn c { k' with outbox := some ev }).setConn c k') = _
  rw [setConn_setConn]

/-- The connections after some sends. -/
def withSends (conns : ConnId → Conn) (sends : List (ConnId × ServerEvent)) : ConnId → Conn := fun d =>
  { conns d with queue := (conns d).queue ++ sentTo sends d, delivered := (conns d).delivered ++ sentTo sends d }

theorem withSends_nil (conns : ConnId → Conn) : withSends conns [] = conns := by
  funext d
  simp [withSends, sentTo]

/-- The handler makes all sends of an event, if there is room for them. -/
theorem deliver (env : Env) (now : Instant) (sends : List (ConnId × ServerEvent)) (hne : sends ≠ []) (s : Sys) (hh : s.handler = .busy sends)
    (hx : ∀ d, sentTo sends d ≠ [] → (s.conns d).rxOpen = true ∧ (s.conns d).queue.length + (sentTo sends d).length ≤ channelCapacity) :
    run env s (List.replicate sends.length (.handler now)) = { s with handler := .idle, conns := withSends s.conns sends } := by
  induction sends generalizing s with
  | nil => exact absurd rfl hne
  | cons x sends ih =>
    obtain ⟨d, e⟩ := x
    obtain ⟨h1, h2⟩ := hx d (by simp [sentTo_cons])
    simp only [sentTo_cons, ↓reduceIte, List.length_append, List.length_singleton] at h2
    rw [List.length_cons, List.replicate_succ, run_cons]
    have e1 : step env s (.handler now) = { s with handler := if sends = [] then .idle else .busy sends }.setConn d
        { s.conns d with queue := (s.conns d).queue ++ [e], delivered := (s.conns d).delivered ++ [e] } := by
      unfold step stepHandler
      simp only [hh, h1, ↓reduceIte]
      rw [if_pos (by omega)]
    have hw : ∀ c, ({ s with handler := if sends = [] then .idle else .busy sends }.setConn d
        { s.conns d with queue := (s.conns d).queue ++ [e], delivered := (s.conns d).delivered ++ [e] }).conns c
        = withSends s.conns [(d, e)] c := by
      intro c
      by_cases hc : c = d
      · subst hc; simp [withSends, sentTo_cons, sentTo]
      · rw [setConn_other _ _ hc]
        have : d ≠ c := fun h => hc h.symm
        simp [withSends, sentTo_cons, sentTo, this]
    rw [e1]
    by_cases hs : sends = []
    · subst hs
      simp only [↓reduceIte, List.length_nil, List.replicate_zero]
      show Sys.mk _ _ _ _ _ _ = Sys.mk _ _ _ _ _ _
      congr 1
      funext c
      have := hw c
      simp only [↓reduceIte] at this
      exact this
    · rw [ih hs _ (by simp [hs])]
      · show Sys.mk _ _ _ _ _ _ = Sys.mk _ _ _ _ _ _
        congr 1
        funext c
        have hc := hw c
        unfold withSends at hc ⊢
        simp only
        rw [hc]
        simp [sentTo_cons, sentTo]
        by_cases hcd : d = c <;> simp [hcd]
      · intro c hc
        rw [hw c]
        by_cases hcd : d = c
        · subst hcd
          simp only [withSends, sentTo_cons, ↓reduceIte]
          refine ⟨h1, ?_⟩
          simp [sentTo] at h2 ⊢
          omega
        · have := hx c (by simp [sentTo_cons, hcd, hc])
          simp only [sentTo_cons, hcd, ↓reduceIte, List.nil_append] at this
          simp only [withSends, sentTo_cons, hcd, ↓reduceIte, List.nil_append]
          simpa [sentTo] using this

/-- One event is read and handled completely. -/
theorem turn (env : Env) (now : Instant) {s : Sys} {m m' : MessagingService} (hq : Quiet s m) {c : ConnId} {ev : ClientEvent} {k' : Conn}
    (hs : Speaks env c (s.conns c) ev k') {sends : List (ConnId × ServerEvent)} (hm : Handler.handle env.auth now m ev = some (m', sends))
    (hx : ∀ d, sentTo sends d ≠ [] → ((s.setConn c k').conns d).rxOpen = true
      ∧ ((s.setConn c k').conns d).queue.length + (sentTo sends d).length ≤ channelCapacity) :
    ∃ sched, Quiet (run env s sched) m' ∧ (run env s sched).log = s.log ++ [(ev, now)] ∧ (run env s sched).ctrlC = s.ctrlC
      ∧ (run env s sched).conns = withSends (s.setConn c k').conns sends := by
  have h1 := enter env hq hs
  refine ⟨[.read c, .read c] ++ .handler now :: List.replicate sends.length (.handler now), ?_⟩
  rw [run_append, h1, run_cons]
  have h2 : step env ({ s with events := [ev] }.setConn c k') (.handler now)
      = { s.setConn c k' with log := s.log ++ [(ev, now)], messaging := m', handler := if sends = [] then .idle else .busy sends, events := [] } := by
    unfold step stepHandler
    simp only [setConn_handler, hq.idle, setConn_events, setConn_messaging, hq.messaging, hm, setConn_log]
    cases sends with
    | nil => simp only [↓reduceIte]; rw [← hq.idle]; rfl
    | cons => rfl
  rw [h2]
  by_cases hne : sends = []
  · subst hne
    simp only [List.length_nil, List.replicate_zero]
    exact ⟨⟨rfl, rfl, rfl⟩, rfl, rfl, (withSends_nil _).symm⟩
  · rw [if_neg hne, deliver env now sends hne]
    · exact ⟨⟨rfl, rfl, rfl⟩, rfl, rfl, rfl⟩
    · rfl
    · exact hx

end Sys

end Ratel
