/-
C88–C89: the packet handler and the messaging service as two tasks. `Fine.run env (Fine.init peers) sched` is the state reached by the
schedule `sched` when requests, their execution and their replies are steps of their own.
-/
import Verif.Proofs.Fine
import Verif.Props.System

namespace Ratel

open Decoder Encoder Spec Sys

/-! ### C88 -/

/-- C88. Whatever the clients see while the messaging service works as a task of its own, they see in a run where every request is
executed at once: the connections are in the very same state and the finished events are the same, in the same order, with the same
clock readings. -/
theorem C88_refines (env : Env) (peers : ConnId → Peer) (sched : List FStep) :
    ∃ ss, (Sys.run env (Sys.init peers) ss).conns = (Fine.run env (Fine.init peers) sched).conns
      ∧ (Sys.run env (Sys.init peers) ss).ctrlC = (Fine.run env (Fine.init peers) sched).ctrlC
      ∧ (Fine.run env (Fine.init peers) sched).log <+: (Sys.run env (Sys.init peers) ss).log
      ∧ (Sys.run env (Sys.init peers) ss).log.length ≤ (Fine.run env (Fine.init peers) sched).log.length + 1
      ∧ ((Fine.run env (Fine.init peers) sched).handler = .idle →
          (Sys.run env (Sys.init peers) ss).handler = .idle
          ∧ (Sys.run env (Sys.init peers) ss).events = (Fine.run env (Fine.init peers) sched).events
          ∧ (Sys.run env (Sys.init peers) ss).messaging = (Fine.run env (Fine.init peers) sched).messaging
          ∧ (Sys.run env (Sys.init peers) ss).log = (Fine.run env (Fine.init peers) sched).log)
      ∧ ((Fine.run env (Fine.init peers) sched).handler = .crashed →
          (Sys.run env (Sys.init peers) ss).handler = .crashed
          ∧ (Sys.run env (Sys.init peers) ss).log = (Fine.run env (Fine.init peers) sched).log)
      ∧ ((Fine.run env (Fine.init peers) sched).handler = .stopped →
          (Sys.run env (Sys.init peers) ss).handler = .stopped
          ∧ (Sys.run env (Sys.init peers) ss).log = (Fine.run env (Fine.init peers) sched).log) := by
  obtain ⟨ss, h⟩ := Fine.sim_run env peers sched 0
  refine ⟨ss, ?_⟩
  generalize Fine.run env (Fine.init peers) sched = f at h ⊢
  generalize Sys.run env (Sys.init peers) ss = s at h ⊢
  have hlog : s.log = f.log ∨ ∃ x, s.log = f.log ++ [x] := by
    cases hh : f.handler with
    | idle => exact .inl (h.idle hh).2.2.2
    | crashed => exact .inl (h.crashed hh).2
    | stopped => exact .inl (h.stopped hh).2
    | running ev time p => exact .inr ⟨_, (h.current ev time p (by simp [Fine.current, hh])).1⟩
    | asking ev time op k => exact .inr ⟨_, (h.current ev time (.req op k) (by simp [Fine.current, hh])).1⟩
    | answered ev time op k r => exact .inr ⟨_, (h.current ev time (k r) (by simp [Fine.current, hh])).1⟩
  refine ⟨h.conns, h.ctrlC, ?_, ?_, h.idle, h.crashed, h.stopped⟩
  · rcases hlog with hl | ⟨x, hl⟩ <;> rw [hl]
    · exact List.prefix_refl _
    · exact List.prefix_append _ _
  · rcases hlog with hl | ⟨x, hl⟩ <;> rw [hl] <;> simp

/-- The packets a program sends before its next request. -/
def Prog.sends : Prog → List (ConnId × ServerEvent)
  | .send d e k => (d, e) :: k.sends
  | _ => []

theorem Prog.sends_finish {p : Prog} (h : p.SendsOnly) {now : Instant} {m : MessagingService} {l : List (ConnId × ServerEvent)}
    (hf : p.finish now m = some (m, l)) : p.sends = l := by
  induction p generalizing l with
  | done => cases hf; rfl
  | send d e k ih =>
    simp only [Prog.finish, Option.map_eq_some_iff] at hf
    obtain ⟨⟨m1, l1⟩, h1, h2⟩ := hf
    cases h2
    simp [Prog.sends, ih h h1]
  | panic => cases h
  | req op k => cases h
  | clock k => cases h

/-- C88, the other direction: every execution with requests executed at once can happen with the messaging service as a task of its own,
down to the last byte. So the counterexamples of the other properties are real in this respect. -/
theorem C88_realizes (env : Env) (peers : ConnId → Peer) (ss : List Step) :
    ∃ sched, (Fine.run env (Fine.init peers) sched).conns = (Sys.run env (Sys.init peers) ss).conns
      ∧ (Fine.run env (Fine.init peers) sched).events = (Sys.run env (Sys.init peers) ss).events
      ∧ (Fine.run env (Fine.init peers) sched).messaging = (Sys.run env (Sys.init peers) ss).messaging
      ∧ (Fine.run env (Fine.init peers) sched).ctrlC = (Sys.run env (Sys.init peers) ss).ctrlC
      ∧ ((Sys.run env (Sys.init peers) ss).handler = .idle → (Fine.run env (Fine.init peers) sched).handler = .idle
          ∧ (Fine.run env (Fine.init peers) sched).log = (Sys.run env (Sys.init peers) ss).log)
      ∧ ((Sys.run env (Sys.init peers) ss).handler = .crashed → (Fine.run env (Fine.init peers) sched).handler = .crashed
          ∧ (Fine.run env (Fine.init peers) sched).log = (Sys.run env (Sys.init peers) ss).log)
      ∧ ((Sys.run env (Sys.init peers) ss).handler = .stopped → (Fine.run env (Fine.init peers) sched).handler = .stopped
          ∧ (Fine.run env (Fine.init peers) sched).log = (Sys.run env (Sys.init peers) ss).log)
      ∧ ∀ l, (Sys.run env (Sys.init peers) ss).handler = .busy l → ∃ ev time p,
          (Fine.run env (Fine.init peers) sched).handler = .running ev time p ∧ p.sends = l := by
  obtain ⟨sched, h⟩ := Fine.real_run env peers ss
  refine ⟨sched, h.conns, h.events, h.messaging, h.ctrlC, fun hh => ⟨(h.idle hh).1, (h.idle hh).2.2⟩,
    fun hh => ⟨(h.crashed hh).1, (h.crashed hh).2.2⟩, fun hh => ⟨(h.stopped hh).1, (h.stopped hh).2.2⟩, fun l hh => ?_⟩
  obtain ⟨hl, _, ev, t, time, p, h1, h2, h3, _⟩ := h.busy l hh
  exact ⟨ev, time, p, h1, Prog.sends_finish h2 (h3 0 .new)⟩

/-- C88. So what connections can look like is the same with and without a separate messaging task, and every statement about connections
that holds in all executions of the one holds in all executions of the other. -/
theorem C88_same (env : Env) (peers : ConnId → Peer) (P : (ConnId → Conn) → Prop) :
    (∀ sched, P (Fine.run env (Fine.init peers) sched).conns) ↔ ∀ ss, P (Sys.run env (Sys.init peers) ss).conns := by
  constructor
  · intro h ss
    obtain ⟨sched, h1, _⟩ := C88_realizes env peers ss
    rw [← h1]; exact h sched
  · intro h sched
    obtain ⟨ss, h1, _⟩ := C88_refines env peers sched
    rw [← h1]; exact h ss

/-- The first request of the example: connection 0 says hello. -/
theorem example_asking : ∃ (k : Option Session → Prog) (k' : Instant → Prog),
    (Fine.run exampleEnv (Fine.init examplePeers) [.read 0, .read 0, .handler 0, .handler 0]).messaging = .new
    ∧ (Fine.run exampleEnv (Fine.init examplePeers) [.read 0, .read 0, .handler 0, .handler 0]).handler
      = .asking (.connected ⟨.mqtt3, "s", 60, true, none, none, none⟩ (examplePeers 0).conn.addr 0) none (.sessionGet "s") k
    ∧ k none = .clock k' := by
  obtain ⟨rd, ⟨h1, h2, h3⟩, _⟩ := next_hello (env := exampleEnv) (c := 0) (k := (examplePeers 0).conn) (id := "s") (by decide)
    (next_new (examplePeers 0) subscriberPackets (by simp [examplePeers]) subscriber_sendable (by decide +kernel)) rfl
  have e1 : Fine.step exampleEnv (Fine.init examplePeers) (.read 0) = (Fine.init examplePeers).setConn 0
      { (examplePeers 0).conn with
        rd := rd, phase := .running "s", outbox := some (.connected ⟨.mqtt3, "s", 60, true, none, none, none⟩ (examplePeers 0).conn.addr 0) } := by
    have : (Fine.init examplePeers).conns 0 = (examplePeers 0).conn := rfl
    simp only [Fine.step, Fine.stepRead, this, h1, h3]
  simp only [Fine.run, List.foldl_cons, List.foldl_nil, e1]
  simp only [Fine.step, Fine.stepRead, Fine.setConn, Fine.init, Fine.handlerAlive, ↓reduceIte, List.length_nil, channelCapacity, List.nil_append,
    Fine.stepHandler, Prog.handle, Prog.onConnect, Nat.zero_lt_succ]
  exact ⟨_, _, trivial, rfl, rfl⟩

-- the handler waits for a subscriber that does not read
example : ∃ sched ev time p, (Fine.run exampleEnv (Fine.init examplePeers) sched).handler
    = .running ev time (.send 0 (.controlPacket (.publish blank)) p) := by
  obtain ⟨ss, h⟩ := stall_publish exampleEnv examplePeers (by simp [examplePeers]) (by simp [examplePeers]) (by simp [examplePeers])
  obtain ⟨sched, _, _, _, _, _, _, _, hb⟩ := C88_realizes exampleEnv examplePeers ss
  obtain ⟨ev, time, p, h1, h2⟩ := hb _ h.1.1
  cases p with
  | send d e k => simp only [Prog.sends, List.cons.injEq, Prod.mk.injEq] at h2; obtain ⟨⟨rfl, rfl⟩, _⟩ := h2; exact ⟨sched, ev, time, k, h1⟩
  | _ => cases h2

-- the handler crashes
example : ∃ sched, (Fine.run exampleEnv (Fine.init examplePeers) sched).handler = .crashed := by
  obtain ⟨sched, _, _, _, _, _, hc, _⟩ := C88_realizes exampleEnv examplePeers ([] ++ [.read 2, .read 2, .handler 0])
  exact ⟨sched, (hc (C43_no_password_fails exampleEnv examplePeers [] 2 _ [] example_incomplete (by simp) rfl (by simp [examplePeers])
    (by decide +kernel) rfl rfl rfl)).1⟩

/-! ### C89 -/

/-- C89. A request to the messaging service is answered: whatever has happened, once a request is in the channel the messaging task is
there, and after one step of it and one of the handler the handler goes on with the reply to its request. -/
theorem C89_answered (env : Env) (peers : ConnId → Peer) (sched : List FStep) (ev : ClientEvent) (time : Option Instant)
    (op : MessagingOperation) (k : op.Resp → Prog) (h : (Fine.run env (Fine.init peers) sched).handler = .asking ev time op k) (t : Instant) :
    Fine.run env (Fine.init peers) (sched ++ [.messaging, .handler t])
      = { Fine.run env (Fine.init peers) sched with
          messaging := (MessagingService.exec op (Fine.run env (Fine.init peers) sched).messaging).2.2
          handler := .running ev time (k (MessagingService.exec op (Fine.run env (Fine.init peers) sched).messaging).1) } := by
  have hup := (Fine.finv_run env peers sched).up (by simp [Fine.handlerAlive, h])
  rw [Fine.run_append]
  generalize Fine.run env (Fine.init peers) sched = f at h hup
  simp only [Fine.run, List.foldl_cons, List.foldl_nil, Fine.step, Fine.stepMessaging, Fine.stepHandler, h, hup, ↓reduceIte]

example (t : Instant) : ∃ k, (Fine.run exampleEnv (Fine.init examplePeers)
      ([.read 0, .read 0, .handler 0, .handler 0] ++ [.messaging, .handler t])).handler
    = .running (.connected ⟨.mqtt3, "s", 60, true, none, none, none⟩ (examplePeers 0).conn.addr 0) none (.clock k) := by
  obtain ⟨k, k', hm, hh, hk⟩ := example_asking
  rw [C89_answered exampleEnv examplePeers _ _ _ _ _ hh t, hm]
  exact ⟨k', by rw [← hk]; rfl⟩

/-- C89. The packet handler never panics because of the messaging service. If a step of it makes it crash, then the event is a CONNECT
with a user name and no password, or the event's next packet is for a connection whose write task is gone. -/
theorem C89_no_panic (env : Env) (peers : ConnId → Peer) (sched : List FStep) (t : Instant)
    (ha : (Fine.run env (Fine.init peers) sched).handlerAlive = true)
    (hc : (Fine.run env (Fine.init peers) (sched ++ [.handler t])).handler = .crashed) :
    (∃ p addr c time, (Fine.run env (Fine.init peers) sched).handler = .running (.connected p addr c) time .panic
        ∧ p.userName ≠ none ∧ p.password = none)
    ∨ ∃ ev time d e k, (Fine.run env (Fine.init peers) sched).handler = .running ev time (.send d e k)
        ∧ ((Fine.run env (Fine.init peers) sched).conns d).rxOpen = false := by
  have hi := Fine.finv_run env peers sched
  have hp := Fine.panics_run env peers sched
  rw [Fine.run_append] at hc
  generalize Fine.run env (Fine.init peers) sched = f at ha hc hi hp
  have hup := hi.up ha
  simp only [Fine.run, List.foldl_cons, List.foldl_nil, Fine.step] at hc
  unfold Fine.stepHandler at hc
  split at hc
  · split at hc
    · rename_i hh _ _; rw [hh] at hc; cases hc
    · cases hc
  · cases hc
  · rename_i ev time hh
    rcases hp ev time .panic (by simp [Fine.current, hh]) with h | h
    · cases h
    · obtain ⟨p, addr, c, rfl, h1, h2⟩ := Prog.handle_panic h
      exact .inl ⟨p, addr, c, time, hh, h1, h2⟩
  · rw [if_pos hup] at hc; cases hc
  · cases hc
  · rename_i ev time d e k hh
    refine .inr ⟨ev, time, d, e, k, hh, ?_⟩
    simp only at hc
    split at hc
    · split at hc
      · cases hc
      · rw [hh] at hc; cases hc
    · rename_i ho; simpa using ho
  · rename_i hh
    rw [if_pos hup, hh] at hc; cases hc
  · cases hc
  · rename_i hh; rw [Fine.handlerAlive, hh] at ha; cases ha
  · rename_i hh; rw [Fine.handlerAlive, hh] at ha; cases ha

-- both hypotheses at once: connection 2 gives a user name and no password
example : (Fine.run exampleEnv (Fine.init examplePeers) [.read 2, .read 2, .handler 0]).handlerAlive = true
    ∧ (Fine.run exampleEnv (Fine.init examplePeers) ([.read 2, .read 2, .handler 0] ++ [.handler 0])).handler = .crashed := by
  obtain ⟨rd, ⟨h1, h2, h3⟩, _⟩ := next_first (env := exampleEnv) (c := 2) (k := (examplePeers 2).conn)
    (next_new (examplePeers 2) _ (by simp [examplePeers]) example_incomplete (by decide +kernel)) rfl _ rfl
  have e1 : Fine.step exampleEnv (Fine.init examplePeers) (.read 2) = (Fine.init examplePeers).setConn 2 (readTask exampleEnv 2 (examplePeers 2).conn) := by
    have : (Fine.init examplePeers).conns 2 = (examplePeers 2).conn := rfl
    simp only [Fine.step, Fine.stepRead, this, h1]
  simp only [Fine.run, List.cons_append, List.nil_append, List.foldl_cons, List.foldl_nil, e1, h3]
  simp only [Fine.step, Fine.stepRead, Fine.setConn, Fine.init, Fine.handlerAlive, ↓reduceIte, List.length_nil, channelCapacity, List.nil_append,
    Fine.stepHandler, Prog.handle, Prog.onConnect, Nat.zero_lt_succ, true_and]

/-- C89. The handler waits for nothing but room in a client's queue: while it is at an event, its next step or the next step of the
messaging task takes it further, unless its next packet is for a connection whose queue is full. -/
theorem C89_waits_for_clients_only (env : Env) (peers : ConnId → Peer) (sched : List FStep) (t : Instant)
    (ha : (Fine.run env (Fine.init peers) sched).handlerAlive = true) (hn : (Fine.run env (Fine.init peers) sched).handler ≠ .idle) :
    (Fine.run env (Fine.init peers) (sched ++ [.handler t])).handler ≠ (Fine.run env (Fine.init peers) sched).handler
    ∨ (Fine.run env (Fine.init peers) (sched ++ [.messaging])).handler ≠ (Fine.run env (Fine.init peers) sched).handler
    ∨ ∃ ev time d e k, (Fine.run env (Fine.init peers) sched).handler = .running ev time (.send d e k)
        ∧ ((Fine.run env (Fine.init peers) sched).conns d).rxOpen = true
        ∧ channelCapacity ≤ ((Fine.run env (Fine.init peers) sched).conns d).queue.length := by
  have hi := Fine.finv_run env peers sched
  have ho := Fine.oneClock_run env peers sched
  rw [Fine.run_append, Fine.run_append]
  generalize Fine.run env (Fine.init peers) sched = f at ha hn hi ho
  have hup := hi.up ha
  simp only [Fine.run, List.foldl_cons, List.foldl_nil, Fine.step]
  unfold Fine.stepHandler
  cases hh : f.handler with
  | idle => exact absurd hh hn
  | crashed => rw [Fine.handlerAlive, hh] at ha; cases ha
  | stopped => rw [Fine.handlerAlive, hh] at ha; cases ha
  | asking ev time op k =>
    refine .inr (.inl ?_)
    simp [Fine.stepMessaging, hh, hup]
  | answered ev time op k r => exact .inl (by simp)
  | running ev time p =>
    cases p with
    | done => exact .inl (by simp)
    | panic => exact .inl (by simp)
    | req op k => exact .inl (by simp [hup])
    | clock k =>
      refine .inl ?_
      intro h
      cases h' : k t with
      | clock k' =>
        have := (ho ev time (.clock k) (by simp [Fine.current, hh])).1 t
        rw [h'] at this
        cases this
      | _ => simp [h'] at h
    | send d e k =>
      simp only
      split
      · rename_i hx
        split
        · refine .inl ?_
          intro h
          simp only [Fine.setConn, FHandler.running.injEq, true_and] at h
          have := congrArg sizeOf h
          simp at this
        · exact .inr (.inr ⟨ev, time, d, e, k, rfl, hx, by omega⟩)
      · exact .inl (by simp)

end Ratel
