/-
The running broker: what stays as it is once the handler is gone or stuck, and when there is something to do.
-/
import Verif.Proofs.SysMore

namespace Ratel

open Decoder Encoder Spec

namespace Sys

/-- Nothing further is delivered or taken. -/
structure Still (s s' : Sys) : Prop where
  delivered : ∀ d, (s'.conns d).delivered = (s.conns d).delivered
  log : s'.log = s.log
  messaging : s'.messaging = s.messaging
  handler : s'.handler = s.handler

theorem Still.refl (s : Sys) : Still s s := ⟨fun _ => rfl, rfl, rfl, rfl⟩

theorem Still.trans {s s' s'' : Sys} (h : Still s s') (h' : Still s' s'') : Still s s'' :=
  ⟨fun d => (h'.delivered d).trans (h.delivered d), h'.log.trans h.log, h'.messaging.trans h.messaging, h'.handler.trans h.handler⟩

theorem still_read (env : Env) (s : Sys) (c : ConnId) : Still s (stepRead env s c) := by
  obtain ⟨h1, h2, h3, _⟩ := stepRead_rest env s c
  exact ⟨fun d => (stepRead_conn env s c d).2.2.2.2.2, h3, h2, h1⟩

theorem still_write (env : Env) (s : Sys) (c : ConnId) : Still s (stepWrite env s c) := by
  obtain ⟨_, h2, h3, h4, _⟩ := stepWrite_rest env s c
  exact ⟨fun d => stepWrite_delivered env s c d, h4, h3, h2⟩

/-- A crashed or stopped handler does nothing. -/
theorem still_dead (env : Env) (s : Sys) (h : s.handler = .crashed ∨ s.handler = .stopped) (sched : List Step) :
    Still s (run env s sched) := by
  refine (run_induction (P := fun s' => Still s s' ∧ (s'.handler = .crashed ∨ s'.handler = .stopped)) ?_ ⟨Still.refl s, h⟩ sched).1
  rintro s' st ⟨h1, h2⟩
  have key : Still s' (step env s' st) := by
    cases st with
    | read c => exact still_read env s' c
    | write c => exact still_write env s' c
    | handler now =>
      have : stepHandler env now s' = s' := by unfold stepHandler; rcases h2 with h2 | h2 <;> rw [h2]
      rw [step, this]
      exact Still.refl s'
    | ctrlC => exact ⟨fun _ => rfl, rfl, rfl, rfl⟩
    | stop =>
      have : step env s' .stop = s' := by unfold step; rcases h2 with h2 | h2 <;> rw [h2]
      rw [this]
      exact Still.refl s'
  exact ⟨h1.trans key, by rw [key.handler]; exact h2⟩

theorem stuck_step (env : Env) {s : Sys} {d : ConnId} {e : ServerEvent} {todo : List (ConnId × ServerEvent)} (h : Stuck s d e todo) (st : Step) :
    Still s (step env s st) ∧ Stuck (step env s st) d e todo := by
  obtain ⟨h1, h2, h3, h4⟩ := h
  cases st with
  | read c =>
    obtain ⟨r1, r2, _, r4, _, _⟩ := stepRead_conn env s c d
    refine ⟨still_read env s c, (still_read env s c).handler.trans h1, ?_, ?_, ?_⟩
    · exact r2.trans h2
    · simp only [step, r1]; exact h3
    · exact r4.trans h4
  | write c =>
    have hs := still_write env s c
    refine ⟨hs, hs.handler.trans h1, ?_⟩
    simp only [step]
    by_cases hc : d = c
    · subst hc
      have : stepWrite env s d = s := by unfold stepWrite; simp [h2, h4]
      rw [this]
      exact ⟨h2, h3, h4⟩
    · rw [stepWrite_other env s hc]
      exact ⟨h2, h3, h4⟩
  | handler now =>
    have : stepHandler env now s = s := by
      unfold stepHandler
      rw [h1]
      simp only
      rw [if_pos h2, if_neg (by unfold channelCapacity; omega)]
    rw [step, this]
    exact ⟨Still.refl s, h1, h2, h3, h4⟩
  | ctrlC => exact ⟨⟨fun _ => rfl, rfl, rfl, rfl⟩, h1, h2, h3, h4⟩
  | stop =>
    have : step env s .stop = s := by unfold step; rw [h1]
    rw [this]
    exact ⟨Still.refl s, h1, h2, h3, h4⟩

theorem stuck_run (env : Env) {s : Sys} {d : ConnId} {e : ServerEvent} {todo : List (ConnId × ServerEvent)} (h : Stuck s d e todo)
    (sched : List Step) : Still s (run env s sched) ∧ Stuck (run env s sched) d e todo := by
  refine run_induction (P := fun s' => Still s s' ∧ Stuck s' d e todo) ?_ ⟨Still.refl s, h⟩ sched
  rintro s' st ⟨h1, h2⟩
  obtain ⟨h3, h4⟩ := stuck_step env h2 st
  exact ⟨h1.trans h3, h4⟩

/-! ### Something to do -/

theorem ctrlC_step (env : Env) {s : Sys} (h : s.ctrlC = true) (st : Step) : (step env s st).ctrlC = true := by
  cases st with
  | read c => exact ((stepRead_rest env s c).2.2.2).trans h
  | write c => exact ((stepWrite_rest env s c).2.2.2.2).trans h
  | handler now =>
    unfold step stepHandler
    simp only
    repeat' split
    all_goals exact h
  | ctrlC => rfl
  | stop =>
    unfold step
    simp only
    repeat' split
    all_goals exact h

theorem ctrlC_run (env : Env) {s : Sys} (h : s.ctrlC = true) (sched : List Step) : (run env s sched).ctrlC = true :=
  run_induction (P := fun s => s.ctrlC = true) (fun _ st h => ctrlC_step env h st) h sched

/-- A write task that is not parked and has something to write takes it off its queue. -/
theorem write_takes (env : Env) {s : Sys} {c : ConnId} (h1 : (s.conns c).rxOpen = true) (h2 : (s.conns c).wrBlocked = false)
    (h3 : (s.conns c).queue ≠ []) : ((step env s (.write c)).conns c).queue.length < (s.conns c).queue.length := by
  unfold step stepWrite
  simp only [h1, h2, Bool.not_false, Bool.and_self, ↓reduceIte]
  cases hq : (s.conns c).queue with
  | nil => exact absurd hq h3
  | cons e rest =>
    cases e with
    | controlPacket p =>
      simp only
      split <;> simp
    | disconnect => simp

/-- The handler makes a send, if there is room. -/
theorem handler_sends (env : Env) (now : Instant) {s : Sys} {d : ConnId} {e : ServerEvent} {todo : List (ConnId × ServerEvent)}
    (h1 : s.handler = .busy ((d, e) :: todo)) (h2 : (s.conns d).queue.length < channelCapacity) :
    (step env s (.handler now)).handler = .crashed
    ∨ ((step env s (.handler now)).handler = (if todo = [] then .idle else .busy todo) ∧ (s.conns d).rxOpen = true) := by
  unfold step stepHandler
  simp only [h1]
  by_cases h : (s.conns d).rxOpen = true
  · rw [if_pos h, if_pos h2]
    exact .inr ⟨rfl, h⟩
  · rw [if_neg h]
    exact .inl rfl

theorem readTask_changes {env : Env} {c : ConnId} {k : Conn} {pl : Plain} (hr : Rel k.rd pl) (hk : CanRead env k)
    : (readTask env c k).outbox ≠ none ∨ (readTask env c k).phase = .ended ∨ (readTask env c k).phase = .stuck := by
  obtain ⟨hph, hd⟩ := hk
  letI := RStream.source env.alloc
  have hs := Sim.readPacket env.alloc closed_true env.profile k.rd pl hr trivial
  have hpl : pl = ⟨unread k.rd, k.rd.fin⟩ := by
    obtain ⟨b, f⟩ := pl
    have h1 := hr.bytes
    have h2 := hr.fin
    simp only at h1 h2
    rw [← h1, ← h2]
    rfl
  have hd : ((Decoder.readPacket env.profile : M Plain _) pl).1 ≠ .pending := by rw [hpl]; exact hd
  rcases hm : (Decoder.readPacket env.profile : M RStream ControlPacket) k.rd with ⟨r, rd⟩
  unfold readTask
  rcases hph with hph | ⟨id, hph⟩
  · simp only [hph, hm]
    cases r with
    | ok p => cases p <;> simp
    | err => simp
    | panic => simp
    | hang => simp
    | pending =>
      rw [hm] at hs
      obtain ⟨p', hs⟩ := hs
      rw [hs] at hd
      exact absurd rfl hd
  · simp only [hph, hm]
    cases r with
    | ok p => simp
    | err => simp
    | panic => simp
    | hang => simp
    | pending =>
      rw [hm] at hs
      obtain ⟨p', hs⟩ := hs
      rw [hs] at hd
      exact absurd rfl hd

theorem ReadInv.rel {env : Env} {peer : Peer} {c : ConnId} {alive : Bool} {tk : List ClientEvent} {k : Conn}
    (h : ReadInv env peer c alive tk k) (hk : k.phase = .first ∨ ∃ id, k.phase = .running id) : ∃ pl, Rel k.rd pl := by
  obtain ⟨_, _, ps, pl, _, h1, h2, _, _⟩ := h
  rcases hk with hk | ⟨id, hk⟩
  · exact ⟨pl, (h1 hk).2⟩
  · exact ⟨pl, (h2 id hk).1⟩

/-- The handler finishes the event at hand, with the help of write tasks, or it crashes or gets stuck. -/
theorem settle (env : Env) (now : Instant) (todo : List (ConnId × ServerEvent)) (s : Sys) (hh : s.handler = .busy todo)
    (hq : ∀ c, (s.conns c).queue.length ≤ channelCapacity) :
    ∃ sched, (∀ st ∈ sched, (∃ c, st = .write c) ∨ st = .handler now)
      ∧ ((run env s sched).handler = .idle ∨ (run env s sched).handler = .crashed ∨ ∃ d e t, Stuck (run env s sched) d e t) := by
  induction todo generalizing s with
  | nil => exact ⟨[.handler now], by simp, .inl (by simp [run, step, stepHandler, hh])⟩
  | cons x todo ih =>
    obtain ⟨d, e⟩ := x
    -- with room in the queue
    have room : ∀ s : Sys, s.handler = .busy ((d, e) :: todo) → (∀ c, (s.conns c).queue.length ≤ channelCapacity) →
        (s.conns d).queue.length < channelCapacity → ∃ sched, (∀ st ∈ sched, (∃ c, st = .write c) ∨ st = .handler now)
      ∧ ((run env s sched).handler = .idle ∨ (run env s sched).handler = .crashed ∨ ∃ d e t, Stuck (run env s sched) d e t) := by
      intro s hh hq hr
      rcases handler_sends env now hh hr with h | ⟨h, _⟩
      · exact ⟨[.handler now], by simp, .inr (.inl h)⟩
      · by_cases ht : todo = []
        · rw [if_pos ht] at h
          exact ⟨[.handler now], by simp, .inl h⟩
        · rw [if_neg ht] at h
          have hq' : ∀ c, ((step env s (.handler now)).conns c).queue.length ≤ channelCapacity := by
            intro c
            rcases stepHandler_conn env now s c with h' | ⟨e', t', h1, _, h3, h4⟩
            · simp only [step, h']; exact hq c
            · simp only [step, h4, List.length_append, List.length_singleton]; omega
          obtain ⟨sched, h1, h2⟩ := ih _ h hq'
          exact ⟨.handler now :: sched, by simpa using h1, h2⟩
    by_cases hr : (s.conns d).queue.length < channelCapacity
    · exact room s hh hq hr
    · by_cases hx : (s.conns d).rxOpen = true
      · by_cases hb : (s.conns d).wrBlocked = true
        · exact ⟨[], by simp, .inr (.inr ⟨d, e, todo, hh, hx, by show 32 ≤ (s.conns d).queue.length; unfold channelCapacity at hr; omega, hb⟩)⟩
        · have hne : (s.conns d).queue ≠ [] := by
            intro h; rw [h] at hr; exact hr (by decide)
          have hlt := write_takes env hx (by simpa using hb) hne
          have h0 : (step env s (.write d)).handler = .busy ((d, e) :: todo) := by
            rw [step, (stepWrite_rest env s d).2.1]; exact hh
          obtain ⟨sched, h1, h2⟩ := room (step env s (.write d)) h0 (fun c => by
            by_cases hc : c = d
            · subst hc; have := hq c; omega
            · simp only [step, stepWrite_other env s hc]; exact hq c) (by have := hq d; omega)
          exact ⟨.write d :: sched, by simpa using h1, h2⟩
      · refine ⟨[.handler now], by simp, .inr (.inl ?_)⟩
        simp only [run, List.foldl_cons, List.foldl_nil, step, stepHandler, hh]
        rw [if_neg hx]

/-- The read task is blocked in sending, or has moved. -/
theorem read_changes {env : Env} {peers : ConnId → Peer} {s : Sys} (h : Reads env peers s) {c : ConnId} (hk : CanRead env (s.conns c))
    (ho : (s.conns c).outbox = none) : step env s (.read c) ≠ s := by
  intro he
  obtain ⟨pl, hpl⟩ := (h.conn c).rel hk.1
  have := readTask_changes (c := c) hpl hk
  have he : readTask env c (s.conns c) = s.conns c := by
    have : (step env s (.read c)).conns c = s.conns c := by rw [he]
    unfold step stepRead at this
    simpa [ho] using this
  rw [he] at this
  rcases this with h | h | h
  · exact h ho
  · rcases hk.1 with hp | ⟨id, hp⟩ <;> rw [h] at hp <;> cases hp
  · rcases hk.1 with hp | ⟨id, hp⟩ <;> rw [h] at hp <;> cases hp

end Sys

end Ratel
