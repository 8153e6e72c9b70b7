/-
The log of an execution in terms of the events handled, and its text.
-/
import Verif.Spec.Logging
import Verif.Spec.Broker

namespace Ratel

open Spec

/-! ### The handler's records -/

/-- The records of a history of events. -/
def Handler.history (t : Texts) (auth : IdentityProvider) : MessagingService → List (ClientEvent × Instant) → List LogRecord
  | _, [] => []
  | m, (ev, now) :: evs =>
    Handler.records t auth m ev ++
    match Handler.handle auth now m ev with
    | some (m', _) => Handler.history t auth m' evs
    | none => []

/-- Only the last event makes the packet handler crash, if any. -/
def Handler.Lives (auth : IdentityProvider) : MessagingService → List (ClientEvent × Instant) → Prop
  | _, [] => True
  | m, (ev, now) :: evs =>
    match Handler.handle auth now m ev with
    | some (m', _) => Handler.Lives auth m' evs
    | none => evs = []

namespace Sys

/-- What the packet handler logs when it stops. -/
def stopRecords : List LogRecord := [⟨.debug, .handler, "Stopping manager...".toList⟩, ⟨.debug, .handler, "Stopped Manager".toList⟩]

theorem handlerRecords_of {t : Texts} {auth : IdentityProvider} {m : MessagingService} {ev : ClientEvent} :
    ∀ r ∈ Handler.records t auth m ev, ofHandler r = true := by
  intro r hr
  unfold Handler.records at hr
  rcases List.mem_cons.mp hr with rfl | hr
  · rfl
  cases ev with
  | connected p addr tx =>
    simp only [Handler.connectRecords] at hr
    rcases List.mem_cons.mp hr with rfl | hr
    · rfl
    split at hr
    · split at hr
      · simp only [List.mem_singleton] at hr; subst hr; rfl
      · simp at hr
    · simp at hr
  | controlPacket id p tx =>
    simp only [Handler.packetRecords] at hr
    rcases List.mem_cons.mp hr with rfl | hr
    · rfl
    split at hr
    · rcases List.mem_cons.mp hr with rfl | hr
      · rfl
      · simp only [Handler.publishWarnings] at hr
        split at hr
        · simp at hr
        · simp only [List.mem_filterMap] at hr
          obtain ⟨c, _, hc⟩ := hr
          split at hc
          · simp at hc
          · injection hc with hc; subst hc; rfl
    · simp only [List.mem_singleton] at hr; subst hr; rfl
    · simp only [List.mem_singleton] at hr; subst hr; rfl
    · split at hr
      · simp at hr
      · simp only [List.mem_singleton] at hr; subst hr; rfl
    · simp only [List.mem_singleton] at hr; subst hr; rfl
    · simp only [List.mem_singleton] at hr; subst hr; rfl
  | disconnected id => simp at hr
  | connectionLost id => simp only [List.mem_singleton] at hr; subst hr; rfl

/-- What a task other than the packet handler logs, short of TRACE. -/
theorem readRecords_mem {t : Texts} {env : Env} {s : Sys} {c : ConnId} {r : LogRecord} (hr : r ∈ readRecords t env s c) :
    r.origin = .listener ∧ (r.level = .trace
      ∨ r.message = "Error while sending client event to be processed: channel closed".toList
      ∨ r.message = "The first received packet is not CONNECT".toList) := by
  unfold readRecords at hr
  simp only at hr
  split at hr
  · split at hr
    · simp at hr
    · simp only [List.mem_singleton] at hr; subst hr; exact ⟨rfl, .inr (.inl rfl)⟩
  · split at hr
    · split at hr
      · rcases List.mem_cons.mp hr with rfl | hr
        · exact ⟨rfl, .inl rfl⟩
        split at hr
        · split at hr
          · simp only [List.mem_singleton] at hr; subst hr; exact ⟨rfl, .inl rfl⟩
          · simp at hr
        · simp only [List.mem_singleton] at hr; subst hr; exact ⟨rfl, .inr (.inr rfl)⟩
      · simp at hr
    · split at hr
      · simp only [List.mem_singleton] at hr; subst hr; exact ⟨rfl, .inl rfl⟩
      · simp only [List.mem_singleton] at hr; subst hr; exact ⟨rfl, .inl rfl⟩
      · simp at hr
    · simp at hr

theorem writeRecords_mem {t : Texts} {env : Env} {s : Sys} {c : ConnId} {r : LogRecord} (hr : r ∈ writeRecords t env s c) :
    r.origin = .listener ∧ (r.level = .trace ∨ ∃ e, r.message = "Error while writing packet: ".toList ++ t.ioError e) := by
  unfold writeRecords at hr
  simp only at hr
  split at hr
  · split at hr
    · rcases List.mem_append.mp hr with hr | hr
      · simp only [List.mem_cons, List.not_mem_nil, or_false] at hr
        rcases hr with rfl | rfl <;> exact ⟨rfl, .inl rfl⟩
      · split at hr
        · simp only [List.mem_singleton] at hr; subst hr; exact ⟨rfl, .inr ⟨_, rfl⟩⟩
        · simp at hr
    · simp only [List.mem_cons, List.not_mem_nil, or_false] at hr
      rcases hr with rfl | rfl <;> exact ⟨rfl, .inl rfl⟩
    · split at hr
      · simp at hr
      · simp only [List.mem_singleton] at hr; subst hr; exact ⟨rfl, .inl rfl⟩
  · simp at hr

/-- A packet handler that is gone. -/
def Left (s : Sys) : Prop := s.handler = .crashed ∨ s.handler = .stopped

theorem gone_step {env : Env} {s : Sys} {a : Step} (h : Left s) : (step env s a).handler = s.handler ∧ (step env s a).log = s.log := by
  cases a with
  | read c =>
    simp only [step, stepRead]
    split
    · split
      · split <;> exact ⟨rfl, rfl⟩
      · exact ⟨rfl, rfl⟩
    · exact ⟨rfl, rfl⟩
  | write c =>
    simp only [step, stepWrite]
    split
    · split
      · split <;> exact ⟨rfl, rfl⟩
      · exact ⟨rfl, rfl⟩
      · split <;> exact ⟨rfl, rfl⟩
    · exact ⟨rfl, rfl⟩
  | handler now => rcases h with h | h <;> simp [step, stepHandler, h]
  | ctrlC => exact ⟨rfl, rfl⟩
  | stop => rcases h with h | h <;> simp [step, h]

theorem left_run {env : Env} {s : Sys} {sched : List Step} (h : Left s) :
    (run env s sched).handler = s.handler ∧ (run env s sched).log = s.log := by
  induction sched generalizing s with
  | nil => exact ⟨rfl, rfl⟩
  | cons a sched ih =>
    have hs := gone_step (env := env) (a := a) h
    have := ih (s := step env s a) (by unfold Left; rw [hs.1]; exact h)
    exact ⟨this.1.trans hs.1, this.2.trans hs.2⟩

/-- Steps of the read and write tasks do not touch the packet handler. -/
theorem task_step {env : Env} {s : Sys} {a : Step} (h : (∃ c, a = .read c) ∨ ∃ c, a = .write c) :
    (step env s a).handler = s.handler ∧ (step env s a).log = s.log ∧ (step env s a).messaging = s.messaging := by
  rcases h with ⟨c, rfl⟩ | ⟨c, rfl⟩
  · simp only [step, stepRead]
    split
    · split
      · split <;> exact ⟨rfl, rfl, rfl⟩
      · exact ⟨rfl, rfl, rfl⟩
    · exact ⟨rfl, rfl, rfl⟩
  · simp only [step, stepWrite]
    split
    · split
      · split <;> exact ⟨rfl, rfl, rfl⟩
      · exact ⟨rfl, rfl, rfl⟩
      · split <;> exact ⟨rfl, rfl, rfl⟩
    · exact ⟨rfl, rfl, rfl⟩

/-- The packet handler stops in the run. -/
def endsNow (env : Env) (s : Sys) (sched : List Step) : List LogRecord :=
  if (run env s sched).handler = .stopped ∧ s.handler ≠ .stopped then stopRecords else []

theorem filter_none {p : LogRecord → Bool} {l : List LogRecord} (h : ∀ r ∈ l, p r = false) : l.filter p = [] :=
  List.filter_eq_nil_iff.mpr fun r hr => by simp [h r hr]

/-- What the packet handler and the messaging service log is the history of the events handled, and the end. -/
theorem transcript_handler (t : Texts) (env : Env) (s : Sys) (sched : List Step) :
    ∃ new, (run env s sched).log = s.log ++ new ∧ Handler.Lives env.auth s.messaging new
      ∧ (transcript t env s sched).filter ofHandler = Handler.history t env.auth s.messaging new ++ endsNow env s sched := by
  induction sched generalizing s with
  | nil => exact ⟨[], by simp [run], trivial, by simp [transcript, Handler.history, endsNow, run]⟩
  | cons a sched ih =>
    have hrun : run env s (a :: sched) = run env (step env s a) sched := rfl
    -- a step that leaves handler, log and messaging service as they are
    have same : (step env s a).handler = s.handler → (step env s a).log = s.log → (step env s a).messaging = s.messaging →
        (records t env s a).filter ofHandler = [] →
        ∃ new, (run env s (a :: sched)).log = s.log ++ new ∧ Handler.Lives env.auth s.messaging new
          ∧ (transcript t env s (a :: sched)).filter ofHandler
            = Handler.history t env.auth s.messaging new ++ endsNow env s (a :: sched) := by
      intro hh hl hm hr
      obtain ⟨new, h1, h3, h2⟩ := ih (step env s a)
      refine ⟨new, by rw [hrun, h1, hl], by rw [← hm]; exact h3, ?_⟩
      show (records t env s a ++ transcript t env (step env s a) sched).filter ofHandler = _
      rw [List.filter_append, hr, List.nil_append, h2, hm]
      unfold endsNow
      rw [hh, hrun]
    cases a with
    | read c =>
      obtain ⟨h1, h2, h3⟩ := task_step (env := env) (s := s) (.inl ⟨c, rfl⟩)
      exact same h1 h2 h3 (filter_none fun r hr => by simp [ofHandler, (readRecords_mem hr).1])
    | write c =>
      obtain ⟨h1, h2, h3⟩ := task_step (env := env) (s := s) (.inr ⟨c, rfl⟩)
      exact same h1 h2 h3 (filter_none fun r hr => by simp [ofHandler, (writeRecords_mem hr).1])
    | ctrlC =>
      refine same rfl rfl rfl (filter_none fun r hr => ?_)
      simp only [records] at hr
      split at hr
      · simp at hr
      · simp only [List.mem_singleton] at hr; subst hr; rfl
    | stop =>
      cases hh : s.handler with
      | idle =>
        by_cases hc : s.ctrlC = true
        · have hst : step env s .stop = { s with handler := .stopped } := by simp [step, hh, hc]
          obtain ⟨g1, g2⟩ := left_run (env := env) (s := step env s .stop) (sched := sched) (.inr (by rw [hst]))
          obtain ⟨new, h1, h3, h2⟩ := ih (step env s .stop)
          refine ⟨[], by rw [hrun, g2, hst]; simp, trivial, ?_⟩
          have hnew : new = [] := by
            rw [g2] at h1
            exact List.self_eq_append_right.mp h1
          show (records t env s .stop ++ transcript t env (step env s .stop) sched).filter ofHandler = _
          rw [List.filter_append, h2, hnew]
          have hr : records t env s .stop = stopRecords := by simp [records, hh, hc, stopRecords]
          have he : endsNow env (step env s .stop) sched = [] := by
            unfold endsNow
            rw [if_neg]
            rintro ⟨_, h⟩
            exact h (by rw [hst])
          have he' : endsNow env s (.stop :: sched) = stopRecords := by
            unfold endsNow
            rw [if_pos]
            refine ⟨by rw [hrun, g1, hst], by rw [hh]; simp⟩
          rw [hr, he, he']
          simp [Handler.history, stopRecords, ofHandler]
        · have hst : step env s .stop = s := by simp [step, hh, hc]
          exact same (by rw [hst]) (by rw [hst]) (by rw [hst]) (by simp [records, hh, hc])
      | busy todo =>
        have hst : step env s .stop = s := by simp [step, hh]
        exact same (by rw [hst]) (by rw [hst]) (by rw [hst]) (by simp [records, hh])
      | crashed =>
        have hst : step env s .stop = s := by simp [step, hh]
        exact same (by rw [hst]) (by rw [hst]) (by rw [hst]) (by simp [records, hh])
      | stopped =>
        have hst : step env s .stop = s := by simp [step, hh]
        exact same (by rw [hst]) (by rw [hst]) (by rw [hst]) (by simp [records, hh])
    | handler now =>
      -- steps in which no event is taken
      have quiet : ∀ s' : Sys, step env s (.handler now) = s' → s'.log = s.log → s'.messaging = s.messaging →
          (s'.handler = .stopped ↔ s.handler = .stopped) → records t env s (.handler now) = [] →
          ∃ new, (run env s (.handler now :: sched)).log = s.log ++ new ∧ Handler.Lives env.auth s.messaging new
            ∧ (transcript t env s (.handler now :: sched)).filter ofHandler
              = Handler.history t env.auth s.messaging new ++ endsNow env s (.handler now :: sched) := by
        intro s' hs hl hm hh hr
        obtain ⟨new, h1, h3, h2⟩ := ih (step env s (.handler now))
        refine ⟨new, by rw [hrun, h1, hs, hl], by rw [← hm, ← hs]; exact h3, ?_⟩
        show (records t env s (.handler now) ++ transcript t env (step env s (.handler now)) sched).filter ofHandler = _
        rw [hr, List.nil_append, h2, hs, hm]
        unfold endsNow
        simp only [hrun, hs, ne_eq, hh]
      cases hh : s.handler with
      | idle =>
        cases he : s.events with
        | nil => exact quiet s (by simp [step, stepHandler, hh, he]) rfl rfl Iff.rfl (by simp [records, handlerRecords, he])
        | cons ev rest =>
          have hr : records t env s (.handler now) = Handler.records t env.auth s.messaging ev := by
            simp [records, handlerRecords, hh, he]
          have hf : (records t env s (.handler now)).filter ofHandler = records t env s (.handler now) := by
            rw [List.filter_eq_self]
            intro r h
            rw [hr] at h
            exact handlerRecords_of r h
          obtain ⟨new, h1, h3, h2⟩ := ih (step env s (.handler now))
          cases hx : Handler.handle env.auth now s.messaging ev with
          | none =>
            have hs : step env s (.handler now) = { s with events := rest, log := s.log ++ [(ev, now)], handler := .crashed } := by
              simp [step, stepHandler, hh, he, hx]
            obtain ⟨g1, g2⟩ := left_run (env := env) (s := step env s (.handler now)) (sched := sched) (.inl (by rw [hs]))
            refine ⟨[(ev, now)], by rw [hrun, g2, hs], by simp [Handler.Lives, hx], ?_⟩
            have hnew : new = [] := by
              rw [g2] at h1
              exact List.self_eq_append_right.mp h1
            show (records t env s (.handler now) ++ transcript t env (step env s (.handler now)) sched).filter ofHandler = _
            rw [List.filter_append, hf, h2, hnew, hr]
            have e1 : endsNow env (step env s (.handler now)) sched = [] := by
              unfold endsNow
              rw [g1, hs]
              simp
            have e2 : endsNow env s (.handler now :: sched) = [] := by
              unfold endsNow
              rw [hrun, g1, hs]
              simp
            rw [e1, e2]
            simp [Handler.history, hx]
          | some x =>
            obtain ⟨m, sends⟩ := x
            have hs : (step env s (.handler now)).log = s.log ++ [(ev, now)] ∧ (step env s (.handler now)).messaging = m
                ∧ (step env s (.handler now)).handler ≠ .stopped := by
              cases sends with
              | nil => simp [step, stepHandler, hh, he, hx]
              | cons _ _ => simp [step, stepHandler, hh, he, hx]
            refine ⟨(ev, now) :: new, by rw [hrun, h1, hs.1]; simp, by simp only [Handler.Lives, hx]; rw [← hs.2.1]; exact h3, ?_⟩
            show (records t env s (.handler now) ++ transcript t env (step env s (.handler now)) sched).filter ofHandler = _
            rw [List.filter_append, hf, h2, hr, hs.2.1]
            have e1 : endsNow env (step env s (.handler now)) sched = endsNow env s (.handler now :: sched) := by
              unfold endsNow
              rw [hrun, hh]
              simp [hs.2.2]
            rw [e1]
            simp [Handler.history, hx]
      | busy todo =>
        have hr : records t env s (.handler now) = [] := by simp [records, handlerRecords, hh]
        cases todo with
        | nil => exact quiet _ rfl (by simp [step, stepHandler, hh]) (by simp [step, stepHandler, hh]) (by simp [step, stepHandler, hh]) hr
        | cons x todo =>
          refine quiet _ rfl ?_ ?_ ?_ hr
          · simp only [step, stepHandler, hh]; split
            · split <;> rfl
            · rfl
          · simp only [step, stepHandler, hh]; split
            · split <;> rfl
            · rfl
          · simp only [step, stepHandler, hh]; split
            · split
              · simp only [setConn]; split <;> simp
              · rw [hh]
            · simp
      | crashed =>
        exact quiet s (by simp [step, stepHandler, hh]) rfl rfl Iff.rfl (by simp [records, handlerRecords, hh])
      | stopped =>
        exact quiet s (by simp [step, stepHandler, hh]) rfl rfl Iff.rfl (by simp [records, handlerRecords, hh])

/-- The records of the other tasks, short of TRACE. -/
theorem transcript_others {t : Texts} {env : Env} {s : Sys} {sched : List Step} {r : LogRecord} (hr : r ∈ transcript t env s sched)
    (ho : ofHandler r = false) :
    r.level = .trace
    ∨ r.message = "Error while sending client event to be processed: channel closed".toList
    ∨ r.message = "The first received packet is not CONNECT".toList
    ∨ r.message = "Stopping RatelMQ...".toList
    ∨ ∃ e, r.message = "Error while writing packet: ".toList ++ t.ioError e := by
  induction sched generalizing s with
  | nil => simp [transcript] at hr
  | cons a sched ih =>
    rcases List.mem_append.mp hr with hr | hr
    · cases a with
      | read c =>
        rcases (readRecords_mem hr).2 with h | h | h
        · exact .inl h
        · exact .inr (.inl h)
        · exact .inr (.inr (.inl h))
      | write c =>
        rcases (writeRecords_mem hr).2 with h | h
        · exact .inl h
        · exact .inr (.inr (.inr (.inr h)))
      | ctrlC =>
        simp only [records] at hr
        split at hr
        · simp at hr
        · simp only [List.mem_singleton] at hr; subst hr; exact .inr (.inr (.inr (.inl rfl)))
      | stop =>
        exfalso
        simp only [records] at hr
        split at hr
        · split at hr
          · simp only [List.mem_cons, List.not_mem_nil, or_false] at hr
            rcases hr with rfl | rfl <;> simp [ofHandler] at ho
          · simp at hr
        · simp at hr
      | handler now =>
        exfalso
        simp only [records, handlerRecords] at hr
        split at hr
        · rw [handlerRecords_of r hr] at ho; simp at ho
        · simp at hr
    · exact ih hr

end Sys

/-! ### Refusals -/

theorem between_some {a b u : List Char} : between a b (a ++ u ++ b) = some u := by
  unfold between
  rw [if_pos]
  · congr 1
    rw [List.append_assoc, List.drop_left]
    have : (a ++ (u ++ b)).length - a.length - b.length = u.length := by
      simp only [List.length_append]; omega
    rw [this, List.take_left]
  · rw [List.append_assoc, List.drop_left]
    simp

theorem between_none {a b l : List Char} (h : ¬ b <:+ l) : between a b l = none := by
  unfold between
  rw [if_neg]
  intro h'
  simp only [Bool.and_eq_true, List.isSuffixOf_iff_suffix] at h'
  exact h (h'.2.trans (List.drop_suffix _ _))

theorem last_suffix {a b : List Char} {x y : Char} (h : a ++ [x] <:+ b ++ [y]) : x = y := by
  obtain ⟨c, hc⟩ := h
  rw [← List.append_assoc] at hc
  have := congrArg List.getLast? hc
  simpa using this

theorem authError_user (t : Texts) : Fmt.authError t .userNotFound = "UserNotFound".toList := rfl

theorem authError_password (t : Texts) : Fmt.authError t .invalidPassword = "InvalidPassword".toList := rfl

theorem authError_encryption (t : Texts) : Fmt.authError t .encryptionError = "EncryptionError(".toList ++ t.hashError ++ [')'] := rfl

theorem shown_refusal (t : Texts) (u : String) (e : AuthenticationError) : shown t (Handler.refusalRecord t u e) = some (u, e) := by
  have hmsg : (Handler.refusalRecord t u e).message = "Client ".toList ++ u.toList ++ (" authentication error: ".toList ++ Fmt.authError t e) := by
    simp [Handler.refusalRecord, List.append_assoc]
  have hself : between "Client ".toList (" authentication error: ".toList ++ Fmt.authError t e) (Handler.refusalRecord t u e).message
      = some u.toList := by rw [hmsg]; exact between_some
  unfold shown
  rw [if_pos ⟨rfl, rfl⟩]
  cases e with
  | userNotFound => rw [List.findSome?_cons, hself, Option.map_some, String.ofList_toList]
  | invalidPassword =>
    have h1 : between "Client ".toList (" authentication error: ".toList ++ Fmt.authError t .userNotFound)
        (Handler.refusalRecord t u .invalidPassword).message = none := by
      refine between_none fun h => ?_
      rw [hmsg] at h
      have h' : ['u', 'n', 'd'] <:+ "Client ".toList ++ u.toList ++ (" authentication error: ".toList ++ Fmt.authError t .invalidPassword) :=
        List.IsSuffix.trans (by simp [authError_user, authError_password]; decide) h
      have h2 : ['o', 'r', 'd'] <:+ "Client ".toList ++ u.toList ++ (" authentication error: ".toList ++ Fmt.authError t .invalidPassword) :=
        List.IsSuffix.trans (by simp [authError_user, authError_password]; decide) (List.suffix_append _ _)
      have := List.suffix_of_suffix_length_le h' h2 (by simp)
      revert this; decide
    rw [List.findSome?_cons, h1, Option.map_none, List.findSome?_cons, hself, Option.map_some, String.ofList_toList]
  | encryptionError =>
    have key : ∀ e', (∃ l, Fmt.authError t e' = l ++ ['d']) →
        between "Client ".toList (" authentication error: ".toList ++ Fmt.authError t e')
          (Handler.refusalRecord t u .encryptionError).message = none := by
      rintro e' ⟨l, hl⟩
      refine between_none fun h => ?_
      rw [hmsg, hl, authError_encryption] at h
      have h' : (" authentication error: ".toList ++ l) ++ ['d'] <:+
          ("Client ".toList ++ u.toList ++ (" authentication error: ".toList ++ ("EncryptionError(".toList ++ t.hashError))) ++ [')'] := by
        simpa [List.append_assoc] using h
      exact absurd (last_suffix h') (by decide)
    have h1 := key .userNotFound ⟨"UserNotFoun".toList, by simp [authError_user, authError_password]⟩
    have h2 := key .invalidPassword ⟨"InvalidPasswor".toList, by simp [authError_user, authError_password]⟩
    rw [List.findSome?_cons, h1, Option.map_none, List.findSome?_cons, h2, Option.map_none, List.findSome?_cons, hself, Option.map_some,
      String.ofList_toList]

theorem shown_level {t : Texts} {r : LogRecord} (h : r.level ≠ .info ∨ r.origin ≠ .handler) : shown t r = none := by
  unfold shown
  rw [if_neg]
  rintro ⟨h1, h2⟩
  rcases h with h | h
  · exact h h1
  · exact h h2

/-- The messages that end with `disconnected unexpectedly`. -/
theorem shown_lost (t : Texts) (l : List Char) : shown t ⟨.info, .handler, l ++ " disconnected unexpectedly".toList⟩ = none := by
  have key : ∀ e, between "Client ".toList (" authentication error: ".toList ++ Fmt.authError t e)
      (l ++ " disconnected unexpectedly".toList) = none := by
    intro e
    refine between_none fun h => ?_
    have hy : l ++ " disconnected unexpectedly".toList = (l ++ " disconnected unexpectedl".toList) ++ ['y'] := by
      rw [List.append_assoc]; rfl
    rw [hy] at h
    cases e with
    | userNotFound =>
      have : (" authentication error: ".toList ++ Fmt.authError t .userNotFound) = (" authentication error: UserNotFoun".toList) ++ ['d'] := by
        simp [authError_user, authError_password]
      rw [this] at h
      exact absurd (last_suffix h) (by decide)
    | invalidPassword =>
      have : (" authentication error: ".toList ++ Fmt.authError t .invalidPassword) = (" authentication error: InvalidPasswor".toList) ++ ['d'] := by
        simp [authError_user, authError_password]
      rw [this] at h
      exact absurd (last_suffix h) (by decide)
    | encryptionError =>
      rw [authError_encryption, ← List.append_assoc] at h
      exact absurd (last_suffix h) (by decide)
  unfold shown
  rw [if_pos ⟨rfl, rfl⟩]
  rw [List.findSome?_cons, key, Option.map_none, List.findSome?_cons, key, Option.map_none, List.findSome?_cons, key, Option.map_none,
    List.findSome?_nil]

theorem filterMap_nil {α β : Type} {f : α → Option β} {l : List α} (h : ∀ a ∈ l, f a = none) : l.filterMap f = [] :=
  List.filterMap_eq_nil_iff.mpr h

/-- The records of an event show its refusal, if it is one. -/
theorem shown_records (t : Texts) (auth : IdentityProvider) (m : MessagingService) (ev : ClientEvent) :
    (Handler.records t auth m ev).filterMap (shown t) = (refusal auth ev).toList := by
  unfold Handler.records
  rw [List.filterMap_cons_none (shown_level (.inl (by simp)))]
  cases ev with
  | connected p addr tx =>
    simp only [Handler.connectRecords, refusal]
    rw [List.filterMap_cons_none (shown_level (.inl (by simp)))]
    cases p.userName with
    | none => rfl
    | some u =>
      cases p.password with
      | none => rfl
      | some pw =>
        simp only
        cases auth u pw with
        | ok _ => rfl
        | error e => simp [shown_refusal]
  | controlPacket id p tx =>
    refine filterMap_nil fun r hr => ?_
    refine shown_level ?_
    simp only [Handler.packetRecords] at hr
    rcases List.mem_cons.mp hr with rfl | hr
    · exact .inl (by simp)
    split at hr
    · rcases List.mem_cons.mp hr with rfl | hr
      · exact .inl (by simp)
      · simp only [Handler.publishWarnings] at hr
        split at hr
        · simp at hr
        · simp only [List.mem_filterMap] at hr
          obtain ⟨c, _, hc⟩ := hr
          split at hc
          · simp at hc
          · injection hc with hc; subst hc; exact .inl (by simp)
    · simp only [List.mem_singleton] at hr; subst hr; exact .inl (by simp)
    · simp only [List.mem_singleton] at hr; subst hr; exact .inl (by simp)
    · split at hr
      · simp at hr
      · simp only [List.mem_singleton] at hr; subst hr; exact .inl (by simp [Handler.strayPingRecord])
    · simp only [List.mem_singleton] at hr; subst hr; exact .inl (by simp)
    · simp only [List.mem_singleton] at hr; subst hr; exact .inl (by simp)
  | disconnected id => rfl
  | connectionLost id =>
    show List.filterMap (shown t) [_] = _
    rw [List.filterMap_cons_none (shown_lost t _)]
    rfl

/-- The history shows the refusals. -/
theorem shown_history (t : Texts) (auth : IdentityProvider) (m : MessagingService) (evs : List (ClientEvent × Instant))
    (hl : Handler.Lives auth m evs) :
    (Handler.history t auth m evs).filterMap (shown t) = evs.filterMap fun x => refusal auth x.1 := by
  induction evs generalizing m with
  | nil => rfl
  | cons x evs ih =>
    obtain ⟨ev, now⟩ := x
    simp only [Handler.Lives] at hl
    simp only [Handler.history, List.filterMap_append, shown_records]
    have htail : (match Handler.handle auth now m ev with
        | some (m', _) => Handler.history t auth m' evs
        | none => []).filterMap (shown t) = evs.filterMap fun x => refusal auth x.1 := by
      cases hx : Handler.handle auth now m ev with
      | none => rw [hx] at hl; simp only at hl; subst hl; rfl
      | some z => rw [hx] at hl; exact ih z.1 hl
    rw [htail]
    cases h : refusal auth ev with
    | none => rw [List.filterMap_cons_none (by exact h)]; rfl
    | some y => rw [List.filterMap_cons_some (by exact h)]; rfl

end Ratel
