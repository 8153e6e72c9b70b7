/-
The size of the log in terms of the events handled.
-/
import Verif.Proofs.Logging
import Verif.Proofs.Broker
import Verif.Proofs.LogAlike
import Verif.Spec.LogSize

namespace Ratel

open Spec Sys

theorem publishWarnings_count (t : Texts) {m : MessagingService} {b : Broker} (h : Rep m b) (topic : String) :
    (Handler.publishWarnings t m topic).length = b.stale topic := by
  unfold Handler.publishWarnings Broker.stale
  rw [← countP_clients m.subscriptions h.subs (fun c => b.session c = none) topic]
  cases m.subscriptions.subscribedClients topic with
  | none => rfl
  | some l =>
    simp only [Option.getD_some]
    induction l with
    | nil => rfl
    | cons c l ih =>
      rw [List.filterMap_cons, List.countP_cons, ← ih]
      have hc := h.session c
      cases hg : m.sessions.get c with
      | none => rw [hg] at hc; simp at hc; simp [← hc]
      | some s => rw [hg] at hc; simp at hc; simp [← hc]

theorem publishWarnings_warn {t : Texts} {m : MessagingService} {topic : String} {r : LogRecord} (h : r ∈ Handler.publishWarnings t m topic) :
    r.level = .warn ∧ r.origin = .messaging := by
  unfold Handler.publishWarnings at h
  split at h
  · exact absurd h List.not_mem_nil
  · obtain ⟨c, _, h⟩ := List.mem_filterMap.mp h
    split at h
    · cases h
    · injection h with h; subst h; exact ⟨rfl, rfl⟩

theorem upTo_nil (level : Level) : upTo level [] = [] := rfl

theorem upTo_out {level : Level} {r : LogRecord} {rs : List LogRecord} (h : level.rank < r.level.rank) : upTo level (r :: rs) = upTo level rs := by
  unfold upTo
  rw [List.filter_cons, if_neg]
  simpa using h

theorem upTo_in {level : Level} {r : LogRecord} {rs : List LogRecord} (h : r.level.rank ≤ level.rank) : upTo level (r :: rs) = r :: upTo level rs := by
  unfold upTo
  rw [List.filter_cons, if_pos]
  simpa using h

/-- How much an event makes. -/
theorem records_count (t : Texts) {level : Level} (hl : level.rank ≤ Level.info.rank) (auth : IdentityProvider) {m : MessagingService} {b : Broker}
    (h : Rep m b) (ev : ClientEvent) : (upTo level (Handler.records t auth m ev)).length = notices level auth b ev := by
  have hd : ∀ r : LogRecord, r.level = .debug ∨ r.level = .trace → level.rank < r.level.rank := by
    intro r hr
    have h1 : Level.info.rank < r.level.rank := by rcases hr with e | e <;> rw [e] <;> decide
    omega
  have he : ∀ r : LogRecord, r.level = .error → r.level.rank ≤ level.rank := by
    intro r hr; rw [hr]; cases level <;> decide
  have hi : ∀ r : LogRecord, r.level = .info → (upTo level [r]).length = if level = .info then 1 else 0 := by
    intro r hr
    by_cases hx : level = .info
    · subst hx; rw [upTo_in (by rw [hr]; decide)]; rfl
    · rw [upTo_out (by rw [hr]; revert hl hx; cases level <;> decide), if_neg hx]; rfl
  cases ev with
  | connected p addr tx =>
    show (upTo level (_ :: Handler.connectRecords t auth p)).length = _
    rw [upTo_out (hd _ (.inr rfl))]
    unfold Handler.connectRecords
    rw [upTo_out (hd _ (.inl rfl))]
    show _ = if level = .info ∧ login auth p = .refused then 1 else 0
    have h0 : login auth p ≠ .refused → (if level = .info ∧ login auth p = .refused then 1 else 0) = 0 := fun hn => if_neg fun hx => hn hx.2
    cases hu : p.userName with
    | none => rw [h0 (by simp [login, hu])]; rfl
    | some u =>
      cases hp : p.password with
      | none => rw [h0 (by simp [login, hu, hp])]; rfl
      | some pw =>
        simp only
        cases ha : auth u pw with
        | ok _ => rw [h0 (by simp [login, hu, hp, ha])]; rfl
        | error e =>
          have : login auth p = .refused := by simp [login, hu, hp, ha]
          simp only [this, and_true]
          rw [hi _ rfl]
  | disconnected id =>
    show (upTo level (_ :: [])).length = _
    rw [upTo_out (hd _ (.inr rfl))]; rfl
  | connectionLost id =>
    show (upTo level (_ :: [_])).length = _
    rw [upTo_out (hd _ (.inr rfl)), hi _ rfl]; rfl
  | controlPacket id p tx =>
    show (upTo level (_ :: Handler.packetRecords t m id p)).length = _
    rw [upTo_out (hd _ (.inr rfl))]
    unfold Handler.packetRecords
    rw [upTo_out (hd _ (.inr rfl))]
    cases p with
    | publish q =>
      show (upTo level (_ :: Handler.publishWarnings t m q.message.topic)).length = if level = .error then 0 else b.stale q.message.topic
      rw [upTo_out (hd _ (.inl rfl)), ← publishWarnings_count t h]
      have hw : ∀ r ∈ Handler.publishWarnings t m q.message.topic, r.level = .warn := fun r hr => (publishWarnings_warn hr).1
      generalize Handler.publishWarnings t m q.message.topic = rs at hw
      by_cases hx : level = .error
      · rw [if_pos hx, upTo, List.filter_eq_nil_iff.mpr]
        · rfl
        · intro r hr
          rw [hw r hr, hx]; decide
      · rw [if_neg hx, upTo, List.filter_eq_self.mpr]
        intro r hr
        rw [hw r hr]
        revert hl hx
        cases level <;> decide
    | pingReq =>
      show (upTo level (if m.sessionExists id then [] else [Handler.strayPingRecord id])).length = if b.session id = none then 1 else 0
      have hc := h.session id
      have hx : m.sessionExists id = (b.session id).isSome := by
        rw [← hc]
        simp [MessagingService.sessionExists, SessionRepository.exists, AssocMap.contains, SessionRepository.get]
      rw [hx]
      cases b.session id with
      | none =>
        simp only [Option.isSome_none, Bool.false_eq_true, if_false, if_true]
        rw [upTo_in (he _ rfl)]
        rfl
      | some s => rfl
    | subscribe q => show (upTo level [_]).length = 0; rw [upTo_out (hd _ (.inl rfl))]; rfl
    | unsubscribe q => show (upTo level [_]).length = 0; rw [upTo_out (hd _ (.inl rfl))]; rfl
    | disconnect => show (upTo level [_]).length = 0; rw [upTo_out (hd _ (.inl rfl))]; rfl
    | _ => show (upTo level [_]).length = 1; rw [upTo_in (he _ rfl)]; rfl

theorem records_ofHandler {t : Texts} {auth : IdentityProvider} {m : MessagingService} (evs : List (ClientEvent × Instant)) {b : Broker} (h : Rep m b)
    {level : Level} (hl : level.rank ≤ Level.info.rank) :
    (upTo level (Handler.history t auth m evs)).length = noticed level auth b (evs.map Prod.fst) := by
  induction evs generalizing m b with
  | nil => rfl
  | cons x evs ih =>
    obtain ⟨ev, now⟩ := x
    simp only [Handler.history, List.map_cons, noticed]
    rw [upTo_append, List.length_append, records_count t hl auth h ev]
    congr 1
    have hr := handle_refines auth now h ev
    cases hh : Handler.handle auth now m ev with
    | none =>
      rw [hh] at hr
      cases hs : b.step auth ev with
      | none => rfl
      | some y => rw [hs] at hr; exact hr.elim
    | some x =>
      rw [hh] at hr
      cases hs : b.step auth ev with
      | none => rw [hs] at hr; exact hr.elim
      | some y => rw [hs] at hr; exact ih hr.1

/-- What the packet handler logs in an execution. -/
theorem handler_count (t : Texts) (env : Env) (peers : ConnId → Peer) (sched : List Step) {level : Level} (hl : level.rank ≤ Level.info.rank) :
    ((upTo level (transcript t env (init peers) sched)).filter ofHandler).length
      = noticed level env.auth Broker.start ((run env (init peers) sched).log.map Prod.fst) := by
  obtain ⟨new, h1, _, h2⟩ := transcript_handler t env (init peers) sched
  have e : (upTo level (transcript t env (init peers) sched)).filter ofHandler
      = upTo level ((transcript t env (init peers) sched).filter ofHandler) := by
    unfold upTo
    rw [List.filter_filter, List.filter_filter]
    simp only [Bool.and_comm]
  have e2 : upTo level (endsNow env (init peers) sched) = [] := by
    have hd : ∀ r : LogRecord, r.level = .debug → level.rank < r.level.rank := by
      intro r hr
      have h1 : Level.info.rank < r.level.rank := by rw [hr]; decide
      omega
    unfold endsNow
    split
    · unfold stopRecords
      rw [upTo_out (hd _ rfl), upTo_out (hd _ rfl), upTo_nil]
    · rfl
  rw [e, h2, upTo_append, e2, List.append_nil, h1]
  simp only [init, List.nil_append]
  exact records_ofHandler new rep_new hl

/-- Anything but handling an event makes at most one record. -/
theorem other_records (t : Texts) {level : Level} (hl : level.rank ≤ Level.info.rank) (env : Env) (s : Sys) (a : Step) (ha : ∀ now, a ≠ .handler now) :
    (upTo level (records t env s a)).length ≤ 1 := by
  have hd : ∀ r : LogRecord, r.level = .debug ∨ r.level = .trace → level.rank < r.level.rank := by
    intro r hr
    have h1 : Level.info.rank < r.level.rank := by rcases hr with e | e <;> rw [e] <;> decide
    omega
  have h0 : (upTo level []).length ≤ 1 := by rw [upTo_nil]; decide
  have h1 : ∀ r, (upTo level [r]).length ≤ 1 := fun r => Nat.le_trans (List.length_filter_le _ _) (by simp)
  cases a with
  | handler now => exact absurd rfl (ha now)
  | read c =>
    show (upTo level (readRecords t env s c)).length ≤ 1
    unfold readRecords
    simp only
    split
    · split
      · exact h0
      · exact h1 _
    · split
      · split
        · rw [upTo_out (hd _ (.inr rfl))]
          split
          · split
            · exact h1 _
            · exact h0
          · exact h1 _
        · exact h0
      · split
        · exact h1 _
        · exact h1 _
        · exact h0
      · exact h0
  | write c =>
    show (upTo level (writeRecords t env s c)).length ≤ 1
    unfold writeRecords
    simp only
    split
    · split
      · rw [List.cons_append, List.cons_append, List.nil_append, upTo_out (hd _ (.inr rfl)), upTo_out (hd _ (.inr rfl))]
        split
        · exact h1 _
        · exact h0
      · rw [upTo_out (hd _ (.inr rfl))]; exact h1 _
      · split
        · exact h0
        · exact h1 _
    · exact h0
  | ctrlC =>
    show (upTo level (if s.ctrlC then [] else [_])).length ≤ 1
    split
    · exact h0
    · exact h1 _
  | stop =>
    show (upTo level (match s.handler with | .idle => if s.ctrlC then [_, _] else [] | _ => [])).length ≤ 1
    split
    · split
      · rw [upTo_out (hd _ (.inl rfl))]; exact h1 _
      · exact h0
    · exact h0

end Ratel
