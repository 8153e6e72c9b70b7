/-
The broker with a messaging task refines the system of `Model/System.lean`.
-/
import Verif.Model.Fine

namespace Ratel

open Sys

namespace Prog

/-- What a program amounts to if nothing intervenes: the messaging service afterwards and the sends, in order. -/
def finish (now : Instant) : MessagingService → Prog → Handled
  | m, .done => some (m, [])
  | _, .panic => none
  | m, .req op k => finish now (MessagingService.exec op m).2.2 (k (MessagingService.exec op m).1)
  | m, .clock k => finish now m (k now)
  | m, .send d e k => (finish now m k).map fun r => (r.1, (d, e) :: r.2)

theorem finish_sendAll (now : Instant) (m : MessagingService) (q : PublishPacket) (l : List ConnId) :
    finish now m (sendAll q l) = some (m, l.map fun d => (d, .controlPacket (.publish q))) := by
  induction l with
  | nil => rfl
  | cons d l ih => simp [sendAll, finish, ih]

theorem finish_subscribeAll (now : Instant) (d : ConnId) (i : UInt16) (id : ClientId) (fs : List Subscription) (m : MessagingService)
    (codes : List SubAckReturnCode) :
    finish now m (subscribeAll d i id fs codes)
      = some ((Handler.subscribeAll id fs m).2,
          [(d, .controlPacket (.subAck { packetId := i, returnCodes := codes ++ (Handler.subscribeAll id fs m).1 }))]) := by
  induction fs generalizing m codes with
  | nil => simp [subscribeAll, finish, Handler.subscribeAll]
  | cons f fs ih =>
    simp only [subscribeAll, finish]
    rw [ih]
    simp [Handler.subscribeAll, MessagingService.request, MessagingService.exec]

/-- The programs of the packet handler amount to what `Handler.handle` says. -/
theorem finish_handle (auth : IdentityProvider) (now : Instant) (m : MessagingService) (ev : ClientEvent) :
    finish now m (handle auth ev) = Handler.handle auth now m ev := by
  cases ev with
  | connected p addr c =>
    simp only [handle, Handler.handle, onConnect, Handler.onConnect]
    cases p.userName with
    | none => rfl
    | some u =>
      cases p.password with
      | none => rfl
      | some w =>
        dsimp only
        cases auth u w <;> rfl
  | controlPacket id p c =>
    cases p with
    | publish q => simp only [handle, Handler.handle, onPacket, Handler.onPacket, onPublish, Handler.onPublish, finish]; exact finish_sendAll _ _ _ _
    | subscribe q =>
      simp only [handle, Handler.handle, onPacket, Handler.onPacket, onSubscribe, Handler.onSubscribe, finish_subscribeAll, List.nil_append]
    | pingReq =>
      simp only [handle, Handler.handle, onPacket, Handler.onPacket, onPingReq, Handler.onPingReq, finish, MessagingService.request]
      cases (MessagingService.exec (.sessionExists id) m).1 <;> rfl
    | _ => rfl
  | disconnected id => rfl
  | connectionLost id => rfl

/-- Only sends. -/
def SendsOnly : Prog → Prop
  | .done => True
  | .send _ _ k => SendsOnly k
  | _ => False

/-- Requests first, then sends. -/
def Shaped : Prog → Prop
  | .done => True
  | .panic => False
  | .req _ k => ∀ r, Shaped (k r)
  | .clock k => ∀ now, Shaped (k now)
  | .send _ _ k => SendsOnly k

theorem SendsOnly.shaped {p : Prog} (h : SendsOnly p) : Shaped p := by
  cases p <;> first | trivial | exact h | cases h

theorem sendsOnly_finish {p : Prog} (h : SendsOnly p) : ∃ l, ∀ now m, finish now m p = some (m, l) := by
  induction p with
  | done => exact ⟨[], fun _ _ => rfl⟩
  | send d e k ih =>
    obtain ⟨l, hl⟩ := ih h
    exact ⟨(d, e) :: l, fun now m => by simp [finish, hl]⟩
  | panic => cases h
  | req op k => cases h
  | clock k => cases h

theorem shaped_finish {p : Prog} (h : Shaped p) (now : Instant) (m : MessagingService) : finish now m p ≠ none := by
  induction p generalizing m with
  | done => simp [finish]
  | panic => cases h
  | req op k ih => exact ih _ (h _) _
  | clock k ih => exact ih _ (h _) _
  | send d e k ih =>
    obtain ⟨l, hl⟩ := sendsOnly_finish (show SendsOnly k from h)
    simp [finish, hl]

theorem shaped_sendAll (q : PublishPacket) (l : List ConnId) : SendsOnly (sendAll q l) := by
  induction l with
  | nil => trivial
  | cons d l ih => exact ih

theorem shaped_subscribeAll (d : ConnId) (i : UInt16) (id : ClientId) (fs : List Subscription) (codes : List SubAckReturnCode) :
    Shaped (subscribeAll d i id fs codes) := by
  induction fs generalizing codes with
  | nil => trivial
  | cons f fs ih => exact fun r => ih _

theorem shaped_handle (auth : IdentityProvider) (ev : ClientEvent) : Shaped (handle auth ev) ∨ handle auth ev = .panic := by
  cases ev with
  | connected p addr c =>
    have acc : Shaped (.req (.sessionGet p.clientId) fun (maybeSession : Option Session) =>
      match maybeSession with
      | some _ => .send c (.controlPacket (.connAck { sessionPresent := true, returnCode := .accepted })) .done
      | none =>
        .clock fun now =>
          .req (.sessionInsert
            { clientId := p.clientId
              ip := addr.ip
              persistent := !p.cleanSession
              sender := c
              keepAliveSeconds := p.keepAliveSeconds
              lastActivity := now }) fun _ => .send c (.controlPacket (.connAck { sessionPresent := false, returnCode := .accepted })) .done) := by
      intro r
      cases r with
      | none => exact fun _ _ => trivial
      | some s => trivial
    simp only [handle, onConnect]
    split
    · split
      · exact .inr rfl
      · split
        · exact .inl trivial
        · exact .inl acc
    · exact .inl acc
  | controlPacket id p c =>
    refine .inl ?_
    cases p with
    | publish q => exact fun r => (shaped_sendAll q r).shaped
    | subscribe q => exact shaped_subscribeAll _ _ _ _ _
    | unsubscribe q => exact fun _ => trivial
    | pingReq =>
      intro r
      cases (show Bool from r) <;> trivial
    | disconnect => exact fun _ => trivial
    | _ => trivial
  | disconnected id => exact .inl trivial
  | connectionLost id => exact .inl fun _ => trivial

/-- Only one thing makes the handler panic before it has done anything. -/
theorem handle_panic {auth : IdentityProvider} {ev : ClientEvent} (h : handle auth ev = .panic) :
    ∃ p addr c, ev = .connected p addr c ∧ p.userName ≠ none ∧ p.password = none := by
  cases ev with
  | connected p addr c =>
    refine ⟨p, addr, c, rfl, ?_⟩
    simp only [handle, onConnect] at h
    cases hu : p.userName with
    | none => simp only [hu] at h; cases h
    | some u =>
      cases hw : p.password with
      | none => simp
      | some w =>
        simp only [hu, hw] at h
        cases ha : auth u w <;> simp only [ha] at h <;> cases h
  | controlPacket id p c =>
    cases p with
    | subscribe q => 
      simp only [handle, onPacket, onSubscribe] at h
      cases hs : q.subscriptions <;> simp only [hs, subscribeAll] at h <;> cases h
    | _ => cases h
  | disconnected id => cases h
  | connectionLost id => cases h

/-- Does not read the clock. -/
def NoClock : Prog → Prop
  | .done => True
  | .panic => True
  | .req _ k => ∀ r, NoClock (k r)
  | .clock _ => False
  | .send _ _ k => NoClock k

/-- Reads the clock once at most. -/
def OneClock : Prog → Prop
  | .done => True
  | .panic => True
  | .req _ k => ∀ r, OneClock (k r)
  | .clock k => ∀ now, NoClock (k now)
  | .send _ _ k => OneClock k

theorem NoClock.one {p : Prog} (h : NoClock p) : OneClock p := by
  induction p with
  | done => trivial
  | panic => trivial
  | req op k ih => exact fun r => ih r (h r)
  | clock k ih => cases h
  | send d e k ih => exact ih h

theorem SendsOnly.noClock {p : Prog} (h : SendsOnly p) : NoClock p := by
  induction p with
  | done => trivial
  | send d e k ih => exact ih h
  | panic => cases h
  | req op k ih => cases h
  | clock k ih => cases h

theorem noClock_subscribeAll (d : ConnId) (i : UInt16) (id : ClientId) (fs : List Subscription) (codes : List SubAckReturnCode) :
    NoClock (subscribeAll d i id fs codes) := by
  induction fs generalizing codes with
  | nil => trivial
  | cons f fs ih => exact fun r => ih _

theorem oneClock_handle (auth : IdentityProvider) (ev : ClientEvent) : OneClock (handle auth ev) := by
  cases ev with
  | connected p addr c =>
    have acc : OneClock (.req (.sessionGet p.clientId) fun (maybeSession : Option Session) =>
      match maybeSession with
      | some _ => .send c (.controlPacket (.connAck { sessionPresent := true, returnCode := .accepted })) .done
      | none =>
        .clock fun now =>
          .req (.sessionInsert
            { clientId := p.clientId
              ip := addr.ip
              persistent := !p.cleanSession
              sender := c
              keepAliveSeconds := p.keepAliveSeconds
              lastActivity := now }) fun _ => .send c (.controlPacket (.connAck { sessionPresent := false, returnCode := .accepted })) .done) := by
      intro r
      cases r with
      | none => exact fun _ _ => trivial
      | some s => trivial
    simp only [handle, onConnect]
    split
    · split
      · trivial
      · split
        · trivial
        · exact acc
    · exact acc
  | controlPacket id p c =>
    cases p with
    | publish q => exact fun r => (shaped_sendAll q r).noClock.one
    | subscribe q => exact (noClock_subscribeAll _ _ _ _ _).one
    | unsubscribe q => exact fun _ => trivial
    | pingReq =>
      intro r
      cases (show Bool from r) <;> trivial
    | disconnect => exact fun _ => trivial
    | _ => trivial
  | disconnected id => trivial
  | connectionLost id => exact fun _ => trivial

/-- Connections whose sender some session holds. -/
def held (m : MessagingService) (c : ConnId) : Prop := ∃ x ∈ m.sessions.sessions, x.2.sender = c

theorem get?_mem {V : Type} {m : AssocMap V} {k : String} {v : V} (h : m.get? k = some v) : (k, v) ∈ m := by
  induction m with
  | nil => cases h
  | cons x m ih =>
    obtain ⟨k', v'⟩ := x
    unfold AssocMap.get? at h
    split at h
    · rename_i he; cases h; subst he; simp
    · exact List.mem_cons_of_mem _ (ih h)

theorem mem_insert {V : Type} {m : AssocMap V} {k : String} {v : V} {x : String × V} (h : x ∈ m.insert k v) : x = (k, v) ∨ x ∈ m := by
  induction m with
  | nil => simpa [AssocMap.insert] using h
  | cons y m ih =>
    obtain ⟨k', v'⟩ := y
    unfold AssocMap.insert at h
    split at h
    · rcases List.mem_cons.mp h with h | h
      · exact .inl h
      · exact .inr (List.mem_cons_of_mem _ h)
    · rcases List.mem_cons.mp h with h | h
      · exact .inr (by simp [h])
      · rcases ih h with h | h
        · exact .inl h
        · exact .inr (List.mem_cons_of_mem _ h)

theorem mem_erase {V : Type} {m : AssocMap V} {k : String} {x : String × V} (h : x ∈ m.erase k) : x ∈ m := by
  induction m with
  | nil => exact h
  | cons y m ih =>
    obtain ⟨k', v'⟩ := y
    unfold AssocMap.erase at h
    split at h
    · exact List.mem_cons_of_mem _ (ih h)
    · rcases List.mem_cons.mp h with h | h
      · simp [h]
      · exact List.mem_cons_of_mem _ (ih h)

/-- The program sends only to connections for which it has a sender: from a session, or from its event (`own`). -/
def Safe (own : ConnId → Prop) : MessagingService → Prog → Prop
  | _, .done => True
  | _, .panic => True
  | m, .req op k =>
    (∀ c, held (MessagingService.exec op m).2.2 c → held m c ∨ own c) ∧ Safe own (MessagingService.exec op m).2.2 (k (MessagingService.exec op m).1)
  | m, .clock k => ∀ now, Safe own m (k now)
  | m, .send d _ k => (held m d ∨ own d) ∧ Safe own m k

theorem Safe.finish {own : ConnId → Prop} {p : Prog} {m : MessagingService} (h : Safe own m p) {now : Instant} {m' : MessagingService}
    {l : List (ConnId × ServerEvent)} (hf : finish now m p = some (m', l)) :
    (∀ c, held m' c → held m c ∨ own c) ∧ ∀ x ∈ l, held m x.1 ∨ own x.1 := by
  induction p generalizing m l with
  | done => cases hf; exact ⟨fun c h => .inl h, by simp⟩
  | panic => cases hf
  | req op k ih =>
    obtain ⟨h1, h2⟩ := ih _ h.2 hf
    refine ⟨fun c hc => ?_, fun x hx => ?_⟩
    · rcases h1 c hc with h' | h'
      · exact h.1 c h'
      · exact .inr h'
    · rcases h2 x hx with h' | h'
      · exact h.1 _ h'
      · exact .inr h'
  | clock k ih => exact ih _ (h _) hf
  | send d e k ih =>
    simp only [Prog.finish, Option.map_eq_some_iff] at hf
    obtain ⟨⟨m1, l1⟩, h1, h2⟩ := hf
    cases h2
    obtain ⟨h3, h4⟩ := ih h.2 h1
    refine ⟨h3, fun x hx => ?_⟩
    rcases List.mem_cons.mp hx with rfl | hx
    · exact h.1
    · exact h4 x hx

theorem safe_sendAll {own : ConnId → Prop} {m : MessagingService} (q : PublishPacket) (l : List ConnId) (h : ∀ d ∈ l, held m d) :
    Safe own m (sendAll q l) := by
  induction l with
  | nil => trivial
  | cons d l ih => exact ⟨.inl (h d (by simp)), ih fun d hd => h d (by simp [hd])⟩

theorem safe_subscribeAll {own : ConnId → Prop} (d : ConnId) (hd : own d) (i : UInt16) (id : ClientId) (fs : List Subscription)
    (codes : List SubAckReturnCode) (m : MessagingService) : Safe own m (subscribeAll d i id fs codes) := by
  induction fs generalizing codes m with
  | nil => exact ⟨.inr hd, trivial⟩
  | cons f fs ih => exact ⟨fun c hc => .inl hc, ih _ _⟩

theorem held_senders {m : MessagingService} {t : String} {d : ConnId} (h : d ∈ m.sendersToPublish t) : held m d := by
  unfold MessagingService.sendersToPublish at h
  split at h
  · obtain ⟨c, _, hc⟩ := List.mem_filterMap.mp h
    obtain ⟨s, hs, rfl⟩ := Option.map_eq_some_iff.mp hc
    exact ⟨_, get?_mem hs, rfl⟩
  · cases h

theorem safe_handle (auth : IdentityProvider) (m : MessagingService) (ev : ClientEvent) :
    Safe (fun c => eventTx c ev = true) m (handle auth ev) := by
  cases ev with
  | connected p addr c =>
    have own : eventTx c (.connected p addr c) = true := by simp [eventTx]
    simp only [handle, onConnect]
    have acc : Safe (fun d => eventTx d (.connected p addr c) = true) m (.req (.sessionGet p.clientId) fun (maybeSession : Option Session) =>
      match maybeSession with
      | some _ => .send c (.controlPacket (.connAck { sessionPresent := true, returnCode := .accepted })) .done
      | none =>
        .clock fun now =>
          .req (.sessionInsert
            { clientId := p.clientId
              ip := addr.ip
              persistent := !p.cleanSession
              sender := c
              keepAliveSeconds := p.keepAliveSeconds
              lastActivity := now }) fun _ => .send c (.controlPacket (.connAck { sessionPresent := false, returnCode := .accepted })) .done) := by
      refine ⟨fun d hd => .inl hd, fun now => ⟨fun d hd => ?_, .inr own, trivial⟩⟩
      obtain ⟨x, hx, he⟩ := hd
      rcases mem_insert hx with rfl | hx
      · exact .inr (by rw [← he]; exact own)
      · exact .inl ⟨x, hx, he⟩
    cases p.userName with
    | none => exact acc
    | some u =>
      cases p.password with
      | none => trivial
      | some w =>
        dsimp only
        cases auth u w with
        | error e => exact ⟨.inr own, .inr own, trivial⟩
        | ok _ => exact acc
  | controlPacket id p c =>
    have own : eventTx c (.controlPacket id p c) = true := by simp [eventTx]
    cases p with
    | publish q => exact ⟨fun d hd => .inl hd, safe_sendAll q _ fun d hd => held_senders hd⟩
    | subscribe q => exact safe_subscribeAll _ own _ _ _ _ _
    | unsubscribe q => exact ⟨fun d hd => .inl hd, .inr own, trivial⟩
    | pingReq =>
      refine ⟨fun d hd => .inl hd, ?_⟩
      cases (MessagingService.exec (.sessionExists id) m).1 <;> exact ⟨.inr own, trivial⟩
    | disconnect =>
      refine ⟨fun d hd => .inl ?_, trivial⟩
      obtain ⟨x, hx, he⟩ := hd
      exact ⟨x, mem_erase hx, he⟩
    | _ => trivial
  | disconnected id => trivial
  | connectionLost id =>
    refine ⟨fun d hd => .inl ?_, trivial⟩
    obtain ⟨x, hx, he⟩ := hd
    exact ⟨x, mem_erase hx, he⟩

end Prog

namespace Fine

theorem run_append (env : Env) (f : Fine) (a b : List FStep) : run env f (a ++ b) = run env (run env f a) b := List.foldl_append

theorem run_cons (env : Env) (f : Fine) (st : FStep) (l : List FStep) : run env f (st :: l) = run env (step env f st) l := rfl

/-- What is left to do for the current event, with the state of the messaging service it meets. -/
def current (f : Fine) : Option (ClientEvent × Option Instant × Prog) :=
  match f.handler with
  | .running ev time p => some (ev, time, p)
  | .asking ev time op k => some (ev, time, .req op k)
  | .answered ev time _ k r => some (ev, time, k r)
  | _ => none

/-- The system state that corresponds to a state of the finer model, if the clock, where it still has to be read, says `now`: the current
event is taken as handled, up to its sends. -/
structure Rel (now : Instant) (f : Fine) (s : Sys) : Prop where
  conns : s.conns = f.conns
  ctrlC : s.ctrlC = f.ctrlC
  idle : f.handler = .idle → s.handler = .idle ∧ s.events = f.events ∧ s.messaging = f.messaging ∧ s.log = f.log
  crashed : f.handler = .crashed → s.handler = .crashed ∧ s.log = f.log
  stopped : f.handler = .stopped → s.handler = .stopped ∧ s.log = f.log
  current : ∀ ev time p, f.current = some (ev, time, p) → s.log = f.log ++ [(ev, time.getD now)]
    ∧ (Prog.finish (time.getD now) f.messaging p = none → s.handler = .crashed)
    ∧ ∀ m l, Prog.finish (time.getD now) f.messaging p = some (m, l) →
        s.handler = (if l = [] then .idle else .busy l) ∧ s.events = f.events ∧ s.messaging = m

/-- Invariant of the finer model. -/
structure FInv (f : Fine) : Prop where
  up : f.handlerAlive = true → f.messagingUp = true
  shape : ∀ ev time p, f.current = some (ev, time, p) → (p.Shaped ∨ p = .panic) ∧ p.Safe (fun c => eventTx c ev = true) f.messaging

theorem FInv.congr {f g : Fine} (h : FInv f) (h1 : g.handler = f.handler) (h2 : g.messaging = f.messaging) (h3 : g.messagingUp = f.messagingUp) :
    FInv g := by
  obtain ⟨u, sh⟩ := h
  refine ⟨?_, ?_⟩
  · unfold handlerAlive at u ⊢
    rw [h1, h3]; exact u
  · unfold current at sh ⊢
    rw [h1, h2]; exact sh

theorem stepRead_frame (env : Env) (f : Fine) (c : ConnId) :
    (stepRead env f c).handler = f.handler ∧ (stepRead env f c).messaging = f.messaging ∧ (stepRead env f c).messagingUp = f.messagingUp
    ∧ (stepRead env f c).log = f.log ∧ (stepRead env f c).ctrlC = f.ctrlC := by
  unfold stepRead
  dsimp only
  repeat' split
  all_goals exact ⟨rfl, rfl, rfl, rfl, rfl⟩

theorem stepWrite_frame (env : Env) (f : Fine) (c : ConnId) :
    (stepWrite env f c).handler = f.handler ∧ (stepWrite env f c).messaging = f.messaging ∧ (stepWrite env f c).messagingUp = f.messagingUp
    ∧ (stepWrite env f c).log = f.log ∧ (stepWrite env f c).ctrlC = f.ctrlC ∧ (stepWrite env f c).events = f.events := by
  unfold stepWrite
  dsimp only
  repeat' split
  all_goals exact ⟨rfl, rfl, rfl, rfl, rfl, rfl⟩

theorem finv_init (peers : ConnId → Peer) : FInv (init peers) :=
  ⟨fun _ => rfl, fun ev time p h => by cases h⟩

theorem finv_step (env : Env) {f : Fine} (h : FInv f) (st : FStep) : FInv (step env f st) := by
  cases st with
  | read c => obtain ⟨h1, h2, h3, _⟩ := stepRead_frame env f c; exact h.congr h1 h2 h3
  | write c => obtain ⟨h1, h2, h3, _⟩ := stepWrite_frame env f c; exact h.congr h1 h2 h3
  | ctrlC => exact h.congr rfl rfl rfl
  | stop =>
    simp only [step]
    split
    · split
      · exact ⟨(fun h => by cases h), fun ev time p h => by cases h⟩
      · exact h
    · exact h
  | messagingEnds =>
    simp only [step]
    split
    · exact h
    · rename_i ha
      refine ⟨fun hh => absurd hh ha, ?_⟩
      exact h.shape
  | messaging =>
    simp only [step]
    unfold stepMessaging
    split
    · rename_i ev time op k hh
      split
      · rename_i hu
        refine ⟨fun _ => hu, fun ev' time' p' hc => ?_⟩
        obtain ⟨h1, h2⟩ := h.shape ev time (.req op k) (by simp [current, hh])
        simp only [current, Option.some.injEq, Prod.mk.injEq] at hc
        obtain ⟨rfl, rfl, rfl⟩ := hc
        refine ⟨?_, h2.2⟩
        rcases h1 with h1 | h1
        · exact .inl (h1 _)
        · cases h1
      · exact h
    · exact h
  | handler now =>
    simp only [step]
    unfold stepHandler
    have hsh := h.shape
    have hup := h.up
    unfold current at hsh
    unfold handlerAlive at hup
    split
    · split
      · exact h
      · rename_i hh _ ev rest _
        rw [hh] at hup
        refine ⟨fun _ => hup rfl, fun ev' time' p' hc => ?_⟩
        simp only [current, Option.some.injEq, Prod.mk.injEq] at hc
        obtain ⟨rfl, rfl, rfl⟩ := hc
        exact ⟨Prog.shaped_handle _ _, Prog.safe_handle _ _ _⟩
    · rename_i ev time hh
      rw [hh] at hup
      exact ⟨fun _ => hup rfl, fun ev' time' p' hc => by cases hc⟩
    · exact ⟨(fun h => by cases h), fun ev' time' p' hc => by cases hc⟩
    · rename_i ev time op k hh
      rw [hh] at hup hsh
      rw [if_pos (hup rfl)]
      refine ⟨fun _ => hup rfl, fun ev' time' p' hc => ?_⟩
      exact hsh ev' time' p' hc
    · rename_i ev time k hh
      rw [hh] at hup hsh
      refine ⟨fun _ => hup rfl, fun ev' time' p' hc => ?_⟩
      simp only [current, Option.some.injEq, Prod.mk.injEq] at hc
      obtain ⟨rfl, rfl, rfl⟩ := hc
      obtain ⟨h1, h2⟩ := hsh ev time _ rfl
      refine ⟨?_, h2 now⟩
      rcases h1 with h1 | h1
      · exact .inl (h1 now)
      · cases h1
    · rename_i ev time d e p hh
      rw [hh] at hup hsh
      dsimp only
      split
      · split
        · refine ⟨fun _ => hup rfl, fun ev' time' p' hc => ?_⟩
          simp only [current, setConn, Option.some.injEq, Prod.mk.injEq] at hc
          obtain ⟨rfl, rfl, rfl⟩ := hc
          obtain ⟨h1, h2⟩ := hsh ev time _ rfl
          refine ⟨?_, h2.2⟩
          rcases h1 with h1 | h1
          · exact .inl (Prog.SendsOnly.shaped h1)
          · cases h1
        · exact h
      · exact ⟨(fun h => by cases h), fun ev' time' p' hc => by cases hc⟩
    · rename_i ev time op k hh
      rw [hh] at hup
      rw [if_pos (hup rfl)]
      exact h
    · rename_i ev time op k r hh
      rw [hh] at hup hsh
      exact ⟨fun _ => hup rfl, fun ev' time' p' hc => hsh ev' time' p' hc⟩
    · exact h
    · exact h

theorem finv_run (env : Env) (peers : ConnId → Peer) (sched : List FStep) : FInv (run env (init peers) sched) := by
  have key : ∀ (sched : List FStep) (f : Fine), FInv f → FInv (run env f sched) := by
    intro sched
    induction sched with
    | nil => exact fun f h => h
    | cons st sched ih => exact fun f h => ih _ (finv_step env h st)
  exact key sched _ (finv_init peers)

/-- The system alive in one view is alive in the other, unless the current event is going to crash the handler. -/
theorem Rel.alive {now : Instant} {f : Fine} {s : Sys} (h : Rel now f s) (ha : s.handlerAlive = true) :
    f.handlerAlive = true ∧ s.events = f.events := by
  unfold Fine.handlerAlive
  cases hh : f.handler with
  | idle => exact ⟨rfl, (h.idle hh).2.1⟩
  | crashed => rw [Sys.handlerAlive, (h.crashed hh).1] at ha; cases ha
  | stopped => rw [Sys.handlerAlive, (h.stopped hh).1] at ha; cases ha
  | running ev time p =>
    refine ⟨rfl, ?_⟩
    obtain ⟨_, h2, h3⟩ := h.current ev time p (by simp [Fine.current, hh])
    cases hf : Prog.finish (time.getD now) f.messaging p with
    | none => rw [Sys.handlerAlive, h2 hf] at ha; cases ha
    | some x => exact (h3 _ _ hf).2.1
  | asking ev time op k =>
    refine ⟨rfl, ?_⟩
    obtain ⟨_, h2, h3⟩ := h.current ev time (.req op k) (by simp [Fine.current, hh])
    cases hf : Prog.finish (time.getD now) f.messaging (.req op k) with
    | none => rw [Sys.handlerAlive, h2 hf] at ha; cases ha
    | some x => exact (h3 _ _ hf).2.1
  | answered ev time op k r =>
    refine ⟨rfl, ?_⟩
    obtain ⟨_, h2, h3⟩ := h.current ev time (k r) (by simp [Fine.current, hh])
    cases hf : Prog.finish (time.getD now) f.messaging (k r) with
    | none => rw [Sys.handlerAlive, h2 hf] at ha; cases ha
    | some x => exact (h3 _ _ hf).2.1

/-- Replacing a connection on both sides; the client-event channel may change on both sides. -/
theorem Rel.congr {now : Instant} {f g : Fine} {s t : Sys} (h : Rel now f s) (hc : t.conns = g.conns)
    (h1 : g.handler = f.handler) (h2 : g.messaging = f.messaging) (h3 : g.log = f.log) (h4 : t.ctrlC = g.ctrlC)
    (t1 : t.handler = s.handler) (t2 : t.messaging = s.messaging) (t3 : t.log = s.log)
    (he : s.handlerAlive = true → t.events = g.events) : Rel now g t := by
  have alive : ∀ {x : HandlerState}, s.handler = x → (x = .idle ∨ ∃ l, x = .busy l) → t.events = g.events := by
    intro x hx hor
    refine he ?_
    unfold Sys.handlerAlive
    rcases hor with rfl | ⟨l, rfl⟩ <;> rw [hx]
  refine ⟨hc, h4, fun hi => ?_, fun hi => ?_, fun hi => ?_, fun ev time p hi => ?_⟩
  · rw [h1] at hi
    obtain ⟨a, b, c, d⟩ := h.idle hi
    exact ⟨t1.trans a, alive a (.inl rfl), t2.trans (c.trans h2.symm), t3.trans (d.trans h3.symm)⟩
  · rw [h1] at hi
    obtain ⟨a, b⟩ := h.crashed hi
    exact ⟨t1.trans a, t3.trans (b.trans h3.symm)⟩
  · rw [h1] at hi
    obtain ⟨a, b⟩ := h.stopped hi
    exact ⟨t1.trans a, t3.trans (b.trans h3.symm)⟩
  · have : f.current = some (ev, time, p) := by unfold Fine.current at hi ⊢; rw [← h1]; exact hi
    obtain ⟨a, b, c⟩ := h.current ev time p this
    rw [h2, h3]
    refine ⟨t3.trans a, fun hf => t1.trans (b hf), fun m l hf => ?_⟩
    obtain ⟨x, y, z⟩ := c m l hf
    refine ⟨t1.trans x, alive x ?_, t2.trans z⟩
    split
    · exact .inl rfl
    · exact .inr ⟨_, rfl⟩

/-- Whoever has no sender in the finer model has none in the system. -/
theorem Rel.sender {now : Instant} {f : Fine} {s : Sys} (h : Rel now f s) (hi : FInv f) {c : ConnId} (hn : f.hasSender c = false) :
    s.hasSender c = false := by
  unfold Fine.hasSender at hn
  simp only [Bool.or_eq_false_iff] at hn
  obtain ⟨⟨⟨h1, h2⟩, h3⟩, h4⟩ := hn
  unfold Sys.hasSender
  rw [h.conns, Bool.or_eq_false_iff, Bool.or_eq_false_iff]
  refine ⟨⟨h1, h2⟩, ?_⟩
  cases ha : s.handlerAlive with
  | false => rfl
  | true =>
    obtain ⟨hf, he⟩ := h.alive ha
    have hup := hi.up hf
    rw [hf, Bool.true_and, Bool.or_eq_false_iff] at h3
    rw [hup, Bool.true_and] at h4
    have hheld : ¬ Prog.held f.messaging c := by
      rintro ⟨x, hx, hxs⟩
      rw [List.any_eq_false] at h4
      exact h4 x hx (by simpa using hxs)
    have cur : ∀ ev time p, f.current = some (ev, time, p) → eventTx c ev = false →
        (match s.handler with
          | .busy todo => (todo.any fun (d, _) => d = c) || s.log.getLast?.any fun (ev, _) => eventTx c ev
          | _ => false) = false
        ∧ (s.messaging.sessions.sessions.any fun (_, session) => session.sender = c) = false := by
      intro ev time p hc hev
      obtain ⟨hlog, h5, h6⟩ := h.current ev time p hc
      cases hfin : Prog.finish (time.getD now) f.messaging p with
      | none => rw [Sys.handlerAlive, h5 hfin] at ha; cases ha
      | some x =>
        obtain ⟨m, l⟩ := x
        obtain ⟨h7, _, h8⟩ := h6 m l hfin
        obtain ⟨h9, h10⟩ := (hi.shape ev time p hc).2.finish hfin
        constructor
        · rw [h7]
          split
          · rename_i todo heq
            split at heq
            · cases heq
            · cases heq
              rw [Bool.or_eq_false_iff]
              refine ⟨?_, by simp [hlog, hev]⟩
              rw [List.any_eq_false]
              intro x hx hxc
              have hxc : x.1 = c := by simpa using hxc
              rcases h10 x hx with h' | h'
              · rw [hxc] at h'; exact hheld h'
              · rw [hxc, hev] at h'; cases h'
          · rfl
        · rw [h8, List.any_eq_false]
          intro x hx hxc
          rcases h9 c ⟨x, hx, by simpa using hxc⟩ with h' | h'
          · exact hheld h'
          · rw [hev] at h'; cases h'
    rw [he, h3.1, Bool.true_and, Bool.false_or, Bool.or_eq_false_iff]
    have hho := h3.2
    unfold handlerHolds at hho
    cases hh : f.handler with
    | idle =>
      obtain ⟨h5, _, h6, _⟩ := h.idle hh
      rw [h5, h6]; exact ⟨rfl, h4⟩
    | crashed => rw [Fine.handlerAlive, hh] at hf; cases hf
    | stopped => rw [Fine.handlerAlive, hh] at hf; cases hf
    | running ev time p =>
      rw [hh] at hho
      obtain ⟨h5, h6⟩ := cur ev time p (by simp [Fine.current, hh]) (Bool.or_eq_false_iff.mp hho).1
      exact ⟨h5, h6⟩
    | asking ev time op k =>
      rw [hh] at hho
      obtain ⟨h5, h6⟩ := cur ev time (.req op k) (by simp [Fine.current, hh]) (Bool.or_eq_false_iff.mp hho).1
      exact ⟨h5, h6⟩
    | answered ev time op k r =>
      rw [hh] at hho
      obtain ⟨h5, h6⟩ := cur ev time (k r) (by simp [Fine.current, hh]) (Bool.or_eq_false_iff.mp hho).1
      exact ⟨h5, h6⟩

theorem setConn_conns (f : Fine) (s : Sys) (h : s.conns = f.conns) (c : ConnId) (k : Conn) : (s.setConn c k).conns = (f.setConn c k).conns := by
  simp [Sys.setConn, Fine.setConn, h]

theorem sim_read (env : Env) {now : Instant} {f : Fine} {s : Sys} (h : Rel now f s) (c : ConnId) :
    ∃ sched, Rel now (step env f (.read c)) (Sys.run env s sched) := by
  show ∃ sched, Rel now (stepRead env f c) (Sys.run env s sched)
  cases ho : (f.conns c).outbox with
  | none =>
    refine ⟨[.read c], ?_⟩
    have e1 : stepRead env f c = f.setConn c (readTask env c (f.conns c)) := by simp only [stepRead, ho]
    have e2 : Sys.run env s [.read c] = s.setConn c (readTask env c (s.conns c)) := by
      show Sys.stepRead env s c = _
      simp only [Sys.stepRead, h.conns, ho]
    rw [e1, e2, h.conns]
    exact h.congr (setConn_conns f s h.conns _ _) rfl rfl rfl h.ctrlC rfl rfl rfl fun ha => (h.alive ha).2
  | some ev =>
    cases ha : s.handlerAlive with
    | true =>
      obtain ⟨hf, he⟩ := h.alive ha
      by_cases hl : f.events.length < channelCapacity
      · refine ⟨[.read c], ?_⟩
        have e1 : stepRead env f c = { f with events := f.events ++ [ev] }.setConn c { f.conns c with outbox := none } := by
          simp only [stepRead, ho, hf, hl, ↓reduceIte]
        have e2 : Sys.run env s [.read c] = { s with events := s.events ++ [ev] }.setConn c { s.conns c with outbox := none } := by
          show Sys.stepRead env s c = _
          simp only [Sys.stepRead, h.conns, ho, ha, he, hl, ↓reduceIte]
        rw [e1, e2]
        refine h.congr ?_ rfl rfl rfl h.ctrlC rfl rfl rfl fun _ => ?_
        · simp [Sys.setConn, Fine.setConn, h.conns]
        · simp [Sys.setConn, Fine.setConn, he]
      · refine ⟨[], ?_⟩
        have e1 : stepRead env f c = f := by simp only [stepRead, ho, hf, hl, ↓reduceIte]
        rw [e1]; exact h
    | false =>
      have e2 : Sys.run env s [.read c] = s.setConn c { s.conns c with outbox := none } := by
        show Sys.stepRead env s c = _
        simp only [Sys.stepRead, h.conns, ho, ha, Bool.false_eq_true, ↓reduceIte]
      cases hf : f.handlerAlive with
      | false =>
        refine ⟨[.read c], ?_⟩
        have e1 : stepRead env f c = f.setConn c { f.conns c with outbox := none } := by
          simp only [stepRead, ho, hf, Bool.false_eq_true, ↓reduceIte]
        rw [e1, e2, h.conns]
        exact h.congr (setConn_conns f s h.conns _ _) rfl rfl rfl h.ctrlC rfl rfl rfl fun ha => (h.alive ha).2
      | true =>
        by_cases hl : f.events.length < channelCapacity
        · refine ⟨[.read c], ?_⟩
          have e1 : stepRead env f c = { f with events := f.events ++ [ev] }.setConn c { f.conns c with outbox := none } := by
            simp only [stepRead, ho, hf, hl, ↓reduceIte]
          rw [e1, e2]
          refine h.congr ?_ rfl rfl rfl h.ctrlC rfl rfl rfl fun hh => absurd hh (by simp [ha])
          simp [Sys.setConn, Fine.setConn, h.conns]
        · refine ⟨[], ?_⟩
          have e1 : stepRead env f c = f := by simp only [stepRead, ho, hf, hl, ↓reduceIte]
          rw [e1]; exact h

theorem sim_write (env : Env) {now : Instant} {f : Fine} {s : Sys} (h : Rel now f s) (hi : FInv f) (c : ConnId) :
    ∃ sched, Rel now (step env f (.write c)) (Sys.run env s sched) := by
  show ∃ sched, Rel now (stepWrite env f c) (Sys.run env s sched)
  have same : ∀ k, Rel now (f.setConn c k) (s.setConn c k) := fun k =>
    h.congr (setConn_conns f s h.conns _ _) rfl rfl rfl h.ctrlC rfl rfl rfl fun ha => (h.alive ha).2
  by_cases hc : (f.conns c).rxOpen && !(f.conns c).wrBlocked
  · cases hq : (f.conns c).queue with
    | nil =>
      cases hs : f.hasSender c with
      | true =>
        refine ⟨[], ?_⟩
        have e1 : stepWrite env f c = f := by simp only [stepWrite, hc, hq, hs, ↓reduceIte]
        rw [e1]; exact h
      | false =>
        refine ⟨[.write c], ?_⟩
        have e1 : stepWrite env f c = f.setConn c { f.conns c with rxOpen := false } := by
          simp only [stepWrite, hc, hq, hs, ↓reduceIte, Bool.false_eq_true]
        have e2 : Sys.run env s [.write c] = s.setConn c { f.conns c with rxOpen := false } := by
          show Sys.stepWrite env s c = _
          simp only [Sys.stepWrite, h.conns, hc, hq, h.sender hi hs, ↓reduceIte, Bool.false_eq_true]
        rw [e1, e2]
        exact same _
    | cons x rest =>
      refine ⟨[.write c], ?_⟩
      show Rel now (stepWrite env f c) (Sys.stepWrite env s c)
      unfold stepWrite Sys.stepWrite
      simp only [h.conns, hc, hq, ↓reduceIte]
      cases x with
      | disconnect => exact same _
      | controlPacket p =>
        dsimp only
        cases hy : (letI := WStream.sink env.alloc; (Encoder.writePacket p : M WStream Unit) (f.conns c).wr) with
        | mk r wr => cases r <;> exact same _
  · refine ⟨[], ?_⟩
    have e1 : stepWrite env f c = f := by simp only [stepWrite, hc, Bool.false_eq_true, ↓reduceIte]
    rw [e1]; exact h

/-- The clock is read once at most. -/
def OneClock (f : Fine) : Prop := ∀ ev time p, f.current = some (ev, time, p) → p.OneClock ∧ (time ≠ none → p.NoClock)

theorem oneClock_congr {f g : Fine} (h : OneClock f) (h1 : g.handler = f.handler) : OneClock g := by
  intro ev time p hc
  exact h ev time p (by unfold current at hc ⊢; rw [← h1]; exact hc)

theorem oneClock_step (env : Env) {f : Fine} (h : OneClock f) (st : FStep) : OneClock (step env f st) := by
  cases st with
  | read c => exact oneClock_congr h (stepRead_frame env f c).1
  | write c => exact oneClock_congr h (stepWrite_frame env f c).1
  | ctrlC => exact oneClock_congr h rfl
  | stop =>
    simp only [step]
    split
    · split
      · intro ev time p hc; cases hc
      · exact h
    · exact h
  | messagingEnds =>
    simp only [step]
    split
    · exact h
    · exact oneClock_congr h rfl
  | messaging =>
    simp only [step]
    unfold stepMessaging
    split
    · rename_i ev time op k hh
      split
      · intro ev' time' p' hc
        simp only [current, Option.some.injEq, Prod.mk.injEq] at hc
        obtain ⟨rfl, rfl, rfl⟩ := hc
        obtain ⟨h1, h2⟩ := h ev time (.req op k) (by simp [current, hh])
        exact ⟨h1 _, fun ht => h2 ht _⟩
      · exact h
    · exact h
  | handler t =>
    simp only [step]
    unfold stepHandler
    split
    · split
      · exact h
      · rename_i ev rest he
        intro ev' time' p' hc
        simp only [current, Option.some.injEq, Prod.mk.injEq] at hc
        obtain ⟨rfl, rfl, rfl⟩ := hc
        exact ⟨Prog.oneClock_handle _ _, fun ht => absurd rfl ht⟩
    · intro ev time p hc; cases hc
    · intro ev time p hc; cases hc
    · rename_i ev time op k hh
      split
      · intro ev' time' p' hc
        simp only [current, Option.some.injEq, Prod.mk.injEq] at hc
        obtain ⟨rfl, rfl, rfl⟩ := hc
        exact h ev time (.req op k) (by simp [current, hh])
      · intro ev time p hc; cases hc
    · rename_i ev time k hh
      intro ev' time' p' hc
      simp only [current, Option.some.injEq, Prod.mk.injEq] at hc
      obtain ⟨rfl, rfl, rfl⟩ := hc
      obtain ⟨h1, h2⟩ := h ev time (.clock k) (by simp [current, hh])
      exact ⟨(h1 t).one, fun _ => h1 t⟩
    · rename_i ev time d e p hh
      dsimp only
      split
      · split
        · intro ev' time' p' hc
          simp only [current, setConn, Option.some.injEq, Prod.mk.injEq] at hc
          obtain ⟨rfl, rfl, rfl⟩ := hc
          exact h ev time (.send d e p) (by simp [current, hh])
        · exact h
      · intro ev time p hc; cases hc
    · split
      · exact h
      · intro ev time p hc; cases hc
    · rename_i ev time op k r hh
      intro ev' time' p' hc
      exact h ev' time' p' (by rw [← hc]; simp [current, hh])
    · exact h
    · exact h

theorem oneClock_run (env : Env) (peers : ConnId → Peer) (sched : List FStep) : OneClock (run env (init peers) sched) := by
  have key : ∀ (sched : List FStep) (f : Fine), OneClock f → OneClock (run env f sched) := by
    intro sched
    induction sched with
    | nil => exact fun f h => h
    | cons st sched ih => exact fun f h => ih _ (oneClock_step env h st)
  exact key sched _ fun _ _ _ h => by cases h

/-- A panic comes at the beginning of an event. -/
def Panics (env : Env) (f : Fine) : Prop := ∀ ev time p, f.current = some (ev, time, p) → p.Shaped ∨ Prog.handle env.auth ev = .panic

theorem panics_congr {env : Env} {f g : Fine} (h : Panics env f) (h1 : g.handler = f.handler) : Panics env g := by
  intro ev time p hc
  exact h ev time p (by unfold current at hc ⊢; rw [← h1]; exact hc)

theorem panics_step (env : Env) {f : Fine} (h : Panics env f) (st : FStep) : Panics env (step env f st) := by
  cases st with
  | read c => exact panics_congr h (stepRead_frame env f c).1
  | write c => exact panics_congr h (stepWrite_frame env f c).1
  | ctrlC => exact panics_congr h rfl
  | stop =>
    simp only [step]
    split
    · split
      · intro ev time p hc; cases hc
      · exact h
    · exact h
  | messagingEnds =>
    simp only [step]
    split
    · exact h
    · exact panics_congr h rfl
  | messaging =>
    simp only [step]
    unfold stepMessaging
    split
    · rename_i ev time op k hh
      split
      · intro ev' time' p' hc
        simp only [current, Option.some.injEq, Prod.mk.injEq] at hc
        obtain ⟨rfl, rfl, rfl⟩ := hc
        exact (h ev time (.req op k) (by simp [current, hh])).imp (fun h1 => h1 _) id
      · exact h
    · exact h
  | handler t =>
    simp only [step]
    unfold stepHandler
    split
    · split
      · exact h
      · rename_i ev rest he
        intro ev' time' p' hc
        simp only [current, Option.some.injEq, Prod.mk.injEq] at hc
        obtain ⟨rfl, rfl, rfl⟩ := hc
        exact Prog.shaped_handle _ _
    · intro ev time p hc; cases hc
    · intro ev time p hc; cases hc
    · rename_i ev time op k hh
      split
      · intro ev' time' p' hc
        simp only [current, Option.some.injEq, Prod.mk.injEq] at hc
        obtain ⟨rfl, rfl, rfl⟩ := hc
        exact h ev time (.req op k) (by simp [current, hh])
      · intro ev time p hc; cases hc
    · rename_i ev time k hh
      intro ev' time' p' hc
      simp only [current, Option.some.injEq, Prod.mk.injEq] at hc
      obtain ⟨rfl, rfl, rfl⟩ := hc
      exact (h ev time (.clock k) (by simp [current, hh])).imp (fun h1 => h1 t) id
    · rename_i ev time d e p hh
      dsimp only
      split
      · split
        · intro ev' time' p' hc
          simp only [current, setConn, Option.some.injEq, Prod.mk.injEq] at hc
          obtain ⟨rfl, rfl, rfl⟩ := hc
          exact (h ev time (.send d e p) (by simp [current, hh])).imp (fun h1 => Prog.SendsOnly.shaped h1) id
        · exact h
      · intro ev time p hc; cases hc
    · split
      · exact h
      · intro ev time p hc; cases hc
    · rename_i ev time op k r hh
      intro ev' time' p' hc
      exact h ev' time' p' (by rw [← hc]; simp [current, hh])
    · exact h
    · exact h

theorem panics_run (env : Env) (peers : ConnId → Peer) (sched : List FStep) : Panics env (run env (init peers) sched) := by
  have key : ∀ (sched : List FStep) (f : Fine), Panics env f → Panics env (run env f sched) := by
    intro sched
    induction sched with
    | nil => exact fun f h => h
    | cons st sched ih => exact fun f h => ih _ (panics_step env h st)
  exact key sched _ fun _ _ _ h => by cases h

/-- One step of the finer model. -/
theorem sim_step (env : Env) {f : Fine} (P : Sys → Prop) (hP : ∀ s sched, P s → P (Sys.run env s sched)) (hi : FInv f) (hone : OneClock f)
    (h : ∀ now, ∃ s, P s ∧ Rel now f s) (st : FStep) (now : Instant) : ∃ s, P s ∧ Rel now (step env f st) s := by
  have stay : (∀ s, Rel now f s → Rel now (step env f st) s) → ∃ s, P s ∧ Rel now (step env f st) s := by
    intro hs
    obtain ⟨s, hp, hr⟩ := h now
    exact ⟨s, hp, hs s hr⟩
  cases st with
  | read c =>
    obtain ⟨s, hp, hr⟩ := h now
    obtain ⟨sched, h'⟩ := sim_read env hr c
    exact ⟨_, hP s sched hp, h'⟩
  | write c =>
    obtain ⟨s, hp, hr⟩ := h now
    obtain ⟨sched, h'⟩ := sim_write env hr hi c
    exact ⟨_, hP s sched hp, h'⟩
  | ctrlC =>
    obtain ⟨s, hp, hr⟩ := h now
    exact ⟨_, hP s [.ctrlC] hp, hr.congr hr.conns rfl rfl rfl rfl rfl rfl rfl fun ha => (hr.alive ha).2⟩
  | stop =>
    obtain ⟨s, hp, hr⟩ := h now
    simp only [step]
    split
    · rename_i hh
      split
      · rename_i hc
        refine ⟨_, hP s [.stop] hp, ?_⟩
        obtain ⟨h1, h2, h3, h4⟩ := hr.idle hh
        have e : Sys.run env s [.stop] = { s with handler := .stopped } := by
          show Sys.step env s .stop = _
          simp only [Sys.step, h1, hr.ctrlC, hc, ↓reduceIte]
        rw [e]
        exact ⟨hr.conns, hr.ctrlC, (fun h => by cases h), (fun h => by cases h), fun _ => ⟨rfl, h4⟩, fun ev time p h => by cases h⟩
      · exact ⟨s, hp, hr⟩
    · exact ⟨s, hp, hr⟩
  | messagingEnds =>
    refine stay fun s hr => ?_
    simp only [step]
    split
    · exact hr
    · exact hr.congr hr.conns rfl rfl rfl hr.ctrlC rfl rfl rfl fun ha => (hr.alive ha).2
  | messaging =>
    refine stay fun s hr => ?_
    simp only [step]
    unfold stepMessaging
    split
    · rename_i ev time op k hh
      split
      · refine ⟨hr.conns, hr.ctrlC, (fun h => by cases h), (fun h => by cases h), (fun h => by cases h), fun ev' time' p' hc => ?_⟩
        simp only [current, Option.some.injEq, Prod.mk.injEq] at hc
        obtain ⟨rfl, rfl, rfl⟩ := hc
        exact hr.current ev time (.req op k) (by simp [current, hh])
      · exact hr
    · exact hr
  | handler t =>
    simp only [step]
    unfold stepHandler
    split
    · -- take an event
      rename_i hh
      split
      · exact h now
      · rename_i ev rest he
        obtain ⟨s, hp, hr⟩ := h now
        obtain ⟨h1, h2, h3, h4⟩ := hr.idle hh
        refine ⟨_, hP s [.handler now] hp, ?_⟩
        have e : Sys.run env s [.handler now] = Sys.stepHandler env now s := rfl
        rw [e]
        unfold Sys.stepHandler
        rw [he] at h2
        simp only [h1, h2, h3]
        rw [← Prog.finish_handle]
        cases hf : Prog.finish now f.messaging (Prog.handle env.auth ev) with
        | none =>
          refine ⟨hr.conns, hr.ctrlC, (fun h => by cases h), (fun h => by cases h), (fun h => by cases h), fun ev' time' p' hc => ?_⟩
          simp only [current, Option.some.injEq, Prod.mk.injEq] at hc
          obtain ⟨rfl, rfl, rfl⟩ := hc
          refine ⟨by rw [← h4]; rfl, fun _ => rfl, fun m l hc => ?_⟩
          rw [show (none : Option Instant).getD now = now from rfl, hf] at hc
          cases hc
        | some x =>
          obtain ⟨m, l⟩ := x
          cases l with
          | nil =>
            refine ⟨hr.conns, hr.ctrlC, (fun h => by cases h), (fun h => by cases h), (fun h => by cases h), fun ev' time' p' hc => ?_⟩
            simp only [current, Option.some.injEq, Prod.mk.injEq] at hc
            obtain ⟨rfl, rfl, rfl⟩ := hc
            simp only [show (none : Option Instant).getD now = now from rfl, hf]
            refine ⟨by rw [h4], (fun h => by cases h), fun m l hc => ?_⟩
            cases hc
            exact ⟨by simp, by simp, by simp⟩
          | cons y l =>
            refine ⟨hr.conns, hr.ctrlC, (fun h => by cases h), (fun h => by cases h), (fun h => by cases h), fun ev' time' p' hc => ?_⟩
            simp only [current, Option.some.injEq, Prod.mk.injEq] at hc
            obtain ⟨rfl, rfl, rfl⟩ := hc
            simp only [show (none : Option Instant).getD now = now from rfl, hf]
            refine ⟨by rw [h4], (fun h => by cases h), fun m l hc => ?_⟩
            cases hc
            exact ⟨by simp, by simp, by simp⟩
    · -- done
      rename_i ev time hh
      obtain ⟨s, hp, hr⟩ := h t
      obtain ⟨h1, _, h3⟩ := hr.current ev time .done (by simp [current, hh])
      obtain ⟨h4, h5, h6⟩ := h3 _ _ rfl
      exact ⟨s, hp, hr.conns, hr.ctrlC, fun _ => ⟨h4, h5, h6, h1⟩, (fun h => by cases h), (fun h => by cases h), fun ev time p h => by cases h⟩
    · -- panic
      rename_i ev time hh
      obtain ⟨s, hp, hr⟩ := h t
      obtain ⟨h1, h2, _⟩ := hr.current ev time .panic (by simp [current, hh])
      exact ⟨s, hp, hr.conns, hr.ctrlC, (fun h => by cases h), fun _ => ⟨h2 rfl, h1⟩, (fun h => by cases h), fun ev time p h => by cases h⟩
    · -- a request
      rename_i ev time op k hh
      have hup := hi.up (by simp [handlerAlive, hh])
      rw [if_pos hup]
      obtain ⟨s, hp, hr⟩ := h now
      refine ⟨s, hp, hr.conns, hr.ctrlC, (fun h => by cases h), (fun h => by cases h), (fun h => by cases h), fun ev' time' p' hc => ?_⟩
      simp only [current, Option.some.injEq, Prod.mk.injEq] at hc
      obtain ⟨rfl, rfl, rfl⟩ := hc
      exact hr.current ev time (.req op k) (by simp [current, hh])
    · -- the clock
      rename_i ev time k hh
      obtain ⟨s, hp, hr⟩ := h t
      have ht : time = none := by
        cases time with
        | none => rfl
        | some x => exact absurd ((hone ev (some x) (.clock k) (by simp [current, hh])).2 (by simp)) (fun h => h)
      subst ht
      refine ⟨s, hp, hr.conns, hr.ctrlC, (fun h => by cases h), (fun h => by cases h), (fun h => by cases h), fun ev' time' p' hc => ?_⟩
      simp only [current, Option.some.injEq, Prod.mk.injEq] at hc
      obtain ⟨rfl, rfl, rfl⟩ := hc
      exact hr.current ev none (.clock k) (by simp [current, hh])
    · -- a send
      rename_i ev time d e p hh
      obtain ⟨s, hp, hr⟩ := h now
      obtain ⟨h1, h2⟩ := hi.shape ev time (.send d e p) (by simp [current, hh])
      obtain ⟨l, hl⟩ := Prog.sendsOnly_finish (p := p) (by rcases h1 with h1 | h1; exact h1; cases h1)
      obtain ⟨h3, _, h4⟩ := hr.current ev time (.send d e p) (by simp [current, hh])
      obtain ⟨h5, h6, h7⟩ := h4 f.messaging ((d, e) :: l) (by simp [Prog.finish, hl])
      dsimp only
      split
      · rename_i ho
        split
        · rename_i hl'
          refine ⟨_, hP s [.handler now] hp, ?_⟩
          have e1 : Sys.run env s [.handler now] = { s with handler := if l = [] then .idle else .busy l }.setConn d
              { s.conns d with queue := (s.conns d).queue ++ [e], delivered := (s.conns d).delivered ++ [e] } := by
            show Sys.stepHandler env now s = _
            simp only [Sys.stepHandler, h5, List.cons_ne_nil, hr.conns, ho, hl', ↓reduceIte]
          rw [e1]
          refine ⟨?_, hr.ctrlC, (fun h => by cases h), (fun h => by cases h), (fun h => by cases h), fun ev' time' p' hc => ?_⟩
          · simp [Sys.setConn, Fine.setConn, hr.conns]
          · simp only [current, setConn, Option.some.injEq, Prod.mk.injEq] at hc
            obtain ⟨rfl, rfl, rfl⟩ := hc
            refine ⟨h3, fun hf => ?_, fun m l' hf => ?_⟩
            · rw [hl] at hf; cases hf
            · rw [hl] at hf; cases hf
              exact ⟨rfl, h6, h7⟩
        · exact ⟨s, hp, hr⟩
      · rename_i ho
        obtain ⟨s, hp, hr⟩ := h t
        obtain ⟨h3, _, h4⟩ := hr.current ev time (.send d e p) (by simp [current, hh])
        obtain ⟨h5, h6, h7⟩ := h4 f.messaging ((d, e) :: l) (by simp [Prog.finish, hl])
        refine ⟨_, hP s [.handler now] hp, ?_⟩
        have e1 : Sys.run env s [.handler now] = { s with handler := .crashed } := by
          show Sys.stepHandler env now s = _
          simp only [Sys.stepHandler, h5, List.cons_ne_nil, hr.conns, ho, Bool.false_eq_true, ↓reduceIte]
        rw [e1]
        exact ⟨hr.conns, hr.ctrlC, (fun h => by cases h), fun _ => ⟨rfl, h3⟩, (fun h => by cases h), fun ev time p h => by cases h⟩
    · rename_i ev time op k hh
      rw [if_pos (hi.up (by simp [handlerAlive, hh]))]
      exact h now
    · rename_i ev time op k r hh
      obtain ⟨s, hp, hr⟩ := h now
      refine ⟨s, hp, hr.conns, hr.ctrlC, (fun h => by cases h), (fun h => by cases h), (fun h => by cases h), fun ev' time' p' hc => ?_⟩
      exact hr.current ev' time' p' (by rw [← hc]; simp [current, hh])
    · exact h now
    · exact h now

/-- Every run of the finer model is a run of the system. -/
theorem sim_run (env : Env) (peers : ConnId → Peer) (sched : List FStep) (now : Instant) :
    ∃ ss, Rel now (run env (init peers) sched) (Sys.run env (Sys.init peers) ss) := by
  let P : Sys → Prop := fun s => ∃ ss, s = Sys.run env (Sys.init peers) ss
  have hP : ∀ s sched, P s → P (Sys.run env s sched) := by
    rintro s sched ⟨ss, rfl⟩
    exact ⟨ss ++ sched, by simp [Sys.run, List.foldl_append]⟩
  have key : ∀ (sched : List FStep) (f : Fine), FInv f → OneClock f → (∀ now, ∃ s, P s ∧ Rel now f s) →
      ∀ now, ∃ s, P s ∧ Rel now (run env f sched) s := by
    intro sched
    induction sched with
    | nil => exact fun f _ _ h => h
    | cons st sched ih =>
      exact fun f hi ho h => ih _ (finv_step env hi st) (oneClock_step env ho st) (sim_step env P hP hi ho h st)
  obtain ⟨s, ⟨ss, rfl⟩, hr⟩ := key sched (init peers) (finv_init peers) (fun _ _ _ h => by cases h)
    (fun now => ⟨Sys.init peers, ⟨[], rfl⟩, ⟨rfl, rfl, fun _ => ⟨rfl, rfl, rfl, rfl⟩, (fun h => by cases h), (fun h => by cases h),
      fun ev time p h => by cases h⟩⟩) now
  exact ⟨ss, hr⟩

/-- With nothing else happening the requests of an event get their replies. -/
theorem drain (env : Env) (t : Instant) (ev : ClientEvent) (p : Prog) : ∀ (f : Fine) (time : Option Instant), p.Shaped →
    f.handler = .running ev time p → f.messagingUp = true → time = none ∨ time = some t →
    ∃ sched time' p' m, p'.SendsOnly ∧ (time' = none ∨ time' = some t)
      ∧ Prog.finish t f.messaging p = Prog.finish t m p'
      ∧ run env f sched = { f with messaging := m, handler := .running ev time' p' } := by
  induction p with
  | done => exact fun f time _ hh hup ht => ⟨[], time, .done, f.messaging, trivial, ht, rfl, by simp [run, ← hh]⟩
  | panic => intro f time hs; cases hs
  | send d e k ih => exact fun f time hs hh hup ht => ⟨[], time, .send d e k, f.messaging, hs, ht, rfl, by simp [run, ← hh]⟩
  | clock k ih =>
    intro f time hs hh hup ht
    obtain ⟨sched, time', p', m, h1, h2, h3, h4⟩ := ih t { f with handler := .running ev (some t) (k t) } (some t) (hs t) rfl hup (.inr rfl)
    have e : run env f (.handler t :: sched) = run env { f with handler := .running ev (some t) (k t) } sched := by
      show run env (step env f (.handler t)) sched = _
      simp only [step, stepHandler, hh]
    exact ⟨.handler t :: sched, time', p', m, h1, h2, h3, by rw [e]; exact h4⟩
  | req op k ih =>
    intro f time hs hh hup ht
    obtain ⟨sched, time', p', m, h1, h2, h3, h4⟩ := ih (MessagingService.exec op f.messaging).1
      { f with messaging := (MessagingService.exec op f.messaging).2.2, handler := .running ev time (k (MessagingService.exec op f.messaging).1) }
      time (hs _) rfl hup ht
    have e : run env f (.handler t :: .messaging :: .handler t :: sched) = run env { f with
        messaging := (MessagingService.exec op f.messaging).2.2, handler := .running ev time (k (MessagingService.exec op f.messaging).1) } sched := by
      show run env (step env (step env (step env f (.handler t)) .messaging) (.handler t)) sched = _
      simp only [step, stepHandler, stepMessaging, hh, hup, ↓reduceIte]
    exact ⟨.handler t :: .messaging :: .handler t :: sched, time', p', m, h1, h2, h3, by rw [e]; exact h4⟩

/-- The finer model in the very state of the system. -/
structure Same (f : Fine) (s : Sys) : Prop where
  conns : f.conns = s.conns
  events : f.events = s.events
  messaging : f.messaging = s.messaging
  ctrlC : f.ctrlC = s.ctrlC
  idle : s.handler = .idle → f.handler = .idle ∧ f.messagingUp = true ∧ f.log = s.log
  crashed : s.handler = .crashed → f.handler = .crashed ∧ f.messagingUp = false ∧ f.log = s.log
  stopped : s.handler = .stopped → f.handler = .stopped ∧ f.messagingUp = false ∧ f.log = s.log
  busy : ∀ l, s.handler = .busy l → l ≠ [] ∧ f.messagingUp = true ∧ ∃ ev t time p, f.handler = .running ev time p ∧ p.SendsOnly
    ∧ (∀ now m, p.finish now m = some (m, l)) ∧ s.log = f.log ++ [(ev, t)] ∧ (time = none ∨ time = some t)

theorem Same.congr {f g : Fine} {s t : Sys} (h : Same f s) (hc : g.conns = t.conns) (he : g.events = t.events)
    (hct : g.ctrlC = t.ctrlC) (h1 : g.handler = f.handler) (h2 : g.messaging = f.messaging) (h3 : g.messagingUp = f.messagingUp)
    (h4 : g.log = f.log) (t1 : t.handler = s.handler) (t2 : t.messaging = s.messaging) (t3 : t.log = s.log) : Same g t := by
  refine ⟨hc, he, h2.trans (h.messaging.trans t2.symm), hct, ?_, ?_, ?_, ?_⟩
  · rw [t1, h1, h3, h4, t3]; exact h.idle
  · rw [t1, h1, h3, h4, t3]; exact h.crashed
  · rw [t1, h1, h3, h4, t3]; exact h.stopped
  · rw [t1, h1, h3, h4, t3]; exact h.busy

theorem senders_finish {p : Prog} (h : p.SendsOnly) {now : Instant} {m : MessagingService} {l : List (ConnId × ServerEvent)}
    (hf : p.finish now m = some (m, l)) : p.senders = l.map Prod.fst := by
  induction p generalizing l with
  | done => cases hf; rfl
  | send d e k ih =>
    simp only [Prog.finish, Option.map_eq_some_iff] at hf
    obtain ⟨⟨m1, l1⟩, h1, h2⟩ := hf
    cases h2
    simp [Prog.senders, ih h h1]
  | panic => cases h
  | req op k => cases h
  | clock k => cases h

theorem Same.alive {f : Fine} {s : Sys} (h : Same f s) : f.handlerAlive = s.handlerAlive := by
  unfold Fine.handlerAlive Sys.handlerAlive
  cases hh : s.handler with
  | idle => rw [(h.idle hh).1]
  | crashed => rw [(h.crashed hh).1]
  | stopped => rw [(h.stopped hh).1]
  | busy l =>
    obtain ⟨_, _, ev, t, time, p, h1, _⟩ := h.busy l hh
    rw [h1]

theorem Same.sender {f : Fine} {s : Sys} (h : Same f s) (c : ConnId) : f.hasSender c = s.hasSender c := by
  unfold Fine.hasSender Sys.hasSender
  rw [h.alive, h.conns, h.events, h.messaging, Bool.or_assoc _ (s.handlerAlive && _)]
  congr 1
  unfold handlerHolds Sys.handlerAlive
  cases hh : s.handler with
  | idle => obtain ⟨h1, h2, _⟩ := h.idle hh; rw [h1, h2]; simp
  | crashed => obtain ⟨h1, h2, _⟩ := h.crashed hh; rw [h1, h2]; simp
  | stopped => obtain ⟨h1, h2, _⟩ := h.stopped hh; rw [h1, h2]; simp
  | busy l =>
    obtain ⟨_, h2, ev, t, time, p, h1, h3, h4, h5, _⟩ := h.busy l hh
    rw [h1, h2, h5]
    have : (p.senders.contains c) = l.any fun x => decide (x.1 = c) := by
      rw [senders_finish h3 (h4 0 s.messaging), List.contains_eq_any_beq, List.any_map]
      congr 1
      funext x
      by_cases hx : x.1 = c
      · simp [hx]
      · have hx' : c ≠ x.1 := fun h => hx h.symm
        simp [hx, hx']
    simp only [this]
    simp [Bool.or_comm, Bool.or_assoc]

theorem real_read (env : Env) {f : Fine} {s : Sys} (h : Same f s) (c : ConnId) : Same (stepRead env f c) (Sys.stepRead env s c) := by
  unfold stepRead Sys.stepRead
  simp only [h.alive, h.conns, h.events]
  cases (s.conns c).outbox with
  | none => exact h.congr (by simp [Fine.setConn, Sys.setConn, h.conns]) h.events h.ctrlC rfl rfl rfl rfl rfl rfl rfl
  | some ev =>
    simp only
    split
    · split
      · exact h.congr (by simp [Fine.setConn, Sys.setConn]) (by simp [Fine.setConn, Sys.setConn]) h.ctrlC rfl rfl rfl rfl rfl rfl rfl
      · exact h
    · exact h.congr (by simp [Fine.setConn, Sys.setConn, h.conns]) h.events h.ctrlC rfl rfl rfl rfl rfl rfl rfl

theorem real_write (env : Env) {f : Fine} {s : Sys} (h : Same f s) (c : ConnId) : Same (stepWrite env f c) (Sys.stepWrite env s c) := by
  have same : ∀ k, Same (f.setConn c k) (s.setConn c k) := fun k =>
    h.congr (by simp [Fine.setConn, Sys.setConn, h.conns]) h.events h.ctrlC rfl rfl rfl rfl rfl rfl rfl
  unfold stepWrite Sys.stepWrite
  simp only [h.sender, h.conns]
  split
  · cases (s.conns c).queue with
    | nil =>
      simp only
      split
      · exact h
      · exact same _
    | cons x rest =>
      cases x with
      | disconnect => exact same _
      | controlPacket p =>
        simp only
        cases hy : (letI := WStream.sink env.alloc; (Encoder.writePacket p : M WStream Unit) (s.conns c).wr) with
        | mk r wr => cases r <;> exact same _
  · exact h

/-- One step of the system. -/
theorem real_step (env : Env) {f : Fine} {s : Sys} (h : Same f s) (st : Step) : ∃ sched, Same (run env f sched) (Sys.step env s st) := by
  cases st with
  | read c => exact ⟨[.read c], real_read env h c⟩
  | write c => exact ⟨[.write c], real_write env h c⟩
  | ctrlC => exact ⟨[.ctrlC], h.congr h.conns h.events rfl rfl rfl rfl rfl rfl rfl rfl⟩
  | stop =>
    simp only [Sys.step]
    split
    · rename_i hh
      split
      · rename_i hc
        obtain ⟨h1, h2, h3⟩ := h.idle hh
        refine ⟨[.stop, .messagingEnds], ?_⟩
        have e : run env f [.stop, .messagingEnds] = { f with handler := .stopped, messagingUp := false } := by
          show step env (step env f .stop) .messagingEnds = _
          simp only [step, h1, h.ctrlC, hc, ↓reduceIte, handlerAlive, Bool.false_eq_true]
        rw [e]
        exact ⟨h.conns, h.events, h.messaging, h.ctrlC, (fun h => by cases h), (fun h => by cases h), fun _ => ⟨rfl, rfl, h3⟩, fun l h => by cases h⟩
      · exact ⟨[], h⟩
    · exact ⟨[], h⟩
  | handler now =>
    simp only [Sys.step]
    unfold Sys.stepHandler
    split
    · rename_i hh
      split
      · exact ⟨[], h⟩
      · rename_i ev rest he
        obtain ⟨h1, h2, h3⟩ := h.idle hh
        have e1 : step env f (.handler now) = { f with events := rest, handler := .running ev none (Prog.handle env.auth ev) } := by
          simp only [step, stepHandler, h1, h.events, he]
        dsimp only
        rw [← h.messaging, ← Prog.finish_handle]
        rcases Prog.shaped_handle env.auth ev with hs | hs
        · obtain ⟨sched, time, p, m, p1, p2, p3, p4⟩ := drain env now ev _ { f with events := rest, handler := .running ev none (Prog.handle env.auth ev) }
            none hs rfl h2 (.inl rfl)
          obtain ⟨l, hl⟩ := Prog.sendsOnly_finish p1
          simp only at p3
          rw [p3, hl]
          rw [← e1] at p4
          have e2 : run env f (.handler now :: sched) = { f with events := rest, messaging := m, handler := .running ev time p } := by
            show run env (step env f (.handler now)) sched = _
            rw [p4, e1]
          cases l with
          | nil =>
            refine ⟨(.handler now :: sched) ++ [.handler now], ?_⟩
            have hd : p = .done := by
              cases p with
              | done => rfl
              | send d e k =>
                have := hl now f.messaging
                simp only [Prog.finish, Option.map_eq_some_iff] at this
                obtain ⟨_, _, h'⟩ := this
                simp at h'
              | _ => cases p1
            subst hd
            have e3 : run env f ((.handler now :: sched) ++ [.handler now])
                = { f with events := rest, messaging := m, handler := .idle, log := f.log ++ [(ev, now)] } := by
              rw [run_append, e2]
              have : time.getD now = now := by rcases p2 with rfl | rfl <;> rfl
              simp only [run, List.foldl_cons, List.foldl_nil, step, stepHandler, this]
            rw [e3]
            exact ⟨h.conns, rfl, rfl, h.ctrlC, fun _ => ⟨rfl, h2, by simp [h3]⟩, (fun h => by simp [hh] at h), (fun h => by simp [hh] at h), fun l h => by simp [hh] at h⟩
          | cons x l =>
            refine ⟨.handler now :: sched, ?_⟩
            rw [e2]
            refine ⟨h.conns, rfl, rfl, h.ctrlC, (fun h => by cases h), (fun h => by cases h), (fun h => by cases h), fun l' hl' => ?_⟩
            cases hl'
            exact ⟨by simp, h2, ev, now, time, p, rfl, p1, hl, by simp [h3], p2⟩
        · refine ⟨[.handler now, .handler now, .messagingEnds], ?_⟩
          have e2 : run env f [.handler now, .handler now, .messagingEnds]
              = { f with events := rest, handler := .crashed, messagingUp := false, log := f.log ++ [(ev, now)] } := by
            show run env (step env f (.handler now)) [.handler now, .messagingEnds] = _
            rw [e1, hs]
            simp only [run, List.foldl_cons, List.foldl_nil, step, stepHandler, handlerAlive, Option.getD_none, Bool.false_eq_true, ↓reduceIte]
          rw [hs, e2]
          show Same _ { s with events := rest, messaging := f.messaging, handler := .crashed, log := s.log ++ [(ev, now)] }
          exact ⟨h.conns, rfl, rfl, h.ctrlC, (fun h => by cases h), fun _ => ⟨rfl, rfl, by simp [h3]⟩, (fun h => by cases h), fun l h => by cases h⟩
    · rename_i hh
      exact absurd rfl (h.busy _ hh).1
    · rename_i d e todo hh
      obtain ⟨_, h2, ev, t, time, p, h1, p1, p2, h3, ht⟩ := h.busy _ hh
      have hp : ∃ p', p = .send d e p' ∧ p'.SendsOnly ∧ ∀ now m, p'.finish now m = some (m, todo) := by
        cases p with
        | done => cases p2 0 s.messaging
        | send d' e' k =>
          obtain ⟨l, hl⟩ := Prog.sendsOnly_finish (show k.SendsOnly from p1)
          have := p2 0 s.messaging
          simp only [Prog.finish, hl, Option.map_some, Option.some.injEq, Prod.mk.injEq, List.cons.injEq, true_and] at this
          obtain ⟨⟨rfl, rfl⟩, rfl⟩ := this
          exact ⟨k, rfl, p1, hl⟩
        | _ => cases p1
      obtain ⟨p', rfl, q1, q2⟩ := hp
      simp only
      split
      · rename_i ho
        split
        · rename_i hl
          have e1 : step env f (.handler t) = { f with handler := .running ev time p' }.setConn d
              { f.conns d with queue := (f.conns d).queue ++ [e], delivered := (f.conns d).delivered ++ [e] } := by
            simp only [step, stepHandler, h1, h.conns, ho, hl, ↓reduceIte]
          cases todo with
          | nil =>
            have hd : p' = .done := by
              cases p' with
              | done => rfl
              | send d e k =>
                have := q2 0 f.messaging
                simp only [Prog.finish, Option.map_eq_some_iff] at this
                obtain ⟨_, _, h'⟩ := this
                simp at h'
              | _ => cases q1
            subst hd
            refine ⟨[.handler t, .handler t], ?_⟩
            have e2 : run env f [.handler t, .handler t] = { f with handler := .idle, log := f.log ++ [(ev, t)] }.setConn d
                { f.conns d with queue := (f.conns d).queue ++ [e], delivered := (f.conns d).delivered ++ [e] } := by
              show run env (step env f (.handler t)) [.handler t] = _
              rw [e1]
              simp only [run, List.foldl_cons, List.foldl_nil]
              have : time.getD t = t := by rcases ht with rfl | rfl <;> rfl
              simp only [step, stepHandler, Fine.setConn, this]
            rw [e2]
            exact ⟨by simp [Fine.setConn, Sys.setConn, h.conns], h.events, h.messaging, h.ctrlC, fun _ => ⟨rfl, h2, h3.symm⟩, (fun h => by cases h), (fun h => by cases h), fun l h => by cases h⟩
          | cons x todo =>
            refine ⟨[.handler t], ?_⟩
            show Same (step env f (.handler t)) _
            rw [e1]
            refine ⟨by simp [Fine.setConn, Sys.setConn, h.conns], h.events, h.messaging, h.ctrlC, (fun h => by cases h), (fun h => by cases h), (fun h => by cases h), fun l hl => ?_⟩
            cases hl
            exact ⟨by simp, h2, ev, t, time, p', rfl, q1, q2, h3, ht⟩
        · exact ⟨[], h⟩
      · rename_i ho
        refine ⟨[.handler t, .messagingEnds], ?_⟩
        have e2 : run env f [.handler t, .messagingEnds] = { f with handler := .crashed, messagingUp := false, log := f.log ++ [(ev, t)] } := by
          show run env (step env f (.handler t)) [.messagingEnds] = _
          simp only [run, List.foldl_cons, List.foldl_nil]
          have : time.getD t = t := by rcases ht with rfl | rfl <;> rfl
          simp only [step, stepHandler, h1, h.conns, ho, Bool.false_eq_true, ↓reduceIte, handlerAlive, this]
        rw [e2]
        exact ⟨h.conns, h.events, h.messaging, h.ctrlC, (fun h => by cases h), fun _ => ⟨rfl, rfl, h3.symm⟩, (fun h => by cases h), fun l h => by cases h⟩
    · exact ⟨[], h⟩
    · exact ⟨[], h⟩

/-- Every run of the system is a run of the finer model. -/
theorem real_run (env : Env) (peers : ConnId → Peer) (ss : List Step) :
    ∃ sched, Same (run env (init peers) sched) (Sys.run env (Sys.init peers) ss) := by
  have key : ∀ (ss : List Step) (f : Fine) (s : Sys), Same f s → ∃ sched, Same (run env f sched) (Sys.run env s ss) := by
    intro ss
    induction ss with
    | nil => exact fun f s h => ⟨[], h⟩
    | cons st ss ih =>
      intro f s h
      obtain ⟨sched, h1⟩ := real_step env h st
      obtain ⟨sched', h2⟩ := ih _ _ h1
      exact ⟨sched ++ sched', by rw [run_append]; exact h2⟩
  exact key ss _ _ ⟨rfl, rfl, rfl, rfl, fun _ => ⟨rfl, rfl, rfl⟩, (fun h => by cases h), (fun h => by cases h), fun l h => by cases h⟩

end Fine

end Ratel
