/-
What the log, short of TRACE, depends on.
-/
import Verif.Proofs.Logging
import Verif.Proofs.Topic

namespace Ratel

open Spec

/-- The same subscriptions, and sessions of the same clients. -/
def Resembles (m m' : MessagingService) : Prop :=
  m.subscriptions = m'.subscriptions ∧ ∀ id, (m.sessions.get id).isSome = (m'.sessions.get id).isSome

/-- Events that are logged alike, short of TRACE. -/
inductive LogAlike (auth auth' : IdentityProvider) : ClientEvent → ClientEvent → Prop where
  | connect {p p' : ConnectPacket} {a a' : SocketAddr} {tx tx' : ConnId} (hid : p.clientId = p'.clientId)
      (hr : refusal auth (.connected p a tx) = refusal auth' (.connected p' a' tx'))
      (hl : login auth p = login auth' p') : LogAlike auth auth' (.connected p a tx) (.connected p' a' tx')
  | publish {id : ClientId} {q q' : PublishPacket} {tx tx' : ConnId} (ht : q.message.topic = q'.message.topic) :
      LogAlike auth auth' (.controlPacket id (.publish q) tx) (.controlPacket id (.publish q') tx')
  | second {id : ClientId} {p p' : ConnectPacket} {tx tx' : ConnId} :
      LogAlike auth auth' (.controlPacket id (.connect p) tx) (.controlPacket id (.connect p') tx')
  | packet {id : ClientId} {p : ControlPacket} {tx tx' : ConnId} : LogAlike auth auth' (.controlPacket id p tx) (.controlPacket id p tx')
  | disconnected {id : ClientId} : LogAlike auth auth' (.disconnected id) (.disconnected id)
  | lost {id : ClientId} : LogAlike auth auth' (.connectionLost id) (.connectionLost id)

theorem upTo_trace (o : LogModule) (l : List Char) (rs : List LogRecord) : upTo .debug (⟨.trace, o, l⟩ :: rs) = upTo .debug rs := rfl

theorem upTo_append (lv : Level) (a b : List LogRecord) : upTo lv (a ++ b) = upTo lv a ++ upTo lv b := List.filter_append ..

theorem connectRecords_alike {t : Texts} {auth auth' : IdentityProvider} {p p' : ConnectPacket} {a a' : SocketAddr} {tx tx' : ConnId}
    (hid : p.clientId = p'.clientId) (hr : refusal auth (.connected p a tx) = refusal auth' (.connected p' a' tx')) :
    Handler.connectRecords t auth p = Handler.connectRecords t auth' p' := by
  have key : ∀ (auth : IdentityProvider) (p : ConnectPacket) (a : SocketAddr) (tx : ConnId), Handler.connectRecords t auth p
      = ⟨.debug, .handler, "New client ".toList ++ Fmt.quoted t p.clientId ++ " connected".toList⟩ ::
        ((refusal auth (.connected p a tx)).map fun x => Handler.refusalRecord t x.1 x.2).toList := by
    intro auth p a tx
    unfold Handler.connectRecords refusal
    simp only
    congr 1
    cases p.userName with
    | none => rfl
    | some u =>
      cases p.password with
      | none => rfl
      | some pw =>
        simp only
        cases auth u pw with
        | ok _ => rfl
        | error e => rfl
  rw [key auth p a tx, key auth' p' a' tx', hid, hr]

theorem publishWarnings_alike {t : Texts} {m m' : MessagingService} (h : Resembles m m') (topic : String) :
    Handler.publishWarnings t m topic = Handler.publishWarnings t m' topic := by
  unfold Handler.publishWarnings
  rw [h.1]
  cases m'.subscriptions.subscribedClients topic with
  | none => rfl
  | some ids =>
    simp only
    congr 1
    funext c
    have := h.2 c
    cases h1 : m.sessions.get c <;> cases h2 : m'.sessions.get c <;> rw [h1, h2] at this <;> simp at this <;> rfl

theorem records_alike {t : Texts} {auth auth' : IdentityProvider} {m m' : MessagingService} {ev ev' : ClientEvent}
    (hm : Resembles m m') (h : LogAlike auth auth' ev ev') :
    upTo .debug (Handler.records t auth m ev) = upTo .debug (Handler.records t auth' m' ev') := by
  unfold Handler.records
  rw [upTo_trace, upTo_trace]
  cases h with
  | connect hid hr hl => simp only; rw [connectRecords_alike hid hr]
  | publish ht =>
    simp only [Handler.packetRecords]
    rw [upTo_trace, upTo_trace, publishWarnings_alike hm, ht]
  | second =>
    simp only [Handler.packetRecords]
    rw [upTo_trace, upTo_trace]
    rfl
  | @packet id p tx tx' =>
    simp only [Handler.packetRecords]
    rw [upTo_trace, upTo_trace]
    cases p with
    | publish q => simp only; rw [publishWarnings_alike hm]
    | pingReq =>
      simp only
      have : m.sessionExists id = m'.sessionExists id := hm.2 id
      rw [this]
    | _ => rfl
  | disconnected => rfl
  | lost => rfl

theorem resembles_insert {m m' : MessagingService} (h : Resembles m m') {s s' : Session} (hs : s.clientId = s'.clientId) :
    Resembles (m.sessionInsert s) (m'.sessionInsert s') := by
  refine ⟨h.1, fun id => ?_⟩
  have := h.2 id
  simp only [MessagingService.sessionInsert, SessionRepository.insert, SessionRepository.get, AssocMap.get?_insert] at this ⊢
  rw [hs]
  split
  · rfl
  · exact this

theorem resembles_delete {m m' : MessagingService} (h : Resembles m m') (subs : SubscriptionsRepository) (id : ClientId) :
    Resembles ⟨(m.sessions.delete id).2, subs⟩ ⟨(m'.sessions.delete id).2, subs⟩ := by
  refine ⟨rfl, fun id' => ?_⟩
  have := h.2 id'
  simp only [SessionRepository.delete, SessionRepository.get, AssocMap.get?_erase] at this ⊢
  split
  · rfl
  · exact this

theorem resembles_subscribeAll {m m' : MessagingService} (h : Resembles m m') (id : ClientId) (subs : List Subscription) :
    Resembles (Handler.subscribeAll id subs m).2 (Handler.subscribeAll id subs m').2 := by
  induction subs generalizing m m' with
  | nil => exact h
  | cons s subs ih =>
    refine ih ⟨?_, h.2⟩
    show (m.subscriptions.subscribe id s).2 = (m'.subscriptions.subscribe id s).2
    rw [h.1]

/-- Both crash, or both are left alike. -/
def AlikeAfter (x y : Handled) : Prop :=
  match x, y with
  | none, none => True
  | some (m, _), some (m', _) => Resembles m m'
  | _, _ => False

theorem onConnect_login (auth : IdentityProvider) (now : Instant) (m : MessagingService) (tx : ConnId) (p : ConnectPacket) (a : SocketAddr) :
    match login auth p with
    | .incomplete => Handler.onConnect auth now m tx p a = none
    | .refused => ∃ sends, Handler.onConnect auth now m tx p a = some (m, sends)
    | .accepted => ∃ s sends, s.clientId = p.clientId ∧ Handler.onConnect auth now m tx p a = some (m.sessionInsert s, sends) := by
  unfold login Handler.onConnect
  cases p.userName with
  | none => exact ⟨⟨_, _, _, _, _, _⟩, _, rfl, rfl⟩
  | some u =>
    cases p.password with
    | none => rfl
    | some pw =>
      simp only
      cases auth u pw with
      | ok _ => exact ⟨⟨_, _, _, _, _, _⟩, _, rfl, rfl⟩
      | error e => exact ⟨_, rfl⟩

theorem handle_alike {auth auth' : IdentityProvider} {m m' : MessagingService} {ev ev' : ClientEvent} {now now' : Instant}
    (hm : Resembles m m') (h : LogAlike auth auth' ev ev') :
    AlikeAfter (Handler.handle auth now m ev) (Handler.handle auth' now' m' ev') := by
  cases h with
  | @connect p p' a a' tx tx' hid hr hl =>
    simp only [Handler.handle]
    have h1 := onConnect_login auth now m tx p a
    have h2 := onConnect_login auth' now' m' tx' p' a'
    rw [← hl] at h2
    cases hlog : login auth p with
    | incomplete => simp only [hlog] at h1 h2; rw [h1, h2]; trivial
    | refused =>
      simp only [hlog] at h1 h2
      obtain ⟨_, h1⟩ := h1
      obtain ⟨_, h2⟩ := h2
      rw [h1, h2]; exact hm
    | accepted =>
      simp only [hlog] at h1 h2
      obtain ⟨s, _, hs, h1⟩ := h1
      obtain ⟨s', _, hs', h2⟩ := h2
      rw [h1, h2]; exact resembles_insert hm (by rw [hs, hs', hid])
  | publish ht => exact hm
  | second => exact hm
  | @packet id p tx tx' =>
    simp only [Handler.handle]
    cases p with
    | subscribe s => exact resembles_subscribeAll hm id s.subscriptions
    | unsubscribe s =>
      refine ⟨?_, hm.2⟩
      show m.subscriptions.unsubscribe id s.topics = m'.subscriptions.unsubscribe id s.topics
      rw [hm.1]
    | pingReq =>
      have : m.sessionExists id = m'.sessionExists id := hm.2 id
      simp only [Handler.onPacket, Handler.onPingReq, MessagingService.request, MessagingService.exec, this]
      cases m'.sessionExists id <;> exact hm
    | disconnect =>
      show Resembles ⟨(m.sessions.delete id).2, m.subscriptions.disconnected id⟩ ⟨(m'.sessions.delete id).2, m'.subscriptions.disconnected id⟩
      rw [hm.1]
      exact resembles_delete hm _ id
    | _ => exact hm
  | disconnected => exact hm
  | @lost id =>
    show Resembles ⟨(m.sessions.delete id).2, m.subscriptions.connectionsLost id⟩ ⟨(m'.sessions.delete id).2, m'.subscriptions.connectionsLost id⟩
    rw [hm.1]
    exact resembles_delete hm _ id

/-- Two lists of events, pairwise logged alike. -/
inductive LogAlikes (auth auth' : IdentityProvider) : List (ClientEvent × Instant) → List (ClientEvent × Instant) → Prop where
  | nil : LogAlikes auth auth' [] []
  | cons {ev ev' : ClientEvent} {now now' : Instant} {l l' : List (ClientEvent × Instant)} (h : LogAlike auth auth' ev ev')
      (hl : LogAlikes auth auth' l l') : LogAlikes auth auth' ((ev, now) :: l) ((ev', now') :: l')

theorem history_alike {t : Texts} {auth auth' : IdentityProvider} {m m' : MessagingService} {evs evs' : List (ClientEvent × Instant)}
    (hm : Resembles m m') (h : LogAlikes auth auth' evs evs') :
    upTo .debug (Handler.history t auth m evs) = upTo .debug (Handler.history t auth' m' evs') := by
  induction h generalizing m m' with
  | nil => rfl
  | @cons ev ev' now now' l l' h hl ih =>
    simp only [Handler.history, upTo_append]
    rw [records_alike hm h]
    congr 1
    have := handle_alike (now := now) (now' := now') hm h
    unfold AlikeAfter at this
    split at this
    · rename_i h1 h2; rw [h1, h2]
    · rename_i h1 h2; rw [h1, h2]; exact ih this
    · exact absurd this id

end Ratel
