/-
The process with all clock readings set to zero.
-/
import Verif.Spec.Clock
import Verif.Model.Journal

namespace Ratel

namespace AssocMap

variable {V : Type} (f : V → V)

/-- The values changed. -/
def onValues (m : AssocMap V) : AssocMap V := m.map fun e => (e.1, f e.2)

theorem onValues_get? (m : AssocMap V) (k : String) : (onValues f m).get? k = (m.get? k).map f := by
  induction m with
  | nil => rfl
  | cons e m ih =>
    obtain ⟨k', v⟩ := e
    simp only [onValues, List.map_cons, get?] at ih ⊢
    by_cases h : k' = k
    · rw [if_pos h, if_pos h]; rfl
    · rw [if_neg h, if_neg h]; exact ih

theorem onValues_insert (m : AssocMap V) (k : String) (v : V) : (onValues f m).insert k (f v) = onValues f (m.insert k v) := by
  induction m with
  | nil => rfl
  | cons e m ih =>
    obtain ⟨k', v'⟩ := e
    simp only [onValues, List.map_cons, insert] at ih ⊢
    by_cases h : k' = k
    · rw [if_pos h, if_pos h]; rfl
    · rw [if_neg h, if_neg h, ih]; rfl

theorem onValues_erase (m : AssocMap V) (k : String) : (onValues f m).erase k = onValues f (m.erase k) := by
  induction m with
  | nil => rfl
  | cons e m ih =>
    obtain ⟨k', v'⟩ := e
    simp only [onValues, List.map_cons, erase] at ih ⊢
    by_cases h : k' = k
    · rw [if_pos h, if_pos h]; exact ih
    · rw [if_neg h, if_neg h, ih]; rfl

end AssocMap

namespace Clock

open Spec

/-- A session without its time. -/
def session (s : Session) : Session := { s with lastActivity := 0 }

/-- The messaging service without times. -/
def messaging (m : MessagingService) : MessagingService := ⟨⟨m.sessions.sessions.onValues session⟩, m.subscriptions⟩

/-- The system without times. -/
def sys (s : Sys) : Sys := { s with messaging := messaging s.messaging, log := s.log.map fun e => (e.1, 0) }

/-- The process without times. -/
def proc (p : Proc) : Proc := { p with sys := sys p.sys }

/-- A step of a task without time. -/
def task : Step → Step
  | .handler _ => .handler 0
  | st => st

theorem clockless_task (st : Step) : clockless (.task st) = .task (task st) := by cases st <;> rfl

theorem get_messaging (m : MessagingService) (c : ClientId) : (messaging m).sessions.get c = (m.sessions.get c).map session :=
  AssocMap.onValues_get? _ _ _

theorem exists_messaging (m : MessagingService) (c : ClientId) : (messaging m).sessionExists c = m.sessionExists c := by
  show ((messaging m).sessions.get c).isSome = (m.sessions.get c).isSome
  rw [get_messaging, Option.isSome_map]

theorem senders_messaging (m : MessagingService) (t : String) : (messaging m).sendersToPublish t = m.sendersToPublish t := by
  unfold MessagingService.sendersToPublish
  show (match m.subscriptions.subscribedClients t with
    | some clientIds => clientIds.filterMap fun c => ((messaging m).sessions.get c).map Session.sender
    | none => []) = _
  simp only [get_messaging, Option.map_map]
  rfl

theorem subscribeAll_messaging (c : ClientId) (ss : List Subscription) (m : MessagingService) :
    Handler.subscribeAll c ss (messaging m) = ((Handler.subscribeAll c ss m).1, messaging (Handler.subscribeAll c ss m).2) := by
  induction ss generalizing m with
  | nil => rfl
  | cons s ss ih =>
    have := ih (m.request (.subscribe c s)).2
    simp only [Handler.subscribeAll]
    rw [show (messaging m).request (.subscribe c s) = ((m.request (.subscribe c s)).1, messaging (m.request (.subscribe c s)).2) from rfl]
    dsimp only
    rw [this]

theorem forget_messaging (m : MessagingService) (c : ClientId) (subs : SubscriptionsRepository) :
    (⟨((messaging m).sessions.delete c).2, subs⟩ : MessagingService) = messaging ⟨(m.sessions.delete c).2, subs⟩ := by
  show (⟨⟨((m.sessions.sessions.onValues session).erase c)⟩, subs⟩ : MessagingService) = _
  rw [AssocMap.onValues_erase]
  rfl

/-- The packet handler does not look at the clock, except to note the time. -/
theorem handle_clock (auth : IdentityProvider) (now : Instant) (m : MessagingService) (ev : ClientEvent) :
    Handler.handle auth 0 (messaging m) ev = (Handler.handle auth now m ev).map fun r => (messaging r.1, r.2) := by
  have hins : ∀ s : Session, (messaging m).sessionInsert (session s) = messaging (m.sessionInsert s) := fun s => by
    show (⟨⟨(m.sessions.sessions.onValues session).insert s.clientId (session s)⟩, m.subscriptions⟩ : MessagingService) = _
    rw [AssocMap.onValues_insert]
    rfl
  cases ev with
  | connected p addr tx =>
    have hacc : ∀ (a b : Handled), a = some ((messaging m).sessionInsert (session ⟨p.clientId, addr.ip, !p.cleanSession, tx, p.keepAliveSeconds, now⟩),
          [(tx, .controlPacket (.connAck ⟨false, .accepted⟩))]) →
        b = some (m.sessionInsert ⟨p.clientId, addr.ip, !p.cleanSession, tx, p.keepAliveSeconds, now⟩, [(tx, .controlPacket (.connAck ⟨false, .accepted⟩))]) →
        a = b.map fun r => (messaging r.1, r.2) := by
      rintro a b rfl rfl
      rw [hins]; rfl
    simp only [Handler.handle, Handler.onConnect]
    cases hu : p.userName with
    | none => exact hacc _ _ rfl rfl
    | some u =>
      cases hp : p.password with
      | none => rfl
      | some pw =>
        dsimp only
        cases ha : auth u pw with
        | error e => rfl
        | ok _ => exact hacc _ _ rfl rfl
  | disconnected id => rfl
  | connectionLost id =>
    show some (_, _) = some (_, _)
    exact congrArg (fun m => some (m, [])) (forget_messaging m id _)
  | controlPacket id p tx =>
    cases p with
    | publish q =>
      show some (messaging m, ((messaging m).sendersToPublish q.message.topic).map _) = _
      rw [senders_messaging]
      rfl
    | subscribe s =>
      simp only [Handler.handle, Handler.onPacket, Handler.onSubscribe, subscribeAll_messaging, Option.map_some]
    | unsubscribe u => rfl
    | pingReq =>
      simp only [Handler.handle, Handler.onPacket, Handler.onPingReq, MessagingService.request, MessagingService.exec]
      rw [exists_messaging]
      cases m.sessionExists id <;> rfl
    | disconnect =>
      show some (_, _) = some (_, _)
      exact congrArg (fun m => some (m, [])) (forget_messaging m id _)
    | _ => rfl

theorem hasSender_sys (s : Sys) (c : ConnId) : (sys s).hasSender c = s.hasSender c := by
  have h1 : (messaging s.messaging).sessions.sessions.any (fun x => decide (x.2.sender = c)) = s.messaging.sessions.sessions.any fun x => decide (x.2.sender = c) := by
    show (s.messaging.sessions.sessions.onValues session).any _ = _
    unfold AssocMap.onValues
    rw [List.any_map]
    rfl
  have h2 : (s.log.map fun e => (e.1, (0 : Instant))).getLast?.any (fun x => Sys.eventTx c x.1) = s.log.getLast?.any fun x => Sys.eventTx c x.1 := by
    rw [List.getLast?_map]
    cases s.log.getLast? <;> rfl
  unfold Sys.hasSender
  simp only [show (sys s).conns = s.conns from rfl, show (sys s).handler = s.handler from rfl, show (sys s).events = s.events from rfl,
    show (sys s).messaging = messaging s.messaging from rfl, show (sys s).log = s.log.map fun e => (e.1, (0 : Instant)) from rfl,
    show (sys s).handlerAlive = s.handlerAlive from rfl, h1, h2]

theorem sys_setConn (s : Sys) (c : ConnId) (k : Conn) : sys (s.setConn c k) = (sys s).setConn c k := rfl

theorem step_sys (env : Env) (s : Sys) (st : Step) : Sys.step env (sys s) (task st) = sys (Sys.step env s st) := by
  cases st with
  | read c =>
    show Sys.stepRead env (sys s) c = sys (Sys.stepRead env s c)
    unfold Sys.stepRead
    simp only [show (sys s).conns = s.conns from rfl, show (sys s).events = s.events from rfl, show (sys s).handlerAlive = s.handlerAlive from rfl]
    cases (s.conns c).outbox with
    | none => rfl
    | some ev =>
      dsimp only
      by_cases h1 : s.handlerAlive = true
      · rw [if_pos h1, if_pos h1]
        by_cases h2 : s.events.length < channelCapacity
        · rw [if_pos h2, if_pos h2]; rfl
        · rw [if_neg h2, if_neg h2]
      · rw [if_neg h1, if_neg h1]; rfl
  | write c =>
    show Sys.stepWrite env (sys s) c = sys (Sys.stepWrite env s c)
    unfold Sys.stepWrite
    simp only [show (sys s).conns = s.conns from rfl, hasSender_sys]
    by_cases h1 : ((s.conns c).rxOpen && !(s.conns c).wrBlocked) = true
    · rw [if_pos h1, if_pos h1]
      cases (s.conns c).queue with
      | nil =>
        dsimp only
        by_cases h2 : s.hasSender c = true
        · rw [if_pos h2, if_pos h2]
        · rw [if_neg h2, if_neg h2]; rfl
      | cons e rest =>
        cases e with
        | disconnect => rfl
        | controlPacket p =>
          dsimp only
          split <;> rfl
    · rw [if_neg h1, if_neg h1]
  | handler now =>
    show Sys.stepHandler env 0 (sys s) = sys (Sys.stepHandler env now s)
    unfold Sys.stepHandler
    simp only [show (sys s).handler = s.handler from rfl, show (sys s).events = s.events from rfl, show (sys s).conns = s.conns from rfl]
    cases hh : s.handler with
    | idle =>
      dsimp only
      cases he : s.events with
      | nil => rfl
      | cons ev rest =>
        dsimp only
        rw [show (sys s).messaging = messaging s.messaging from rfl, handle_clock env.auth now]
        cases hr : Handler.handle env.auth now s.messaging ev with
        | none =>
          simp only [Option.map_none, sys, List.map_append, List.map_cons, List.map_nil]
        | some r =>
          obtain ⟨m, sends⟩ := r
          cases sends with
          | nil => simp only [Option.map_some, sys, List.map_append, List.map_cons, List.map_nil]
          | cons x sends => simp only [Option.map_some, sys, List.map_append, List.map_cons, List.map_nil]
    | busy todo =>
      cases todo with
      | nil => rfl
      | cons x todo =>
        obtain ⟨d, ev⟩ := x
        dsimp only
        by_cases h1 : (s.conns d).rxOpen = true
        · rw [if_pos h1, if_pos h1]
          by_cases h2 : (s.conns d).queue.length < channelCapacity
          · rw [if_pos h2, if_pos h2]; rfl
          · rw [if_neg h2, if_neg h2]
        · rw [if_neg h1, if_neg h1]; rfl
    | crashed => rfl
    | stopped => rfl
  | ctrlC => rfl
  | stop =>
    show (match s.handler with | .idle => _ | _ => _) = sys (match s.handler with | .idle => _ | _ => _)
    cases hh : s.handler with
    | idle =>
      dsimp only
      rw [show (sys s).ctrlC = s.ctrlC from rfl]
      by_cases h1 : s.ctrlC = true
      · rw [if_pos h1, if_pos h1]; rfl
      · rw [if_neg h1, if_neg h1]
    | _ => rfl

theorem runnable_proc (p : Proc) (st : Step) : (proc p).runnable (task st) = p.runnable st := by cases st <;> rfl

theorem step_proc (env : Env) (W : Nat) (p : Proc) (st : PStep) : Proc.step env W (proc p) (clockless st) = proc (Proc.step env W p st) := by
  cases st with
  | accept l c =>
    show (if p.free W && p.listeners[l]? == some true && !p.accepted.contains c then _ else _) = proc (if _ then _ else _)
    split <;> rfl
  | task st =>
    rw [clockless_task]
    show (if p.free W && (proc p).runnable (task st) then { proc p with sys := Sys.step env (sys p.sys) (task st) } else proc p)
      = proc (if p.free W && p.runnable st then { p with sys := Sys.step env p.sys st } else p)
    rw [runnable_proc, step_sys]
    split <;> rfl
  | stopListening l =>
    show (if p.free W && p.sys.ctrlC then _ else _) = proc (if _ then _ else _)
    split <;> rfl
  | messagingEnds =>
    show (if p.free W && !p.sys.handlerAlive then _ else _) = proc (if _ then _ else _)
    split <;> rfl
  | signal =>
    show Proc.stepSignal (proc p) = proc (Proc.stepSignal p)
    unfold Proc.stepSignal
    rw [show (proc p).main = p.main from rfl]
    cases p.main with
    | serving =>
      show (if p.sys.handlerAlive || p.listeners.any (·) then _ else _) = proc (if _ then _ else _)
      split <;> rfl
    | _ => rfl
  | main =>
    show Proc.stepMain (proc p) = proc (Proc.stepMain p)
    unfold Proc.stepMain
    rw [show (proc p).main = p.main from rfl]
    cases p.main with
    | serving => rfl
    | joinListeners =>
      show (if p.listeners.all (!·) then _ else _) = proc (if _ then _ else _)
      split <;> rfl
    | joinMessaging =>
      show (if p.messagingUp then _ else _) = proc (if _ then _ else _)
      split <;> rfl
    | joinHandler =>
      dsimp only
      rw [show (proc p).sys.handler = p.sys.handler from rfl]
      cases p.sys.handler <;> rfl
    | returned =>
      show (if p.spinning = 0 then _ else _) = proc (if _ then _ else _)
      split <;> rfl
    | panicked =>
      show (if p.spinning = 0 then _ else _) = proc (if _ then _ else _)
      split <;> rfl
    | exited ok => rfl

theorem refused_proc (F : Nat) (p : Proc) (st : PStep) : Files.refused F (proc p) (clockless st) = Files.refused F p st := by
  cases st with
  | task st => rw [clockless_task]; rfl
  | _ => rfl

theorem step_files (env : Env) (W F : Nat) (p : Proc) (st : PStep) : Files.step env W F (proc p) (clockless st) = proc (Files.step env W F p st) := by
  unfold Files.step
  rw [refused_proc, step_proc]
  split <;> rfl

theorem run_files (env : Env) (W F : Nat) (p : Proc) (sched : List PStep) :
    Files.run env W F (proc p) (sched.map clockless) = proc (Files.run env W F p sched) := by
  induction sched generalizing p with
  | nil => rfl
  | cons st sched ih =>
    show Files.run env W F (Files.step env W F (proc p) (clockless st)) (sched.map clockless) = _
    rw [step_files, ih]
    rfl

theorem warnings_messaging (t : Texts) (m : MessagingService) (topic : String) :
    Handler.publishWarnings t (messaging m) topic = Handler.publishWarnings t m topic := by
  unfold Handler.publishWarnings
  rw [show (messaging m).subscriptions = m.subscriptions from rfl]
  cases m.subscriptions.subscribedClients topic with
  | none => rfl
  | some ids =>
    dsimp only
    congr 1
    funext c
    rw [get_messaging]
    cases m.sessions.get c <;> rfl

theorem handlerRecords_messaging (t : Texts) (auth : IdentityProvider) (m : MessagingService) (ev : ClientEvent) :
    Handler.records t auth (messaging m) ev = Handler.records t auth m ev := by
  cases ev with
  | controlPacket id p tx =>
    cases p with
    | publish q =>
      simp only [Handler.records, Handler.packetRecords, warnings_messaging]
    | pingReq =>
      simp only [Handler.records, Handler.packetRecords, exists_messaging]
    | _ => rfl
  | _ => rfl

theorem records_sys (t : Texts) (env : Env) (s : Sys) (st : Step) : Sys.records t env (sys s) (task st) = Sys.records t env s st := by
  cases st with
  | read c => rfl
  | write c =>
    show Sys.writeRecords t env (sys s) c = Sys.writeRecords t env s c
    unfold Sys.writeRecords
    simp only [show (sys s).conns = s.conns from rfl, hasSender_sys]
  | handler now =>
    show Sys.handlerRecords t env (sys s) = Sys.handlerRecords t env s
    unfold Sys.handlerRecords
    rw [show (sys s).handler = s.handler from rfl, show (sys s).events = s.events from rfl, show (sys s).messaging = messaging s.messaging from rfl]
    simp only [handlerRecords_messaging]
  | ctrlC => rfl
  | stop => rfl

theorem records_files (t : Texts) (env : Env) (W F : Nat) (p : Proc) (st : PStep) :
    Files.records t env W F (proc p) (clockless st) = Files.records t env W F p st := by
  unfold Files.records
  rw [refused_proc]
  cases st with
  | task st =>
    rw [clockless_task]
    show (if Files.refused F p (.task st) then [] else Proc.records t env W (proc p) (.task (task st))) = if _ then [] else Proc.records t env W p (.task st)
    have : Proc.records t env W (proc p) (.task (task st)) = Proc.records t env W p (.task st) := by
      show (if p.free W && (proc p).runnable (task st) then Sys.records t env (sys p.sys) (task st) else []) = if p.free W && p.runnable st then Sys.records t env p.sys st else []
      rw [runnable_proc, records_sys]
    rw [this]
  | _ => rfl

theorem transcript_files (t : Texts) (env : Env) (W F : Nat) (p : Proc) (sched : List PStep) :
    Files.transcript t env W F (proc p) (sched.map clockless) = Files.transcript t env W F p sched := by
  induction sched generalizing p with
  | nil => rfl
  | cons st sched ih =>
    show Files.records t env W F (proc p) (clockless st) ++ Files.transcript t env W F (Files.step env W F (proc p) (clockless st)) (sched.map clockless) = _
    rw [records_files, step_files, ih]
    rfl

theorem proc_start (L : Nat) (peers : ConnId → Sys.Peer) : proc (Proc.start L peers) = Proc.start L peers := rfl

end Clock

end Ratel
