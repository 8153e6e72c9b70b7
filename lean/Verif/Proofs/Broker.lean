/-
The packet handler refines the sequential broker of Spec/Broker.
-/
import Verif.Proofs.Subs
import Verif.Spec.Broker

namespace Ratel

open Spec

theorem le_sum_of_mem {l : List Nat} {a : Nat} (h : a ∈ l) : a ≤ l.sum := by
  induction l with
  | nil => cases h
  | cons b l ih =>
    rw [List.sum_cons]
    rcases List.mem_cons.mp h with rfl | h
    · omega
    · have := ih h; omega

/-- The messaging service represents a broker state. -/
structure Rep (m : MessagingService) (b : Broker) : Prop where
  session : ∀ c, (m.sessions.get c).map Session.sender = b.session c
  subs : Holds m.subscriptions b.subs

/-- What a list of sends gives one connection. -/
def sentTo (sends : List (ConnId × ServerEvent)) (d : ConnId) : List ServerEvent :=
  (sends.filter fun e => e.1 = d).map Prod.snd

theorem rep_new : Rep MessagingService.new Broker.start := ⟨fun _ => rfl, holds_new⟩

theorem sentTo_single (tx : ConnId) (evs : List ServerEvent) (d : ConnId) : sentTo (evs.map fun e => (tx, e)) d = Spec.to tx evs d := by
  unfold sentTo Spec.to
  by_cases h : d = tx
  · subst h
    rw [if_pos rfl, List.filter_eq_self.mpr]
    · simp [Function.comp_def]
    · simp
  · rw [if_neg h, List.filter_eq_nil_iff.mpr]
    · rfl
    · simp [Ne.symm h]

theorem sentTo_nil (d : ConnId) : sentTo [] d = [] := rfl

theorem Rep.subscribe {m : MessagingService} {b : Broker} (h : Rep m b) (id : ClientId) (ss : List Subscription) :
    Rep (Handler.subscribeAll id ss m).2 ⟨b.session, b.subs ++ ss.map fun x => (id, x.topic)⟩
    ∧ (Handler.subscribeAll id ss m).1 = ss.map fun _ => .successQoS0 := by
  induction ss generalizing m b with
  | nil => simpa [Handler.subscribeAll] using h
  | cons s ss ih =>
    have h1 : Rep (m.subscribe id s).2 ⟨b.session, b.subs ++ [(id, s.topic)]⟩ :=
      ⟨h.session, h.subs.step (.subscribe id s)⟩
    obtain ⟨h2, h3⟩ := ih h1
    refine ⟨?_, ?_⟩
    · simpa [Handler.subscribeAll, MessagingService.request, MessagingService.exec] using h2
    · simp only [Handler.subscribeAll, MessagingService.request, MessagingService.exec, List.map_cons]
      rw [h3]
      rfl

theorem subscribeAll_sessions (id : ClientId) (ss : List Subscription) (m : MessagingService) :
    (Handler.subscribeAll id ss m).2.sessions = m.sessions := by
  induction ss generalizing m with
  | nil => rfl
  | cons s ss ih =>
    simp only [Handler.subscribeAll, MessagingService.request, MessagingService.exec]
    rw [ih]
    rfl

theorem Rep.forget_disconnected {m : MessagingService} {b : Broker} (h : Rep m b) (id : ClientId) :
    Rep (m.disconnect id).2 (b.forget (.disconnected id)) := by
  refine ⟨?_, h.subs.step (.disconnected id)⟩
  intro c
  simp only [MessagingService.disconnect, SessionRepository.delete, SessionRepository.get, Broker.forget, SubOp.client,
    AssocMap.get?_erase]
  by_cases hc : c = id
  · simp [hc]
  · simpa [hc, SessionRepository.get] using h.session c

theorem Rep.forget_lost {m : MessagingService} {b : Broker} (h : Rep m b) (id : ClientId) :
    Rep (m.connectionLost id).2 (b.forget (.connectionLost id)) := by
  refine ⟨?_, h.subs.step (.connectionLost id)⟩
  intro c
  simp only [MessagingService.connectionLost, SessionRepository.delete, SessionRepository.get, Broker.forget, SubOp.client,
    AssocMap.get?_erase]
  by_cases hc : c = id
  · simp [hc]
  · simpa [hc, SessionRepository.get] using h.session c

theorem Rep.insert {m : MessagingService} {b : Broker} (h : Rep m b) (s : Session) :
    Rep (m.sessionInsert s) ⟨fun c => if c = s.clientId then some s.sender else b.session c, b.subs⟩ := by
  refine ⟨?_, h.subs⟩
  intro c
  simp only [MessagingService.sessionInsert, SessionRepository.insert, SessionRepository.get, AssocMap.get?_insert]
  by_cases hc : c = s.clientId
  · simp [hc]
  · simpa [hc, SessionRepository.get] using h.session c

/-- Deliveries to a connection, summed over the clients reached there, from the list of receivers. -/
theorem count_receivers (f : ClientId → Option ConnId) (l : List ClientId) (d : ConnId) :
    (l.filterMap f).count d = l.countP fun c => f c = some d := by
  induction l with
  | nil => rfl
  | cons c l ih =>
    rw [List.filterMap_cons, List.countP_cons, ← ih]
    cases hf : f c with
    | none => simp
    | some x =>
      simp only [List.count_cons, Option.some.injEq, beq_iff_eq, decide_eq_true_eq]

/-- Counting by client. -/
theorem countP_clients (r : SubscriptionsRepository) {es : Entries} (h : Holds r es) (P : ClientId → Prop) [DecidablePred P] (t : String) :
    ((r.subscribedClients t).getD []).countP (fun c => P c) = ((es.filter fun e => P e.1).map fun e => ways e.2 t).sum := by
  have hsum : ∀ p : List String, (Node.clientsAt p r.root).countP (fun c => P c) = es.countP fun e => decide (P e.1 ∧ splitTopic e.2 = p) := by
    intro p
    have hperm : List.Perm (Node.clientsAt p r.root) ((es.filter fun e => splitTopic e.2 = p).map Prod.fst) := by
      rw [List.perm_iff_count]
      intro c
      rw [h.at_path c p, List.count, List.countP_map, List.countP_filter]
      apply List.countP_congr
      rintro ⟨c', f⟩ _
      simp
    rw [hperm.countP_eq, List.countP_map, List.countP_filter]
    apply List.countP_congr
    rintro ⟨c', f⟩ _
    simp
  rw [subscribedClients_eq, Option.getD_some, List.countP_flatMap]
  have hw := walkPaths_perm (splitTopic t) [[]]
  simp only [List.flatMap_cons, List.flatMap_nil, List.append_nil, List.nil_append, List.map_id'] at hw
  rw [show (walkPaths (splitTopic t)).map (List.countP (fun c => decide (P c)) ∘ fun x => Node.clientsAt x r.root)
      = (walkPaths (splitTopic t)).map fun p => es.countP fun e => decide (P e.1 ∧ splitTopic e.2 = p) from
      List.map_congr_left fun p _ => hsum p]
  rw [walkPaths, (List.Perm.map (fun p => es.countP fun e => decide (P e.1 ∧ splitTopic e.2 = p)) hw).sum_nat]
  unfold ways
  simp only [levelsOf_eq, ← count_matchingPaths]
  generalize matchingPaths (splitTopic t) = L
  clear h hsum hw
  induction es with
  | nil => simp [sum_map_zero]
  | cons e es ih =>
    simp only [List.countP_cons]
    rw [sum_map_add, ih, List.filter_cons]
    by_cases hc : P e.1
    · simp only [hc, true_and, decide_eq_true_eq, decide_true, ↓reduceIte, List.map_cons, List.sum_cons, sum_indicator]
      omega
    · simp [hc, sum_map_zero]

theorem sendersToPublish_count {m : MessagingService} {b : Broker} (h : Rep m b) (t : String) (d : ConnId) :
    (m.sendersToPublish t).count d = b.copiesTo d t := by
  have h1 : m.sendersToPublish t = ((m.subscriptions.subscribedClients t).getD []).filterMap b.session := by
    unfold MessagingService.sendersToPublish
    rw [subscribedClients_eq]
    simp only [Option.getD_some, h.session]
  rw [h1, count_receivers]
  exact countP_clients m.subscriptions h.subs (fun c => b.session c = some d) t

theorem sentTo_fanout (l : List ConnId) (ev : ServerEvent) (d : ConnId) :
    sentTo (l.map fun s => (s, ev)) d = List.replicate (l.count d) ev := by
  unfold sentTo
  induction l with
  | nil => rfl
  | cons x l ih =>
    rw [List.map_cons, List.filter_cons, List.count_cons]
    by_cases h : x = d
    · subst h
      simp only [decide_true, ↓reduceIte, List.map_cons, beq_self_eq_true, ih]
      rw [List.replicate_succ]
    · simp [h, ih]

/-- What handling an event does, against what the sequential broker does. -/
def Refines (m' : Handled) (b' : Option (Broker × Outputs)) : Prop :=
  match m', b' with
  | none, none => True
  | some (m, sends), some (b, out) => Rep m b ∧ ∀ d, sentTo sends d = out d
  | _, _ => False

theorem handle_refines (auth : IdentityProvider) (now : Instant) {m : MessagingService} {b : Broker} (h : Rep m b) (ev : ClientEvent) :
    Refines (Handler.handle auth now m ev) (b.step auth ev) := by
  cases ev with
  | connected p addr tx =>
    have hacc : ∀ s : Session, s.clientId = p.clientId → s.sender = tx →
        Rep (m.sessionInsert s) ⟨fun c => if c = p.clientId then some tx else b.session c, b.subs⟩ := by
      intro s h1 h2
      have := h.insert s
      rwa [h1, h2] at this
    simp only [Handler.handle, Handler.onConnect, MessagingService.request, MessagingService.exec, Broker.step, login]
    cases p.userName with
    | none => exact ⟨hacc _ rfl rfl, sentTo_single tx [_]⟩
    | some u =>
      cases p.password with
      | none => trivial
      | some pw =>
        dsimp only
        cases auth u pw with
        | error e => exact ⟨h, sentTo_single tx [_, _]⟩
        | ok _ => exact ⟨hacc _ rfl rfl, sentTo_single tx [_]⟩
  | controlPacket id p tx =>
    cases p with
    | publish q =>
      refine ⟨h, fun d => ?_⟩
      rw [sentTo_fanout, sendersToPublish_count h]
    | subscribe s =>
      obtain ⟨h1, h2⟩ := h.subscribe id s.subscriptions
      refine ⟨h1, fun d => ?_⟩
      rw [h2]
      exact sentTo_single tx [_] d
    | unsubscribe u =>
      exact ⟨⟨h.session, h.subs.step (.unsubscribe id u.topics)⟩, sentTo_single tx [_]⟩
    | pingReq =>
      have he : m.sessionExists id = (b.session id).isSome := by
        rw [← h.session id]
        simp [MessagingService.sessionExists, SessionRepository.exists, AssocMap.contains, SessionRepository.get]
      simp only [Handler.handle, Handler.onPacket, Handler.onPingReq, MessagingService.request, MessagingService.exec, he, Broker.step,
        Broker.packet]
      cases (b.session id).isSome with
      | true => exact ⟨h, sentTo_single tx [_]⟩
      | false => exact ⟨h, sentTo_single tx [_]⟩
    | disconnect => exact ⟨h.forget_disconnected id, sentTo_nil⟩
    | connect p => exact ⟨h, sentTo_nil⟩
    | connAck p => exact ⟨h, sentTo_nil⟩
    | pubAck i => exact ⟨h, sentTo_nil⟩
    | pubRec i => exact ⟨h, sentTo_nil⟩
    | pubRel i => exact ⟨h, sentTo_nil⟩
    | pubComp i => exact ⟨h, sentTo_nil⟩
    | subAck p => exact ⟨h, sentTo_nil⟩
    | unsubAck i => exact ⟨h, sentTo_nil⟩
    | pingResp => exact ⟨h, sentTo_nil⟩
  | disconnected id => exact ⟨h, sentTo_nil⟩
  | connectionLost id => exact ⟨h.forget_lost id, sentTo_nil⟩

/-- The broker's state after handling some events, if it did not crash. -/
def serve (auth : IdentityProvider) : MessagingService → List (ClientEvent × Instant) → Option MessagingService
  | m, [] => some m
  | m, (ev, now) :: h =>
    match Handler.handle auth now m ev with
    | some (m', _) => serve auth m' h
    | none => none

theorem serve_refines (auth : IdentityProvider) (h : List (ClientEvent × Instant)) {m m' : MessagingService} {b : Broker} (hr : Rep m b)
    (hs : serve auth m h = some m') : ∃ b', b.after auth (h.map Prod.fst) = some b' ∧ Rep m' b' := by
  induction h generalizing m b with
  | nil =>
    simp only [serve, Option.some.injEq] at hs
    subst hs
    exact ⟨b, rfl, hr⟩
  | cons e h ih =>
    obtain ⟨ev, now⟩ := e
    have hh := handle_refines auth now hr ev
    rw [serve] at hs
    cases hm : Handler.handle auth now m ev with
    | none => rw [hm] at hs; cases hs
    | some r =>
      obtain ⟨m1, sends⟩ := r
      rw [hm] at hs hh
      cases hb : b.step auth ev with
      | none => rw [hb] at hh; exact hh.elim
      | some r =>
        obtain ⟨b1, out⟩ := r
        rw [hb] at hh
        obtain ⟨b', h1, h2⟩ := ih hh.1 hs
        refine ⟨b', ?_, h2⟩
        simp only [List.map_cons, Broker.after, hb]
        exact h1

theorem serve_append (auth : IdentityProvider) (h h' : List (ClientEvent × Instant)) (m : MessagingService) :
    serve auth m (h ++ h') = (serve auth m h).bind fun m' => serve auth m' h' := by
  induction h generalizing m with
  | nil => rfl
  | cons e h ih =>
    obtain ⟨ev, now⟩ := e
    rw [List.cons_append, serve, serve]
    cases Handler.handle auth now m ev with
    | none => rfl
    | some r => exact ih r.1

theorem step_subs {auth : IdentityProvider} {b b' : Broker} {ev : ClientEvent} {out : Outputs} (h : b.step auth ev = some (b', out)) :
    b'.subs = (subOps ev).foldl Entries.counting b.subs := by
  have hsub : ∀ (id : ClientId) (ss : List Subscription) (es : Entries),
      es ++ ss.map (fun x => (id, x.topic)) = (ss.map (SubOp.subscribe id)).foldl Entries.counting es := by
    intro id ss
    induction ss with
    | nil => simp
    | cons s ss ih => intro es; simp [← ih, Entries.counting]
  cases ev with
  | connected p addr tx =>
    simp only [Broker.step] at h
    cases hl : login auth p <;> rw [hl] at h <;> simp only [Option.some.injEq, Prod.mk.injEq, reduceCtorEq] at h
    · obtain ⟨rfl, _⟩ := h; rfl
    · obtain ⟨rfl, _⟩ := h; rfl
  | controlPacket id p tx =>
    cases p <;> simp only [Broker.step, Broker.packet, Option.some.injEq, Prod.mk.injEq] at h <;> obtain ⟨rfl, _⟩ := h
    case subscribe s => exact hsub _ _ _
    all_goals rfl
  | disconnected id => simp only [Broker.step, Option.some.injEq, Prod.mk.injEq] at h; obtain ⟨rfl, _⟩ := h; rfl
  | connectionLost id => simp only [Broker.step, Option.some.injEq, Prod.mk.injEq] at h; obtain ⟨rfl, _⟩ := h; rfl

theorem after_subs {auth : IdentityProvider} {b b' : Broker} {evs : List ClientEvent} (h : b.after auth evs = some b') :
    b'.subs = (evs.flatMap subOps).foldl Entries.counting b.subs := by
  induction evs generalizing b with
  | nil => simp only [Broker.after, Option.some.injEq] at h; subst h; rfl
  | cons ev evs ih =>
    rw [Broker.after] at h
    cases hb : b.step auth ev with
    | none => rw [hb] at h; cases h
    | some r =>
      rw [hb] at h
      rw [ih h, List.flatMap_cons, List.foldl_append, ← step_subs hb]

theorem after_append (auth : IdentityProvider) (evs evs' : List ClientEvent) (b : Broker) :
    b.after auth (evs ++ evs') = (b.after auth evs).bind fun b' => b'.after auth evs' := by
  induction evs generalizing b with
  | nil => rfl
  | cons ev evs ih =>
    rw [List.cons_append, Broker.after, Broker.after]
    cases b.step auth ev with
    | none => rfl
    | some r => exact ih r.1

open Classical in
/-- What an event does to the session of one client. -/
theorem step_session {auth : IdentityProvider} {b b' : Broker} {ev : ClientEvent} {out : Outputs} (c : ClientId)
    (h : b.step auth ev = some (b', out)) :
    b'.session c = if ChangesSession auth c ev then (match ev with | .connected _ _ tx => some tx | _ => none) else b.session c := by
  cases ev with
  | connected p addr tx =>
    simp only [Broker.step] at h
    cases hl : login auth p <;> rw [hl] at h <;> simp only [Option.some.injEq, Prod.mk.injEq, reduceCtorEq] at h
    · obtain ⟨rfl, _⟩ := h
      simp [ChangesSession, hl, eq_comm]
    · obtain ⟨rfl, _⟩ := h
      simp [ChangesSession, hl]
  | controlPacket id p tx =>
    cases p <;> simp only [Broker.step, Broker.packet, Option.some.injEq, Prod.mk.injEq] at h <;> obtain ⟨rfl, _⟩ := h
    case disconnect => simp [ChangesSession, Broker.forget, SubOp.client, eq_comm]
    all_goals simp [ChangesSession]
  | disconnected id =>
    simp only [Broker.step, Option.some.injEq, Prod.mk.injEq] at h
    obtain ⟨rfl, _⟩ := h
    simp [ChangesSession]
  | connectionLost id =>
    simp only [Broker.step, Option.some.injEq, Prod.mk.injEq] at h
    obtain ⟨rfl, _⟩ := h
    simp [ChangesSession, Broker.forget, SubOp.client, eq_comm]

theorem reachedOn_append {auth : IdentityProvider} {evs : List ClientEvent} {ev : ClientEvent} {c : ClientId} {tx : ConnId} :
    ReachedOn auth (evs ++ [ev]) c tx ↔
      (∃ p addr, ev = .connected p addr tx ∧ p.clientId = c ∧ login auth p = .accepted)
      ∨ (¬ ChangesSession auth c ev ∧ ReachedOn auth evs c tx) := by
  constructor
  · rintro ⟨pre, p, addr, post, he, h1, h2, h3⟩
    rcases List.eq_nil_or_concat post with rfl | ⟨post', x, rfl⟩
    · have := List.append_inj_right' he rfl
      simp only [List.cons.injEq, and_true] at this
      exact .inl ⟨p, addr, this, h1, h2⟩
    · rw [List.concat_eq_append, ← List.cons_append, ← List.append_assoc] at he
      have hx := List.append_inj_right' he rfl
      have hp := List.append_inj_left' he rfl
      simp only [List.cons.injEq, and_true] at hx
      subst hx
      refine .inr ⟨h3 _ (by simp), pre, p, addr, post', hp, h1, h2, fun e he => h3 e (by simp [he])⟩
  · rintro (⟨p, addr, rfl, h1, h2⟩ | ⟨hn, pre, p, addr, post, rfl, h1, h2, h3⟩)
    · exact ⟨evs, p, addr, [], rfl, h1, h2, by simp⟩
    · refine ⟨pre, p, addr, post ++ [ev], by simp, h1, h2, ?_⟩
      intro e he
      simp only [List.mem_append, List.mem_singleton] at he
      rcases he with he | rfl
      · exact h3 e he
      · exact hn

theorem after_session {auth : IdentityProvider} {evs : List ClientEvent} {b : Broker} (h : Broker.start.after auth evs = some b)
    (c : ClientId) (tx : ConnId) : b.session c = some tx ↔ ReachedOn auth evs c tx := by
  match hl : evs.length with
  | 0 =>
    rw [List.eq_nil_of_length_eq_zero hl] at h ⊢
    simp only [Broker.after, Option.some.injEq] at h
    subst h
    constructor
    · intro h; cases h
    · rintro ⟨pre, p, addr, post, he, _⟩; simp at he
  | n + 1 =>
    obtain ⟨evs', ev, rfl⟩ : ∃ evs' ev, evs = evs' ++ [ev] := by
      have hne : evs ≠ [] := by intro hc; simp [hc] at hl
      exact ⟨evs.dropLast, evs.getLast hne, (List.dropLast_concat_getLast hne).symm⟩
    rw [after_append] at h
    cases hb : Broker.start.after auth evs' with
    | none => rw [hb] at h; cases h
    | some b1 =>
      rw [hb, Option.bind_some, Broker.after] at h
      cases hs : b1.step auth ev with
      | none => rw [hs] at h; cases h
      | some r =>
        obtain ⟨b2, out⟩ := r
        rw [hs] at h
        simp only [Broker.after, Option.some.injEq] at h
        subst h
        have ih := after_session hb c tx
        rw [step_session c hs, reachedOn_append, ← ih]
        by_cases hc : ChangesSession auth c ev
        · simp only [hc, ↓reduceIte, not_true_eq_false, false_and, or_false]
          cases ev with
          | connected p addr tx' =>
            simp only [Option.some.injEq]
            constructor
            · rintro rfl; exact ⟨p, addr, rfl, hc.1, hc.2⟩
            · rintro ⟨_, _, he, _⟩; cases he; rfl
          | _ => simp
        · simp only [hc, ↓reduceIte, not_false_eq_true, true_and]
          constructor
          · exact .inr
          · rintro (⟨p, addr, rfl, h1, h2⟩ | h)
            · exact absurd ⟨h1, h2⟩ hc
            · exact h
termination_by evs.length
decreasing_by simp at *; omega

end Ratel
