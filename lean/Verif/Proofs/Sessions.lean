/-
The session repository as a map, and its bookkeeping.
-/
import Verif.Proofs.Broker

namespace Ratel

open Spec

namespace AssocMap

variable {V : Type}

/-- The keys of a map. -/
def keys (m : AssocMap V) : List String := m.map Prod.fst

theorem mem_keys_iff (m : AssocMap V) (k : String) : k ∈ m.keys ↔ (m.get? k).isSome := by
  induction m with
  | nil => simp [keys, get?]
  | cons e r ih =>
    obtain ⟨k', v⟩ := e
    have ih' : k ∈ r.map Prod.fst ↔ (get? r k).isSome := ih
    simp only [keys, List.map_cons, List.mem_cons, get?]
    by_cases h : k' = k
    · simp [h]
    · simp [h, ih', Ne.symm h]

theorem keys_insert (m : AssocMap V) (k : String) (v : V) :
    (m.insert k v).keys = if k ∈ m.keys then m.keys else m.keys ++ [k] := by
  induction m with
  | nil => simp [insert, keys]
  | cons e r ih =>
    obtain ⟨k', v'⟩ := e
    by_cases h : k' = k
    · subst h; simp [insert, keys]
    · simp only [keys] at ih
      simp only [insert, h, ↓reduceIte, keys, List.map_cons, ih, List.mem_cons, Ne.symm h, false_or]
      by_cases hk : k ∈ r.map Prod.fst <;> simp [hk]

theorem keys_erase (m : AssocMap V) (k : String) : (m.erase k).keys = m.keys.filter (· ≠ k) := by
  induction m with
  | nil => rfl
  | cons e r ih =>
    obtain ⟨k', v'⟩ := e
    simp only [keys] at ih
    by_cases h : k' = k
    · subst h; simp [erase, keys, ih]
    · simp [erase, h, keys, ih]

theorem nodup_insert {m : AssocMap V} (h : m.keys.Nodup) (k : String) (v : V) : (m.insert k v).keys.Nodup := by
  rw [keys_insert]
  split
  · exact h
  · next hk =>
    rw [List.nodup_append]
    exact ⟨h, by simp, by intro a ha b hb hab; simp at hb; subst hb; exact hk (hab ▸ ha)⟩

theorem nodup_erase {m : AssocMap V} (h : m.keys.Nodup) (k : String) : (m.erase k).keys.Nodup := by
  rw [keys_erase]; exact h.filter _

/-- With distinct keys, the entries are exactly the bindings. -/
theorem mem_iff {m : AssocMap V} (h : m.keys.Nodup) (k : String) (v : V) : (k, v) ∈ m ↔ m.get? k = some v := by
  induction m with
  | nil => simp [get?]
  | cons e r ih =>
    obtain ⟨k', v'⟩ := e
    have h' := List.nodup_cons.mp h
    have ih := ih h'.2
    by_cases hk : k' = k
    · subst hk
      simp only [List.mem_cons, Prod.mk.injEq, true_and, get?, ↓reduceIte, Option.some.injEq]
      constructor
      · rintro (rfl | hm)
        · rfl
        · exact absurd (List.mem_map_of_mem hm) h'.1
      · exact fun h => .inl h.symm
    · simp [get?, hk, Ne.symm hk, ih]

end AssocMap

/-- Every session is stored once, under its own client id. -/
structure SessionsOk (r : SessionRepository) : Prop where
  nodup : r.sessions.keys.Nodup
  own : ∀ c s, r.get c = some s → s.clientId = c

theorem sessionsOk_default : SessionsOk SessionRepository.default where
  nodup := by simp [SessionRepository.default, AssocMap.keys]
  own := by intro c s h; cases h

theorem SessionsOk.insert {r : SessionRepository} (h : SessionsOk r) (s : Session) : SessionsOk (r.insert s) where
  nodup := AssocMap.nodup_insert h.nodup _ _
  own := by
    intro c s' hs
    simp only [SessionRepository.insert, SessionRepository.get, AssocMap.get?_insert] at hs
    by_cases hc : c = s.clientId
    · simp only [hc, ↓reduceIte, Option.some.injEq] at hs; rw [← hs, hc]
    · simp only [hc, ↓reduceIte] at hs; exact h.own c s' hs

theorem SessionsOk.delete {r : SessionRepository} (h : SessionsOk r) (c : ClientId) : SessionsOk (r.delete c).2 where
  nodup := AssocMap.nodup_erase h.nodup _
  own := by
    intro c' s hs
    simp only [SessionRepository.delete, SessionRepository.get, AssocMap.get?_erase] at hs
    by_cases hc : c' = c
    · simp [hc] at hs
    · simp only [hc, ↓reduceIte] at hs; exact h.own c' s hs

/-- Sessions after a messaging operation. -/
theorem exec_sessionsOk (op : MessagingOperation) {m : MessagingService} (h : SessionsOk m.sessions) :
    SessionsOk (MessagingService.exec op m).2.2.sessions := by
  cases op with
  | sessionInsert s => exact h.insert s
  | connectionLost c => exact h.delete c
  | connectionDisconnected c => exact h.delete c
  | _ => exact h

theorem handle_sessionsOk (auth : IdentityProvider) (now : Instant) {m m' : MessagingService} (h : SessionsOk m.sessions) (ev : ClientEvent)
    {sends : List (ConnId × ServerEvent)} (hh : Handler.handle auth now m ev = some (m', sends)) : SessionsOk m'.sessions := by
  cases ev with
  | connected p addr tx =>
    simp only [Handler.handle, Handler.onConnect, MessagingService.request, MessagingService.exec] at hh
    cases hu : p.userName with
    | none => rw [hu] at hh; cases hh; exact h.insert _
    | some u =>
      cases hp : p.password with
      | none => rw [hu, hp] at hh; cases hh
      | some pw =>
        rw [hu, hp] at hh
        dsimp only at hh
        cases ha : auth u pw with
        | error e => rw [ha] at hh; cases hh; exact h
        | ok _ => rw [ha] at hh; cases hh; exact h.insert _
  | controlPacket id p tx =>
    cases p with
    | subscribe s => cases hh; rw [subscribeAll_sessions]; exact h
    | pingReq =>
      simp only [Handler.handle, Handler.onPacket, Handler.onPingReq, MessagingService.request, MessagingService.exec] at hh
      cases he : m.sessionExists id <;> rw [he] at hh <;> cases hh <;> exact h
    | disconnect => cases hh; exact h.delete id
    | _ => cases hh; exact h
  | disconnected id => cases hh; exact h
  | connectionLost id => cases hh; exact h.delete id

theorem serve_sessionsOk (auth : IdentityProvider) (h : List (ClientEvent × Instant)) {m m' : MessagingService} (hm : SessionsOk m.sessions)
    (hs : serve auth m h = some m') : SessionsOk m'.sessions := by
  induction h generalizing m with
  | nil => simp only [serve, Option.some.injEq] at hs; subst hs; exact hm
  | cons e h ih =>
    obtain ⟨ev, now⟩ := e
    rw [serve] at hs
    cases hh : Handler.handle auth now m ev with
    | none => rw [hh] at hs; cases hs
    | some r => rw [hh] at hs; exact ih (handle_sessionsOk auth now hm ev hh) hs

/-! ### Histories of messaging operations -/

/-- The service after some operations. -/
def execAll (ops : List MessagingOperation) (m : MessagingService) : MessagingService :=
  ops.foldl (fun m op => (MessagingService.exec op m).2.2) m

/-- After these operations the client is connected: its session was inserted and not removed since. -/
def ConnectedAfter (ops : List MessagingOperation) (c : ClientId) : Prop :=
  ∃ pre s post, ops = pre ++ .sessionInsert s :: post ∧ s.clientId = c
    ∧ ∀ op ∈ post, op ≠ .connectionLost c ∧ op ≠ .connectionDisconnected c

theorem exec_get_isSome (op : MessagingOperation) (m : MessagingService) (c : ClientId) :
    ((MessagingService.exec op m).2.2.sessions.get c).isSome = true ↔
      ((∃ s, op = .sessionInsert s ∧ s.clientId = c)
        ∨ ((op ≠ .connectionLost c ∧ op ≠ .connectionDisconnected c) ∧ (m.sessions.get c).isSome = true)) := by
  have hdel : ∀ x : ClientId, ((m.sessions.delete x).2.get c).isSome = true ↔ (x ≠ c ∧ (m.sessions.get c).isSome = true) := by
    intro x
    simp only [SessionRepository.delete, SessionRepository.get, AssocMap.get?_erase]
    by_cases h : c = x
    · subst h; simp
    · simp [h, Ne.symm h]
  cases op with
  | sessionInsert s =>
    show ((m.sessions.insert s).get c).isSome = true ↔ _
    simp only [SessionRepository.insert, SessionRepository.get, AssocMap.get?_insert]
    by_cases h : c = s.clientId
    · subst h; simp
    · simp [h, Ne.symm h]
  | connectionLost x =>
    refine (hdel x).trans ?_
    simp
  | connectionDisconnected x =>
    refine (hdel x).trans ?_
    simp
  | _ => simp [MessagingService.exec, MessagingService.subscribe, MessagingService.unsubscribe]

theorem connectedAfter_append (ops : List MessagingOperation) (op : MessagingOperation) (c : ClientId) :
    ConnectedAfter (ops ++ [op]) c ↔
      (∃ s, op = .sessionInsert s ∧ s.clientId = c)
      ∨ ((op ≠ .connectionLost c ∧ op ≠ .connectionDisconnected c) ∧ ConnectedAfter ops c) := by
  constructor
  · rintro ⟨pre, s, post, he, h1, h3⟩
    rcases List.eq_nil_or_concat post with rfl | ⟨post', x, rfl⟩
    · have := List.append_inj_right' he rfl
      simp only [List.cons.injEq, and_true] at this
      exact .inl ⟨s, this, h1⟩
    · rw [List.concat_eq_append, ← List.cons_append, ← List.append_assoc] at he
      have hx := List.append_inj_right' he rfl
      have hp := List.append_inj_left' he rfl
      simp only [List.cons.injEq, and_true] at hx
      subst hx
      exact .inr ⟨h3 _ (by simp), pre, s, post', hp, h1, fun e he => h3 e (by simp [he])⟩
  · rintro (⟨s, rfl, h1⟩ | ⟨hn, pre, s, post, rfl, h1, h3⟩)
    · exact ⟨ops, s, [], rfl, h1, by simp⟩
    · refine ⟨pre, s, post ++ [op], by simp, h1, ?_⟩
      intro e he
      simp only [List.mem_append, List.mem_singleton] at he
      rcases he with he | rfl
      · exact h3 e he
      · exact hn

theorem execAll_get (ops : List MessagingOperation) (c : ClientId) :
    ((execAll ops MessagingService.new).sessions.get c).isSome = true ↔ ConnectedAfter ops c := by
  match hl : ops.length with
  | 0 =>
    rw [List.eq_nil_of_length_eq_zero hl]
    constructor
    · intro h; cases h
    · rintro ⟨pre, s, post, he, _⟩; simp at he
  | n + 1 =>
    obtain ⟨ops', op, rfl⟩ : ∃ ops' op, ops = ops' ++ [op] := by
      have hne : ops ≠ [] := by intro hc; simp [hc] at hl
      exact ⟨ops.dropLast, ops.getLast hne, (List.dropLast_concat_getLast hne).symm⟩
    rw [connectedAfter_append, ← execAll_get ops' c, execAll, List.foldl_append]
    exact exec_get_isSome op _ c
termination_by ops.length
decreasing_by simp at *; omega

theorem execAll_sessionsOk (ops : List MessagingOperation) {m : MessagingService} (h : SessionsOk m.sessions) :
    SessionsOk (execAll ops m).sessions := by
  induction ops generalizing m with
  | nil => exact h
  | cons op ops ih => exact ih (exec_sessionsOk op h)

end Ratel
