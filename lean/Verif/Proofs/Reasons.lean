/-
What is sent is what there is a reason to send.
-/
import Verif.Spec.Reasons
import Verif.Proofs.Orders

namespace Ratel.Reasons

open Spec Sys

theorem good_iff {auth : IdentityProvider} {p : ConnectPacket} : login auth p = .accepted ↔ GoodLogin auth p := by
  unfold login GoodLogin
  cases hu : p.userName with
  | none => simp
  | some u =>
    cases hp : p.password with
    | none => simp
    | some pw => cases ha : auth u pw <;> simp [ha]

theorem bad_iff {auth : IdentityProvider} {p : ConnectPacket} : login auth p = .refused ↔ BadLogin auth p := by
  unfold login BadLogin
  cases hu : p.userName with
  | none => simp
  | some u =>
    cases hp : p.password with
    | none => simp
    | some pw => cases ha : auth u pw <;> simp [ha]

/-- What the sequential broker sends for an event. -/
theorem sends_step {auth : IdentityProvider} {b b' : Broker} {ev : ClientEvent} {out : Outputs} (h : b.step auth ev = some (b', out)) {d : ConnId}
    {e : ServerEvent} (he : Sends auth b d ev e) : e ∈ out d := by
  cases he with
  | accepted p addr hl => simp only [Broker.step, hl, Option.some.injEq, Prod.mk.injEq] at h; rw [← h.2]; simp [Spec.to]
  | refused p addr hl => simp only [Broker.step, hl, Option.some.injEq, Prod.mk.injEq] at h; rw [← h.2]; simp [Spec.to]
  | away p addr hl => simp only [Broker.step, hl, Option.some.injEq, Prod.mk.injEq] at h; rw [← h.2]; simp [Spec.to]
  | publish id q tx x hx hs hm =>
    simp only [Broker.step, Broker.packet, Option.some.injEq, Prod.mk.injEq] at h
    rw [← h.2]
    refine List.mem_replicate.mpr ⟨fun h0 => ?_, rfl⟩
    have hw := ways_pos.mpr hm
    have h1 : ways x.2 q.message.topic ∈ (b.subs.filter fun e => b.session e.1 = some d).map fun e => ways e.2 q.message.topic :=
      List.mem_map_of_mem (f := fun e : ClientId × String => ways e.2 q.message.topic) (List.mem_filter.mpr ⟨hx, by simpa using hs⟩)
    have h2 := List.sum_eq_zero_iff_forall_eq_nat.mp h0 _ h1
    omega
  | subAck id s => simp only [Broker.step, Broker.packet, Option.some.injEq, Prod.mk.injEq] at h; rw [← h.2]; simp [Spec.to]
  | unsubAck id u => simp only [Broker.step, Broker.packet, Option.some.injEq, Prod.mk.injEq] at h; rw [← h.2]; simp [Spec.to]
  | pingResp id hs => simp only [Broker.step, Broker.packet, hs, Option.some.injEq, Prod.mk.injEq] at h; rw [← h.2]; simp [Spec.to]
  | expired id hs => simp only [Broker.step, Broker.packet, hs, Option.some.injEq, Prod.mk.injEq] at h; rw [← h.2]; simp [Spec.to]

theorem outputs_iff {auth : IdentityProvider} {evs : List ClientEvent} (h : (Broker.start.after auth evs).isSome) {d : ConnId} {e : ServerEvent} :
    e ∈ Broker.start.outputs auth evs d
      ↔ ∃ pre ev post b, evs = pre ++ ev :: post ∧ Broker.start.after auth pre = some b ∧ Sends auth b d ev e := by
  refine ⟨outputs_mem, ?_⟩
  rintro ⟨pre, ev, post, b, rfl, h1, h2⟩
  rw [after_append, h1, Option.bind_some, Broker.after] at h
  rw [outputs_append, h1]
  refine List.mem_append_right _ ?_
  show e ∈ b.outputs auth (ev :: post) d
  rw [Broker.outputs]
  cases hs : b.step auth ev with
  | none => rw [hs] at h; cases h
  | some r =>
    obtain ⟨b', out⟩ := r
    exact List.mem_append_left _ (sends_step hs h2)

theorem before {auth : IdentityProvider} {pre post : List ClientEvent} (h : (Broker.start.after auth (pre ++ post)).isSome) :
    ∃ b, Broker.start.after auth pre = some b := by
  obtain ⟨b', hb⟩ := Option.isSome_iff_exists.mp h
  obtain ⟨b, hb, _⟩ := after_prefix hb
  exact ⟨b, hb⟩

theorem map_codes (fs : List Subscription) : (fs.map fun _ => SubAckReturnCode.successQoS0) = List.replicate fs.length .successQoS0 := by
  induction fs with
  | nil => rfl
  | cons f fs ih => rw [List.map_cons, ih]; rfl

theorem reason_iff {auth : IdentityProvider} {evs : List ClientEvent} (h : (Broker.start.after auth evs).isSome) {d : ConnId} {e : ServerEvent} :
    e ∈ Broker.start.outputs auth evs d ↔ Reason auth evs d e := by
  rw [outputs_iff h]
  constructor
  · rintro ⟨pre, ev, post, b, rfl, h1, h2⟩
    cases h2 with
    | accepted p addr hl => exact .welcome p addr (by simp) (good_iff.mp hl)
    | refused p addr hl => exact .refusal p addr (by simp) (bad_iff.mp hl)
    | away p addr hl => exact .dismissal p addr (by simp) (bad_iff.mp hl)
    | publish id q tx x hx hs hm =>
      refine .message q ⟨pre, id, tx, post, rfl, x.1, x.2, ?_, (after_session h1 _ _).mp hs, hm⟩
      rw [after_subs h1] at hx
      exact hx
    | subAck id s =>
      rw [map_codes]
      exact .subscribed id s.packetId s.subscriptions (by simp)
    | unsubAck id u => exact .unsubscribed id u.packetId u.topics (by simp)
    | pingResp id hs =>
      obtain ⟨tx, htx⟩ := Option.isSome_iff_exists.mp hs
      exact .ping id pre post tx rfl ((after_session h1 _ _).mp htx)
    | expired id hs =>
      refine .stray id pre post rfl fun tx hr => ?_
      rw [(after_session h1 _ _).mpr hr] at hs
      cases hs
  · have mem : ∀ ev, ev ∈ evs → (∀ b, Sends auth b d ev e) →
        ∃ pre ev post b, evs = pre ++ ev :: post ∧ Broker.start.after auth pre = some b ∧ Sends auth b d ev e := by
      intro ev hm hs
      obtain ⟨pre, post, rfl⟩ := List.append_of_mem hm
      obtain ⟨b, hb⟩ := before h
      exact ⟨pre, ev, post, b, rfl, hb, hs b⟩
    intro hr
    cases hr with
    | message m hw =>
      obtain ⟨pre, id, tx, post, rfl, c, f, h1, h2, h3⟩ := hw
      obtain ⟨b, hb⟩ := before h
      refine ⟨pre, _, post, b, rfl, hb, .publish id m tx (c, f) ?_ ((after_session hb _ _).mpr h2) h3⟩
      rw [after_subs hb]
      exact h1
    | welcome p a hm hl => exact mem _ hm fun b => .accepted p a (good_iff.mpr hl)
    | refusal p a hm hl => exact mem _ hm fun b => .refused p a (bad_iff.mpr hl)
    | dismissal p a hm hl => exact mem _ hm fun b => .away p a (bad_iff.mpr hl)
    | subscribed id i fs hm =>
      rw [← map_codes] at mem ⊢
      exact mem _ hm fun b => .subAck id ⟨i, fs⟩
    | unsubscribed id i ts hm => exact mem _ hm fun b => .unsubAck id ⟨i, ts⟩
    | ping id pre post tx he hr =>
      subst he
      obtain ⟨b, hb⟩ := before h
      exact ⟨pre, _, post, b, rfl, hb, .pingResp id (by rw [(after_session hb _ _).mpr hr]; rfl)⟩
    | stray id pre post he hr =>
      subst he
      obtain ⟨b, hb⟩ := before h
      refine ⟨pre, _, post, b, rfl, hb, .expired id ?_⟩
      cases hs : b.session id with
      | none => rfl
      | some tx => exact absurd ((after_session hb _ _).mp hs) (hr tx)

/-- The same for an execution at rest. -/
theorem delivered_iff {env : Env} {peers : ConnId → Peer} {sched : List Step} (hi : (run env (init peers) sched).handler = .idle) {d : ConnId}
    {e : ServerEvent} :
    e ∈ ((run env (init peers) sched).conns d).delivered ↔ Reason env.auth ((run env (init peers) sched).log.map Prod.fst) d e := by
  obtain ⟨b, hb, _, ho⟩ := idle_rest (inv_run env peers sched).serves hi
  rw [ho]
  exact reason_iff (by rw [hb]; rfl)

end Ratel.Reasons
