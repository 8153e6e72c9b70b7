/-
The sequential broker looks at nothing but the topic of a message, and forgets the message.
-/
import Verif.Spec.Opaque
import Verif.Proofs.SysBroker

namespace Ratel

open Spec

namespace Opaque

/-- An event that is no message sends no messages. -/
theorem step_plain {auth : IdentityProvider} {b b' : Broker} {ev : ClientEvent} {out : Outputs} (h : b.step auth ev = some (b', out))
    (hp : ∀ id q tx, ev ≠ .controlPacket id (.publish q) tx) (d : ConnId) :
    ∀ e ∈ out d, ∀ q, e ≠ .controlPacket (.publish q) := by
  have key : ∀ (tx : ConnId) (es : List ServerEvent), (∀ e ∈ es, ∀ q, e ≠ .controlPacket (.publish q)) →
      ∀ e ∈ Spec.to tx es d, ∀ q, e ≠ .controlPacket (.publish q) := by
    intro tx es hes e he
    unfold Spec.to at he
    split at he
    · exact hes e he
    · cases he
  cases ev with
  | connected p addr tx =>
    simp only [Broker.step] at h
    cases hl : login auth p <;> rw [hl] at h <;> simp only [Option.some.injEq, Prod.mk.injEq, reduceCtorEq] at h
    · rw [← h.2]; exact key _ _ (by simp)
    · rw [← h.2]; exact key _ _ (by simp)
  | disconnected id => simp only [Broker.step, Option.some.injEq, Prod.mk.injEq] at h; rw [← h.2]; simp [nothing]
  | connectionLost id => simp only [Broker.step, Option.some.injEq, Prod.mk.injEq] at h; rw [← h.2]; simp [nothing]
  | controlPacket id p tx =>
    simp only [Broker.step, Option.some.injEq] at h
    cases p with
    | publish q => exact absurd rfl (hp id q tx)
    | subscribe s => simp only [Broker.packet, Prod.mk.injEq] at h; rw [← h.2]; exact key _ _ (by simp)
    | unsubscribe u => simp only [Broker.packet, Prod.mk.injEq] at h; rw [← h.2]; exact key _ _ (by simp)
    | pingReq =>
      simp only [Broker.packet, Prod.mk.injEq] at h
      rw [← h.2]
      refine key _ _ fun e he q => ?_
      rw [List.mem_singleton.mp he]
      split <;> simp
    | _ => simp only [Broker.packet, Prod.mk.injEq] at h; rw [← h.2]; simp [nothing]

theorem withMessage_plain (g : PublishPacket → PublishPacket) {ev : ClientEvent} (hp : ∀ id q tx, ev ≠ .controlPacket id (.publish q) tx) :
    withMessage g ev = ev := by
  unfold withMessage
  split
  · exact absurd rfl (hp _ _ _)
  · rfl

theorem publishes_plain (P : PublishPacket → Bool) {ev : ClientEvent} (hp : ∀ id q tx, ev ≠ .controlPacket id (.publish q) tx) :
    publishes P ev = false := by
  unfold publishes
  split
  · exact absurd rfl (hp _ _ _)
  · rfl

theorem sentMessage_plain (g : PublishPacket → PublishPacket) {es : List ServerEvent} (h : ∀ e ∈ es, ∀ q, e ≠ .controlPacket (.publish q)) :
    es.map (sentMessage g) = es := by
  refine (List.map_congr_left fun e he => ?_).trans (List.map_id _)
  show sentMessage g e = e
  unfold sentMessage
  split
  · exact absurd rfl (h _ he _)
  · rfl

theorem carries_plain (P : PublishPacket → Bool) {es : List ServerEvent} (h : ∀ e ∈ es, ∀ q, e ≠ .controlPacket (.publish q)) :
    es.filter (fun e => !carries P e) = es := by
  refine List.filter_eq_self.mpr fun e he => ?_
  have : carries P e = false := by
    unfold carries
    split
    · exact absurd rfl (h _ he _)
    · rfl
  simp [this]

/-- Exchanging messages for others on the same topics exchanges what is sent. -/
theorem outputs_map (auth : IdentityProvider) (g : PublishPacket → PublishPacket) (hg : ∀ q, (g q).message.topic = q.message.topic)
    (evs : List ClientEvent) (b : Broker) (d : ConnId) :
    b.outputs auth (evs.map (withMessage g)) d = (b.outputs auth evs d).map (sentMessage g) := by
  induction evs generalizing b with
  | nil => rfl
  | cons ev evs ih =>
    rw [List.map_cons, Broker.outputs, Broker.outputs]
    by_cases hp : ∃ id q tx, ev = .controlPacket id (.publish q) tx
    · obtain ⟨id, q, tx, rfl⟩ := hp
      simp only [withMessage, Broker.step, Broker.packet, hg, ih, List.map_append, List.map_replicate, sentMessage]
    · have hp' : ∀ id q tx, ev ≠ .controlPacket id (.publish q) tx := fun id q tx he => hp ⟨id, q, tx, he⟩
      rw [withMessage_plain g hp']
      cases hb : b.step auth ev with
      | none => rfl
      | some r =>
        obtain ⟨b', out⟩ := r
        simp only [ih, List.map_append, sentMessage_plain g (step_plain hb hp' d)]

/-- Leaving messages out leaves them out of what is sent. -/
theorem outputs_filter (auth : IdentityProvider) (P : PublishPacket → Bool) (evs : List ClientEvent) (b : Broker) (d : ConnId) :
    b.outputs auth (evs.filter fun ev => !publishes P ev) d = (b.outputs auth evs d).filter fun e => !carries P e := by
  induction evs generalizing b with
  | nil => rfl
  | cons ev evs ih =>
    by_cases hp : ∃ id q tx, ev = .controlPacket id (.publish q) tx
    · obtain ⟨id, q, tx, rfl⟩ := hp
      have hc : carries P (.controlPacket (.publish q)) = P q := rfl
      rw [Broker.outputs]
      simp only [Broker.step, Broker.packet, List.filter_append, List.filter_replicate, hc]
      by_cases hP : P q = true
      · rw [List.filter_cons_of_neg (by simp [publishes, hP]), ih]
        simp [hP]
      · rw [List.filter_cons_of_pos (by simp [publishes, hP]), Broker.outputs]
        simp only [Broker.step, Broker.packet, ih]
        simp [hP]
    · have hp' : ∀ id q tx, ev ≠ .controlPacket id (.publish q) tx := fun id q tx he => hp ⟨id, q, tx, he⟩
      rw [List.filter_cons_of_pos (by simp [publishes_plain P hp']), Broker.outputs, Broker.outputs]
      cases hb : b.step auth ev with
      | none => rfl
      | some r =>
        obtain ⟨b', out⟩ := r
        simp only [ih, List.filter_append, carries_plain P (step_plain hb hp' d)]

end Opaque

end Ratel
