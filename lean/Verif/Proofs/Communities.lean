/-
Messages that nobody subscribes to make no difference.
-/
import Verif.Proofs.Races

namespace Ratel

open Spec

/-- What is held after an event was held before or is asked for by it. -/
theorem held_step {auth : IdentityProvider} {ev : ClientEvent} {b b' : Broker} {out : Outputs} (h : b.step auth ev = some (b', out))
    {e : ClientId × String} (he : e ∈ b'.subs) :
    e ∈ b.subs ∨ ∃ id s tx, ev = .controlPacket id (.subscribe s) tx ∧ ∃ x ∈ s.subscriptions, e = (id, x.topic) := by
  have hw : Races.Whole auth ev := by
    cases ev with
    | connected p addr tx =>
      intro hl
      simp [Broker.step, hl] at h
    | _ => trivial
  obtain ⟨b'', h1, _, h3⟩ := Races.step_whole hw b
  rw [h] at h1
  obtain ⟨rfl, _⟩ : b' = b'' ∧ _ := by simpa using h1
  have hpos := List.count_pos_iff.mpr he
  rw [h3] at hpos
  by_cases hb : e ∈ b.subs
  · exact .inl hb
  · right
    rw [List.count_eq_zero.mpr hb] at hpos
    cases ev with
    | controlPacket id p tx =>
      cases p with
      | subscribe s =>
        simp only [Races.count, Nat.zero_add] at hpos
        obtain ⟨x, hx, rfl⟩ := List.mem_map.mp (List.count_pos_iff.mp hpos)
        exact ⟨id, s, tx, rfl, x, hx, rfl⟩
      | _ => simp [Races.count] at hpos
    | _ => simp [Races.count] at hpos

/-- Messages nobody subscribes to can be left out. -/
theorem outputs_unheard (auth : IdentityProvider) (R : ClientEvent → Bool) (evs : List ClientEvent) (b : Broker)
    (h : ∀ ev ∈ evs, R ev = true → ∃ id q tx, ev = .controlPacket id (.publish q) tx ∧ (∀ e ∈ b.subs, ¬ Matches e.2 q.message.topic)
      ∧ ∀ id' s tx', .controlPacket id' (.subscribe s) tx' ∈ evs → ∀ x ∈ s.subscriptions, ¬ Matches x.topic q.message.topic) (d : ConnId) :
    b.outputs auth evs d = b.outputs auth (evs.filter fun ev => !R ev) d := by
  induction evs generalizing b with
  | nil => rfl
  | cons ev evs ih =>
    by_cases hR : R ev = true
    · obtain ⟨id, q, tx, rfl, h1, h2⟩ := h ev (by simp) hR
      have hz : b.copiesTo d q.message.topic = 0 := by
        unfold Broker.copiesTo
        rw [List.sum_eq_zero_iff_forall_eq_nat]
        intro n hn
        obtain ⟨e, he, rfl⟩ := List.mem_map.mp hn
        have := h1 e (List.mem_filter.mp he).1
        rw [← ways_pos] at this
        omega
      rw [List.filter_cons_of_neg (by simpa using hR), ← ih b fun ev hev hr => ?_]
      · simp [Broker.outputs, Broker.step, Broker.packet, hz]
      · obtain ⟨id, q, tx, h1, h2, h3⟩ := h ev (by simp [hev]) hr
        exact ⟨id, q, tx, h1, h2, fun id' s tx' hm => h3 id' s tx' (by simp [hm])⟩
    · rw [List.filter_cons_of_pos (by simpa using hR)]
      cases hs : b.step auth ev with
      | none => simp [Broker.outputs, hs]
      | some x =>
        obtain ⟨b', out⟩ := x
        simp only [Broker.outputs, hs]
        rw [ih b' fun ev' hev hr => ?_]
        obtain ⟨id, q, tx, h1, h2, h3⟩ := h ev' (by simp [hev]) hr
        refine ⟨id, q, tx, h1, fun e he => ?_, fun id' s tx' hm => h3 id' s tx' (by simp [hm])⟩
        rcases held_step hs he with he | ⟨id', s, tx', rfl, x, hx, rfl⟩
        · exact h2 e he
        · exact h3 id' s tx' (by simp) x hx

end Ratel
