/-
With more subscriptions the sequential broker sends more.
-/
import Verif.Spec.Asking
import Verif.Proofs.Races

namespace Ratel

open Spec

namespace Asking

/-- The same sessions, and at least the same subscriptions. -/
structure AtLeast (b b' : Broker) : Prop where
  session : ∀ c, b.session c = b'.session c
  subs : ∀ e, b.subs.count e ≤ b'.subs.count e

theorem sum_le (f : ClientId × String → Nat) (l l' : Entries) (h : ∀ e, l.count e ≤ l'.count e) : (l.map f).sum ≤ (l'.map f).sum := by
  induction l generalizing l' with
  | nil => simp
  | cons a l ih =>
    have ha : a ∈ l' := List.count_pos_iff.mp (by have := h a; rw [List.count_cons_self] at this; omega)
    have hp := List.perm_cons_erase ha
    rw [(hp.map f).sum_nat, List.map_cons, List.map_cons, List.sum_cons, List.sum_cons]
    refine Nat.add_le_add_left (ih _ fun e => ?_) _
    have := h e
    rw [hp.count_eq e, List.count_cons, List.count_cons] at this
    omega

theorem AtLeast.copies {b b' : Broker} (h : AtLeast b b') (d : ConnId) (t : String) : b.copiesTo d t ≤ b'.copiesTo d t := by
  unfold Broker.copiesTo
  refine sum_le _ _ _ fun e => ?_
  by_cases hp : b.session e.1 = some d
  · rw [List.count_filter (by simpa using hp), List.count_filter (by rw [← h.session]; simpa using hp)]
    exact h.subs e
  · rw [List.count_eq_zero.mpr fun hm => hp (by simpa using (List.mem_filter.mp hm).2)]
    omega

theorem AtLeast.sent {b b' : Broker} (h : AtLeast b b') (auth : IdentityProvider) (ev : ClientEvent) (d : ConnId) :
    (Races.sent auth ev b d).Sublist (Races.sent auth ev b' d) := by
  cases ev with
  | controlPacket id p tx =>
    cases p with
    | publish q =>
      simp only [Races.sent]
      exact List.replicate_sublist_replicate _ |>.mpr (h.copies d _)
    | _ => simp only [Races.sent, h.session]; exact List.Sublist.refl _
  | _ => simp only [Races.sent, h.session]; exact List.Sublist.refl _

theorem count_mono (ev : ClientEvent) (e : ClientId × String) {n m : Nat} (h : n ≤ m) : Races.count ev e n ≤ Races.count ev e m := by
  unfold Races.count
  split <;> omega

theorem asksMore_step {ev : ClientEvent} (h : AsksMore ev) (auth : IdentityProvider) (b : Broker) :
    ∃ b' out, b.step auth ev = some (b', out) ∧ AtLeast b b' := by
  have hw : Races.Whole auth ev := by cases ev <;> first | trivial | cases h
  obtain ⟨b', h1, h2, h3⟩ := Races.step_whole hw b
  refine ⟨b', _, h1, fun c => ?_, fun e => ?_⟩
  · rw [h2]
    cases ev with
    | controlPacket id p tx => cases p <;> first | (simp [Races.session]; done) | cases h
    | _ => cases h
  · rw [h3]
    cases ev with
    | controlPacket id p tx => cases p <;> first | (simp [Races.count]; done) | cases h
    | _ => cases h

theorem AtLeast.outputs {b b' : Broker} (h : AtLeast b b') (auth : IdentityProvider) {evs evs' : List ClientEvent} (hm : WithMore evs evs') (d : ConnId) :
    (b.outputs auth evs d).Sublist (b'.outputs auth evs' d) := by
  induction hm generalizing b b' with
  | nil => exact List.Sublist.refl _
  | same ev _ ih =>
    by_cases hw : Races.Whole auth ev
    · obtain ⟨b1, h1, h2, h3⟩ := Races.step_whole hw b
      obtain ⟨b1', h1', h2', h3'⟩ := Races.step_whole hw b'
      simp only [Broker.outputs, h1, h1']
      exact (h.sent auth ev d).append (ih ⟨fun c => by rw [h2, h2', h.session], fun e => by rw [h3, h3']; exact count_mono ev e (h.subs e)⟩)
    · have hn : ∀ b : Broker, b.step auth ev = none := by
        cases ev with
        | connected p addr tx =>
          have hl : login auth p = .incomplete := Classical.byContradiction hw
          intro b
          simp [Broker.step, hl]
        | _ => exact absurd trivial hw
      simp [Broker.outputs, hn]
  | more ev ha _ ih =>
    obtain ⟨b1, out, h1, h2⟩ := asksMore_step ha auth b'
    simp only [Broker.outputs, h1]
    exact (ih ⟨fun c => by rw [h.session, h2.session], fun e => Nat.le_trans (h.subs e) (h2.subs e)⟩).trans (List.sublist_append_right _ _)

end Asking

end Ratel
