/-
What of the past of the sequential broker can be told from its future.
-/
import Verif.Proofs.Races

namespace Ratel

open Spec

namespace Past

/-- Every filter matches itself, as a topic. -/
theorem ways_self (f : String) : 0 < ways f f := by
  refine ways_pos.mpr (matches_iff.mpr ?_)
  generalize splitTopic f = ls
  induction ls with
  | nil => exact .done
  | cons l ls ih => exact .literal l ls ls ih

/-- States nobody can tell apart send the same, also when the broker crashes. -/
theorem alike_outputs {b b' : Broker} (h : Races.Alike b b') (auth : IdentityProvider) (evs : List ClientEvent) (d : ConnId) :
    b.outputs auth evs d = b'.outputs auth evs d := by
  induction evs generalizing b b' with
  | nil => rfl
  | cons ev evs ih =>
    by_cases hw : Races.Whole auth ev
    · obtain ⟨b1, h1, h2, h3⟩ := Races.step_whole hw b
      obtain ⟨b1', h1', h2', h3'⟩ := Races.step_whole hw b'
      have := ih (b := b1) (b' := b1') ⟨fun c => by rw [h2, h2', h.session], fun e => by rw [h3, h3', h.subs]⟩
      simp only [Broker.outputs, h1, h1', h.sent auth ev, this]
    · cases ev with
      | connected p addr tx =>
        have hl : login auth p = .incomplete := Classical.not_not.mp hw
        simp only [Broker.outputs, Broker.step, hl]
      | _ => exact absurd trivial hw

/-- A message on a topic. -/
def note (t : String) : ClientEvent := .controlPacket "" (.publish ⟨none, false, ⟨t, [], .atMostOnce, false⟩⟩) 0

/-- A CONNECT as `c`, on connection 0. -/
def coming (c : ClientId) : ClientEvent := .connected ⟨.mqtt3, c, 0, true, none, none, none⟩ ⟨0, 0⟩ 0

theorem outputs_note (auth : IdentityProvider) (b : Broker) (t : String) (d : ConnId) : (b.outputs auth [note t] d).length = b.copiesTo d t := by
  simp [note, Broker.outputs, Broker.step, Broker.packet]

/-- From what two states send under all circumstances one can tell on which connections clients are reached. -/
theorem same_session {auth : IdentityProvider} {b b' : Broker} (h : ∀ evs d, b.outputs auth evs d = b'.outputs auth evs d) (c : ClientId) :
    b.session c = b'.session c := by
  have key : ∀ d, b.session c = some d ↔ b'.session c = some d := by
    intro d
    have copies : ∀ b : Broker, (b.outputs auth [.controlPacket c (.subscribe ⟨0, [⟨"", .atMostOnce⟩]⟩) 0, note ""] d).length
        = (if d = 0 then 1 else 0) + (b.copiesTo d "" + if b.session c = some d then ways "" "" else 0) := by
      intro b
      rw [Broker.outputs]
      simp only [Broker.step, Broker.packet, List.length_append, outputs_note]
      congr 1
      · by_cases hd : d = 0 <;> simp [Spec.to, hd]
      · unfold Broker.copiesTo
        by_cases hs : b.session c = some d <;> simp [hs]
    have h1 := congrArg List.length (h [note ""] d)
    have h2 := congrArg List.length (h [.controlPacket c (.subscribe ⟨0, [⟨"", .atMostOnce⟩]⟩) 0, note ""] d)
    rw [outputs_note, outputs_note] at h1
    rw [copies, copies, h1] at h2
    have hw := ways_self ""
    by_cases hs : b.session c = some d <;> by_cases hs' : b'.session c = some d <;> simp only [hs, hs', if_true, if_false] at h2 ⊢ <;> omega
  cases hb : b.session c with
  | some d => exact ((key d).mp hb).symm
  | none =>
    cases hb' : b'.session c with
    | none => rfl
    | some d => rw [(key d).mpr hb'] at hb; cases hb

/-- And how often every subscription is held. -/
theorem same_count {auth : IdentityProvider} {b b' : Broker} (h : ∀ evs d, b.outputs auth evs d = b'.outputs auth evs d) (c : ClientId) (f : String) :
    b.subs.count (c, f) = b'.subs.count (c, f) := by
  have copies : ∀ (b : Broker) (N : Nat), b.subs.count (c, f) ≤ N →
      (b.outputs auth [coming c, note f] 0).length
        = (b.outputs auth [coming c, .controlPacket c (.unsubscribe ⟨0, List.replicate N f⟩) 1, note f] 0).length + b.subs.count (c, f) * ways f f := by
    intro b N hN
    rw [Broker.outputs, Broker.outputs]
    simp only [coming, Broker.step, login, Broker.outputs, List.length_append, outputs_note, Broker.packet, note, List.length_replicate]
    have hp : b.subs.Perm (List.replicate (b.subs.count (c, f)) (c, f) ++ b.subs.unsubscribe c (List.replicate N f)) := by
      refine List.perm_iff_count.mpr fun e => ?_
      obtain ⟨c', f'⟩ := e
      rw [List.count_append, Entries.count_unsubscribe]
      by_cases hc : c' = c
      · subst hc
        by_cases hf : f' = f
        · subst hf
          simp
          omega
        · have : (c', f) ≠ (c', f') := fun he => hf (congrArg Prod.snd he).symm
          have h0 : List.count f' (List.replicate N f) = 0 := List.count_eq_zero.mpr fun hm => hf (List.eq_of_mem_replicate hm)
          have h1 : List.count (c', f') (List.replicate (b.subs.count (c', f)) (c', f)) = 0 :=
            List.count_eq_zero.mpr fun hm => this (List.eq_of_mem_replicate hm).symm
          rw [h0, h1]
          simp
      · have h1 : List.count (c', f') (List.replicate (b.subs.count (c, f)) (c, f)) = 0 :=
          List.count_eq_zero.mpr fun hm => hc (congrArg Prod.fst (List.eq_of_mem_replicate hm))
        rw [h1, if_neg hc]
        simp
    have hs : Broker.copiesTo ⟨fun c_1 => if c_1 = c then some 0 else b.session c_1, b.subs⟩ 0 f
        = b.subs.count (c, f) * ways f f
          + Broker.copiesTo ⟨fun c_1 => if c_1 = c then some 0 else b.session c_1, b.subs.unsubscribe c (List.replicate N f)⟩ 0 f := by
      unfold Broker.copiesTo
      rw [List.Perm.sum_nat ((hp.filter _).map _)]
      rw [List.filter_append, List.map_append, List.sum_append]
      congr 1
      generalize b.subs.count (c, f) = n
      induction n with
      | zero => simp
      | succ n ih =>
        rw [List.replicate_succ, List.filter_cons_of_pos (by simp), List.map_cons, List.sum_cons, ih, Nat.succ_mul]
        exact Nat.add_comm _ _
    simp only [Spec.to, if_neg (by decide : ¬ (0 : ConnId) = 1)]
    rw [hs]
    simp
    omega
  have h1 := copies b (b.subs.count (c, f) + b'.subs.count (c, f)) (by omega)
  have h2 := copies b' (b.subs.count (c, f) + b'.subs.count (c, f)) (by omega)
  rw [h, h, h2] at h1
  exact (Nat.eq_of_mul_eq_mul_right (ways_self f) (by omega)).symm

/-- States that send the same under all circumstances are those nobody can tell apart. -/
theorem alike_iff (auth : IdentityProvider) (b b' : Broker) :
    (∀ evs d, b.outputs auth evs d = b'.outputs auth evs d) ↔ Races.Alike b b' :=
  ⟨fun h => ⟨same_session h, fun e => same_count h e.1 e.2⟩, fun h evs d => alike_outputs h auth evs d⟩

end Past

end Ratel
