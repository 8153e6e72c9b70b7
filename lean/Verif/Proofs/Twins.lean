/-
Two clients with the same subscriptions in the sequential broker.
-/
import Verif.Spec.Isolation
import Verif.Proofs.Races
import Verif.Proofs.Order
import Verif.Proofs.SysMore

namespace Ratel

open Spec

namespace Twins

/-- Client `c` is reached on `d`, and nobody else is. -/
def Alone (b : Broker) (c : ClientId) (d : ConnId) : Prop := ∀ x, b.session x = some d ↔ x = c

theorem Alone.copies {b : Broker} {c : ClientId} {d : ConnId} (h : Alone b c d) (t : String) :
    b.copiesTo d t = (((b.subs.filter fun e => e.1 = c).map Prod.snd).map fun f => ways f t).sum := by
  unfold Broker.copiesTo
  rw [List.map_map]
  congr 2
  exact List.filter_congr fun e _ => by simp [h e.1]

theorem count_filters (es : Entries) (c : ClientId) (f : String) : ((es.filter fun e => e.1 = c).map Prod.snd).count f = es.count (c, f) := by
  induction es with
  | nil => rfl
  | cons e es ih =>
    obtain ⟨x, g⟩ := e
    by_cases hx : x = c
    · subst hx
      rw [List.filter_cons_of_pos (by simp), List.map_cons, List.count_cons, List.count_cons, ih]
      by_cases hg : g = f <;> simp [hg]
    · rw [List.filter_cons_of_neg (by simpa using hx), ih, List.count_cons_of_ne (fun h => hx (by injection h))]

/-- What the two have in common. -/
structure Twin (c1 c2 : ClientId) (d1 d2 : ConnId) (b : Broker) : Prop where
  fst : Alone b c1 d1
  snd : Alone b c2 d2
  same : ∀ f, b.subs.count (c1, f) = b.subs.count (c2, f)

theorem Twin.copies {c1 c2 : ClientId} {d1 d2 : ConnId} {b : Broker} (h : Twin c1 c2 d1 d2 b) (t : String) : b.copiesTo d1 t = b.copiesTo d2 t := by
  rw [h.fst.copies, h.snd.copies]
  refine List.Perm.sum_nat (List.Perm.map _ (List.perm_iff_count.mpr fun f => ?_))
  rw [count_filters, count_filters, h.same]

/-- The two do nothing but publish, and nobody else uses their connections to log in. -/
def Quiet (c1 c2 : ClientId) (d1 d2 : ConnId) (ev : ClientEvent) : Prop :=
  isPublish ev = true ∨ (clientOf ev ≠ c1 ∧ clientOf ev ≠ c2 ∧ ¬ From d1 ev ∧ ¬ From d2 ev)

theorem Alone.step {auth : IdentityProvider} {c : ClientId} {d : ConnId} {b b' : Broker} {ev : ClientEvent} (h : Alone b c d)
    (hs : ∀ x, b'.session x = if x = clientOf ev then Races.session auth ev (b.session x) else b.session x)
    (hq : isPublish ev = true ∨ clientOf ev ≠ c ∧ ¬ From d ev) : Alone b' c d := by
  intro x
  rw [hs]
  rcases hq with hp | ⟨hc, hf⟩
  · cases ev with
    | controlPacket id p tx =>
      cases p with
      | publish q => simp only [Races.session, ite_self]; exact h x
      | _ => cases hp
    | _ => cases hp
  · by_cases hx : x = clientOf ev
    · rw [if_pos hx]
      have hxc : x ≠ c := fun e => hc (hx ▸ e)
      have hno : ¬ b.session x = some d := fun e => hxc ((h x).mp e)
      refine ⟨fun hh => absurd hh ?_, fun e => absurd e hxc⟩
      cases ev with
      | connected p addr tx =>
        simp only [Races.session]
        split
        · intro e
          exact hf (by injection e)
        · exact hno
      | disconnected id => exact hno
      | connectionLost id => simp [Races.session]
      | controlPacket id p tx => cases p <;> first | exact hno | simp [Races.session]
    · rw [if_neg hx]
      exact h x

theorem messagesOf_sent {auth : IdentityProvider} {ev : ClientEvent} (b : Broker) (d : ConnId) (h : isPublish ev = false) :
    messagesOf (Races.sent auth ev b d) = [] := by
  have hto : ∀ (tx : ConnId) (l : List ServerEvent), messagesOf l = [] → messagesOf (Spec.to tx l d) = [] := fun tx l hl => by
    unfold Spec.to
    split
    · exact hl
    · rfl
  cases ev with
  | connected p addr tx =>
    simp only [Races.sent, Races.answer]
    split <;> exact hto _ _ rfl
  | disconnected id => rfl
  | connectionLost id => rfl
  | controlPacket id p tx =>
    cases p with
    | publish q => cases h
    | subscribe s => exact hto _ _ rfl
    | unsubscribe u => exact hto _ _ rfl
    | pingReq =>
      refine hto _ _ ?_
      cases (b.session (clientOf (ClientEvent.controlPacket id .pingReq tx))).isSome <;> rfl
    | _ => rfl

theorem Twin.outputs {c1 c2 : ClientId} {d1 d2 : ConnId} {b : Broker} (h : Twin c1 c2 d1 d2 b) (auth : IdentityProvider) {evs : List ClientEvent}
    (hq : ∀ ev ∈ evs, Quiet c1 c2 d1 d2 ev) : messagesOf (b.outputs auth evs d1) = messagesOf (b.outputs auth evs d2) := by
  induction evs generalizing b with
  | nil => rfl
  | cons ev evs ih =>
    cases hs : b.step auth ev with
    | none => simp only [Broker.outputs, hs]
    | some x =>
      obtain ⟨b1, out⟩ := x
      have hw : Races.Whole auth ev := by
        cases ev with
        | connected p addr tx =>
          intro hl
          simp [Broker.step, hl] at hs
        | _ => trivial
      obtain ⟨b2, h1, h2, h3⟩ := Races.step_whole hw b
      rw [hs] at h1
      obtain ⟨rfl, rfl⟩ : b1 = b2 ∧ out = _ := by simpa using h1
      have hqe := hq ev (by simp)
      have htwin : Twin c1 c2 d1 d2 b1 := by
        refine ⟨h.fst.step h2 (hqe.imp_right fun g => ⟨g.1, g.2.2.1⟩), h.snd.step h2 (hqe.imp_right fun g => ⟨g.2.1, g.2.2.2⟩), fun f => ?_⟩
        rw [h3, h3]
        rcases hqe with hp | ⟨g1, g2, _⟩
        · cases ev with
          | controlPacket id p tx =>
            cases p with
            | publish q => exact h.same f
            | _ => cases hp
          | _ => cases hp
        · rw [Races.count_other (Ne.symm g1), Races.count_other (Ne.symm g2)]
          exact h.same f
      simp only [Broker.outputs, hs]
      rw [Sys.messagesOf_append, Sys.messagesOf_append, ih htwin fun ev hev => hq ev (by simp [hev])]
      congr 1
      cases hp : isPublish ev with
      | false => rw [messagesOf_sent b d1 hp, messagesOf_sent b d2 hp]
      | true =>
        cases ev with
        | controlPacket id p tx =>
          cases p with
          | publish q => simp only [Races.sent, h.copies]
          | _ => cases hp
        | _ => cases hp

end Twins

end Ratel
