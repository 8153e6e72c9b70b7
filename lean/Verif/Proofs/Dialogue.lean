/-
What is sent to a connection, message or not, against what its client has asked for.
-/
import Verif.Proofs.View
import Verif.Spec.Dialogue

namespace Ratel

open Decoder Encoder Spec Sys

/-- What a connection is answered to an event. -/
def evReply (auth : IdentityProvider) (d : ConnId) : ClientEvent → Option ControlPacket
  | .connected p _ tx =>
    if tx = d then
      match login auth p with
      | .accepted => some (.connAck ⟨false, .accepted⟩)
      | .refused => some (.connAck ⟨false, .notAuthorized⟩)
      | .incomplete => none
    else none
  | .controlPacket _ p tx => if tx = d then answerOf p else none
  | _ => none

theorem map_prefix_split {ws as : List ControlPacket} {rest : List ServerEvent} (h : ws.map ServerEvent.controlPacket <+: as.map .controlPacket ++ rest) :
    ws <+: as ∨ ∃ ws', ws = as ++ ws' ∧ ws'.map ServerEvent.controlPacket <+: rest := by
  induction as generalizing ws with
  | nil => exact .inr ⟨ws, rfl, h⟩
  | cons a as ih =>
    cases ws with
    | nil => exact .inl List.nil_prefix
    | cons w ws =>
      obtain ⟨e, h'⟩ := List.cons_prefix_cons.mp h
      cases e
      rcases ih h' with h | ⟨ws', rfl, h''⟩
      · exact .inl (List.cons_prefix_cons.mpr ⟨rfl, h⟩)
      · exact .inr ⟨ws', rfl, h''⟩

theorem map_prefix_cut {ws as : List ControlPacket} {rest : List ServerEvent} (h : ws.map ServerEvent.controlPacket <+: as.map .controlPacket ++ .disconnect :: rest) :
    ws <+: as := by
  rcases map_prefix_split h with h' | ⟨ws', rfl, h'⟩
  · exact h'
  · cases ws' with
    | nil => simp
    | cons w ws' => obtain ⟨e, _⟩ := List.cons_prefix_cons.mp h'; cases e

/-- One event: to each connection messages and the reply; or a reply and the end. -/
theorem step_reply {auth : IdentityProvider} {b b' : Broker} {ev : ClientEvent} {out : Outputs} (h : b.step auth ev = some (b', out)) (d : ConnId) :
    (∃ as : List ControlPacket, out d = as.map .controlPacket ∧ as.filter notMessage = (evReply auth d ev).toList)
    ∨ ∃ as : List ControlPacket, out d = as.map .controlPacket ++ [.disconnect] ∧ as.filter notMessage <+: (evReply auth d ev).toList := by
  cases ev with
  | connected p addr tx =>
    simp only [Broker.step] at h
    cases hl : login auth p with
    | accepted =>
      rw [hl] at h
      cases h
      left
      by_cases hd : tx = d
      · exact ⟨[.connAck ⟨false, .accepted⟩], by simp [Spec.to, hd], by simp [evReply, hd, hl, notMessage]⟩
      · exact ⟨[], by simp [Spec.to, Ne.symm hd], by simp [evReply, hd]⟩
    | refused =>
      rw [hl] at h
      cases h
      by_cases hd : tx = d
      · exact .inr ⟨[.connAck ⟨false, .notAuthorized⟩], by simp [Spec.to, hd], by simp only [evReply, hd, hl, if_true]; exact List.prefix_rfl⟩
      · exact .inl ⟨[], by simp [Spec.to, Ne.symm hd], by simp [evReply, hd]⟩
    | incomplete => rw [hl] at h; cases h
  | controlPacket id p tx =>
    cases p <;> simp only [Broker.step, Broker.packet, Option.some.injEq, Prod.mk.injEq] at h <;> obtain ⟨_, rfl⟩ := h
    case publish q _ =>
      refine .inl ⟨List.replicate (b.copiesTo d q.message.topic) (.publish q), by rw [List.map_replicate], ?_⟩
      rw [List.filter_eq_nil_iff.mpr fun x hx => by rw [(List.mem_replicate.mp hx).2]; simp [notMessage]]
      simp [evReply, answerOf]
    case subscribe s _ =>
      by_cases hd : tx = d
      · exact .inl ⟨[.subAck ⟨s.packetId, s.subscriptions.map fun _ => .successQoS0⟩], by simp [Spec.to, hd], by simp [evReply, hd, answerOf, notMessage]⟩
      · exact .inl ⟨[], by simp [Spec.to, Ne.symm hd], by simp [evReply, hd]⟩
    case unsubscribe u _ =>
      by_cases hd : tx = d
      · exact .inl ⟨[.unsubAck u.packetId], by simp [Spec.to, hd], by simp [evReply, hd, answerOf, notMessage]⟩
      · exact .inl ⟨[], by simp [Spec.to, Ne.symm hd], by simp [evReply, hd]⟩
    case pingReq =>
      by_cases hd : tx = d
      · by_cases hx : (b.session id).isSome = true
        · exact .inl ⟨[.pingResp], by simp [Spec.to, hd, hx], by simp [evReply, hd, answerOf, notMessage]⟩
        · exact .inr ⟨[], by simp [Spec.to, hd, hx], by simp⟩
      · exact .inl ⟨[], by simp [Spec.to, Ne.symm hd], by simp [evReply, hd]⟩
    all_goals exact .inl ⟨[], rfl, by simp [evReply, answerOf]⟩
  | disconnected id => cases h; exact .inl ⟨[], rfl, rfl⟩
  | connectionLost id => cases h; exact .inl ⟨[], rfl, rfl⟩

theorem outputs_replies {auth : IdentityProvider} (d : ConnId) (evs : List ClientEvent) (b : Broker) {ws : List ControlPacket}
    (h : ws.map ServerEvent.controlPacket <+: b.outputs auth evs d) : ws.filter notMessage <+: evs.filterMap (evReply auth d) := by
  induction evs generalizing b ws with
  | nil =>
    have : ws = [] := by simpa [Broker.outputs] using h
    rw [this]; exact List.nil_prefix
  | cons ev evs ih =>
    rw [Broker.outputs] at h
    cases hs : b.step auth ev with
    | none =>
      rw [hs] at h
      have : ws = [] := by simpa using h
      rw [this]; exact List.nil_prefix
    | some r =>
      obtain ⟨b', out⟩ := r
      rw [hs] at h
      simp only at h
      have hf : (ev :: evs).filterMap (evReply auth d) = (evReply auth d ev).toList ++ evs.filterMap (evReply auth d) := by
        rw [List.filterMap_cons]; cases evReply auth d ev <;> rfl
      rw [hf]
      rcases step_reply hs d with ⟨as, h1, h2⟩ | ⟨as, h1, h2⟩
      · rw [h1] at h
        rw [← h2]
        rcases map_prefix_split h with h' | ⟨ws', rfl, h'⟩
        · exact (h'.filter _).trans (List.prefix_append _ _)
        · rw [List.filter_append]
          exact (List.prefix_append_right_inj _).mpr (ih b' h')
      · rw [h1, List.append_assoc] at h
        exact ((map_prefix_cut h).filter _).trans (h2.trans (List.prefix_append _ _))

theorem evReply_filter (auth : IdentityProvider) (d : ConnId) (evs : List ClientEvent) :
    (evs.filter (From d)).filterMap (evReply auth d) = evs.filterMap (evReply auth d) := by
  induction evs with
  | nil => rfl
  | cons ev evs ih =>
    by_cases h : From d ev
    · rw [List.filter_cons, if_pos (by simpa using h), List.filterMap_cons, List.filterMap_cons, ih]
    · rw [List.filter_cons, if_neg (by simpa using h), List.filterMap_cons, ih]
      have : evReply auth d ev = none := by
        cases ev with
        | connected p a tx => exact if_neg h
        | controlPacket id p tx => exact if_neg h
        | _ => rfl
      rw [this]

theorem evReply_packets (auth : IdentityProvider) (d : ConnId) (id : ClientId) (ps : List ControlPacket) :
    (ps.map fun q => ClientEvent.controlPacket id q d).filterMap (evReply auth d) = ps.filterMap answerOf := by
  rw [List.filterMap_map]
  congr 1
  funext q
  simp [evReply]

/-- What is sent to a connection is what its client expects. -/
theorem outputs_expected {env : Env} {peers : ConnId → Peer} {d : ConnId} {evs : List ClientEvent} (ho : Orderly env peers evs)
    {ws : List ControlPacket} (h : ws.map ServerEvent.controlPacket <+: Broker.start.outputs env.auth evs d)
    (hrefused : ∀ p, Decodes env.profile (peers d).segs.flatten (peers d).fin [.connect p] → login env.auth p = .refused → ws.length ≤ 1) :
    ws = [] ∨ ∃ p ps, Decodes env.profile (peers d).segs.flatten (peers d).fin (.connect p :: ps) ∧ login env.auth p ≠ .incomplete
      ∧ Expected (login env.auth p) ps ws := by
  cases ws with
  | nil => exact .inl rfl
  | cons w ws =>
    right
    have h1 := outputs_replies d evs Broker.start h
    rcases connAck_first d evs ho with hn | ⟨code, rest, hc, hr, _⟩
    · rw [hn] at h; simp at h
    rw [hr] at h
    obtain ⟨e, _⟩ := List.cons_prefix_cons.mp h
    cases e
    obtain ⟨ps, hd, hp⟩ := ho d
    have h2 := h1.trans ((evReply_filter env.auth d evs ▸ hp.filterMap (evReply env.auth d)) :
      evs.filterMap (evReply env.auth d) <+: (eventsOf (peers d) d ps).filterMap (evReply env.auth d))
    have hno : ∀ x qs, (ControlPacket.connAck ⟨false, code⟩ :: x) <+: List.filterMap answerOf qs → False := by
      intro x qs hx
      have hm := hx.subset List.mem_cons_self
      obtain ⟨q, _, hq⟩ := List.mem_filterMap.mp hm
      cases q <;> simp [answerOf] at hq
    rw [List.filter_cons, if_pos (show notMessage (.connAck ⟨false, code⟩) = true from rfl)] at h2
    cases ps with
    | nil => simp [eventsOf] at h2
    | cons p ps =>
      cases p with
      | connect p =>
        refine ⟨p, ps, hd, ?_⟩
        have hid : login env.auth { p with clientId := idOf (peers d) p } = login env.auth p := rfl
        rw [eventsOf, List.filterMap_cons, evReply_packets] at h2
        simp only [evReply, if_true, hid] at h2
        cases hl : login env.auth p with
        | accepted =>
          simp only [hl] at h2
          obtain ⟨e, h3⟩ := List.cons_prefix_cons.mp h2
          cases e
          exact ⟨by simp, .inr ⟨ws, rfl, h3, fun h => absurd rfl h⟩⟩
        | refused =>
          simp only [hl] at h2
          obtain ⟨e, h3⟩ := List.cons_prefix_cons.mp h2
          cases e
          have := hrefused p (Decodes.pre (a := [.connect p]) (b := ps) hd) hl
          refine ⟨by simp, .inr ⟨ws, rfl, h3, fun _ => ?_⟩⟩
          exact List.eq_nil_of_length_eq_zero (by simp only [List.length_cons] at this; omega)
        | incomplete =>
          simp only [hl] at h2
          exact (hno _ _ h2).elim
      | _ => simp [eventsOf] at h2

end Ratel
