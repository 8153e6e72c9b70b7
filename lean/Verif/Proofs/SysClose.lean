/-
Invariants of the running broker: the write tasks, the ends of connections, and what the sequential broker sends to whom.
-/
import Verif.Proofs.SysBroker

namespace Ratel

open Decoder Encoder Spec

/-! ### What the sequential broker sends to whom -/

/-- The event is answered on the connection it came from. -/
def Answered : ClientEvent → Prop
  | .connected _ _ _ => True
  | .controlPacket _ (.subscribe _) _ => True
  | .controlPacket _ (.unsubscribe _) _ => True
  | .controlPacket _ .pingReq _ => True
  | _ => False

theorem to_ne {c d : ConnId} {evs : List ServerEvent} (h : Spec.to c evs d ≠ []) : c = d := by
  unfold Spec.to at h
  split at h
  · rename_i hd; exact hd.symm
  · exact absurd rfl h

theorem copiesTo_pos {b : Broker} {d : ConnId} {t : String} (h : 0 < b.copiesTo d t) :
    ∃ e ∈ b.subs, b.session e.1 = some d ∧ Matches e.2 t := by
  unfold Broker.copiesTo at h
  apply Classical.byContradiction
  intro hn
  have : ((b.subs.filter fun e => b.session e.1 = some d).map fun e => ways e.2 t).sum = 0 := by
    have hz : ∀ l : List Nat, (∀ x ∈ l, x = 0) → l.sum = 0 := by
      intro l
      induction l with
      | nil => intro _; rfl
      | cons a l ih => intro h; rw [List.sum_cons, h a List.mem_cons_self, ih fun x hx => h x (List.mem_cons_of_mem _ hx)]
    apply hz
    intro x hx
    obtain ⟨e, he, rfl⟩ := List.mem_map.mp hx
    obtain ⟨h1, h2⟩ := List.mem_filter.mp he
    have h2 : b.session e.1 = some d := by simpa using h2
    apply Classical.byContradiction
    intro h0
    exact hn ⟨e, h1, h2, ways_pos.mp (Nat.pos_of_ne_zero h0)⟩
  omega

/-- Who is sent something: the connection the event came from, or one on which a subscriber to the message's topic is reached. -/
theorem step_to {auth : IdentityProvider} {b b' : Broker} {ev : ClientEvent} {out : Outputs} (h : b.step auth ev = some (b', out))
    {d : ConnId} (hd : out d ≠ []) :
    (From d ev ∧ Answered ev)
    ∨ ∃ id q tx, ev = .controlPacket id (.publish q) tx ∧ ∃ e ∈ b.subs, b.session e.1 = some d ∧ Matches e.2 q.message.topic := by
  cases ev with
  | connected p addr tx =>
    simp only [Broker.step] at h
    cases hl : login auth p <;> rw [hl] at h <;> simp only [Option.some.injEq, Prod.mk.injEq, reduceCtorEq] at h
    all_goals
      obtain ⟨_, rfl⟩ := h
      exact .inl ⟨to_ne hd, trivial⟩
  | controlPacket id p tx =>
    cases p <;> simp only [Broker.step, Broker.packet, Option.some.injEq, Prod.mk.injEq] at h <;> obtain ⟨_, rfl⟩ := h
    case publish q _ =>
      refine .inr ⟨id, q, tx, rfl, copiesTo_pos ?_⟩
      apply Nat.pos_of_ne_zero
      intro h0
      exact hd (by simp [h0])
    case subscribe s _ => exact .inl ⟨to_ne hd, trivial⟩
    case unsubscribe s _ => exact .inl ⟨to_ne hd, trivial⟩
    case pingReq => exact .inl ⟨to_ne hd, trivial⟩
    all_goals exact absurd rfl hd
  | disconnected id =>
    simp only [Broker.step, Option.some.injEq, Prod.mk.injEq] at h
    obtain ⟨_, rfl⟩ := h
    exact absurd rfl hd
  | connectionLost id =>
    simp only [Broker.step, Option.some.injEq, Prod.mk.injEq] at h
    obtain ⟨_, rfl⟩ := h
    exact absurd rfl hd

theorem mem_to {c d : ConnId} {evs : List ServerEvent} {e : ServerEvent} (h : e ∈ Spec.to c evs d) : c = d ∧ e ∈ evs := by
  unfold Spec.to at h
  split at h
  · rename_i hd; exact ⟨hd.symm, h⟩
  · cases h

/-- What is sent. -/
inductive Sends (auth : IdentityProvider) (b : Broker) (d : ConnId) : ClientEvent → ServerEvent → Prop
  | accepted (p addr) (h : login auth p = .accepted) : Sends auth b d (.connected p addr d) (.controlPacket (.connAck ⟨false, .accepted⟩))
  | refused (p addr) (h : login auth p = .refused) :
      Sends auth b d (.connected p addr d) (.controlPacket (.connAck ⟨false, .notAuthorized⟩))
  | away (p addr) (h : login auth p = .refused) : Sends auth b d (.connected p addr d) .disconnect
  | publish (id q tx e) (he : e ∈ b.subs) (hs : b.session e.1 = some d) (hm : Matches e.2 q.message.topic) :
      Sends auth b d (.controlPacket id (.publish q) tx) (.controlPacket (.publish q))
  | subAck (id s) : Sends auth b d (.controlPacket id (.subscribe s) d)
      (.controlPacket (.subAck ⟨s.packetId, s.subscriptions.map fun _ => .successQoS0⟩))
  | unsubAck (id u) : Sends auth b d (.controlPacket id (.unsubscribe u) d) (.controlPacket (.unsubAck u.packetId))
  | pingResp (id) (h : (b.session id).isSome = true) : Sends auth b d (.controlPacket id .pingReq d) (.controlPacket .pingResp)
  | expired (id) (h : b.session id = none) : Sends auth b d (.controlPacket id .pingReq d) .disconnect

theorem step_sends {auth : IdentityProvider} {b b' : Broker} {ev : ClientEvent} {out : Outputs} (h : b.step auth ev = some (b', out))
    {d : ConnId} {e : ServerEvent} (he : e ∈ out d) : Sends auth b d ev e := by
  cases ev with
  | connected p addr tx =>
    simp only [Broker.step] at h
    cases hl : login auth p <;> rw [hl] at h <;> simp only [Option.some.injEq, Prod.mk.injEq, reduceCtorEq] at h
    · obtain ⟨_, rfl⟩ := h
      obtain ⟨rfl, he'⟩ := mem_to he
      clear he
      rw [List.mem_singleton] at he'
      subst he'
      exact .accepted p addr hl
    · obtain ⟨_, rfl⟩ := h
      obtain ⟨rfl, he'⟩ := mem_to he
      clear he
      rcases List.mem_cons.mp he' with rfl | he'
      · exact .refused p addr hl
      · rw [List.mem_singleton] at he'
        subst he'
        exact .away p addr hl
  | controlPacket id p tx =>
    cases p <;> simp only [Broker.step, Broker.packet, Option.some.injEq, Prod.mk.injEq] at h <;> obtain ⟨_, rfl⟩ := h
    case publish q _ =>
      obtain ⟨h0, rfl⟩ := List.mem_replicate.mp he
      obtain ⟨x, h1, h2, h3⟩ := copiesTo_pos (Nat.pos_of_ne_zero h0)
      exact .publish id q tx x h1 h2 h3
    case subscribe s _ =>
      obtain ⟨rfl, he'⟩ := mem_to he
      clear he
      rw [List.mem_singleton] at he'
      subst he'
      exact .subAck id s
    case unsubscribe u _ =>
      obtain ⟨rfl, he'⟩ := mem_to he
      clear he
      rw [List.mem_singleton] at he'
      subst he'
      exact .unsubAck id u
    case pingReq =>
      obtain ⟨rfl, he'⟩ := mem_to he
      clear he
      rw [List.mem_singleton] at he'
      subst he'
      cases hs : b.session id with
      | none => exact .expired id hs
      | some _ => exact .pingResp id (by rw [hs]; rfl)
    all_goals cases he
  | disconnected id =>
    simp only [Broker.step, Option.some.injEq, Prod.mk.injEq] at h
    obtain ⟨_, rfl⟩ := h
    cases he
  | connectionLost id =>
    simp only [Broker.step, Option.some.injEq, Prod.mk.injEq] at h
    obtain ⟨_, rfl⟩ := h
    cases he

/-- Where something sent comes from. -/
theorem outputs_mem' {auth : IdentityProvider} {evs : List ClientEvent} {b : Broker} {d : ConnId} {e : ServerEvent}
    (h : e ∈ b.outputs auth evs d) : ∃ pre ev post b', evs = pre ++ ev :: post ∧ b.after auth pre = some b' ∧ Sends auth b' d ev e := by
  induction evs generalizing b with
  | nil => cases h
  | cons ev evs ih =>
    rw [Broker.outputs] at h
    cases hs : b.step auth ev with
    | none => rw [hs] at h; cases h
    | some r =>
      obtain ⟨b', out⟩ := r
      rw [hs] at h
      rcases List.mem_append.mp h with h | h
      · exact ⟨[], ev, evs, b, rfl, rfl, step_sends hs h⟩
      · obtain ⟨pre, ev', post, b'', h1, h2, h3⟩ := ih h
        exact ⟨ev :: pre, ev', post, b'', by rw [h1]; rfl, by rw [Broker.after, hs]; exact h2, h3⟩

theorem outputs_mem {auth : IdentityProvider} {evs : List ClientEvent} {d : ConnId} {e : ServerEvent}
    (h : e ∈ Broker.start.outputs auth evs d) :
    ∃ pre ev post b, evs = pre ++ ev :: post ∧ Broker.start.after auth pre = some b ∧ Sends auth b d ev e := outputs_mem' h

theorem sends_kind {auth : IdentityProvider} {b : Broker} {d : ConnId} {ev : ClientEvent} {p : ControlPacket}
    (h : Sends auth b d ev (.controlPacket p)) : (serverBytes p).isSome = true := by
  cases h <;> rfl

namespace Sys

/-! ### Orderly events: each connection's are those of its packets -/

theorem _root_.Ratel.Spec.Orderly.pre {env : Env} {peers : ConnId → Peer} {pre post : List ClientEvent} (h : Orderly env peers (pre ++ post)) :
    Orderly env peers pre := by
  intro c
  obtain ⟨ps, h1, h2⟩ := h c
  refine ⟨ps, h1, List.IsPrefix.trans ?_ h2⟩
  rw [List.filter_append]
  exact List.prefix_append _ _

/-- A CONNECT event is the first of its connection. -/
theorem _root_.Ratel.Spec.Orderly.connected_first {env : Env} {peers : ConnId → Peer} {pre : List ClientEvent} {p : ConnectPacket} {addr : SocketAddr}
    {tx : ConnId} (h : Orderly env peers (pre ++ [.connected p addr tx])) : ∀ ev ∈ pre, ¬ From tx ev := by
  intro ev hev hf
  obtain ⟨ps, _, h2⟩ := h tx
  rw [List.filter_append, List.filter_cons, if_pos (by simp [From])] at h2
  have hm : ev ∈ pre.filter (From tx) := List.mem_filter.mpr ⟨hev, by simpa using hf⟩
  cases hl : pre.filter (From tx) with
  | nil => rw [hl] at hm; cases hm
  | cons x l =>
    rw [hl] at h2
    unfold eventsOf at h2
    split at h2
    · rw [List.cons_append] at h2
      obtain ⟨_, h2⟩ := List.cons_prefix_cons.mp h2
      have : ClientEvent.connected p addr tx ∈ _ := h2.subset (by simp)
      obtain ⟨q, _, hq⟩ := List.mem_map.mp this
      cases hq
    · simp at h2

/-- A packet event comes after a CONNECT on the same connection, under the same client id. -/
theorem _root_.Ratel.Spec.Orderly.connected_before {env : Env} {peers : ConnId → Peer} {pre : List ClientEvent} {id : ClientId} {q : ControlPacket}
    {tx : ConnId} (h : Orderly env peers (pre ++ [.controlPacket id q tx])) :
    ∃ p addr, .connected p addr tx ∈ pre ∧ p.clientId = id := by
  obtain ⟨ps, _, h2⟩ := h tx
  rw [List.filter_append, List.filter_cons, if_pos (by simp [From])] at h2
  unfold eventsOf at h2
  split at h2
  · rename_i p ps'
    cases hl : pre.filter (From tx) with
    | nil =>
      rw [hl] at h2
      have := (List.cons_prefix_cons.mp h2).1
      cases this
    | cons x l =>
      rw [hl, List.cons_append] at h2
      obtain ⟨rfl, h3⟩ := List.cons_prefix_cons.mp h2
      refine ⟨_, _, (List.mem_filter.mp (hl ▸ List.mem_cons_self : _ ∈ pre.filter (From tx))).1, ?_⟩
      have : ClientEvent.controlPacket id q tx ∈ _ := h3.subset (by simp)
      obtain ⟨q', _, hq⟩ := List.mem_map.mp this
      simp only [ClientEvent.controlPacket.injEq] at hq
      exact hq.1
  · simp at h2

/-- There is one CONNECT event per connection. -/
theorem _root_.Ratel.Spec.Orderly.connected_unique {env : Env} {peers : ConnId → Peer} {evs : List ClientEvent} (h : Orderly env peers evs)
    {p p' : ConnectPacket} {addr addr' : SocketAddr} {tx : ConnId} (h1 : .connected p addr tx ∈ evs) (h2 : .connected p' addr' tx ∈ evs) :
    p = p' ∧ addr = addr' := by
  obtain ⟨ps, _, hp⟩ := h tx
  have hmem : ∀ (p : ConnectPacket) (addr : SocketAddr), ClientEvent.connected p addr tx ∈ evs →
      ∃ q ps', ps = .connect q :: ps' ∧ p = { q with clientId := idOf (peers tx) q } ∧ addr = (peers tx).addr := by
    intro p addr hm
    have hm : ClientEvent.connected p addr tx ∈ eventsOf (peers tx) tx ps := hp.subset (List.mem_filter.mpr ⟨hm, by simp [From]⟩)
    cases ps with
    | nil => cases hm
    | cons a ps' =>
      cases a with
      | connect q =>
        rcases List.mem_cons.mp hm with hm | hm
        · simp only [ClientEvent.connected.injEq, and_true] at hm
          exact ⟨q, ps', rfl, hm.1, hm.2⟩
        · obtain ⟨q', _, hq⟩ := List.mem_map.mp hm
          cases hq
      | _ => cases hm
  obtain ⟨q, ps', he, ha, hb⟩ := hmem p addr h1
  obtain ⟨q', ps'', he', ha', hb'⟩ := hmem p' addr' h2
  rw [he] at he'
  obtain ⟨h1, _⟩ := List.cons.inj he'
  cases h1
  exact ⟨ha.trans ha'.symm, hb.trans hb'.symm⟩

theorem reads_orderly {env : Env} {peers : ConnId → Peer} {s : Sys} (h : Reads env peers s) :
    Orderly env peers (s.log.map Prod.fst ++ s.events) := by
  intro c
  obtain ⟨_, _, ps, pl, h1, _, _, _, h2⟩ := h.conn c
  exact ⟨ps, ⟨pl, h1⟩, h2⟩

theorem reads_orderly_served {env : Env} {peers : ConnId → Peer} {s : Sys} (h : Reads env peers s) : Orderly env peers s.served :=
  (reads_orderly h).pre

/-- A session on a connection comes from its CONNECT. -/
theorem session_connected {auth : IdentityProvider} {evs : List ClientEvent} {b : Broker} (h : Broker.start.after auth evs = some b)
    {x : ClientId} {d : ConnId} (hx : b.session x = some d) : ∃ p addr, .connected p addr d ∈ evs ∧ p.clientId = x ∧ login auth p = .accepted := by
  obtain ⟨pre, p, addr, post, rfl, h1, h2, _⟩ := (after_session h x d).mp hx
  exact ⟨p, addr, by simp, h1, h2⟩

/-- A connection told to go away has no session. -/
theorem away_no_session {env : Env} {peers : ConnId → Peer} (evs : List ClientEvent) (ho : Orderly env peers evs) {b : Broker}
    (h : Broker.start.after env.auth evs = some b) {d : ConnId} (hd : .disconnect ∈ Broker.start.outputs env.auth evs d) (x : ClientId) :
    b.session x ≠ some d := by
  intro hx
  obtain ⟨pre, ev, post, b₀, rfl, h1, h2⟩ := outputs_mem hd
  obtain ⟨p, addr, hp, rfl, hl⟩ := session_connected h hx
  cases h2 with
  | away p' addr' hl' =>
    obtain ⟨rfl, _⟩ := ho.connected_unique hp (by simp : ClientEvent.connected p' addr' d ∈ _)
    rw [hl] at hl'
    cases hl'
  | expired id hs =>
    have ho' : Orderly env peers (pre ++ [.controlPacket id .pingReq d]) := Orderly.pre (post := post) (by simpa using ho)
    obtain ⟨p', addr', hp', rfl⟩ := ho'.connected_before
    obtain ⟨rfl, _⟩ := ho.connected_unique hp (List.mem_append_left _ hp')
    -- the session began before `pre` ended, and nothing can have begun it again
    obtain ⟨pre', p₁, addr₁, post', he, h3, h4, h5⟩ := (after_session h p.clientId d).mp hx
    -- the accepted CONNECT on `d` is the one in `pre`
    have hpos : pre'.length < pre.length := by
      apply Classical.byContradiction
      intro hn
      have hpp : pre <+: pre' := by
        have h1 : pre <+: pre ++ ClientEvent.controlPacket p.clientId .pingReq d :: post := List.prefix_append _ _
        have h2 : pre' <+: pre ++ ClientEvent.controlPacket p.clientId .pingReq d :: post := by rw [he]; exact List.prefix_append _ _
        exact List.prefix_of_prefix_length_le h1 h2 (by omega)
      have hfirst : Orderly env peers (pre' ++ [.connected p₁ addr₁ d]) := Orderly.pre (post := post') (by simpa using he ▸ ho)
      exact hfirst.connected_first _ (hpp.subset hp') rfl
    -- so the session was there when the PINGREQ came
    have hsome : b₀.session p.clientId = some d := by
      refine (after_session h1 p.clientId d).mpr ?_
      have hpp : pre' ++ [ClientEvent.connected p₁ addr₁ d] <+: pre := by
        have h1 : pre <+: pre ++ ClientEvent.controlPacket p.clientId .pingReq d :: post := List.prefix_append _ _
        have h2 : pre' ++ [ClientEvent.connected p₁ addr₁ d] <+: pre ++ ClientEvent.controlPacket p.clientId .pingReq d :: post := by
          rw [he]; exact ⟨post', by simp⟩
        exact List.prefix_of_prefix_length_le h2 h1 (by simp; omega)
      obtain ⟨mid, rfl⟩ := hpp
      refine ⟨pre', p₁, addr₁, mid, by simp, h3, h4, fun ev hev => h5 ev ?_⟩
      have : mid ++ ClientEvent.controlPacket p.clientId .pingReq d :: post = post' := by
        have := he
        simp only [List.append_assoc, List.cons_append, List.nil_append] at this
        simpa using List.append_cancel_left this
      rw [← this]
      simp [hev]
    rw [hs] at hsome
    cases hsome

end Sys

end Ratel
