/-
Any interleaving of the packets of the connections is one that can happen.
-/
import Verif.Proofs.SysRun

namespace Ratel

open Decoder Encoder Spec

theorem copiesTo_le {b : Broker} {d : ConnId} {t : String} (ht : PlainTopic t) : b.copiesTo d t ≤ b.subs.length := by
  unfold Broker.copiesTo
  refine Nat.le_trans ?_ (List.length_filter_le (fun e => decide (b.session e.1 = some d)) b.subs)
  induction b.subs.filter (fun e => decide (b.session e.1 = some d)) with
  | nil => simp
  | cons e l ih =>
    have := ways_plain (f := e.2) ht
    simp only [List.map_cons, List.sum_cons, List.length_cons]
    omega


/-- A bound on what a list of events makes the broker send to one connection, with `n` subscriptions at the start. -/
def quota (n : Nat) : List ClientEvent → Nat
  | [] => 0
  | .controlPacket _ (.publish _) _ :: evs => n + quota n evs
  | .controlPacket _ (.subscribe s) _ :: evs => 1 + quota (n + s.subscriptions.length) evs
  | _ :: evs => 2 + quota n evs

theorem quota_mono {n n' : Nat} (h : n ≤ n') (evs : List ClientEvent) : quota n evs ≤ quota n' evs := by
  induction evs generalizing n n' with
  | nil => exact Nat.le_refl _
  | cons ev evs ih =>
    have := ih h
    cases ev with
    | controlPacket id p tx =>
      cases p with
      | subscribe s => have := ih (n := n + s.subscriptions.length) (n' := n' + s.subscriptions.length) (by omega); simp only [quota]; omega
      | _ => simp only [quota]; omega
    | _ => simp only [quota]; omega

theorem counting_length (es : Entries) (op : SubOp) (h : ∀ c s, op ≠ .subscribe c s) : (es.counting op).length ≤ es.length := by
  have key : ∀ (c : ClientId) (fs : List String) (es : Entries), (es.unsubscribe c fs).length ≤ es.length := by
    intro c fs
    induction fs with
    | nil => exact fun es => Nat.le_refl _
    | cons f fs ih => exact fun es => Nat.le_trans (ih _) (List.erase_sublist.length_le)
  cases op with
  | subscribe c s => exact absurd rfl (h c s)
  | unsubscribe c fs => exact key c fs es
  | disconnected c => exact key c _ es
  | connectionLost c => exact key c _ es

theorem outputs_quota {auth : IdentityProvider} {evs : List ClientEvent}
    (h : ∀ id q tx, .controlPacket id (.publish q) tx ∈ evs → PlainTopic q.message.topic) (b : Broker) (d : ConnId) :
    (b.outputs auth evs d).length ≤ quota b.subs.length evs := by
  induction evs generalizing b with
  | nil => exact Nat.zero_le _
  | cons ev evs ih =>
    replace ih := ih fun id q tx hq => h id q tx (List.mem_cons_of_mem _ hq)
    rw [Broker.outputs]
    cases hs : b.step auth ev with
    | none => exact Nat.zero_le _
    | some r =>
      obtain ⟨b', out⟩ := r
      simp only
      rw [List.length_append]
      replace ih := ih b'
      have hto : ∀ (c : ConnId) (l : List ServerEvent), (Spec.to c l d).length ≤ l.length := by
        intro c l; unfold Spec.to; split <;> simp
      cases ev with
      | connected p addr tx =>
        simp only [Broker.step] at hs
        have := hto tx
        split at hs
        · cases hs; have := this [.controlPacket (.connAck ⟨false, .accepted⟩)]; simp only [quota, List.length_singleton] at *; omega
        · cases hs; have := this [.controlPacket (.connAck ⟨false, .notAuthorized⟩), .disconnect]; simp only [quota, List.length_cons, List.length_nil] at *; omega
        · cases hs
      | controlPacket id p tx =>
        have := hto tx
        cases p <;> simp only [Broker.step, Broker.packet, Option.some.injEq, Prod.mk.injEq] at hs <;> obtain ⟨rfl, rfl⟩ := hs
        case publish q =>
          have := copiesTo_le (b := b) (d := d) (h id q tx List.mem_cons_self)
          simp only [quota, List.length_replicate]; omega
        case subscribe s =>
          have := hto tx [.controlPacket (.subAck ⟨s.packetId, s.subscriptions.map fun _ => .successQoS0⟩)]
          simp only [quota, List.length_singleton, List.length_append, List.length_map] at *; omega
        case unsubscribe u =>
          have := hto tx [.controlPacket (.unsubAck u.packetId)]
          have := quota_mono (n := (b.subs.unsubscribe id u.topics).length) (n' := b.subs.length) (counting_length b.subs (.unsubscribe id u.topics) (by simp)) evs
          simp only [quota, List.length_singleton] at *; omega
        case pingReq =>
          have := hto tx [if (b.session id).isSome then .controlPacket .pingResp else .disconnect]
          simp only [quota, List.length_singleton] at *; omega
        case disconnect =>
          have := quota_mono (n := (b.forget (.disconnected id)).subs.length) (n' := b.subs.length) (counting_length b.subs (.disconnected id) (by simp)) evs
          simp only [quota, nothing, List.length_nil] at *; omega
        all_goals simp only [quota, nothing, List.length_nil] at *; omega
      | disconnected id => cases hs; simp only [quota, nothing, List.length_nil] at *; omega
      | connectionLost id =>
        cases hs
        have := quota_mono (n := (b.forget (.connectionLost id)).subs.length) (n' := b.subs.length) (counting_length b.subs (.connectionLost id) (by simp)) evs
        simp only [quota, nothing, List.length_nil] at *; omega

/-- The broker survives everything but a CONNECT with a user name and no password. -/
theorem after_isSome {auth : IdentityProvider} {evs : List ClientEvent}
    (h : ∀ p addr c, .connected p addr c ∈ evs → login auth p ≠ .incomplete) (b : Broker) : (b.after auth evs).isSome = true := by
  induction evs generalizing b with
  | nil => rfl
  | cons ev evs ih =>
    rw [Broker.after]
    have ih := ih fun p addr c hp => h p addr c (List.mem_cons_of_mem _ hp)
    cases ev with
    | connected p addr c =>
      simp only [Broker.step]
      split
      · rename_i hs; split at hs <;> cases hs <;> exact ih _
      · rename_i hs
        split at hs
        · cases hs
        · cases hs
        · rename_i hl; exact absurd hl (h p addr c (by simp))
    | controlPacket id p c => exact ih _
    | disconnected id => exact ih _
    | connectionLost id => exact ih _

namespace Sys

/-- Where the read task of connection `c` is after the events `evs`. -/
def ReadyAt (peers : ConnId → Peer) (cs : ConnId → List ClientPacket) (evs : List ClientEvent) (c : ConnId) (k : Conn) : Prop :=
  (evs.filter (From c) = [] ∧ k.phase = .first ∧ k.addr = (peers c).addr ∧ k.uuid = (peers c).uuid ∧ Next k (cs c) (peers c).fin)
  ∨ ∃ q p rest, cs c = .connect q :: rest ∧ meaning (.connect q) = .connect p ∧ evs.filter (From c) ≠ []
    ∧ k.phase = .running (idOf (peers c) p) ∧ Next k (rest.drop ((evs.filter (From c)).length - 1)) (peers c).fin

/-- The events `evs` have been handled, and nothing written. -/
structure Realized (peers : ConnId → Peer) (cs : ConnId → List ClientPacket) (evs : List ClientEvent) (s : Sys) : Prop where
  idle : s.handler = .idle
  events : s.events = []
  log : s.log = evs.map fun ev => (ev, 0)
  ready : ∀ c, cs c ≠ [] → ReadyAt peers cs evs c (s.conns c)
  open_ : ∀ c, (s.conns c).rxOpen = true
  queue : ∀ c, (s.conns c).queue = (s.conns c).delivered
  unwritten : ∀ c, (s.conns c).written = [] ∧ (s.conns c).wr = WStream.new 4096 (peers c).script ∧ (s.conns c).wrBlocked = false

theorem ReadyAt.congr {peers : ConnId → Peer} {cs : ConnId → List ClientPacket} {evs evs' : List ClientEvent} {c : ConnId} {k k' : Conn}
    (h : ReadyAt peers cs evs c k) (he : evs'.filter (From c) = evs.filter (From c)) (h1 : k'.rd = k.rd) (h2 : k'.outbox = k.outbox)
    (h3 : k'.phase = k.phase) (h4 : k'.addr = k.addr) (h5 : k'.uuid = k.uuid) : ReadyAt peers cs evs' c k' := by
  unfold ReadyAt
  rw [he, h3, h4, h5]
  rcases h with ⟨a, b, c', d, e⟩ | ⟨q, p, rest, a, b, c', d, e⟩
  · exact .inl ⟨a, b, c', d, e.congr h1 h2⟩
  · exact .inr ⟨q, p, rest, a, b, c', d, e.congr h1 h2⟩

/-- The next event of a connection can be produced. -/
theorem ReadyAt.speaks {env : Env} {peers : ConnId → Peer} {cs : ConnId → List ClientPacket} {evs : List ClientEvent} {c : ConnId} {k : Conn}
    {ev : ClientEvent} (h : ReadyAt peers cs evs c k) (hf : From c ev)
    (hp : (evs ++ [ev]).filter (From c) <+: eventsOf (peers c) c ((cs c).map meaning)) :
    ∃ k', Speaks env c k ev k' ∧ ReadyAt peers cs (evs ++ [ev]) c k' ∧ k'.rxOpen = k.rxOpen ∧ k'.queue = k.queue ∧ k'.delivered = k.delivered
      ∧ k'.written = k.written ∧ k'.wr = k.wr ∧ k'.wrBlocked = k.wrBlocked := by
  have hfil : (evs ++ [ev]).filter (From c) = evs.filter (From c) ++ [ev] := by
    rw [List.filter_append, List.filter_cons, if_pos (by simpa using hf), List.filter_nil]
  rw [hfil] at hp
  rcases h with ⟨hnil, hph, haddr, huuid, hn⟩ | ⟨q, p, rest, hcs, hq, hne, hph, hn⟩
  · rw [hnil, List.nil_append] at hp
    cases hcs : cs c with
    | nil => rw [hcs] at hp; simp [eventsOf] at hp
    | cons a rest =>
      rw [hcs] at hp hn
      cases a with
      | connect q =>
        have hq : ∃ p, meaning (.connect q) = .connect p := ⟨_, rfl⟩
        obtain ⟨p, hq⟩ := hq
        rw [List.map_cons, hq, eventsOf] at hp
        have hev := (List.cons_prefix_cons.mp hp).1
        obtain ⟨rd, hsp, hn'⟩ := next_first (env := env) (c := c) hn hph p hq
        have hid : effectiveClientId k p = idOf (peers c) p := by simp [effectiveClientId, idOf, huuid]
        rw [hid, haddr] at hsp
        rw [hid] at hn'
        subst hev
        refine ⟨_, hsp, .inr ⟨q, p, rest, hcs, hq, ?_, rfl, ?_⟩, rfl, rfl, rfl, rfl, rfl, rfl⟩
        · rw [hfil]; simp
        · rw [hfil, hnil]
          exact hn'.congr rfl rfl
      | _ => simp [meaning, eventsOf] at hp
  · rw [hcs, List.map_cons, hq] at hp
    generalize hl : evs.filter (From c) = l at *
    have hlen : 0 < l.length := List.length_pos_iff.mpr hne
    obtain ⟨t, ht⟩ := hp
    have hget : (eventsOf (peers c) c (.connect p :: rest.map meaning))[l.length]? = some ev := by
      rw [← ht]; simp
    rw [eventsOf] at hget
    obtain ⟨n, hn'⟩ : ∃ n, l.length = n + 1 := ⟨l.length - 1, by omega⟩
    rw [hn', List.getElem?_cons_succ, List.getElem?_map, List.getElem?_map, Option.map_eq_some_iff] at hget
    obtain ⟨r, hr, hev⟩ := hget
    rw [Option.map_eq_some_iff] at hr
    obtain ⟨a, ha, rfl⟩ := hr
    rw [hn', Nat.add_sub_cancel] at hn
    have hdrop : rest.drop n = a :: rest.drop (n + 1) := by
      obtain ⟨hlt, rfl⟩ := List.getElem?_eq_some_iff.mp ha
      exact List.drop_eq_getElem_cons hlt
    rw [hdrop] at hn
    obtain ⟨rd, hsp, hn''⟩ := next_running (env := env) (c := c) hn hph
    subst hev
    refine ⟨_, hsp, .inr ⟨q, p, rest, hcs, hq, ?_, hph, ?_⟩, rfl, rfl, rfl, rfl, rfl, rfl⟩
    · rw [hfil]; simp
    · rw [hfil, List.length_append, hn', List.length_singleton, Nat.add_sub_cancel]
      exact hn''

/-- One more event. -/
theorem Realized.one {env : Env} {peers : ConnId → Peer} {cs : ConnId → List ClientPacket} {evs : List ClientEvent} {sched : List Step}
    (h : Realized peers cs evs (run env (init peers) sched)) {ev : ClientEvent} (hc : ∃ c, From c ev)
    (hp : ∀ c, (evs ++ [ev]).filter (From c) <+: eventsOf (peers c) c ((cs c).map meaning)) {b b' : Broker} {out : Outputs}
    (hb1 : Broker.start.after env.auth evs = some b) (hstep : b.step env.auth ev = some (b', out))
    (h32 : ∀ d, (Broker.start.outputs env.auth (evs ++ [ev]) d).length ≤ 32) :
    ∃ sched', Realized peers cs (evs ++ [ev]) (run env (init peers) (sched ++ sched')) := by
  obtain ⟨c, hc⟩ := hc
  have hcne : cs c ≠ [] := by
    intro he
    have := hp c
    rw [he, List.filter_append, List.filter_cons, if_pos (by simpa using hc)] at this
    simp [eventsOf] at this
  obtain ⟨k', hsp, hready, k1, k2, k3, k4, k5, k6⟩ := (h.ready c hcne).speaks (env := env) hc (hp c)
  have hinv := inv_run env peers sched
  have hserved : (run env (init peers) sched).served = evs := by
    unfold served; rw [h.log, List.map_map]; exact List.map_id evs
  have hrep : Rep (run env (init peers) sched).messaging b ∧ ∀ d, ((run env (init peers) sched).conns d).delivered
      = Broker.start.outputs env.auth evs d := by
    cases hinv.serves with
    | rest b₀ _ ha' hr ho =>
      rw [hserved, hb1] at ha'
      cases ha'
      exact ⟨hr, fun d => by rw [ho d, hserved]⟩
    | sending _ _ _ _ _ _ h' => rw [h.idle] at h'; cases h'
    | failed _ _ _ h' => rw [h.idle] at h'; cases h'
    | broken _ _ _ _ _ _ h' => rw [h.idle] at h'; cases h'
  have href := handle_refines env.auth 0 hrep.1 ev
  rw [hstep] at href
  cases hhandle : Handler.handle env.auth 0 (run env (init peers) sched).messaging ev with
  | none => rw [hhandle] at href; exact href.elim
  | some r =>
    obtain ⟨m', sends⟩ := r
    rw [hhandle] at href
    obtain ⟨_, hout⟩ := href
    obtain ⟨sched', t1, t2, _, t4⟩ := turn env 0 ⟨h.idle, h.events, rfl⟩ hsp hhandle (by
      intro d _
      have hd : ((run env (init peers) sched).setConn c k').conns d = if d = c then k' else (run env (init peers) sched).conns d := rfl
      have hq : (((run env (init peers) sched).setConn c k').conns d).rxOpen = true
          ∧ (((run env (init peers) sched).setConn c k').conns d).queue = Broker.start.outputs env.auth evs d := by
        rw [hd]
        split
        · rename_i hdc; subst hdc
          exact ⟨by rw [k1]; exact h.open_ _, by rw [k2, h.queue, hrep.2]⟩
        · exact ⟨h.open_ _, by rw [h.queue, hrep.2]⟩
      refine ⟨hq.1, ?_⟩
      rw [hq.2, hout d, ← List.length_append, ← outputs_snoc hb1 hstep]
      exact h32 d)
    have hk : ∀ d, d ≠ c → (run env (run env (init peers) sched) sched').conns d = withSends (run env (init peers) sched).conns sends d := by
      intro d hd
      rw [t4]; simp [withSends, setConn, hd]
    have hkc : (run env (run env (init peers) sched) sched').conns c
        = { k' with queue := k'.queue ++ sentTo sends c, delivered := k'.delivered ++ sentTo sends c } := by
      rw [t4]; simp [withSends, setConn]
    refine ⟨sched', ?_⟩
    rw [run_append]
    refine ⟨t1.idle, t1.events, ?_, fun d hne => ?_, fun d => ?_, fun d => ?_, fun d => ?_⟩
    · rw [t2, h.log]; simp
    · by_cases hd : d = c
      · subst hd; rw [hkc]; exact hready.congr rfl rfl rfl rfl rfl rfl
      · rw [hk d hd]
        refine (h.ready d hne).congr ?_ rfl rfl rfl rfl rfl
        rw [List.filter_append, List.filter_cons, if_neg, List.filter_nil, List.append_nil]
        intro h'
        exact hd (from_unique (by simpa using h') hc)
    · by_cases hd : d = c
      · subst hd; rw [hkc]; exact k1.trans (h.open_ _)
      · rw [hk d hd]; exact h.open_ _
    · by_cases hd : d = c
      · subst hd; rw [hkc]; simp only [k2, k3, h.queue]
      · rw [hk d hd]; simp only [withSends, h.queue]
    · by_cases hd : d = c
      · subst hd; rw [hkc]; simp only [k4, k5, k6]; exact h.unwritten _
      · rw [hk d hd]; exact h.unwritten _

/-- Some more events. -/
theorem Realized.more {env : Env} {peers : ConnId → Peer} {cs : ConnId → List ClientPacket} {evs : List ClientEvent} {sched : List Step}
    (h : Realized peers cs evs (run env (init peers) sched)) (evs' : List ClientEvent) (hf : ∀ ev ∈ evs', ∃ c, From c ev)
    (hp : ∀ c, (evs ++ evs').filter (From c) <+: eventsOf (peers c) c ((cs c).map meaning))
    (ha : (Broker.start.after env.auth (evs ++ evs')).isSome = true)
    (h32 : ∀ d, (Broker.start.outputs env.auth (evs ++ evs') d).length ≤ 32) :
    ∃ sched', Realized peers cs (evs ++ evs') (run env (init peers) (sched ++ sched')) := by
  revert hf hp ha h32
  refine snoc_induction (P := fun evs' => (∀ ev ∈ evs', ∃ c, From c ev)
    → (∀ c, (evs ++ evs').filter (From c) <+: eventsOf (peers c) c ((cs c).map meaning))
    → (Broker.start.after env.auth (evs ++ evs')).isSome = true → (∀ d, (Broker.start.outputs env.auth (evs ++ evs') d).length ≤ 32) →
    ∃ sched', Realized peers cs (evs ++ evs') (run env (init peers) (sched ++ sched'))) ?_ ?_ evs'
  · intro _ _ _ _
    exact ⟨[], by simpa using h⟩
  · intro evs' ev ih hf hp ha h32
    rw [← List.append_assoc] at hp ha h32 ⊢
    obtain ⟨b', ha⟩ := Option.isSome_iff_exists.mp ha
    obtain ⟨b, hb1, hb2⟩ := after_prefix ha
    obtain ⟨out, hstep⟩ := after_one hb2
    obtain ⟨sched', h⟩ := ih (fun e he => hf e (List.mem_append_left _ he))
      (fun c => List.IsPrefix.trans (by rw [List.filter_append _ [ev]]; exact List.prefix_append _ _) (hp c)) (by rw [hb1]; rfl)
      (fun d => by
        have := h32 d
        rw [outputs_snoc hb1 hstep, List.length_append] at this
        omega)
    obtain ⟨sched'', h⟩ := h.one (hf ev (by simp)) hp hb1 hstep h32
    exact ⟨sched' ++ sched'', by rw [← List.append_assoc]; exact h⟩

/-- Any order of events that respects the order on each connection, does not crash the broker, and sends no more than 32 things to anybody. -/
theorem realize (env : Env) (peers : ConnId → Peer) (cs : ConnId → List ClientPacket) (hb : ∀ c, cs c ≠ [] → (peers c).segs.flatten = clientBytes (cs c))
    (hs : ∀ c, Sendable (cs c)) (hl : ∀ c, (clientBytes (cs c)).length < 4096) (evs : List ClientEvent) (hf : ∀ ev ∈ evs, ∃ c, From c ev)
    (hp : ∀ c, evs.filter (From c) <+: eventsOf (peers c) c ((cs c).map meaning)) (ha : (Broker.start.after env.auth evs).isSome = true)
    (h32 : ∀ d, (Broker.start.outputs env.auth evs d).length ≤ 32) :
    ∃ sched, Realized peers cs evs (run env (init peers) sched) := by
  have h0 : Realized peers cs [] (run env (init peers) []) := ⟨rfl, rfl, rfl,
    fun c h => .inl ⟨rfl, rfl, rfl, rfl, next_new _ _ (hb c h) (hs c) (hl c)⟩, fun _ => rfl, fun _ => rfl, fun _ => ⟨rfl, rfl, rfl⟩⟩
  obtain ⟨sched, h⟩ := h0.more evs hf (by simpa using hp) (by simpa using ha) (by simpa using h32)
  exact ⟨sched, by simpa using h⟩

end Sys

end Ratel
