/-
C52: how many packets it takes to stall the broker.
-/
import Verif.Props.Liveness

namespace Ratel

open Spec Sys

namespace Sys

/-- A parked write task has a packet in hand. -/
theorem blocked_run (env : Env) (peers : ConnId → Peer) (sched : List Step) (c : ConnId) :
    ((run env (init peers) sched).conns c).wrBlocked = true → ((run env (init peers) sched).conns c).written ≠ [] := by
  refine run_induction (P := fun s => ∀ c, (s.conns c).wrBlocked = true → (s.conns c).written ≠ []) ?_ ?_ sched c
  · intro s st h c hb
    cases st with
    | read c' =>
      obtain ⟨_, _, _, h4, h5, _⟩ := stepRead_conn env s c' c
      simp only [step] at hb ⊢
      rw [h5]
      rw [h4] at hb
      exact h c hb
    | write c' =>
      by_cases hc : c = c'
      · subst hc
        simp only [step] at hb ⊢
        have hw := stepWrite_wrote env s c
        generalize (stepWrite env s c).conns c = k' at hb hw ⊢
        revert hb
        cases hw with
        | idle => exact h c
        | packet => simp
        | panic => simp
        | disconnect => exact h c
        | gone => exact h c
      · simp only [step, stepWrite_other env s hc] at hb ⊢
        exact h c hb
    | handler now =>
      simp only [step] at hb ⊢
      rcases stepHandler_conn env now s c with he | ⟨e, todo, _, hrx, hroom, he⟩
      · rw [he] at hb ⊢; exact h c hb
      · rw [he] at hb ⊢; exact h c hb
    | ctrlC => exact h c hb
    | stop =>
      revert hb
      simp only [step]
      cases hh : s.handler with
      | idle =>
        simp only
        split
        · exact h c
        · exact h c
      | _ => exact h c
  · intro c hb
    simp [init, Peer.conn] at hb

end Sys

/-- C52, how many packets it takes: when the handler waits for the queue of a connection whose socket takes no more, then what it has dealt
with calls for at least 34 packets to that connection: one in the hands of the write task, 32 queued and one to be sent. -/
theorem C52_at_least_34_partial (env : Env) (peers : ConnId → Peer) (sched : List Step) (d : ConnId) (e : ServerEvent)
    (todo : List (ConnId × ServerEvent)) (h : Stuck (run env (init peers) sched) d e todo) :
    34 ≤ (Broker.start.outputs env.auth ((run env (init peers) sched).log.map Prod.fst) d).length := by
  obtain ⟨hh, hrx, hq, hb⟩ := h
  have hinv := inv_run env peers sched
  have hw := blocked_run env peers sched d hb
  have hdel := (hinv.writes d).all hrx
  have hlen : 33 ≤ ((run env (init peers) sched).conns d).delivered.length := by
    have := List.length_pos_iff.mpr hw
    rw [hdel, List.length_append, List.length_map]
    omega
  cases hinv.serves with
  | rest b h' => rcases h' with h' | h' <;> rw [hh] at h' <;> cases h'
  | sending todo' pre ev b b' out h' _ _ _ _ ho =>
    rw [hh] at h'
    cases h'
    have := congrArg List.length (ho d)
    rw [List.length_append, sentTo_cons, if_pos rfl, List.length_append, List.length_singleton] at this
    show 34 ≤ (Broker.start.outputs env.auth (run env (init peers) sched).served d).length
    omega
  | failed _ _ _ h' => rw [hh] at h'; cases h'
  | broken _ _ _ _ _ _ h' => rw [hh] at h'; cases h'

/-- The bound is sharp: connection 0 subscribes to "t" and takes nothing from its socket, connection 1 publishes 32 messages on "t". There
is an execution after which the handler waits for ever (`C52_slow_subscriber_fails`) and exactly 34 packets are due to connection 0. -/
theorem C52_exactly_34_fails (env : Env) (peers : ConnId → Peer) (h0 : (peers 0).segs.flatten = clientBytes subscriberPackets)
    (hw : (peers 0).script = []) (h1 : (peers 1).segs.flatten = clientBytes publisherPackets) :
    ∃ sched e, Stuck (run env (init peers) sched) 0 e []
      ∧ (Broker.start.outputs env.auth ((run env (init peers) sched).log.map Prod.fst) 0).length = 34 := by
  obtain ⟨sched, hs, h1, _⟩ := stall_publish env peers h0 h1 hw
  refine ⟨sched, _, hs, Nat.le_antisymm ?_ (C52_at_least_34_partial env peers sched 0 _ _ hs)⟩
  obtain ⟨hh, hrx, hq, hb⟩ := hs
  have hinv := inv_run env peers sched
  have hdel := (hinv.writes 0).all hrx
  have hbound := (hinv.writes 0).bound
  cases hinv.serves with
  | rest b h' => rcases h' with h' | h' <;> rw [hh] at h' <;> cases h'
  | sending todo' pre ev b b' out h' _ _ _ _ ho =>
    rw [hh] at h'
    cases h'
    have := congrArg List.length (ho 0)
    rw [List.length_append, sentTo_cons, if_pos rfl, hdel, show sentTo [] 0 = [] from rfl, List.append_nil, List.length_singleton,
      List.length_append, List.length_map, h1] at this
    show (Broker.start.outputs env.auth (run env (init peers) sched).served 0).length ≤ 34
    unfold channelCapacity at hbound
    omega
  | failed _ _ _ h' => rw [hh] at h'; cases h'
  | broken _ _ _ _ _ _ h' => rw [hh] at h'; cases h'

/-- C52, the part that holds under a fair schedule: a client that stops reading does no harm to the others as long as no more than 33
packets are due to it. If no order in which the packets can be dealt with calls for more than 33 packets to one of the connections, none of
them is fatal (C43), and ctrl-c is not pressed, then everything is handled in the end, whatever the sockets do. -/
theorem C52_tolerated_partial (env : Env) (peers : ConnId → Peer) (N : Nat) (σ : Nat → Step) (hf : Fair N σ)
    (hc : ∀ n, σ n ≠ .ctrlC) (hfatal : ∀ evs, Orderly env peers evs → (∀ ev ∈ evs, ∃ c, From c ev) → ¬ Fatal env.auth evs)
    (h33 : ∀ evs, Orderly env peers evs → (∀ ev ∈ evs, ∃ c, From c ev) → ∀ d, d < N → (Broker.start.outputs env.auth evs d).length ≤ 33) :
    ∃ n, (∀ m, n ≤ m → run env (init peers) (firstSteps σ m) = run env (init peers) (firstSteps σ n))
      ∧ AllDone env N (run env (init peers) (firstSteps σ n))
      ∧ ∀ c, c < N → ((run env (init peers) (firstSteps σ n)).conns c).phase ≠ .stuck → ∀ ps,
          Decodes env.profile (peers c).segs.flatten (peers c).fin ps →
          eventsOf (peers c) c ps <+: ((run env (init peers) (firstSteps σ n)).log.map Prod.fst).filter (From c) := by
  obtain ⟨n, h1, h2⟩ := C79_everything_handled env peers N σ hf
  have hord := reads_orderly_served (inv_run env peers (firstSteps σ n)).reads
  have hfrom : ∀ ev ∈ (run env (init peers) (firstSteps σ n)).served, ∃ c, From c ev := fun ev hev =>
    (inv_run env peers (firstSteps σ n)).reads.from_conn ev (List.mem_append_left _ hev)
  refine ⟨n, h1, ?_⟩
  rcases h2 with ⟨_, h⟩ | ⟨_, i, _, h⟩ | ⟨d, e, todo, hd, h⟩ | h
  · exact absurd h (hfatal _ hord hfrom)
  · exact absurd h (hc i)
  · have := C52_at_least_34_partial env peers _ d e todo h
    have := h33 _ hord hfrom d hd
    rw [Sys.served] at this
    omega
  · exact h

theorem quota_le (k n : Nat) (evs : List ClientEvent) (h : ∀ id s tx, .controlPacket id (.subscribe s) tx ∈ evs → s.subscriptions.length ≤ k) :
    quota n evs ≤ (n + k * evs.length + 2) * evs.length := by
  induction evs generalizing n with
  | nil => simp [quota]
  | cons ev evs ih =>
    have ih := fun n => ih n fun id s tx hs => h id s tx (List.mem_cons_of_mem _ hs)
    have hmono : ∀ a b : Nat, a ≤ b → a * evs.length ≤ b * evs.length := fun a b hab => Nat.mul_le_mul_right _ hab
    have hk : k * (evs.length + 1) = k * evs.length + k := Nat.mul_succ _ _
    rw [List.length_cons, Nat.mul_succ, hk]
    have hsame : (n + k * evs.length + 2) * evs.length ≤ (n + (k * evs.length + k) + 2) * evs.length := hmono _ _ (by omega)
    unfold quota
    split
    · rename_i h'; cases h'
    · rename_i h'
      cases h'
      have := ih n
      omega
    · rename_i s _ _ h'
      cases h'
      have h1 := h _ s _ List.mem_cons_self
      have := ih (n + s.subscriptions.length)
      have := hmono (n + s.subscriptions.length + k * evs.length + 2) (n + (k * evs.length + k) + 2) (by omega)
      omega
    · rename_i h'
      cases h'
      have := ih n
      omega

/-- A subscriber whose socket takes nothing, and a client that publishes once. -/
def modest (c : ConnId) : List ClientPacket :=
  if c = 0 then subscriberPackets else if c = 1 then [hello "p", .publish blank] else []

theorem modest_sendable (c : ConnId) : Sendable (modest c) := by
  unfold modest
  split
  · exact subscriber_sendable
  · split
    · intro x hx
      exact publisher_sendable x (by
        rcases List.mem_cons.mp hx with rfl | hx
        · simp [publisherPackets]
        · cases List.mem_singleton.mp hx; simp [publisherPackets])
    · intro x hx; cases hx

/-- They on their sockets. -/
def modestPeers : ConnId → Peer := fun c => ⟨someAddr, "u", [clientBytes (modest c)], .eof, []⟩

/-- What they can make the broker see. -/
def modestEvents (c : ConnId) : List ClientEvent :=
  if c = 0 then [.connected ⟨.mqtt3, "s", 60, true, none, none, none⟩ someAddr 0, .controlPacket "s" (.subscribe ⟨1, [⟨"t", .atMostOnce⟩]⟩) 0]
  else if c = 1 then [.connected ⟨.mqtt3, "p", 60, true, none, none, none⟩ someAddr 1, .controlPacket "p" (.publish blank) 1]
  else []

theorem eventsOf_pre (peer : Peer) (c : ConnId) {ps qs : List ControlPacket} (h : ps <+: qs) : eventsOf peer c ps <+: eventsOf peer c qs := by
  obtain ⟨t, rfl⟩ := h
  cases ps with
  | nil => exact List.nil_prefix
  | cons p ps =>
    cases p with
    | connect p => rw [List.cons_append, eventsOf, eventsOf, List.map_append]; exact ⟨_, rfl⟩
    | _ => exact List.nil_prefix

theorem modest_events {evs : List ClientEvent} (h : Orderly exampleEnv modestPeers evs) (c : ConnId) :
    evs.filter (From c) <+: modestEvents c := by
  obtain ⟨ps, h1, h2⟩ := h c
  have h1' : Decodes exampleEnv.profile (clientBytes (modest c)) .eof ps := by
    simpa [modestPeers] using h1
  refine h2.trans ((eventsOf_pre _ c (decodes_client_only (modest_sendable c) h1')).trans ?_)
  unfold modest modestEvents
  split
  · rename_i hc; subst hc
    exact List.prefix_refl _
  · split
    · rename_i hc; subst hc
      exact List.prefix_refl _
    · exact List.prefix_refl _

theorem length_two (evs : List ClientEvent) (h : ∀ ev ∈ evs, From 0 ev ∨ From 1 ev) :
    evs.length ≤ (evs.filter (From 0)).length + (evs.filter (From 1)).length := by
  induction evs with
  | nil => exact Nat.zero_le _
  | cons ev evs ih =>
    have ih := ih fun x hx => h x (List.mem_cons_of_mem _ hx)
    have hm : ∀ c, (evs.filter (From c)).length ≤ ((ev :: evs).filter (From c)).length := fun c =>
      ((List.sublist_cons_self ev evs).filter _).length_le
    rcases h ev List.mem_cons_self with h0 | h1
    · have := hm 1
      rw [List.filter_cons, if_pos (by simpa using h0), List.length_cons, List.length_cons]
      omega
    · have := hm 0
      rw [List.filter_cons (p := fun ev => decide (From 1 ev)), if_pos (by simpa using h1), List.length_cons, List.length_cons]
      omega

theorem modest_length {evs : List ClientEvent} (h : Orderly exampleEnv modestPeers evs) (hf : ∀ ev ∈ evs, ∃ c, From c ev) :
    evs.length ≤ 4 := by
  have h0 : (evs.filter (From 0)).length ≤ 2 := (modest_events h 0).length_le
  have h1 : (evs.filter (From 1)).length ≤ 2 := (modest_events h 1).length_le
  have := length_two evs fun ev hev => by
    obtain ⟨c, hc⟩ := hf ev hev
    by_cases c0 : c = 0
    · subst c0; exact .inl hc
    · by_cases c1 : c = 1
      · subst c1; exact .inr hc
      · have := (modest_events h c).subset (List.mem_filter.mpr ⟨hev, by simpa using hc⟩)
        simp [modestEvents, c0, c1] at this
  omega

-- C52_tolerated_partial
example : ∃ n, AllDone exampleEnv 2 (run exampleEnv (init modestPeers) (firstSteps roundRobin n)) := by
  have hmem : ∀ evs, Orderly exampleEnv modestPeers evs → (∀ ev ∈ evs, ∃ c, From c ev) → ∀ ev ∈ evs, ev ∈ modestEvents 0 ∨ ev ∈ modestEvents 1 := by
    intro evs h hf ev hev
    obtain ⟨c, hc⟩ := hf ev hev
    have := (modest_events h c).subset (List.mem_filter.mpr ⟨hev, by simpa using hc⟩)
    by_cases c0 : c = 0
    · subst c0; exact .inl this
    · by_cases c1 : c = 1
      · subst c1; exact .inr this
      · simp [modestEvents, c0, c1] at this
  obtain ⟨n, _, h, _⟩ := C52_tolerated_partial exampleEnv modestPeers 2 roundRobin roundRobin_fair
    (by intro n; unfold roundRobin; repeat' split
        all_goals simp)
    (by
      rintro evs h hf ⟨pre, ev, rfl, h'⟩
      have hm := hmem _ h hf
      have hno : ∀ d, ¬ TurnedAway exampleEnv.auth pre d := by
        rintro d (⟨p, addr, hp, hl⟩ | ⟨pre', id, post, rfl, _⟩)
        · have := hm _ (List.mem_append_left _ hp)
          simp [modestEvents] at this
          rcases this with ⟨rfl, _⟩ | ⟨rfl, _⟩ <;> simp [login] at hl
        · have := hm (.controlPacket id .pingReq d) (by simp)
          simp [modestEvents] at this
      rcases h' with ⟨p, addr, tx, rfl, hl⟩ | ⟨id, p, tx, rfl, _, ht⟩
      · have := hm _ (List.mem_append_right _ (List.mem_singleton_self _))
        simp [modestEvents] at this
        rcases this with ⟨rfl, _⟩ | ⟨rfl, _⟩ <;> simp [login] at hl
      · exact hno _ ht)
    (by
      intro evs h hf d _
      have hm := hmem _ h hf
      refine Nat.le_trans (outputs_quota (by
        intro id q tx hq
        have := hm _ hq
        simp [modestEvents] at this
        rw [this.2.1]
        exact ⟨by decide +kernel, by decide +kernel⟩) _ d) ?_
      refine Nat.le_trans (quota_le 1 _ evs (by
        intro id q tx hq
        have := hm _ hq
        simp [modestEvents] at this
        rw [this.2.1]
        simp)) ?_
      have hlen := modest_length h hf
      refine Nat.le_trans (Nat.mul_le_mul (show _ ≤ 6 by simp only [Broker.start, List.length_nil]; omega) hlen) (by decide))
  exact ⟨n, h⟩

end Ratel
