/-
Brokers that run for ever among clients that react: C143, C144.
-/
import Verif.Proofs.EndlessFull
import Verif.Props.Open

namespace Ratel

open Encoder Spec Sys

namespace Live

/-- Finitely many things that come true and stay true are true together in the end. -/
theorem all_eventually {N : Nat} {P : Nat → Nat → Prop} (n : Nat) (h : ∀ c, c < N → ∃ m, n ≤ m ∧ ∀ k, m ≤ k → P c k) :
    ∃ m, n ≤ m ∧ ∀ k, m ≤ k → ∀ c, c < N → P c k := by
  induction N with
  | zero => exact ⟨n, Nat.le_refl _, fun k _ c hc => absurd hc (Nat.not_lt_zero _)⟩
  | succ N ih =>
    obtain ⟨m₁, h1, h2⟩ := ih fun c hc => h c (by omega)
    obtain ⟨m₂, h3, h4⟩ := h N (by omega)
    refine ⟨max m₁ m₂, by omega, fun k hk c hc => ?_⟩
    by_cases e : c = N
    · subst e; exact h4 k (by omega)
    · exact h2 k (by omega) c (by omega)

end Live

/-! ### C143 -/

/-- C143. Let the broker run for ever among clients that react, every task getting its turn again and again and every socket answering a
write again and again. Then the broker crashes, on one of the events known to be fatal; or, whatever has arrived by any moment: from some
moment on every packet that can be decoded from it has been handled, those of a connection in their order, except for connections whose read
task spins; all that the sequential broker answers to what it had handled has been sent, and written up to the order to disconnect. -/
theorem C143_served_for_ever (env : Env) (peers : ConnId → Peer) (N : Nat) (σ : Nat → OStep) (he : Endless N σ) :
    (∃ n, (Live.run env (Live.init peers) (firstOf σ n)).opn.sys.handler = .crashed
      ∧ Fatal env.auth ((Live.run env (Live.init peers) (firstOf σ n)).opn.sys.log.map Prod.fst))
    ∨ ∀ n, ∃ m, n ≤ m ∧ ∀ k, m ≤ k →
      (∀ c, c < N → ((Live.run env (Live.init peers) (firstOf σ k)).opn.sys.conns c).phase = .stuck
        ∨ ∀ ps, Decodes env.profile (given peers (firstOf σ n) c).segs.flatten (given peers (firstOf σ n) c).fin ps →
          eventsOf (given peers (firstOf σ n) c) c ps
            <+: ((Live.run env (Live.init peers) (firstOf σ k)).opn.sys.log.map Prod.fst).filter (From c))
      ∧ (∀ d, Broker.start.outputs env.auth ((Live.run env (Live.init peers) (firstOf σ n)).opn.sys.log.map Prod.fst) d
          <+: ((Live.run env (Live.init peers) (firstOf σ k)).opn.sys.conns d).delivered)
      ∧ ∀ d, d < N → (Broker.start.outputs env.auth ((Live.run env (Live.init peers) (firstOf σ n)).opn.sys.log.map Prod.fst) d).takeWhile (· ≠ .disconnect)
          <+: ((Live.run env (Live.init peers) (firstOf σ k)).opn.sys.conns d).written.map .controlPacket := by
  show (∃ n, (Live.nth env peers σ n).opn.sys.handler = .crashed ∧ Fatal env.auth ((Live.nth env peers σ n).opn.sys.log.map Prod.fst))
    ∨ ∀ n, ∃ m, n ≤ m ∧ ∀ k, m ≤ k →
      (∀ c, c < N → ((Live.nth env peers σ k).opn.sys.conns c).phase = .stuck
        ∨ ∀ ps, Decodes env.profile (Live.brought peers σ n c).segs.flatten (Live.brought peers σ n c).fin ps →
          eventsOf (Live.brought peers σ n c) c ps <+: ((Live.nth env peers σ k).opn.sys.log.map Prod.fst).filter (From c))
      ∧ (∀ d, Broker.start.outputs env.auth ((Live.nth env peers σ n).opn.sys.log.map Prod.fst) d
          <+: ((Live.nth env peers σ k).opn.sys.conns d).delivered)
      ∧ ∀ d, d < N → (Broker.start.outputs env.auth ((Live.nth env peers σ n).opn.sys.log.map Prod.fst) d).takeWhile (· ≠ .disconnect)
          <+: ((Live.nth env peers σ k).opn.sys.conns d).written.map .controlPacket
  by_cases hup : Live.Up env peers σ
  · refine .inr fun n => ?_
    obtain ⟨m₁, h1, h1'⟩ := Live.all_eventually (N := N) (P := fun c k => ((Live.nth env peers σ k).opn.sys.conns c).phase = .stuck
        ∨ ∀ ps, Decodes env.profile (Live.brought peers σ n c).segs.flatten (Live.brought peers σ n c).fin ps →
          eventsOf (Live.brought peers σ n c) c ps <+: ((Live.nth env peers σ k).opn.sys.log.map Prod.fst).filter (From c)) n (by
      intro c hc
      obtain ⟨L, hL, hmax⟩ := longest env.profile (Live.brought peers σ n c).segs.flatten (Live.brought peers σ n c).fin
      obtain ⟨m, hm, h⟩ := Live.gets_handled he hup n hc hL
      refine ⟨m, hm, fun k hk => ?_⟩
      rcases h with h | h
      · exact .inl (Live.stuck_mono hk h)
      · refine .inr fun ps hps => ?_
        exact ((eventsOf_mono (hmax ps hps)).trans h).trans ((Live.served_mono hk).filter _))
    obtain ⟨m₂, h2, h2'⟩ := Live.gets_answered he hup n
    obtain ⟨m₃, h3, h3'⟩ := Live.all_eventually (N := N) (P := fun d k =>
        (Broker.start.outputs env.auth ((Live.nth env peers σ n).opn.sys.log.map Prod.fst) d).takeWhile (· ≠ .disconnect)
          <+: ((Live.nth env peers σ k).opn.sys.conns d).written.map .controlPacket) m₂ (by
      intro d hd
      obtain ⟨ws, hws⟩ := Live.packets_of (Broker.start.outputs env.auth ((Live.nth env peers σ n).opn.sys.log.map Prod.fst) d)
      have hpre := (List.takeWhile_prefix (· ≠ ServerEvent.disconnect)).trans (h2' d)
      rw [hws] at hpre
      obtain ⟨m, hm, _, hw⟩ := Live.gets_written he m₂ hd hpre
      refine ⟨m, hm, fun k hk => ?_⟩
      rw [hws]
      exact (hw.trans (Live.written_mono hk d)).map _)
    refine ⟨max m₁ m₃, by omega, fun k hk => ⟨h1' k (by omega), fun d => ?_, h3' k (by omega)⟩⟩
    exact (h2' d).trans (Live.delivered_mono (by omega) d)
  · obtain ⟨n, hn⟩ := Classical.not_forall.mp hup
    have hc : (Live.nth env peers σ n).opn.sys.handler = .crashed := by
      have hs := Live.not_stopped (env := env) (peers := peers) he n
      unfold handlerAlive at hn
      cases hh : (Live.nth env peers σ n).opn.sys.handler with
      | crashed => rfl
      | stopped => exact absurd hh hs
      | idle => rw [hh] at hn; simp at hn
      | busy t => rw [hh] at hn; simp at hn
    exact .inl ⟨n, hc, Live.fatal n hc⟩

/-- C143, in bytes: again and again the write task of a connection is between two packets, and then, if no write has failed, the socket has
taken the packets written, in the wire format, except for what is still in the buffer. -/
theorem C143_between_packets (env : Env) (peers : ConnId → Peer) (N : Nat) (σ : Nat → OStep) (he : Endless N σ) (d : Nat) (hd : d < N) :
    (∀ n, ∃ m, n ≤ m ∧ (Live.run env (Live.init peers) (firstOf σ m)).opn.hand d = none)
    ∧ ∀ n, (Live.run env (Live.init peers) (firstOf σ n)).opn.hand d = none → (∀ o ∈ (given peers (firstOf σ n) d).script, o ≠ .fail) →
      allBytes ((Live.run env (Live.init peers) (firstOf σ n)).opn.sys.conns d).wr
        = wireOf ((Live.run env (Live.init peers) (firstOf σ n)).opn.sys.conns d).written :=
  ⟨Live.hand_free he hd, fun n h hf => Live.bytes_written n h hf⟩

/-- C143, in bytes, when the socket of a connection takes at least 4096 bytes whenever it takes any: whatever has been written has been taken
by the socket, and between two packets that is all there is. -/
theorem C143_on_the_wire (env : Env) (peers : ConnId → Peer) (σ : Nat → OStep) (d : ConnId)
    (ht : ∀ n, ∀ o ∈ (given peers (firstOf σ n) d).script, ∃ k, o = .accept k ∧ 4096 ≤ k + 1) (n : Nat) :
    wireOf ((Live.run env (Live.init peers) (firstOf σ n)).opn.sys.conns d).written
      <+: (Live.run env (Live.init peers) (firstOf σ n)).opn.seen env d
    ∧ ((Live.run env (Live.init peers) (firstOf σ n)).opn.hand d = none →
        (Live.run env (Live.init peers) (firstOf σ n)).opn.seen env d
          = wireOf ((Live.run env (Live.init peers) (firstOf σ n)).opn.sys.conns d).written) := by
  refine ⟨Live.written_seen (env := env) (peers := peers) (σ := σ) ht n, fun h => ?_⟩
  unfold Open.seen
  rw [h]
  exact (Live.clear_always (env := env) (peers := peers) (σ := σ) ht n).wire

/-- C143, the good case: while every CONNECT is accepted, and nobody pings or nobody disconnects, the broker does not crash; and while a
connection has brought fewer than 4096 bytes, its read task does not spin. -/
theorem C143_keeps_running (env : Env) (peers : ConnId → Peer) (σ : Nat → OStep) (n : Nat) :
    ((∀ c q ps, Decodes env.profile (given peers (firstOf σ n) c).segs.flatten (given peers (firstOf σ n) c).fin (.connect q :: ps) →
          login env.auth q = .accepted) →
      ((∀ c ps, Decodes env.profile (given peers (firstOf σ n) c).segs.flatten (given peers (firstOf σ n) c).fin ps → .pingReq ∉ ps)
        ∨ ∀ c ps, Decodes env.profile (given peers (firstOf σ n) c).segs.flatten (given peers (firstOf σ n) c).fin ps → .disconnect ∉ ps) →
      (Live.run env (Live.init peers) (firstOf σ n)).opn.sys.handler ≠ .crashed)
    ∧ ∀ c, (given peers (firstOf σ n) c).segs.flatten.length < 4096 →
      ((Live.run env (Live.init peers) (firstOf σ n)).opn.sys.conns c).phase ≠ .stuck := by
  have hinv := Live.inv (env := env) (peers := peers) (σ := σ) n
  have hsame := Live.same (env := env) (peers := peers) (σ := σ) n
  refine ⟨fun hacc hping hc => ?_, fun c hc => ?_⟩
  · have hf := Live.fatal (env := env) (peers := peers) (σ := σ) n hc
    rw [hsame.log] at hf
    exact not_fatal (reads_orderly_served hinv.reads) (served_from hinv.reads) hacc hping hf
  · have := noSpin_run env (Live.brought peers σ n) (Live.nth env peers σ n).opn.did c hc
    rw [← Live.closed_run] at this
    have h1 := this.1
    rw [← hsame.phase] at h1
    exact h1

/-! ### C144 -/

namespace Sys

/-- A client that is let in, shares its client id with nobody and does not send DISCONNECT is never told to go away. -/
theorem never_away {env : Env} {peers : ConnId → Peer} {evs : List ClientEvent} (hord : Orderly env peers evs)
    (hfrom : ∀ ev ∈ evs, ∃ c, From c ev) {d : ConnId} (ho : OwnIds env peers (· ≠ d)) {p : ConnectPacket}
    (hp : Decodes env.profile (peers d).segs.flatten (peers d).fin [.connect p]) (hl : login env.auth p = .accepted)
    (hstay : ∀ qs, Decodes env.profile (peers d).segs.flatten (peers d).fin (.connect p :: qs) → .disconnect ∉ qs) :
    .disconnect ∉ Broker.start.outputs env.auth evs d := by
  intro hdis
  rcases (disconnect_turnedAway hdis).1 with ⟨p', addr, hm, hr⟩ | ⟨pre, id, post, rfl, hn⟩
  · rcases split_connect hord hfrom ho hp with h | ⟨pre, post, ps, rfl, _, hps, hpre, _⟩
    · exact (h _ hm).2 rfl
    · rcases List.mem_append.mp hm with h | h
      · exact (hpre _ h).2 rfl
      · rcases List.mem_cons.mp h with h | h
        · cases h
          rw [login_id, hl] at hr
          cases hr
        · have : ClientEvent.connected p' addr d ∈ post.filter (From d) := List.mem_filter.mpr ⟨h, by simp [From]⟩
          rw [hps] at this
          obtain ⟨_, _, e⟩ := List.mem_map.mp this
          cases e
  · have e : pre ++ .controlPacket id .pingReq d :: post = (pre ++ [.controlPacket id .pingReq d]) ++ post := by simp
    rw [e] at hord hfrom
    have hord' : Orderly env peers (pre ++ [.controlPacket id .pingReq d]) := hord.pre
    rcases split_connect hord' (fun ev hev => hfrom ev (List.mem_append_left _ hev)) ho hp with h | ⟨pre', post', ps, he, hd, hps, _, hpost⟩
    · exact (h (.controlPacket id .pingReq d) (by simp)).2 rfl
    · rcases List.eq_nil_or_concat post' with rfl | ⟨post'', last, rfl⟩
      · have := (List.append_inj' he rfl).2
        cases this
      · rw [List.concat_eq_append] at he hps hpost
        have he' : pre ++ [.controlPacket id .pingReq d]
            = (pre' ++ .connected { p with clientId := idOf (peers d) p } (peers d).addr d :: post'') ++ [last] := by rw [he]; simp
        obtain ⟨e1, e2⟩ := List.append_inj' he' rfl
        simp only [List.cons.injEq, and_true] at e2
        subst e2
        have hid : idOf (peers d) p = id := by
          have hm : ClientEvent.controlPacket id .pingReq d ∈ (post'' ++ [ClientEvent.controlPacket id .pingReq d]).filter (From d) :=
            List.mem_filter.mpr ⟨by simp, by simp [From]⟩
          rw [hps] at hm
          obtain ⟨_, _, e⟩ := List.mem_map.mp hm
          cases e
          rfl
        refine hn d ⟨pre', _, _, post'', e1, hid, (login_id env.auth p _).trans hl, fun ev hev hc => ?_⟩
        rcases hpost ev (List.mem_append_left _ hev) with ⟨q, rfl⟩ | ⟨c, _, hf, hne⟩
        · cases q <;> simp only [ChangesSession] at hc
          have hm : ClientEvent.controlPacket (idOf (peers d) p) .disconnect d ∈ (post'' ++ [ClientEvent.controlPacket id .pingReq d]).filter (From d) :=
            List.mem_filter.mpr ⟨List.mem_append_left _ hev, by simp [From]⟩
          rw [hps] at hm
          obtain ⟨q, hq, e⟩ := List.mem_map.mp hm
          simp only [ClientEvent.controlPacket.injEq, true_and, and_true] at e
          subst e
          exact hstay ps hd hq
        · rw [hid] at hne
          cases ev with
          | connected q _ _ => exact hne hc.1
          | controlPacket id' q _ => cases q <;> simp only [ChangesSession] at hc; exact hne hc
          | disconnected id' => exact hc
          | connectionLost id' => exact hne hc

end Sys

namespace Live

/-- An endless execution as one without the waiting list. -/
theorem open_two (env : Env) (peers : ConnId → Peer) (σ : Nat → OStep) {n m : Nat} (h : n ≤ m) :
    ∃ a b, (nth env peers σ n).opn = Open.run env (Open.init peers) a ∧ (nth env peers σ m).opn = Open.run env (Open.init peers) (a ++ b)
      ∧ given peers a = brought peers σ n ∧ given peers (a ++ b) = brought peers σ m := by
  obtain ⟨k, rfl⟩ := Nat.exists_eq_add_of_le h
  obtain ⟨a, _, h1, h2⟩ := open_run env (init peers) (firstOf σ n)
  obtain ⟨b, _, h3, h4⟩ := open_run env (nth env peers σ n) (firstOf (fun i => σ (n + i)) k)
  refine ⟨a, b, h1, ?_, h2 peers, ?_⟩
  · have e : nth env peers σ (n + k) = run env (nth env peers σ n) (firstOf (fun i => σ (n + i)) k) := by
      unfold nth; rw [firstOf_add, run_append]
    rw [e, h3, Open.run_append]
    exact congrArg (fun o => Open.run env o b) h1
  · unfold brought
    have e : ∀ x y, given peers (x ++ y) = given (given peers x) y := fun x y => by funext c; rw [Open.given_append]
    rw [firstOf_add, e, e, h2 peers, h4]

theorem packets_all {l : List ServerEvent} (h : .disconnect ∉ l) : ∃ ws : List ControlPacket, l = ws.map .controlPacket := by
  induction l with
  | nil => exact ⟨[], rfl⟩
  | cons e l ih =>
    cases e with
    | controlPacket p =>
      obtain ⟨ws, h⟩ := ih fun hm => h (List.mem_cons_of_mem _ hm)
      exact ⟨p :: ws, by rw [h]; rfl⟩
    | disconnect => exact absurd List.mem_cons_self h

theorem up_of {env : Env} {peers : ConnId → Peer} {σ : Nat → OStep} {N : Nat} (he : Endless N σ)
    (h : ∀ n, (nth env peers σ n).opn.sys.handler ≠ .crashed) : Up env peers σ := by
  intro n
  unfold handlerAlive
  cases hh : (nth env peers σ n).opn.sys.handler with
  | crashed => exact absurd hh (h n)
  | stopped => exact absurd hh (not_stopped he n)
  | idle => rfl
  | busy t => rfl

end Live

/-- C144. Messages arrive: let the broker run for ever without crashing, every task getting its turn again and again and every socket
answering a write again and again. Let a client whose client id no other connection uses have read the SUBACK for a filter, and never
disconnect or unsubscribe. If then somebody who has connected sends a message that matches the filter, it is written to the client's socket,
unless the read task of the sender spins. -/
theorem C144_messages_arrive (env : Env) (peers : ConnId → Peer) (N : Nat) (σ : Nat → OStep) (he : Endless N σ)
    (hup : ∀ n, (Live.run env (Live.init peers) (firstOf σ n)).opn.sys.handler ≠ .crashed)
    (n : Nat) (d : Nat) (hdN : d < N) (p : ConnectPacket) (ps : List ControlPacket) (sub : SubscribePacket) (f : String)
    (hp : Decodes env.profile (given peers (firstOf σ n) d).segs.flatten (given peers (firstOf σ n) d).fin (.connect p :: ps ++ [.subscribe sub]))
    (hl : login env.auth p = .accepted) (ho : ∀ m, OwnIds env (given peers (firstOf σ m)) (· ≠ d)) (hf : f ∈ sub.subscriptions.map fun x => x.topic)
    (xs : List ControlPacket) (hxs : ∀ x ∈ xs, ServerPacket x) (hok : ∀ o ∈ (given peers (firstOf σ n) d).script, o ≠ .fail)
    (hread : wireOf xs <+: (Live.run env (Live.init peers) (firstOf σ n)).opn.seen env d)
    (hack : (ps.filterMap ackOf).length < (acksIn (xs.map .controlPacket)).length)
    (hstay : ∀ m qs, Decodes env.profile (given peers (firstOf σ m) d).segs.flatten (given peers (firstOf σ m) d).fin
      (.connect p :: ps ++ .subscribe sub :: qs) → .disconnect ∉ ps ++ qs ∧ ∀ u, .unsubscribe u ∈ qs → f ∉ u.topics)
    (n' : Nat) (c : Nat) (hcN : c < N) (pc : ConnectPacket) (qs : List ControlPacket) (i : Nat) (q : PublishPacket)
    (hqs : Decodes env.profile (given peers (firstOf σ n') c).segs.flatten (given peers (firstOf σ n') c).fin (.connect pc :: qs))
    (hi : (.connect pc :: qs)[i]? = some (.publish q))
    (hlate : ∀ qs, Decodes env.profile (given peers (firstOf σ n) c).segs.flatten (given peers (firstOf σ n) c).fin qs → qs.length ≤ i)
    (hspin : ∀ m, ((Live.run env (Live.init peers) (firstOf σ m)).opn.sys.conns c).phase ≠ .stuck) (hmatch : Matches f q.message.topic) :
    ∃ m, ∀ k, m ≤ k → .publish q ∈ ((Live.run env (Live.init peers) (firstOf σ k)).opn.sys.conns d).written := by
  have hU : Live.Up env peers σ := Live.up_of he hup
  -- it is handled
  obtain ⟨m₁, hm₁, h1⟩ := Live.gets_handled he hU (max n n') hcN (Live.decodes_mono (peers := peers) (σ := σ) (Nat.le_max_right n n') hqs)
  have h1 := h1.resolve_left (hspin m₁)
  -- and answered
  obtain ⟨m₂, hm₂, hidle⟩ := Live.idle_again he hU m₁
  have hdone : i < dealtWith (Live.nth env peers σ m₂).opn.sys c := by
    have hlen := (h1.trans ((Live.served_mono hm₂).filter _)).length_le
    have hil := (List.getElem?_eq_some_iff.mp hi).1
    unfold dealtWith
    refine Nat.lt_of_lt_of_le ?_ hlen
    simpa [eventsOf] using hil
  obtain ⟨a, b, e1, e2, e3, e4⟩ := Live.open_two env peers σ (show n ≤ m₂ by omega)
  have hp₂ := Live.decodes_mono (peers := peers) (σ := σ) (show n ≤ m₂ by omega) hp
  have hdel : .controlPacket (.publish q) ∈ ((Live.nth env peers σ m₂).opn.sys.conns d).delivered := by
    rw [e2] at hidle hdone ⊢
    have hread' : wireOf xs <+: (Open.run env (Open.init peers) a).seen env d := by rw [← e1]; exact hread
    refine C138_subscribe_then_publish env peers a b d p ps sub f (by rw [e4]; exact hp₂) hl (by rw [e4]; exact ho m₂) hf xs hxs
      (by rw [e3]; exact hok) hread' hack (by rw [e4]; exact hstay m₂) c (.connect pc :: qs) i q ?_ hi (by rw [e3]; exact hlate) hdone hidle hmatch
    rw [e4]
    exact Live.decodes_mono (peers := peers) (σ := σ) (show n' ≤ m₂ by omega) hqs
  -- nobody tells the client to go
  have hno : .disconnect ∉ ((Live.nth env peers σ m₂).opn.sys.conns d).delivered := by
    have hinv := Live.inv (env := env) (peers := peers) (σ := σ) m₂
    have hpre := hinv.serves.delivered d
    rw [← (Live.same m₂).delivered] at hpre
    refine fun hm => never_away (reads_orderly_served hinv.reads) (served_from hinv.reads) (ho m₂)
      (Decodes.pre (b := ps ++ [.subscribe sub]) (by simpa using hp₂)) hl (fun qs' hd => ?_) (hpre.subset hm)
    rcases decodes_compare hp₂ hd with ⟨t, ht⟩ | ht
    · have e : qs' = ps ++ .subscribe sub :: t := by
        have : ControlPacket.connect p :: qs' = .connect p :: (ps ++ .subscribe sub :: t) := by rw [← ht]; simp
        simpa using this
      rw [e]
      have := (hstay m₂ t (by rw [e] at hd; exact hd)).1
      simp only [List.mem_append, List.mem_cons, not_or] at this ⊢
      exact ⟨this.1, by simp, this.2⟩
    · have := (hstay m₂ [] hp₂).1
      have hsub : qs' <+: ps ++ [.subscribe sub] := by
        have : ControlPacket.connect p :: qs' <+: .connect p :: (ps ++ [.subscribe sub]) := by simpa using ht
        exact (List.cons_prefix_cons.mp this).2
      intro hm
      have := hsub.subset hm
      simp at this
      simp_all
  obtain ⟨ws, hws⟩ := Live.packets_all hno
  obtain ⟨m₃, _, _, hw⟩ := Live.gets_written he m₂ hdN (ws := ws) (by rw [hws]; exact List.prefix_rfl)
  refine ⟨m₃, fun k hk => ?_⟩
  refine (hw.trans (Live.written_mono hk d)).subset ?_
  rw [hws] at hdel
  obtain ⟨x, hx, e⟩ := List.mem_map.mp hdel
  cases e
  exact hx

namespace Live

/-- An execution that begins as given and goes round for ever after. -/
def roundAfter (pre : List OStep) (round : List OStep) (n : Nat) : OStep :=
  match pre[n]? with
  | some st => st
  | none => (round[(n - pre.length) % round.length]?).getD (.task (.handler 0))

theorem roundAfter_mem (pre round : List OStep) (h : round ≠ []) (n : Nat) : roundAfter pre round n ∈ pre ++ round := by
  unfold roundAfter
  cases hp : pre[n]? with
  | some st => exact List.mem_append_left _ (List.mem_of_getElem? hp)
  | none =>
    have hl : (n - pre.length) % round.length < round.length := Nat.mod_lt _ (List.length_pos_iff.mpr h)
    rw [List.getElem?_eq_getElem hl]
    exact List.mem_append_right _ (List.getElem_mem hl)

theorem roundAfter_again (pre round : List OStep) {st : OStep} (h : st ∈ round) (n : Nat) : ∃ m, n ≤ m ∧ roundAfter pre round m = st := by
  obtain ⟨i, hi, he⟩ := List.getElem_of_mem h
  refine ⟨pre.length + (i + round.length * n), ?_, ?_⟩
  · have : n ≤ round.length * n := Nat.le_mul_of_pos_left n (by omega)
    omega
  · unfold roundAfter
    have h1 : pre[pre.length + (i + round.length * n)]? = none := List.getElem?_eq_none (by omega)
    rw [h1]
    simp only
    have h2 : (pre.length + (i + round.length * n) - pre.length) % round.length = i := by
      rw [Nat.add_sub_cancel_left, Nat.add_mul_mod_self_left, Nat.mod_eq_of_lt hi]
    rw [h2, List.getElem?_eq_getElem hi, he]
    rfl

/-- The answers of a socket are those it gave in the course of the execution. -/
theorem script_given {peers : ConnId → Peer} {exec : List OStep} {d : ConnId} {o : WriteOutcome} (h : o ∈ (given peers exec d).script) :
    o ∈ (peers d).script ∨ .answer d o ∈ exec := by
  have key : ∀ (exec : List OStep) (p : Peer), o ∈ (exec.foldl (give d) p).script → o ∈ p.script ∨ .answer d o ∈ exec := by
    intro exec
    induction exec with
    | nil => exact fun p h => .inl h
    | cons st exec ih =>
      intro p h
      rcases ih _ h with h | h
      · cases st with
        | task t => exact .inl h
        | arrive c seg => simp only [give] at h; split at h <;> exact .inl h
        | hangUp c fin => simp only [give] at h; split at h <;> exact .inl h
        | answer c a =>
          simp only [give] at h
          split at h
          · rename_i hc
            rcases List.mem_append.mp h with h | h
            · exact .inl h
            · rw [List.mem_singleton.mp h, hc]; exact .inr List.mem_cons_self
          · exact .inl h
      · exact .inr (List.mem_cons_of_mem _ h)
  exact key exec (peers d) h

/-- Three connections going round. -/
def threeRound : List OStep :=
  [.task (.read 0), .task (.read 1), .task (.read 2), .task (.handler 0), .task (.write 0), .task (.write 1), .task (.write 2),
    .answer 0 (.accept 4095), .answer 1 (.accept 5), .answer 2 (.accept 0)]

/-- Steps of these connections. -/
def ofThree : OStep → Bool
  | .task .ctrlC => false
  | .task (.read c) => Nat.blt c 3
  | _ => true

theorem three_endless (pre : List OStep) (h : (pre.all ofThree) = true) :
    Endless 3 (roundAfter pre threeRound) where
  few n c hc := by
    have := roundAfter_mem pre threeRound (by decide) n
    rw [hc] at this
    rcases List.mem_append.mp this with hm | hm
    · exact Nat.blt_eq.mp (List.all_eq_true.mp h _ hm)
    · simp only [threeRound, List.mem_cons, OStep.task.injEq, Step.read.injEq, reduceCtorEq, List.not_mem_nil, or_false] at hm
      rcases hm with rfl | rfl | rfl <;> decide
  read c hc n := by
    have : c = 0 ∨ c = 1 ∨ c = 2 := by omega
    rcases this with rfl | rfl | rfl <;> exact roundAfter_again pre threeRound (by simp [threeRound]) n
  write c hc n := by
    have : c = 0 ∨ c = 1 ∨ c = 2 := by omega
    rcases this with rfl | rfl | rfl <;> exact roundAfter_again pre threeRound (by simp [threeRound]) n
  handler n := by
    obtain ⟨m, h1, h2⟩ := roundAfter_again pre threeRound (st := .task (.handler 0)) (by simp [threeRound]) n
    exact ⟨m, 0, h1, h2⟩
  answer c hc n := by
    have : c = 0 ∨ c = 1 ∨ c = 2 := by omega
    rcases this with rfl | rfl | rfl
    · obtain ⟨m, h1, h2⟩ := roundAfter_again pre threeRound (st := .answer 0 (.accept 4095)) (by simp [threeRound]) n
      exact ⟨m, _, h1, h2⟩
    · obtain ⟨m, h1, h2⟩ := roundAfter_again pre threeRound (st := .answer 1 (.accept 5)) (by simp [threeRound]) n
      exact ⟨m, _, h1, h2⟩
    · obtain ⟨m, h1, h2⟩ := roundAfter_again pre threeRound (st := .answer 2 (.accept 0)) (by simp [threeRound]) n
      exact ⟨m, _, h1, h2⟩
  noStop n hn := by
    have := roundAfter_mem pre threeRound (by decide) n
    rw [hn] at this
    rcases List.mem_append.mp this with hm | hm
    · exact Bool.noConfusion (List.all_eq_true.mp h _ hm)
    · simp [threeRound] at hm

end Live

/-- "a" connects and subscribes and has the answers; then "b" sends a message; and so on for ever. -/
def evening : Nat → OStep := Live.roundAfter (actOne ++ [.arrive 1 (clientBytes (talk 1))]) Live.threeRound

theorem evening_endless : Endless 3 evening := Live.three_endless _ (by decide +kernel)

-- C143: after five rounds the message is written
example : .publish blank ∈ ((Live.run exampleEnv (Live.init quiet) (firstOf evening 90)).opn.sys.conns 0).written := by
  decide +kernel

/-- What "a", "b" and "c" send that evening. -/
def eveningTalk (c : ConnId) : List ClientPacket := if c = 0 ∨ c = 1 then talk c else []

theorem eveningTalk_sendable (c : ConnId) : Sendable (eveningTalk c) := by
  unfold eveningTalk
  split
  · exact talk_sendable c
  · intro x hx; cases hx

theorem evening_late (k : Nat) (c : ConnId) : (given quiet (firstOf evening (15 + k)) c).segs.flatten = clientBytes (eveningTalk c)
    ∧ (given quiet (firstOf evening (15 + k)) c).fin = .silence ∧ (given quiet (firstOf evening (15 + k)) c).uuid = "u" := by
  induction k with
  | zero =>
    have e : firstOf evening 15 = actOne ++ [.arrive 1 (clientBytes (talk 1))] := by decide +kernel
    rw [e]
    simp only [given, actOne, speak, listen, List.map, List.cons_append, List.nil_append, List.foldl_cons, List.foldl_nil, quiet]
    match c with
    | 0 => exact ⟨List.append_nil _, rfl, rfl⟩
    | 1 => exact ⟨List.append_nil _, rfl, rfl⟩
    | c + 2 =>
      have h3 : c + 2 ≠ 1 := fun h => by injection h with h; cases h
      simp [give, eveningTalk, h3, clientBytes]
  | succ k ih =>
    have e : given quiet (firstOf evening (15 + (k + 1))) c = give c (given quiet (firstOf evening (15 + k)) c) (evening (15 + k)) := by
      rw [show 15 + (k + 1) = (15 + k) + 1 by omega, Live.firstOf_succ, Open.given_append]
      rfl
    rw [e]
    have hmem : evening (15 + k) ∈ Live.threeRound := by
      unfold evening Live.roundAfter
      have hn : (actOne ++ [OStep.arrive 1 (clientBytes (talk 1))])[15 + k]? = none := List.getElem?_eq_none (by
        have : (actOne ++ [OStep.arrive 1 (clientBytes (talk 1))]).length = 15 := rfl
        omega)
      rw [hn]
      have hl : (15 + k - (actOne ++ [OStep.arrive 1 (clientBytes (talk 1))]).length) % Live.threeRound.length < Live.threeRound.length :=
        Nat.mod_lt _ (by decide)
      simp only
      rw [List.getElem?_eq_getElem hl]
      exact List.getElem_mem hl
    generalize evening (15 + k) = st at hmem
    simp only [Live.threeRound, List.mem_cons, List.not_mem_nil, or_false] at hmem
    rcases hmem with rfl | rfl | rfl | rfl | rfl | rfl | rfl | rfl | rfl | rfl <;>
    first
    | exact ih
    | (simp only [give]; split <;> exact ih)

theorem evening_decodes {m : Nat} {c : ConnId} {ps : List ControlPacket}
    (h : Decodes exampleEnv.profile (given quiet (firstOf evening m) c).segs.flatten (given quiet (firstOf evening m) c).fin ps) :
    ps <+: (eveningTalk c).map meaning := by
  have h' := Live.decodes_mono (peers := quiet) (σ := evening) (show m ≤ 15 + m by omega) h
  unfold Live.brought at h'
  rw [(evening_late m c).1, (evening_late m c).2.1] at h'
  exact decodes_client_only (eveningTalk_sendable c) h'

theorem evening_uuid (m : Nat) (c : ConnId) (p : ConnectPacket) (hp : p.clientId ≠ "") : idOf (given quiet (firstOf evening m) c) p = p.clientId := by
  unfold idOf; rw [if_neg hp]

theorem evening_accepted (m : Nat) (c : ConnId) (q : ConnectPacket) (ps : List ControlPacket)
    (h : Decodes exampleEnv.profile (given quiet (firstOf evening m) c).segs.flatten (given quiet (firstOf evening m) c).fin (.connect q :: ps)) :
    (c = 0 ∧ q = ⟨.mqtt3, "a", 60, true, none, none, none⟩) ∨ (c = 1 ∧ q = ⟨.mqtt3, "b", 60, true, none, none, none⟩) := by
  have g := evening_decodes h
  unfold eveningTalk talk at g
  split at g
  · split at g
    · rename_i h0
      exact .inl ⟨h0, by simpa [hello, meaning] using (List.cons_prefix_cons.mp g).1⟩
    · split at g
      · rename_i h1
        exact .inr ⟨h1, by simpa [hello, meaning] using (List.cons_prefix_cons.mp g).1⟩
      · rename_i h0 h1 h2
        exact absurd h0 (by simp [h1, h2])
  · simp at g

theorem evening_packets (c : ConnId) : ∀ x ∈ (eveningTalk c).map meaning, x ≠ .pingReq ∧ x ≠ .disconnect ∧ ∀ u, x ≠ .unsubscribe u := by
  intro x hx
  unfold eveningTalk talk at hx
  split at hx
  · split at hx
    · simp [hello, meaning] at hx; rcases hx with rfl | rfl <;> simp
    · split at hx
      · simp [hello, meaning] at hx; rcases hx with rfl | rfl <;> simp
      · rename_i h0 h1 h2
        exact absurd h0 (by simp [h1, h2])
  · cases hx

theorem evening_up (n : Nat) : (Live.run exampleEnv (Live.init quiet) (firstOf evening n)).opn.sys.handler ≠ .crashed := by
  refine (C143_keeps_running exampleEnv quiet evening n).1 (fun c q ps h => ?_)
    (.inl fun c ps h hm => (evening_packets c _ ((evening_decodes h).subset hm)).1 rfl)
  rcases evening_accepted n c q ps h with ⟨_, rfl⟩ | ⟨_, rfl⟩ <;> rfl

theorem evening_sent : Decodes exampleEnv.profile (given quiet (firstOf evening 14) 0).segs.flatten (given quiet (firstOf evening 14) 0).fin
    ((talk 0).map meaning) := by
  have e : (given quiet (firstOf evening 14) 0).segs.flatten = clientBytes (talk 0) := by decide +kernel
  have e' : (given quiet (firstOf evening 14) 0).fin = .silence := by decide +kernel
  rw [e, e']
  exact decodes_client exampleEnv.profile .silence (talk 0) (talk_sendable 0)

theorem evening_own (m : Nat) : OwnIds exampleEnv (given quiet (firstOf evening m)) (· ≠ 0) := by
  intro c d hc hd p ps q qs h1 h2
  have hd : d = 0 := Classical.not_not.mp hd
  subst hd
  rcases evening_accepted m 0 q qs h2 with ⟨_, rfl⟩ | ⟨h, _⟩
  · rcases evening_accepted m c p ps h1 with ⟨h, _⟩ | ⟨_, rfl⟩
    · exact absurd h hc
    · rw [evening_uuid _ _ _ (by decide), evening_uuid _ _ _ (by decide)]
      decide
  · cases h

theorem evening_script : ∀ o ∈ (given quiet (firstOf evening 14) 0).script, o ≠ .fail := by
  have e : (given quiet (firstOf evening 14) 0).script = [.accept 4095, .accept 4095, .accept 4095] := by decide +kernel
  rw [e]
  simp

theorem evening_seen : wireOf [.connAck ⟨false, .accepted⟩, .subAck ⟨1, [.successQoS0]⟩]
    <+: (Live.run exampleEnv (Live.init quiet) (firstOf evening 14)).opn.seen exampleEnv 0 := by
  have e : (Live.run exampleEnv (Live.init quiet) (firstOf evening 14)).opn.seen exampleEnv 0
      = wireOf [.connAck ⟨false, .accepted⟩, .subAck ⟨1, [.successQoS0]⟩] := by decide +kernel
  rw [e]
  exact List.prefix_rfl

theorem evening_next : Decodes exampleEnv.profile (given quiet (firstOf evening 15) 1).segs.flatten (given quiet (firstOf evening 15) 1).fin
    ((talk 1).map meaning) := by
  have e : (given quiet (firstOf evening 15) 1).segs.flatten = clientBytes (talk 1) := by decide +kernel
  have e' : (given quiet (firstOf evening 15) 1).fin = .silence := by decide +kernel
  rw [e, e']
  exact decodes_client exampleEnv.profile .silence (talk 1) (talk_sendable 1)

theorem evening_before (qs : List ControlPacket)
    (hqs : Decodes exampleEnv.profile (given quiet (firstOf evening 14) 1).segs.flatten (given quiet (firstOf evening 14) 1).fin qs) : qs = [] := by
  have e : (given quiet (firstOf evening 14) 1).segs.flatten = [] := by decide +kernel
  have e' : (given quiet (firstOf evening 14) 1).fin = .silence := by decide +kernel
  rw [e, e'] at hqs
  exact nothing_decodes hqs

theorem evening_short (m : Nat) (c : ConnId) (hc : (clientBytes (eveningTalk c)).length < 4096) :
    ((Live.run exampleEnv (Live.init quiet) (firstOf evening m)).opn.sys.conns c).phase ≠ .stuck := by
  refine (C143_keeps_running exampleEnv quiet evening m).2 c ?_
  obtain ⟨F, hF⟩ := Live.brought_future (peers := quiet) (σ := evening) (show m ≤ 15 + m by omega)
  have h1 := (evening_late m c).1
  have h2 : (given quiet (firstOf evening (15 + m)) c) = (F c).peer (given quiet (firstOf evening m) c) := hF c
  rw [h2] at h1
  have hle : (given quiet (firstOf evening m) c).segs.flatten.length ≤ ((F c).peer (given quiet (firstOf evening m) c)).segs.flatten.length := by
    unfold Open.Future.peer
    split <;> simp
  rw [h1] at hle
  omega

theorem evening_spin (m : Nat) : ((Live.run exampleEnv (Live.init quiet) (firstOf evening m)).opn.sys.conns 1).phase ≠ .stuck :=
  evening_short m 1 (by decide +kernel)

theorem evening_spin0 (m : Nat) : ((Live.run exampleEnv (Live.init quiet) (firstOf evening m)).opn.sys.conns 0).phase ≠ .stuck :=
  evening_short m 0 (by decide +kernel)

-- C144: "a" has read its SUBACK when "b" comes along and publishes; in the end the message is written to the socket of "a"
theorem evening_arrives :
    ∃ m, ∀ k, m ≤ k → .publish blank ∈ ((Live.run exampleEnv (Live.init quiet) (firstOf evening k)).opn.sys.conns 0).written := by
  refine C144_messages_arrive exampleEnv quiet 3 evening evening_endless evening_up 14 0 (by omega) ⟨.mqtt3, "a", 60, true, none, none, none⟩ []
    ⟨1, [⟨"t", .atMostOnce⟩]⟩ "t" evening_sent rfl evening_own (by simp) [.connAck ⟨false, .accepted⟩, .subAck ⟨1, [.successQoS0]⟩] ?_ evening_script
    evening_seen (by decide +kernel) (fun m qs hqs => ?_) 15 1 (by omega) ⟨.mqtt3, "b", 60, true, none, none, none⟩ [.publish blank] 1 blank
    evening_next rfl ?_ evening_spin ?_
  · simp [ServerPacket]
  · have g := evening_decodes hqs
    have hq : qs = [] := by
      cases qs with
      | nil => rfl
      | cons x qs =>
        have := g.length_le
        simp [eveningTalk, talk] at this
    subst hq
    simp
  · intro qs hqs
    rw [evening_before qs hqs]
    exact Nat.zero_le _
  · exact ⟨["t"], ["t"], (C69_levels _ _).mpr (by decide +kernel), (C69_levels _ _).mpr (by decide +kernel), .literal _ _ _ .done⟩

/-- The socket of "a" takes all it is offered. -/
theorem evening_takes (n : Nat) : ∀ o ∈ (given quiet (firstOf evening n) 0).script, ∃ k, o = .accept k ∧ 4096 ≤ k + 1 := by
  intro o ho
  rcases Live.script_given ho with h | h
  · cases h
  · obtain ⟨i, _, hi⟩ := List.mem_map.mp h
    have hm := Live.roundAfter_mem (actOne ++ [.arrive 1 (clientBytes (talk 1))]) Live.threeRound (by decide) i
    have hall : ((actOne ++ [OStep.arrive 1 (clientBytes (talk 1))] ++ Live.threeRound).all fun st : OStep =>
        match st with
        | .answer c a => decide (c ≠ 0) || decide (a = .accept 4095)
        | _ => true) = true := by decide +kernel
    have hi : Live.roundAfter (actOne ++ [.arrive 1 (clientBytes (talk 1))]) Live.threeRound i = .answer 0 o := hi
    rw [hi] at hm
    have := List.all_eq_true.mp hall _ hm
    exact ⟨4095, by simpa using this, by decide⟩

-- C143, C144: so the bytes of the message have left the broker
example : ∃ m, ∀ k, m ≤ k → ∃ xs, .publish blank ∈ xs
    ∧ wireOf xs <+: (Live.run exampleEnv (Live.init quiet) (firstOf evening k)).opn.seen exampleEnv 0 := by
  obtain ⟨m, h⟩ := evening_arrives
  exact ⟨m, fun k hk => ⟨_, h k hk, (C143_on_the_wire exampleEnv quiet evening 0 evening_takes k).1⟩⟩

end Ratel
