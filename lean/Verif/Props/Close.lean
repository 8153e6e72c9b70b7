/-
C105–C108: when the broker closes connections.
-/
import Verif.Proofs.Told
import Verif.Props.Liveness
import Verif.Props.View

namespace Ratel

open Decoder Encoder Spec Sys

namespace Sys

/-- Input that ends some time leaves no read task waiting. -/
theorem input_over {env : Env} {peers : ConnId → Peer} {P : ConnId → Prop} {s : Sys} (hr : Reads env peers s) (hd : Done env P s) {d : ConnId}
    (hP : P d) (hs : (s.conns d).phase ≠ .stuck) (hf : (peers d).fin ≠ .silence) : (s.conns d).phase = .ended := by
  have hno : ¬ ((s.conns d).phase = .first ∨ ∃ id, (s.conns d).phase = .running id) := by
    intro hp
    refine hd.read d hP ⟨hp, ?_⟩
    obtain ⟨_, _, ps, pl, h1, h2, h3, _, _⟩ := hr.conn d
    have hrel : Rel (s.conns d).rd pl := by
      rcases hp with hp | ⟨id, hp⟩
      · exact (h2 hp).2
      · exact (h3 id hp).1
    have hfin : (s.conns d).rd.fin = (peers d).fin := by
      rw [hrel.fin]
      have := (NoWait.readMany env.profile ps.length ⟨(peers d).segs.flatten, (peers d).fin⟩ hf).2
      rw [h1] at this
      exact this
    exact (NoWait.readPacket env.profile ⟨_, _⟩ (by rw [hfin]; exact hf)).1
  cases hp : (s.conns d).phase with
  | first => exact absurd (.inl hp) hno
  | running id => exact absurd (.inr ⟨id, hp⟩) hno
  | ended => rfl
  | stuck => exact absurd hp hs

end Sys

/-- C105, one half. The broker closes a connection only if it refused its CONNECT, or was pinged on it for a client without session; or if
its input is over, and then, unless the packet handler is gone, all its packets have been handled and no client is reached on it. -/
theorem C105_hung_up_only (env : Env) (peers : ConnId → Peer) (sched : List Step) (d : ConnId) (h : HungUp (run env (init peers) sched) d) :
    TurnedAway env.auth ((run env (init peers) sched).log.map Prod.fst) d
    ∨ (((run env (init peers) sched).conns d).phase = .ended
      ∧ ((run env (init peers) sched).handlerAlive = true → AllHandled env peers ((run env (init peers) sched).log.map Prod.fst) d
        ∧ Unreached env.auth ((run env (init peers) sched).log.map Prod.fst) d)) := by
  have hinv := inv_run env peers sched
  have hec := endsComplete_run env peers sched
  generalize run env (init peers) sched = s at *
  rcases hinv.closed d h with hd | hg
  · exact .inl (disconnect_turnedAway ((hinv.serves.delivered d).subset hd)).1
  · refine .inr ⟨hg.ended, fun ha => ?_⟩
    obtain ⟨h1, h2, _, h4⟩ := hg.quiet ha
    refine ⟨fun ps hps => ?_, fun x hx => h4 x ((session_reached hinv ha x d).mpr hx)⟩
    have := hec d hg.ended ha ps hps
    have h2' : s.events.filter (From d) = [] := List.filter_eq_nil_iff.mpr fun ev hev => by simpa using h2 ev hev
    rw [h1, taken, List.filter_append, h2'] at this
    simpa using this

/-- C105. If every task gets its turn again and again, then in the end, if the handler neither crashed nor was stopped nor waits for a
socket: a connection whose socket takes what is written is closed exactly if it was told to go away, or its input is over and no client
is reached on it. Then its read task is gone too in the second case. -/
theorem C105_hung_up_exactly (env : Env) (peers : ConnId → Peer) (N : Nat) (σ : Nat → Step) (hf : Fair N σ) (n : Nat)
    (hn : ∀ m, n ≤ m → run env (init peers) (firstSteps σ m) = run env (init peers) (firstSteps σ n))
    (hdone : AllDone env N (run env (init peers) (firstSteps σ n))) (d : ConnId) (hd : (d : Nat) < N)
    (hb : ((run env (init peers) (firstSteps σ n)).conns d).wrBlocked = false) :
    (HungUp (run env (init peers) (firstSteps σ n)) d
      ↔ TurnedAway env.auth ((run env (init peers) (firstSteps σ n)).log.map Prod.fst) d
        ∨ (((run env (init peers) (firstSteps σ n)).conns d).phase = .ended
          ∧ Unreached env.auth ((run env (init peers) (firstSteps σ n)).log.map Prod.fst) d))
    ∧ ((peers d).fin ≠ .silence → ((run env (init peers) (firstSteps σ n)).conns d).phase ≠ .stuck →
        ((run env (init peers) (firstSteps σ n)).conns d).phase = .ended) := by
  have hinv := inv_run env peers (firstSteps σ n)
  have hse := keys_run env peers (firstSteps σ n)
  have ha : (run env (init peers) (firstSteps σ n)).handlerAlive = true := by simp [handlerAlive, hdone.handler]
  obtain ⟨hr, hw⟩ := rest_steps hf hn hd
  refine ⟨⟨fun h => ?_, fun h => ?_⟩, fun h1 h2 => input_over hinv.reads hdone hd h2 h1⟩
  · exact (C105_hung_up_only env peers _ d h).imp_right fun ⟨h1, h2⟩ => ⟨h1, (h2 ha).2⟩
  · refine (closed_rest env hinv hse hr hw hb (fun todo h => ?_) (fun _ => hdone.events) ?_).1
    · rw [hdone.handler] at h; cases h
    · refine h.imp (fun h => ?_) (fun ⟨h1, h2⟩ => ⟨h1, fun _ x hx => h2 x ((session_reached hinv ha x d).mp hx)⟩)
      cases hinv.serves with
      | rest b _ h1 _ ho => rw [ho d]; exact turnedAway_told h1 h
      | sending _ _ _ _ _ _ h' => rw [hdone.handler] at h'; cases h'
      | failed _ _ _ h' => rw [hdone.handler] at h'; cases h'
      | broken _ _ _ _ _ _ h' => rw [hdone.handler] at h'; cases h'

/-- C105, of the connections told to go away. If every task gets its turn again and again, then in the end every connection that was told to
go away and whose socket takes what is written is closed, whatever has become of the packet handler. -/
theorem C105_told_closed (env : Env) (peers : ConnId → Peer) (N : Nat) (σ : Nat → Step) (hf : Fair N σ) (n : Nat)
    (hn : ∀ m, n ≤ m → run env (init peers) (firstSteps σ m) = run env (init peers) (firstSteps σ n)) (d : ConnId) (hd : (d : Nat) < N)
    (hb : ((run env (init peers) (firstSteps σ n)).conns d).wrBlocked = false)
    (ht : TurnedAway env.auth ((run env (init peers) (firstSteps σ n)).log.map Prod.fst) d) : HungUp (run env (init peers) (firstSteps σ n)) d := by
  rcases told_rest env peers hf hn hb ht with h | ⟨_, h⟩
  · exact told_closed (inv_run env peers _) (rest_steps hf hn hd).2 hb h
  · exact h

/-! ### Protocol violations -/

namespace Sys

/-- A client that shares its client id with no other connection, was accepted and does not disconnect is reached on its connection. -/
theorem reached_own {env : Env} {peers : ConnId → Peer} {evs : List ClientEvent} (h : Orderly env peers evs) (hf : ∀ ev ∈ evs, ∃ c, From c ev)
    {d : ConnId} (ho : OwnIds env peers (· ≠ d)) {p : ConnectPacket} (hp : Decodes env.profile (peers d).segs.flatten (peers d).fin [.connect p])
    (hacc : login env.auth p = .accepted)
    (hnd : ∀ ps, Decodes env.profile (peers d).segs.flatten (peers d).fin ps → .disconnect ∉ ps)
    (hc : ∃ ev ∈ evs, From d ev) : ReachedOn env.auth evs (idOf (peers d) p) d := by
  obtain ⟨ev, hev, hfr⟩ := hc
  rcases split_connect h hf ho hp with hno | ⟨pre, post, ps, rfl, hd, hps, _, hap⟩
  · exact absurd hfr (hno ev hev).2
  · refine ⟨pre, _, _, post, rfl, rfl, hacc, fun e he hch => ?_⟩
    rcases hap e he with ⟨q, rfl⟩ | ⟨c, _, _, hne⟩
    · cases q with
      | disconnect =>
        have hm : ClientEvent.controlPacket (idOf (peers d) p) .disconnect d ∈ post.filter (From d) :=
          List.mem_filter.mpr ⟨he, by simp [From]⟩
        rw [hps] at hm
        obtain ⟨q, hq, hqe⟩ := List.mem_map.mp hm
        cases hqe
        exact hnd _ hd (List.mem_cons_of_mem _ hq)
      | _ => exact hch
    · cases e with
      | connected q a tx => exact hne hch.1
      | controlPacket i q tx =>
        cases q with
        | disconnect => exact hne hch
        | _ => exact hch
      | disconnected i => exact hch
      | connectionLost i => exact hne hch

theorem not_turnedAway {env : Env} {peers : ConnId → Peer} {evs : List ClientEvent} (h : Orderly env peers evs) (hf : ∀ ev ∈ evs, ∃ c, From c ev)
    {d : ConnId} (ho : OwnIds env peers (· ≠ d)) {p : ConnectPacket} (hp : Decodes env.profile (peers d).segs.flatten (peers d).fin [.connect p])
    (hacc : login env.auth p = .accepted)
    (hnd : ∀ ps, Decodes env.profile (peers d).segs.flatten (peers d).fin ps → .disconnect ∉ ps) : ¬ TurnedAway env.auth evs d := by
  rintro (⟨q, addr, hq, hl⟩ | ⟨pre, id, post, rfl, hno⟩)
  · obtain ⟨q', ps, hd, rfl⟩ := orderly_connect h hq
    have := Decodes.head hd hp
    cases this
    rw [login_id, hacc] at hl
    cases hl
  · have h' : Orderly env peers (pre ++ [.controlPacket id .pingReq d]) := Orderly.pre (post := post) (by simpa using h)
    obtain ⟨q, addr, hq, hid⟩ := h'.connected_before
    have hr := reached_own h'.pre (fun ev hev => hf ev (List.mem_append_left _ hev)) ho hp hacc hnd ⟨_, hq, by simp [From]⟩
    obtain ⟨q', ps, hd, rfl⟩ := orderly_connect h'.pre hq
    have := Decodes.head hd hp
    cases this
    exact hno d (by rw [← hid]; exact hr)

/-- What clients send, and then something that is no packet. -/
theorem decodes_violation {pr : Profile} {fin : Ending} {cs : List ClientPacket} (h : Sendable cs) (bad : List UInt8) :
    (readMany pr cs.length : M Plain _) ⟨clientBytes cs ++ bad, fin⟩ = (.ok (cs.map meaning), ⟨bad, fin⟩) := by
  induction cs with
  | nil => rfl
  | cons c cs ih =>
    have ih := ih fun x hx => h x (List.mem_cons_of_mem _ hx)
    obtain ⟨h1, h2, h3⟩ := h c List.mem_cons_self
    have := C07_client_packets pr c h1 h2 h3 (clientBytes cs ++ bad) fin
    rw [List.map_cons, List.length_cons, readMany]
    show (_ >>= _ : M Plain _) ⟨(packet (clientFirst c) (clientRest c) ++ clientBytes cs) ++ bad, fin⟩ = _
    rw [List.append_assoc, M.bind_ok this, M.bind_ok ih]
    rfl

theorem violation_only {pr : Profile} {fin : Ending} {cs : List ClientPacket} (h : Sendable cs) {bad : List UInt8}
    (hbad : ∀ p, (decoded pr bad fin).1 ≠ .ok p) {qs : List ControlPacket} (hq : Decodes pr (clientBytes cs ++ bad) fin qs) :
    qs <+: cs.map meaning := by
  obtain ⟨u, hq⟩ := hq
  refine readMany_mono (decodes_violation h bad) (fun p u hp => ?_) hq
  exact hbad p (by unfold decoded; rw [hp])

/-- A read task that has reached something that is no packet has ended when all is done. -/
theorem violation_ended {env : Env} {peers : ConnId → Peer} {P : ConnId → Prop} {s : Sys} (hr : Reads env peers s) (hd : Done env P s) {d : ConnId}
    (hP : P d) (hs : (s.conns d).phase ≠ .stuck) {cs : List ClientPacket} (h : Sendable cs) {bad : List UInt8}
    (hbytes : (peers d).segs.flatten = clientBytes cs ++ bad)
    (hbad : ∀ p, (decoded env.profile bad (peers d).fin).1 ≠ .ok p) (hend : (decoded env.profile bad (peers d).fin).1 ≠ .pending) :
    (s.conns d).phase = .ended := by
  have hno : ¬ ((s.conns d).phase = .first ∨ ∃ id, (s.conns d).phase = .running id) := by
    intro hp
    have hpend : (decoded env.profile (unread (s.conns d).rd) (s.conns d).rd.fin).1 = .pending :=
      Classical.byContradiction fun h => hd.read d hP ⟨hp, h⟩
    obtain ⟨_, _, ps, pl, h1, h2, h3, _, _⟩ := hr.conn d
    have hrel : Rel (s.conns d).rd pl := by
      rcases hp with hp | ⟨id, hp⟩
      · exact (h2 hp).2
      · exact (h3 id hp).1
    have hpl : pl = ⟨unread (s.conns d).rd, (s.conns d).rd.fin⟩ := by
      obtain ⟨b, f⟩ := pl
      have e1 := hrel.bytes
      have e2 := hrel.fin
      simp only at e1 e2
      rw [← e1, ← e2]
      rfl
    rw [hbytes] at h1
    have hv := decodes_violation (pr := env.profile) (fin := (peers d).fin) h bad
    have hps : cs.map meaning <+: ps := by
      refine readMany_mono h1 (fun p u hp => ?_) hv
      rw [hpl] at hp
      rw [decoded, hp] at hpend
      cases hpend
    have hps' := violation_only h hbad ⟨pl, h1⟩
    have heq : ps = cs.map meaning := hps'.eq_of_length (Nat.le_antisymm hps'.length_le hps.length_le)
    rw [heq, List.length_map, hv] at h1
    simp only [Prod.mk.injEq, true_and] at h1
    rw [hpl] at h1
    injection h1 with e1 e2
    rw [← e1, ← e2] at hpend
    exact hend hpend
  cases hp : (s.conns d).phase with
  | first => exact absurd (.inl hp) hno
  | running id => exact absurd (.inr ⟨id, hp⟩) hno
  | ended => rfl
  | stuck => exact absurd hp hs

end Sys

/-- C106: false. A client that shares its client id with nobody, whose CONNECT was accepted and that sends no DISCONNECT is never hung up on
while the broker lives, whatever else it sends, and though its input be over. -/
theorem C106_never_closed_fails (env : Env) (peers : ConnId → Peer) (sched : List Step) (d : ConnId) (p : ConnectPacket)
    (hown : OwnIds env peers (· ≠ d)) (hp : Decodes env.profile (peers d).segs.flatten (peers d).fin [.connect p])
    (hacc : login env.auth p = .accepted)
    (hnd : ∀ ps, Decodes env.profile (peers d).segs.flatten (peers d).fin ps → .disconnect ∉ ps)
    (ha : (run env (init peers) sched).handlerAlive = true)
    (hc : ∃ ev ∈ (run env (init peers) sched).log.map Prod.fst, From d ev) : ¬ HungUp (run env (init peers) sched) d := by
  have hinv := inv_run env peers sched
  have hord := reads_orderly_served hinv.reads
  have hfrom := served_from hinv.reads
  intro h
  rcases C105_hung_up_only env peers sched d h with h | ⟨_, h⟩
  · exact not_turnedAway hord hfrom hown hp hacc hnd h
  · exact (h ha).2 _ (reached_own hord hfrom hown hp hacc hnd hc)

/-- C106: false, with the violation in view. Let a client that shares its client id with nobody send legal packets, the first of which is an
accepted CONNECT and none of which is a DISCONNECT, and then bytes that are no packet; let it be possible to read them to their end. When all is done the broker
reads its connection no more, but has not closed it. -/
theorem C106_violation_fails (env : Env) (peers : ConnId → Peer) (N : Nat) (σ : Nat → Step) (n : Nat)
    (hdone : AllDone env N (run env (init peers) (firstSteps σ n))) (d : ConnId) (hd : (d : Nat) < N)
    (hspin : ¬ Spinning env (peers d)) (hown : OwnIds env peers (· ≠ d)) (cs : List ClientPacket) (bad : List UInt8)
    (hs : Sendable cs) (hbytes : (peers d).segs.flatten = clientBytes cs ++ bad) (p : ConnectPacket) (ps : List ControlPacket)
    (hcs : cs.map meaning = .connect p :: ps) (hacc : login env.auth p = .accepted) (hnd : .disconnect ∉ ps)
    (hbad : ∀ p, (decoded env.profile bad (peers d).fin).1 ≠ .ok p) (hend : (decoded env.profile bad (peers d).fin).1 ≠ .pending) :
    ((run env (init peers) (firstSteps σ n)).conns d).phase = .ended ∧ ¬ HungUp (run env (init peers) (firstSteps σ n)) d := by
  have hinv := inv_run env peers (firstSteps σ n)
  have hns := fun h => hspin (stuck_spinning env peers (firstSteps σ n) d h)
  have hall : Decodes env.profile (peers d).segs.flatten (peers d).fin (.connect p :: ps) := by
    rw [hbytes, ← hcs]
    exact ⟨_, by rw [List.length_map]; exact decodes_violation hs bad⟩
  refine ⟨violation_ended hinv.reads hdone hd hns hs hbytes hbad hend, ?_⟩
  refine C106_never_closed_fails env peers _ d p hown (Decodes.pre (a := [.connect p]) (b := ps) hall) hacc (fun qs hq hm => ?_)
    (by simp [handlerAlive, hdone.handler]) ?_
  · rw [hbytes] at hq
    have := (violation_only hs hbad hq).subset hm
    rw [hcs] at this
    rcases List.mem_cons.mp this with h | h
    · cases h
    · exact hnd h
  · have := allDone_complete hinv.reads (endsComplete_run env peers (firstSteps σ n)) hdone hd hns _ hall
    have hm := this.subset (List.mem_cons_self)
    exact ⟨_, (List.mem_filter.mp hm).1, by simp [From]⟩

/-- C106, the part that holds. Of a connection that brings legal packets and then bytes that are no packet, nothing but the packets is ever
handled. When all is done, if the connection can be read to its end, its read task has ended; and if its socket takes what is written it is closed if
no client is reached on it, such as when the first packet is no CONNECT or there was a DISCONNECT. -/
theorem C106_violation_partial (env : Env) (peers : ConnId → Peer) (d : ConnId) (cs : List ClientPacket) (bad : List UInt8)
    (hs : Sendable cs) (hbytes : (peers d).segs.flatten = clientBytes cs ++ bad)
    (hbad : ∀ p, (decoded env.profile bad (peers d).fin).1 ≠ .ok p) :
    (∀ sched, ((run env (init peers) sched).log.map Prod.fst).filter (From d) <+: eventsOf (peers d) d (cs.map meaning))
    ∧ ∀ N σ, Fair N σ → (d : Nat) < N → ¬ Spinning env (peers d) → (decoded env.profile bad (peers d).fin).1 ≠ .pending →
      ∀ n, (∀ m, n ≤ m → run env (init peers) (firstSteps σ m) = run env (init peers) (firstSteps σ n)) →
      AllDone env N (run env (init peers) (firstSteps σ n)) → ((run env (init peers) (firstSteps σ n)).conns d).wrBlocked = false →
      ((run env (init peers) (firstSteps σ n)).conns d).phase = .ended
      ∧ (HungUp (run env (init peers) (firstSteps σ n)) d ↔ TurnedAway env.auth ((run env (init peers) (firstSteps σ n)).log.map Prod.fst) d
          ∨ Unreached env.auth ((run env (init peers) (firstSteps σ n)).log.map Prod.fst) d)
      ∧ ((∀ p ps, cs.map meaning ≠ .connect p :: ps) ∨ .disconnect ∈ cs.map meaning → HungUp (run env (init peers) (firstSteps σ n)) d) := by
  refine ⟨fun sched => ?_, fun N σ hf hd hspin hend n hn hdone hb => ?_⟩
  · obtain ⟨ps, h1, h2⟩ := reads_orderly_served (inv_run env peers sched).reads d
    rw [hbytes] at h1
    exact h2.trans (eventsOf_mono (violation_only hs hbad h1))
  · have hinv := inv_run env peers (firstSteps σ n)
    have hns := fun h => hspin (stuck_spinning env peers (firstSteps σ n) d h)
    have hended := violation_ended hinv.reads hdone hd hns hs hbytes hbad hend
    have hex := (C105_hung_up_exactly env peers N σ hf n hn hdone d hd hb).1
    have hord := reads_orderly_served hinv.reads
    refine ⟨hended, hex.trans (by simp [hended]), fun h => hex.mpr (.inr ⟨hended, ?_⟩)⟩
    have hall : Decodes env.profile (peers d).segs.flatten (peers d).fin (cs.map meaning) := by
      rw [hbytes]
      exact ⟨_, by rw [List.length_map]; exact decodes_violation hs bad⟩
    have hcomp := allDone_complete hinv.reads (endsComplete_run env peers (firstSteps σ n)) hdone hd hns
    by_cases hcon : ∃ p ps, cs.map meaning = .connect p :: ps
    · obtain ⟨p, ps, hcs⟩ := hcon
      rcases h with h | h
      · exact absurd hcs (h p ps)
      · rw [hcs] at h hall
        rcases List.mem_cons.mp h with h | h
        · cases h
        · have hm : ClientEvent.controlPacket (idOf (peers d) p) .disconnect d ∈ eventsOf (peers d) d (.connect p :: ps) :=
            List.mem_cons_of_mem _ (List.mem_map.mpr ⟨_, h, rfl⟩)
          have := (List.mem_filter.mp ((hcomp _ hall).subset hm)).1
          exact fun x => disconnected_unreached hord this
    · rintro x ⟨pre, p, addr, post, he, _⟩
      obtain ⟨q, ps, hq, _⟩ := orderly_connect (p := p) (addr := addr) (tx := d) hord (by
        show _ ∈ (run env (init peers) (firstSteps σ n)).log.map Prod.fst
        rw [he]; simp)
      rw [hbytes] at hq
      obtain ⟨t, ht⟩ := violation_only hs hbad hq
      exact hcon ⟨q, ps ++ t, ht.symm⟩

/-! ### After DISCONNECT -/

/-- C107, the part that holds. If every task gets its turn again and again, then when all is done nothing is left of a connection that sent a
DISCONNECT after its CONNECT and then closed its side, whatever else it sent and whoever else used its client id; provided it can be read to
its end and its socket takes what is written. Missing: connections that cannot be read to their end. -/
theorem C107_freed_partial (env : Env) (peers : ConnId → Peer) (N : Nat) (σ : Nat → Step) (hf : Fair N σ) (n : Nat)
    (hn : ∀ m, n ≤ m → run env (init peers) (firstSteps σ m) = run env (init peers) (firstSteps σ n))
    (hdone : AllDone env N (run env (init peers) (firstSteps σ n))) (d : ConnId) (hd : (d : Nat) < N)
    (hb : ((run env (init peers) (firstSteps σ n)).conns d).wrBlocked = false) (hspin : ¬ Spinning env (peers d))
    (hfin : (peers d).fin ≠ .silence) (p : ConnectPacket) (ps : List ControlPacket)
    (hp : Decodes env.profile (peers d).segs.flatten (peers d).fin (.connect p :: ps)) (hdis : .disconnect ∈ ps) :
    Freed (run env (init peers) (firstSteps σ n)) d
    ∧ .controlPacket (idOf (peers d) p) .disconnect d ∈ (run env (init peers) (firstSteps σ n)).log.map Prod.fst := by
  have hinv := inv_run env peers (firstSteps σ n)
  have hord := reads_orderly_served hinv.reads
  have hns := fun h => hspin (stuck_spinning env peers (firstSteps σ n) d h)
  have hm : ClientEvent.controlPacket (idOf (peers d) p) .disconnect d ∈ eventsOf (peers d) d (.connect p :: ps) :=
    List.mem_cons_of_mem _ (List.mem_map.mpr ⟨_, hdis, rfl⟩)
  have hm := (List.mem_filter.mp ((allDone_complete hinv.reads (endsComplete_run env peers (firstSteps σ n)) hdone hd hns _ hp).subset hm)).1
  obtain ⟨h1, h2⟩ := C105_hung_up_exactly env peers N σ hf n hn hdone d hd hb
  have hended := h2 hfin hns
  exact ⟨⟨h1.mpr (.inr ⟨hended, fun x => disconnected_unreached hord hm⟩), hended, hdone.outbox d hd⟩, hm⟩

/-- C107: false. Let a packet of a client, behind its CONNECT, be legal but such that it cannot be received through the buffer. Then, while the
broker lives, the task that reads from the connection never ends, whatever else the client sent, such as a DISCONNECT before that packet, and
though it closed its side. -/
theorem C107_unreceived_fails (env : Env) (peers : ConnId → Peer) (d : ConnId) (p : ConnectPacket) (ps : List ControlPacket)
    (hp : Decodes env.profile (peers d).segs.flatten (peers d).fin (.connect p :: ps)) (hr : ¬ Receives env (peers d) (.connect p :: ps))
    (sched : List Step) (ha : (run env (init peers) sched).handlerAlive = true) : ¬ Freed (run env (init peers) sched) d := by
  rintro ⟨_, hended, _⟩
  letI := RStream.source env.alloc
  have h := endsComplete_run env peers sched d hended ha _ hp
  obtain ⟨_, _, qs, rd, h1, _, _, _, h2, _⟩ := took_run env peers sched d
  rw [h2 ha] at h
  have hq : Receives env (peers d) qs := receives_iff.mpr ⟨rd, h1⟩
  obtain ⟨w, hp⟩ := hp
  have hlen : (ControlPacket.connect p :: ps).length ≤ qs.length := Classical.byContradiction fun hlt => by
    obtain ⟨v, hq'⟩ := receives_decodes hq
    obtain ⟨_, hf⟩ := readMany_fewer env.profile (m := qs.length) (by omega) hp
    rw [hq'] at hf
    injection hf with hf _
    injection hf with hf
    have hl := h.length_le
    rw [hf] at hl
    cases hn : qs.length with
    | zero => rw [hn] at hl; simp [eventsOf] at hl
    | succ m =>
      rw [hn] at hl hlt
      simp only [List.take_succ_cons, eventsOf, List.length_cons, List.length_map, List.length_take] at hl hlt
      omega
  obtain ⟨rd', hf⟩ := readMany_fewer env.profile hlen h1
  have hs := receives_decodes (peer := peers d) (receives_iff.mpr ⟨rd', by rw [List.length_take, Nat.min_eq_left hlen]; exact hf⟩)
  obtain ⟨v, hs⟩ := hs
  rw [List.length_take, Nat.min_eq_left hlen, hp] at hs
  injection hs with hs _
  injection hs with hs
  rw [← hs] at hf
  exact hr (receives_iff.mpr ⟨rd', hf⟩)

/-- C107: false, in full: CONNECT, DISCONNECT, a message of 5000 bytes, and the end of the connection. While ctrl-c is not pressed the connection
is never done with. -/
theorem C107_freed_fails (env : Env) : ∃ (peers : ConnId → Peer) (d : ConnId) (cs : List ClientPacket) (p : ConnectPacket) (ps : List ControlPacket),
    Sendable cs ∧ (peers d).segs = [clientBytes cs] ∧ cs.map meaning = .connect p :: ps ∧ .disconnect ∈ ps ∧ (peers d).fin = .eof
    ∧ login env.auth p = .accepted ∧ ∀ sched, .ctrlC ∉ sched → ¬ Freed (run env (init peers) sched) d := by
  let cs : List ClientPacket := [hello "s", .disconnect, .publish bigPublish]
  have hs : Sendable cs := by
    intro c hc
    simp only [cs, List.mem_cons, List.not_mem_nil, or_false] at hc
    rcases hc with rfl | rfl | rfl
    · exact subscriber_sendable _ List.mem_cons_self
    · exact ⟨trivial, trivial, by decide⟩
    · exact ⟨bigPublish_legal, trivial, by show (publishRest bigPublish).length < _; rw [bigPublish_rest]; simp [bigPayload_length]⟩
  let peers : ConnId → Peer := fun _ => ⟨⟨0, 0⟩, "u", [clientBytes cs], .eof, []⟩
  have hd : ∀ c, Decodes env.profile (peers c).segs.flatten (peers c).fin (cs.map meaning) := fun c => by
    have := decodes_client env.profile .eof cs hs
    simpa [peers] using this
  have honly : ∀ c ps, Decodes env.profile (peers c).segs.flatten (peers c).fin ps → ps <+: cs.map meaning := fun c ps h =>
    decodes_client_only (fin := .eof) hs (by simpa [peers] using h)
  refine ⟨peers, 0, cs, _, _, hs, rfl, rfl, by simp [meaning], rfl, rfl, fun sched hn => ?_⟩
  refine C107_unreceived_fails env peers 0 _ _ (hd 0) (fun h => ?_) sched ?_
  · have key := C15_large_messages_fails env.alloc env.profile [hello "s", .disconnect] (fun c hc => hs c (by
        simp only [cs, List.mem_cons, List.not_mem_nil, or_false] at hc ⊢
        exact hc.imp_right .inl)) bigPublish bigPublish_legal
      (by rw [bigPublish_rest]; simp [bigPayload_length]) (by simp [bigPublish, bigPayload_length]) (peers 0).segs .eof []
      (by simp [peers, cs, clientBytes, clientFirst, clientRest])
    have h : (received env.alloc env.profile 4096 (peers 0).segs .eof 3).1 = .ok _ := h
    cases key.symm.trans h
  · have hinv := inv_run env peers sched
    have h1 : (run env (init peers) sched).handler ≠ .crashed := fun h =>
      not_fatal (reads_orderly_served hinv.reads) (fun ev hev => hinv.reads.from_conn ev (List.mem_append_left _ hev))
        (fun c q ps h => by
          have := honly c _ h
          simp only [cs, hello, List.map_cons, List.cons_prefix_cons] at this
          cases this.1
          rfl)
        (.inl fun c ps h hm => by
          have := (honly c _ h).subset hm
          simp [cs, hello, meaning] at this) (crashed_run env peers sched h)
    have h2 := stopped_ctrlC env (s := init peers) (by simp [init]) rfl hn
    unfold handlerAlive
    cases hh : (run env (init peers) sched).handler with
    | crashed => exact absurd hh h1
    | stopped => exact absurd hh h2
    | _ => rfl

/-- C107, the part that holds, from the clients' side. Let every connection end and be one that can be read to its end, let every CONNECT be
accepted, and nobody ping. Then, however the bytes are split, if the sockets take enough writes (`B`), if every task gets its turn again and again and ctrl-c is
not pressed: in the end nothing is left of exactly those connections on which no client is reached; among them are all that sent a
DISCONNECT. Missing: connections that cannot be read to their end. -/
theorem C107_freed_in_the_end_partial (env : Env) (input : ConnId → Peer) (N : Nat) (hfin : ∀ c, c < N → (input c).fin ≠ .silence)
    (hacc : ∀ c q ps, Decodes env.profile (input c).segs.flatten (input c).fin (.connect q :: ps) → login env.auth q = .accepted)
    (hping : ∀ c ps, Decodes env.profile (input c).segs.flatten (input c).fin ps → .pingReq ∉ ps) :
    ∃ B, ∀ peers, (∀ c, SameInput (input c) (peers c)) → (∀ c, c < N → B ≤ (peers c).script.length) →
      (∀ c, c < N → ¬ Spinning env (peers c)) → ∀ σ, Fair N σ → (∀ n, σ n ≠ .ctrlC) →
      ∃ n, (∀ m, n ≤ m → run env (init peers) (firstSteps σ m) = run env (init peers) (firstSteps σ n))
        ∧ ∀ d : ConnId, (d : Nat) < N →
          (Freed (run env (init peers) (firstSteps σ n)) d
            ↔ Unreached env.auth ((run env (init peers) (firstSteps σ n)).log.map Prod.fst) d)
          ∧ ∀ p ps, Decodes env.profile (peers d).segs.flatten (peers d).fin (.connect p :: ps) → .disconnect ∈ ps →
            Freed (run env (init peers) (firstSteps σ n)) d := by
  obtain ⟨B, hB⟩ := enough_writes env input N
  refine ⟨B, fun peers hin hlen hspin σ hf hctrl => ?_⟩
  have hblock := hB peers hin hlen σ hf.few
  obtain ⟨n, h1, h2⟩ := C79_everything_handled env peers N σ hf
  have hinv := inv_run env peers (firstSteps σ n)
  have hord : Orderly env peers ((run env (init peers) (firstSteps σ n)).log.map Prod.fst) := reads_orderly_served hinv.reads
  have hacc' : ∀ c q ps, Decodes env.profile (peers c).segs.flatten (peers c).fin (.connect q :: ps) → login env.auth q = .accepted := by
    intro c q ps h
    rw [(hin c).bytes, (hin c).fin] at h
    exact hacc c q ps h
  have hping' : ∀ c ps, Decodes env.profile (peers c).segs.flatten (peers c).fin ps → .pingReq ∉ ps := by
    intro c ps h
    rw [(hin c).bytes, (hin c).fin] at h
    exact hping c ps h
  have hnf : ¬ Fatal env.auth ((run env (init peers) (firstSteps σ n)).log.map Prod.fst) :=
    not_fatal hord (fun ev hev => hinv.reads.from_conn ev (List.mem_append_left _ hev)) hacc' (.inl hping')
  rcases h2 with ⟨_, h⟩ | ⟨_, i, _, h⟩ | ⟨d, e, todo, hd, _, _, _, h⟩ | ⟨hdone, hall⟩
  · exact (hnf h).elim
  · exact (hctrl i h).elim
  · rw [hblock n d hd] at h; cases h
  · refine ⟨n, h1, fun d hd => ?_⟩
    have hfi : (peers d).fin ≠ .silence := by rw [(hin d).fin]; exact hfin d hd
    refine ⟨?_, fun p ps hp hdis => (C107_freed_partial env peers N σ hf n h1 hdone d hd (hblock n d hd) (hspin d hd) hfi p ps hp hdis).1⟩
    obtain ⟨g1, g2⟩ := C105_hung_up_exactly env peers N σ hf n h1 hdone d hd (hblock n d hd)
    have hended := g2 hfi fun h => hspin d hd (stuck_spinning env peers (firstSteps σ n) d h)
    refine ⟨fun h => ?_, fun h => ⟨g1.mpr (.inr ⟨hended, h⟩), hended, hdone.outbox d hd⟩⟩
    rcases g1.mp h.1 with (⟨p, addr, hp, hl⟩ | ⟨pre, id, post, he, _⟩) | h
    · obtain ⟨q, ps, hq, rfl⟩ := orderly_connect hord hp
      rw [login_id, hacc' d q ps hq] at hl
      cases hl
    · obtain ⟨ps, hq, hm⟩ := orderly_packet (id := id) (q := .pingReq) (tx := d) hord (by rw [he]; simp)
      exact absurd hm (hping' d ps hq)
    · exact h.2

/-! ### Refused clients -/

/-- What the sequential broker sends to a connection whose CONNECT is refused begins with the refusal and the end. -/
theorem refused_outputs {env : Env} {peers : ConnId → Peer} {d : ConnId} {p : ConnectPacket} {evs : List ClientEvent} (hord : Orderly env peers evs)
    (hp : Decodes env.profile (peers d).segs.flatten (peers d).fin [.connect p]) (hl : login env.auth p = .refused) :
    Broker.start.outputs env.auth evs d = []
    ∨ ∃ rest, Broker.start.outputs env.auth evs d = .controlPacket (.connAck ⟨false, .notAuthorized⟩) :: .disconnect :: rest := by
  cases hnil : Broker.start.outputs env.auth evs d with
  | nil => exact .inl rfl
  | cons e es =>
    right
    rw [← hnil]
    obtain ⟨ev, hev, hfr⟩ := outputs_from (auth := env.auth) (evs := evs) (d := d) (e := e) (by rw [hnil]; simp)
    obtain ⟨q, addr, hq⟩ : ∃ q addr, .connected q addr d ∈ evs := by
      cases ev with
      | connected q addr tx => cases hfr; exact ⟨q, addr, hev⟩
      | controlPacket id q tx =>
        cases hfr
        obtain ⟨pre, post, rfl⟩ := List.append_of_mem hev
        have ho' : Orderly env peers (pre ++ [.controlPacket id q d]) := Orderly.pre (post := post) (by simpa using hord)
        obtain ⟨q, addr, hq, _⟩ := ho'.connected_before
        exact ⟨q, addr, List.mem_append_left _ hq⟩
      | disconnected i => exact False.elim hfr
      | connectionLost i => exact False.elim hfr
    obtain ⟨q', ps, hd, rfl⟩ := orderly_connect hord hq
    have := Decodes.head hd hp
    cases this
    obtain ⟨pre, post, rfl⟩ := List.append_of_mem hq
    have ho' : Orderly env peers (pre ++ [.connected { p with clientId := idOf (peers d) p } addr d]) :=
      Orderly.pre (post := post) (by simpa using hord)
    have hpre : Broker.start.outputs env.auth pre d = [] := by
      apply List.eq_nil_iff_forall_not_mem.mpr
      intro e he
      obtain ⟨ev, hev, hf⟩ := outputs_from he
      exact ho'.connected_first ev hev hf
    rw [outputs_append, hpre] at hnil ⊢
    cases hb : Broker.start.after env.auth pre with
    | none => rw [hb] at hnil; cases hnil
    | some b =>
      have hst : b.step env.auth (.connected { p with clientId := idOf (peers d) p } addr d)
          = some (b, Spec.to d [.controlPacket (.connAck ⟨false, .notAuthorized⟩), .disconnect]) := by
        rw [Broker.step, login_id, hl]
      dsimp only
      rw [Broker.outputs, hst]
      dsimp only
      rw [to_self]
      exact ⟨_, rfl⟩

/-- C108. A connection whose CONNECT is refused is written nothing but the refusal, ever; and if every task gets its turn again and again,
then in the end, whatever has become of the packet handler after it took the CONNECT, the refusal has been written and the connection is
closed, if its socket takes what is written. -/
theorem C108_refused_closed (env : Env) (peers : ConnId → Peer) (d : ConnId) (p : ConnectPacket)
    (hp : Decodes env.profile (peers d).segs.flatten (peers d).fin [.connect p]) (hl : login env.auth p = .refused) :
    (∀ sched, ((run env (init peers) sched).conns d).written <+: [.connAck ⟨false, .notAuthorized⟩])
    ∧ ∀ N σ, Fair N σ → (d : Nat) < N →
      ∀ n, (∀ m, n ≤ m → run env (init peers) (firstSteps σ m) = run env (init peers) (firstSteps σ n)) →
      (∃ ev ∈ (run env (init peers) (firstSteps σ n)).log.map Prod.fst, From d ev) →
      ((run env (init peers) (firstSteps σ n)).conns d).wrBlocked = false →
      HungUp (run env (init peers) (firstSteps σ n)) d
      ∧ ((run env (init peers) (firstSteps σ n)).conns d).written = [.connAck ⟨false, .notAuthorized⟩] := by
  have hout := fun sched => refused_outputs (evs := (run env (init peers) sched).log.map Prod.fst)
    (reads_orderly_served (inv_run env peers sched).reads) hp hl
  refine ⟨fun sched => ?_, fun N σ hf hd n hn ⟨ev, hev, hfr⟩ hb => ?_⟩
  · have hinv := inv_run env peers sched
    have hpre : ((run env (init peers) sched).conns d).written.map ServerEvent.controlPacket
        <+: Broker.start.outputs env.auth ((run env (init peers) sched).log.map Prod.fst) d :=
      ((List.prefix_append _ _).trans (hinv.writes d).sent).trans (hinv.serves.delivered d)
    cases hw : ((run env (init peers) sched).conns d).written with
    | nil => exact List.nil_prefix
    | cons a l =>
      rw [hw] at hpre
      rcases hout sched with h | ⟨rest, h⟩
      · rw [h] at hpre
        cases List.prefix_nil.mp hpre
      · rw [h] at hpre
        obtain ⟨t, ht⟩ := hpre
        cases l with
        | nil => cases ht; exact List.prefix_rfl
        | cons b l => cases ht
  · have hinv := inv_run env peers (firstSteps σ n)
    have hord : Orderly env peers ((run env (init peers) (firstSteps σ n)).log.map Prod.fst) := reads_orderly_served hinv.reads
    have hm : ∃ addr, .connected { p with clientId := idOf (peers d) p } addr d ∈ (run env (init peers) (firstSteps σ n)).log.map Prod.fst := by
      obtain ⟨qs, h1, h2⟩ := hord d
      have hmem : ev ∈ ((run env (init peers) (firstSteps σ n)).log.map Prod.fst).filter (From d) := List.mem_filter.mpr ⟨hev, by simpa using hfr⟩
      cases qs with
      | nil => rw [List.prefix_nil.mp h2] at hmem; cases hmem
      | cons q qs =>
        cases Decodes.head h1 hp
        cases hl : ((run env (init peers) (firstSteps σ n)).log.map Prod.fst).filter (From d) with
        | nil => rw [hl] at hmem; cases hmem
        | cons e es =>
          rw [hl] at h2
          have he : e = _ := (List.cons_prefix_cons.mp h2).1
          exact ⟨_, he ▸ (List.mem_filter.mp (hl ▸ List.mem_cons_self)).1⟩
    obtain ⟨addr, hm⟩ := hm
    have hta : TurnedAway env.auth ((run env (init peers) (firstSteps σ n)).log.map Prod.fst) d := .inl ⟨_, _, hm, by rw [login_id]; exact hl⟩
    have hh := C105_told_closed env peers N σ hf n hn d hd hb hta
    refine ⟨hh, ?_⟩
    have hdel : .disconnect ∈ ((run env (init peers) (firstSteps σ n)).conns d).delivered := by
      rcases told_rest env peers hf hn hb hta with h | ⟨⟨pre, id, he⟩, _⟩
      · exact h
      · -- the ping was not the first thing handled of this connection
        have he : (run env (init peers) (firstSteps σ n)).log.map Prod.fst = pre ++ [.controlPacket id .pingReq d] := he
        rw [he] at hm
        rcases List.mem_append.mp hm with hm | hm
        · have hearly := earlier_run env peers (firstSteps σ n) pre _ he d
          obtain ⟨b, hb⟩ : ∃ b, Broker.start.after env.auth pre = some b := serves_before hinv.serves he
          exact hearly.subset (turnedAway_told hb (.inl ⟨_, _, hm, by rw [login_id]; exact hl⟩))
        · simp at hm
    obtain ⟨rest, e1, e2⟩ := wroteAll_run env peers (firstSteps σ n) d hh
    have hpre := hinv.serves.delivered d
    rcases hout (firstSteps σ n) with h | ⟨rest', h⟩
    · have h : Broker.start.outputs env.auth (run env (init peers) (firstSteps σ n)).served d = [] := h
      rw [h] at hpre
      rw [List.prefix_nil.mp hpre] at hdel
      cases hdel
    · have h : Broker.start.outputs env.auth (run env (init peers) (firstSteps σ n)).served d
          = .controlPacket (.connAck ⟨false, .notAuthorized⟩) :: .disconnect :: rest' := h
      rw [h, e1] at hpre
      rw [e1] at hdel
      cases hw : ((run env (init peers) (firstSteps σ n)).conns d).written with
      | nil =>
        rw [hw] at hpre hdel
        rcases e2 with rfl | ⟨_, rfl⟩
        · cases hdel
        · simp at hpre
      | cons a l =>
        rw [hw] at hpre
        cases l with
        | nil => simp at hpre; rw [hpre.1]
        | cons b l => simp at hpre

/-! ### Examples -/

namespace Sys

/-- If nothing fatal is handled, no socket blocks and ctrl-c is not pressed, all is done some time. -/
theorem done_sometime (env : Env) (peers : ConnId → Peer) {N : Nat} {σ : Nat → Step} (hf : Fair N σ)
    (hnf : ∀ n, ¬ Fatal env.auth ((run env (init peers) (firstSteps σ n)).log.map Prod.fst))
    (hblock : ∀ n (c : Nat), c < N → ((run env (init peers) (firstSteps σ n)).conns c).wrBlocked = false) (hctrl : ∀ n, σ n ≠ .ctrlC) :
    ∃ n, (∀ m, n ≤ m → run env (init peers) (firstSteps σ m) = run env (init peers) (firstSteps σ n))
      ∧ AllDone env N (run env (init peers) (firstSteps σ n)) := by
  obtain ⟨n, h1, h2⟩ := C79_everything_handled env peers N σ hf
  rcases h2 with ⟨_, h⟩ | ⟨_, i, _, h⟩ | ⟨d, e, todo, hd, _, _, _, h⟩ | ⟨hdone, _⟩
  · exact (hnf n h).elim
  · exact (hctrl i h).elim
  · rw [hblock n d hd] at h; cases h
  · exact ⟨n, h1, hdone⟩

end Sys

/-- A SUBSCRIBE with wrong flags: no packet. -/
def badSubscribe : List UInt8 := [0x80, 6, 0, 1, 0, 1, 116, 0]

theorem bad_rejected (fin : Ending) : (decoded exampleEnv.profile badSubscribe fin).1 = .err .invalidData := by
  cases fin <;> decide +kernel

/-- Connection 0 subscribes and then sends something that is no packet; 1 sends CONNECT, DISCONNECT and a message. The sockets take `k`
writes. -/
def leavers (k : Nat) : ConnId → Peer := fun c =>
  if c = 0 then ⟨someAddr, "u0", [clientBytes subscriberPackets ++ badSubscribe], .eof, List.replicate k (.accept 0)⟩
  else if c = 1 then ⟨someAddr, "u1", [clientBytes quitterPackets], .eof, List.replicate k (.accept 0)⟩
  else ⟨someAddr, "u", [], .eof, List.replicate k (.accept 0)⟩

theorem leavers_decode {k : Nat} {c : ConnId} {ps : List ControlPacket}
    (h : Decodes exampleEnv.profile (leavers k c).segs.flatten (leavers k c).fin ps) :
    ps <+: (if c = 0 then subscriberPackets else if c = 1 then quitterPackets else []).map meaning := by
  unfold leavers at h
  split at h
  · rename_i hc
    rw [if_pos hc]
    simp only [List.flatten_cons, List.flatten_nil, List.append_nil] at h
    exact violation_only subscriber_sendable (by intro p hp; rw [bad_rejected] at hp; cases hp) h
  · rename_i hc
    rw [if_neg hc]
    split at h
    · rename_i hc
      rw [if_pos hc]
      simp only [List.flatten_cons, List.flatten_nil, List.append_nil] at h
      exact decodes_client_only quitter_sendable h
    · rename_i hc
      rw [if_neg hc]
      exact decodes_client_only (cs := []) (fun _ h => by cases h) h

theorem leavers_accepted {k : Nat} (c : ConnId) (q : ConnectPacket) (ps : List ControlPacket)
    (h : Decodes exampleEnv.profile (leavers k c).segs.flatten (leavers k c).fin (.connect q :: ps)) : login exampleEnv.auth q = .accepted := by
  have := leavers_decode h
  repeat' split at this
  · simp [subscriberPackets, hello, meaning] at this
    rw [this.1]; rfl
  · simp [quitterPackets, hello, meaning] at this
    rw [this.1]; rfl
  · simp at this

theorem leavers_no_ping {k : Nat} (c : ConnId) (ps : List ControlPacket)
    (h : Decodes exampleEnv.profile (leavers k c).segs.flatten (leavers k c).fin ps) : .pingReq ∉ ps := by
  intro hp
  have := (leavers_decode h).subset hp
  repeat' split at this
  · simp [subscriberPackets, hello, meaning] at this
  · simp [quitterPackets, hello, meaning] at this
  · simp at this

theorem leavers_ownIds (k : Nat) : OwnIds exampleEnv (leavers k) (· ≠ 0) := by
  intro c d hc hd p ps q qs h1 h2
  have hd : d = 0 := Classical.not_not.mp hd
  subst hd
  have hc : c ≠ 0 := hc
  have g1 := leavers_decode h1
  have g2 := leavers_decode h2
  have e2 : idOf (leavers k 0) q = "s" := by
    simp [subscriberPackets, hello, meaning] at g2
    rw [g2.1]
    simp [idOf]
  rw [e2]
  simp only [hc, ↓reduceIte] at g1
  split at g1
  · simp [quitterPackets, hello, meaning] at g1
    rw [g1.1]
    simp [idOf]
  · simp at g1

theorem leavers_same (k : Nat) (c : ConnId) : SameInput (leavers 0 c) (leavers k c) := by
  unfold leavers
  repeat' split
  all_goals exact ⟨rfl, rfl, rfl, rfl⟩

theorem leavers_short (k : Nat) (c : ConnId) : (leavers k c).segs.flatten.length < 4096 := by
  unfold leavers
  repeat' split
  all_goals (dsimp only; decide +kernel)

theorem leavers_rest : ∃ k n, (∀ m, n ≤ m → run exampleEnv (init (leavers k)) (firstSteps roundRobin m)
      = run exampleEnv (init (leavers k)) (firstSteps roundRobin n))
    ∧ AllDone exampleEnv 2 (run exampleEnv (init (leavers k)) (firstSteps roundRobin n))
    ∧ ∀ c : Nat, c < 2 → ((run exampleEnv (init (leavers k)) (firstSteps roundRobin n)).conns c).wrBlocked = false := by
  obtain ⟨B, hB⟩ := enough_writes exampleEnv (leavers 0) 2
  have hblock := hB (leavers B) (leavers_same B) (fun c _ => by unfold leavers; (repeat' split) <;> simp)
    roundRobin roundRobin_fair.few
  obtain ⟨n, h1, h2⟩ := done_sometime exampleEnv (leavers B) roundRobin_fair (fun n => by
    have hinv := inv_run exampleEnv (leavers B) (firstSteps roundRobin n)
    exact not_fatal (reads_orderly_served hinv.reads) (fun ev hev => hinv.reads.from_conn ev (List.mem_append_left _ hev))
      leavers_accepted (.inl leavers_no_ping)) hblock roundRobin_ctrlC
  exact ⟨B, n, h1, h2, hblock n⟩

theorem leavers_quit (k : Nat) : Decodes exampleEnv.profile (leavers k 1).segs.flatten (leavers k 1).fin (quitterPackets.map meaning) := by
  have := decodes_client exampleEnv.profile .eof _ quitter_sendable
  simpa [leavers] using this

-- C105, C107: nothing is left of connection 1
example : ∃ k n, Freed (run exampleEnv (init (leavers k)) (firstSteps roundRobin n)) 1 := by
  obtain ⟨k, n, h1, h2, h3⟩ := leavers_rest
  exact ⟨k, n, (C107_freed_partial exampleEnv (leavers k) 2 roundRobin roundRobin_fair n h1 h2 1 (by decide) (h3 1 (by decide)) (not_spinning (leavers_short k 1))
    (by simp [leavers]) _ _ (leavers_quit k) (by simp [meaning])).1⟩

-- C105, C106: connection 0 is read no more, but not closed either
example : ∃ k n, ((run exampleEnv (init (leavers k)) (firstSteps roundRobin n)).conns 0).phase = .ended
    ∧ ¬ HungUp (run exampleEnv (init (leavers k)) (firstSteps roundRobin n)) 0
    ∧ ((run exampleEnv (init (leavers k)) (firstSteps roundRobin n)).log.map Prod.fst).filter (From 0)
      <+: eventsOf (leavers k 0) 0 (subscriberPackets.map meaning) := by
  obtain ⟨k, n, h1, h2, h3⟩ := leavers_rest
  have hno : ∀ p, (decoded exampleEnv.profile badSubscribe (leavers k 0).fin).1 ≠ .ok p := by
    intro p hp; rw [bad_rejected] at hp; cases hp
  obtain ⟨g1, g2⟩ := C106_violation_fails exampleEnv (leavers k) 2 roundRobin n h2 0 (by decide) (not_spinning (leavers_short k 0)) (leavers_ownIds k)
    subscriberPackets badSubscribe subscriber_sendable (by simp [leavers]) _ _ rfl rfl (by simp [meaning]) hno (by rw [bad_rejected]; simp)
  exact ⟨k, n, g1, g2, (C106_violation_partial exampleEnv (leavers k) 0 subscriberPackets badSubscribe subscriber_sendable (by simp [leavers]) hno).1 _⟩

-- C107
example : ∃ B, ∀ peers, (∀ c, SameInput (leavers 0 c) (peers c)) → (∀ c, c < 2 → B ≤ (peers c).script.length) →
    ∃ n, Freed (run exampleEnv (init peers) (firstSteps roundRobin n)) 1 := by
  obtain ⟨B, hB⟩ := C107_freed_in_the_end_partial exampleEnv (leavers 0) 2
    (fun c _ => by unfold leavers; (repeat' split) <;> simp) leavers_accepted leavers_no_ping
  refine ⟨B, fun peers hp hl => ?_⟩
  obtain ⟨n, _, h⟩ := hB peers hp hl (fun c _ => not_spinning (by rw [(hp c).bytes]; exact leavers_short 0 c)) roundRobin roundRobin_fair roundRobin_ctrlC
  refine ⟨n, (h 1 (by decide)).2 ⟨.mqtt3, "p", 60, true, none, none, none⟩ [.disconnect, .publish blank] ?_ (by simp)⟩
  rw [(hp 1).bytes, (hp 1).fin]
  exact leavers_quit 0

/-- Connection 0 gives a wrong password. -/
def intruder (k : Nat) : ConnId → Peer := fun c =>
  if c = 0 then ⟨someAddr, "u0", [clientBytes [.connect ⟨"MQTT", 4, true, 60, "y", none, some "u", some "p"⟩]], .silence, List.replicate k (.accept 0)⟩
  else ⟨someAddr, "u", [], .eof, List.replicate k (.accept 0)⟩

-- C108
example : ∃ k n, HungUp (run exampleEnv (init (intruder k)) (firstSteps roundRobin n)) 0
    ∧ ((run exampleEnv (init (intruder k)) (firstSteps roundRobin n)).conns 0).written = [.connAck ⟨false, .notAuthorized⟩] := by
  have hsend : Sendable [.connect ⟨"MQTT", 4, true, 60, "y", none, some "u", some "p"⟩] := fun c hc =>
    example_wrong c (by simp at hc; simp [hc])
  have hdec : ∀ k c ps, Decodes exampleEnv.profile (intruder k c).segs.flatten (intruder k c).fin ps →
      ps <+: [.connect ⟨.mqtt3, "y", 60, true, none, some "u", some "p"⟩] := by
    intro k c ps h
    unfold intruder at h
    split at h
    · simp only [List.flatten_cons, List.flatten_nil, List.append_nil] at h
      exact decodes_client_only hsend h
    · exact (decodes_client_only (cs := []) (fun _ h => by cases h) h).trans List.nil_prefix
  obtain ⟨B, hB⟩ := enough_writes exampleEnv (intruder 0) 2
  have hblock := hB (intruder B) (fun c => by unfold intruder; split <;> exact ⟨rfl, rfl, rfl, rfl⟩)
    (fun c _ => by unfold intruder; split <;> simp) roundRobin roundRobin_fair.few
  obtain ⟨n, h1, h2⟩ := done_sometime exampleEnv (intruder B) roundRobin_fair (fun n => by
    have hord := reads_orderly_served (inv_run exampleEnv (intruder B) (firstSteps roundRobin n)).reads
    rintro ⟨pre, ev, he, ⟨p, addr, tx, rfl, hl⟩ | ⟨id, p, tx, rfl, hk, _⟩⟩
    · obtain ⟨q, ps, hd, rfl⟩ := orderly_connect (p := p) (addr := addr) (tx := tx) hord (by
        show _ ∈ (run exampleEnv (init (intruder B)) (firstSteps roundRobin n)).log.map Prod.fst
        rw [he]; simp)
      have := hdec _ _ _ hd
      simp at this
      rw [this.1] at hl
      simp [login, exampleEnv, denyAll] at hl
    · obtain ⟨ps, hd, hm⟩ := orderly_packet (id := id) (q := p) (tx := tx) hord (by
        show _ ∈ (run exampleEnv (init (intruder B)) (firstSteps roundRobin n)).log.map Prod.fst
        rw [he]; simp)
      have := (hdec _ _ _ hd).subset hm
      rw [List.mem_singleton] at this
      subst this
      rcases hk with ⟨_, h⟩ | ⟨_, h⟩ | h <;> cases h) hblock roundRobin_ctrlC
  have hconn : Decodes exampleEnv.profile (intruder B 0).segs.flatten (intruder B 0).fin
      [.connect ⟨.mqtt3, "y", 60, true, none, some "u", some "p"⟩] := by
    have := decodes_client exampleEnv.profile .silence _ hsend
    simpa [intruder, meaning] using this
  have hns := noSpin_run exampleEnv (intruder B) (firstSteps roundRobin n) 0 (by show (clientBytes _ ++ []).length < 4096; decide +kernel)
  have hm := (allDone_complete (inv_run exampleEnv (intruder B) _).reads (endsComplete_run exampleEnv (intruder B) (firstSteps roundRobin n)) h2
    (by decide) hns.1 _ hconn).subset List.mem_cons_self
  exact ⟨B, n, (C108_refused_closed exampleEnv (intruder B) 0 ⟨.mqtt3, "y", 60, true, none, some "u", some "p"⟩ hconn
    (by simp [login, exampleEnv, denyAll])).2 2 roundRobin roundRobin_fair (by decide) n h1
    ⟨_, (List.mem_filter.mp hm).1, by simp [From]⟩ (hblock n 0 (by decide))⟩

end Ratel
