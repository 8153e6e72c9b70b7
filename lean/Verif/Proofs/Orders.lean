/-
Exactly the servable sequences of events are served: executions in which the write tasks write every packet as soon as it is in their
queue, and leave a request to go away there.
-/
import Verif.Proofs.SysRealize
import Verif.Proofs.SysWitness
import Verif.Proofs.SysBound
import Verif.Spec.Orders

namespace Ratel

open Decoder Encoder Spec

theorem fromAway_packets (ps : List ControlPacket) (l : List ServerEvent) : fromAway (ps.map .controlPacket ++ l) = fromAway l := by
  induction ps with
  | nil => rfl
  | cons p ps ih => simp [fromAway] at ih ⊢

theorem fromAway_disconnect (l : List ServerEvent) : fromAway (.disconnect :: l) = .disconnect :: l := by simp [fromAway]

theorem fromAway_le (l : List ServerEvent) : (fromAway l).length ≤ l.length := (List.dropWhile_suffix _).length_le

theorem fromAway_nil {l : List ServerEvent} (h : ∀ e ∈ l, e ≠ .disconnect) : fromAway l = [] := by
  induction l with
  | nil => rfl
  | cons e l ih =>
    have := h e (by simp)
    have := ih fun e he => h e (by simp [he])
    unfold fromAway at *
    rw [List.dropWhile_cons, if_pos (by simpa using h e (by simp))]
    exact this

theorem after_complete {auth : IdentityProvider} {evs : List ClientEvent} {b b' : Broker} (h : b.after auth evs = some b') :
    ∀ p addr c, .connected p addr c ∈ evs → login auth p ≠ .incomplete := by
  intro p addr c hm hl
  obtain ⟨pre, post, rfl⟩ := List.append_of_mem hm
  obtain ⟨b₁, _, h2⟩ := after_prefix h
  rw [Broker.after] at h2
  simp [Broker.step, hl] at h2

/-- Whoever was told to go away was sent the request. -/
theorem turnedAway_disconnect {auth : IdentityProvider} {evs : List ClientEvent} {b : Broker} (h : Broker.start.after auth evs = some b)
    {d : ConnId} (ha : TurnedAway auth evs d) : .disconnect ∈ Broker.start.outputs auth evs d := by
  rcases ha with ⟨p, addr, hm, hl⟩ | ⟨pre, id, post, rfl, hn⟩
  · obtain ⟨pre, post, rfl⟩ := List.append_of_mem hm
    obtain ⟨b₁, h1, _⟩ := after_prefix h
    rw [outputs_append, h1]
    refine List.mem_append_right _ ?_
    simp [Broker.outputs, Broker.step, hl, Spec.to]
  · obtain ⟨b₁, h1, _⟩ := after_prefix h
    rw [outputs_append, h1]
    refine List.mem_append_right _ ?_
    have : b₁.session id = none := by
      cases hs : b₁.session id with
      | none => rfl
      | some c => exact absurd ((after_session h1 id c).mp hs) (hn c)
    simp [Broker.outputs, Broker.step, Broker.packet, this, Spec.to]

theorem fromAway_append_le (l l' : List ServerEvent) : (fromAway l).length ≤ (fromAway (l ++ l')).length := by
  induction l with
  | nil => simp [fromAway]
  | cons e l ih =>
    cases e with
    | disconnect => simp [fromAway]
    | controlPacket p => simpa [fromAway] using ih

namespace Sys

/-- The sockets take all the sequential broker sends for these events. -/
def Ample (env : Env) (peers : ConnId → Peer) (evs : List ClientEvent) : Prop :=
  ∀ d, writesForAll env.alloc (packetsIn (Broker.start.outputs env.auth evs d)) ≤ (peers d).script.length

theorem outputs_pre {auth : IdentityProvider} {pre evs : List ClientEvent} (h : pre <+: evs) (d : ConnId) :
    Broker.start.outputs auth pre d <+: Broker.start.outputs auth evs d := by
  obtain ⟨t, rfl⟩ := h
  rw [outputs_append]
  exact List.prefix_append _ _

theorem Ample.pre {env : Env} {peers : ConnId → Peer} {pre evs : List ClientEvent} (h : Ample env peers evs) (hp : pre <+: evs) :
    Ample env peers pre := by
  intro d
  refine Nat.le_trans ?_ (h d)
  obtain ⟨t, ht⟩ := outputs_pre (auth := env.auth) hp d
  rw [← ht]
  simp [packetsIn, writesForAll]

theorem ample_open {env : Env} {peers : ConnId → Peer} {evs : List ClientEvent} (h : Ample env peers evs) (sched : List Step)
    (hs : (run env (init peers) sched).served <+: evs) (d : ConnId) : ((run env (init peers) sched).conns d).wrBlocked = false := by
  cases hb : ((run env (init peers) sched).conns d).wrBlocked with
  | false => rfl
  | true =>
    have h1 := waitsRightly_run env peers sched d hb
    obtain ⟨t, ht⟩ := written_prefix (inv_run env peers sched) d
    have h2 := h.pre hs d
    rw [← ht, writesForAll_append] at h2
    omega

/-- The write task is there, and has nothing to write. -/
def Calm (k : Conn) : Prop := k.rxOpen = true ∧ (k.queue = [] ∨ ∃ r, k.queue = .disconnect :: r)

/-- A packet alone in its queue is written. -/
theorem flush {env : Env} {peers : ConnId → Peer} {evs : List ClientEvent} (h : Ample env peers evs) (sched : List Step)
    (hs : (run env (init peers) sched).served <+: evs) {d : ConnId} (hx : ((run env (init peers) sched).conns d).rxOpen = true)
    {p : ControlPacket} (hq : ((run env (init peers) sched).conns d).queue = [.controlPacket p]) :
    Calm ((run env (init peers) (sched ++ [.write d])).conns d) := by
  have hinv := inv_run env peers sched
  have hb := ample_open h sched hs d
  rw [run_append]
  show Calm ((stepWrite env (run env (init peers) sched) d).conns d)
  have hw := stepWrite_wrote env (run env (init peers) sched) d
  have hin := hinv.writes d
  have hk := fun p => delivered_kind hinv.serves (d := d) (p := p)
  have htake := write_takes env hx hb (by rw [hq]; simp)
  change ((stepWrite env (run env (init peers) sched) d).conns d).queue.length < _ at htake
  generalize (stepWrite env (run env (init peers) sched) d).conns d = k' at hw htake
  cases hw with
  | idle => exact absurd htake (Nat.lt_irrefl _)
  | packet p' rest blocked hq' ho hb' hw hw' =>
    rw [hq] at hq'
    cases hq'
    exact ⟨hx, .inl rfl⟩
  | panic p' rest hq' ho hb' hp =>
    exfalso
    have hall := hin.all ho
    have hmem : ∀ q ∈ ((run env (init peers) sched).conns d).written ++ [p'], (serverBytes q).isSome = true := by
      intro q hq''
      apply hk
      rw [hall, hq']
      rcases List.mem_append.mp hq'' with hq'' | hq''
      · exact List.mem_append_left _ (List.mem_map_of_mem hq'')
      · rw [List.mem_singleton] at hq''; subst hq''; simp
    have := (C17_writer_terminates env.alloc 4096 (peers d).script ((run env (init peers) sched).conns d).written p' hmem).2
    rw [← hin.wr] at this
    exact this hp
  | disconnect rest hq' ho => rw [hq] at hq'; cases hq'
  | gone hq' ho hs => rw [hq] at hq'; cases hq'

theorem run_snoc (env : Env) (s : Sys) (sched : List Step) (st : Step) : run env s (sched ++ [st]) = step env (run env s sched) st := by
  rw [run_append]; rfl

theorem stepHandler_send (env : Env) (now : Instant) {s : Sys} {d : ConnId} {e : ServerEvent} {todo : List (ConnId × ServerEvent)}
    (hh : s.handler = .busy ((d, e) :: todo)) (hx : (s.conns d).rxOpen = true) (hr : (s.conns d).queue.length < channelCapacity) :
    step env s (.handler now) = { s with handler := if todo = [] then .idle else .busy todo }.setConn d
      { s.conns d with queue := (s.conns d).queue ++ [e], delivered := (s.conns d).delivered ++ [e] } := by
  unfold step stepHandler
  simp only [hh, hx, ↓reduceIte]
  rw [if_pos hr]

/-- The handler makes all its sends, and the packets are written. -/
theorem deliver_writing {env : Env} {peers : ConnId → Peer} {evs : List ClientEvent} (hA : Ample env peers evs)
    (todo : List (ConnId × ServerEvent)) (hne : todo ≠ []) (sched : List Step) (hs : (run env (init peers) sched).served <+: evs)
    (hh : (run env (init peers) sched).handler = .busy todo) (hc : ∀ d, Calm ((run env (init peers) sched).conns d))
    (hr : ∀ d, (fromAway (((run env (init peers) sched).conns d).delivered ++ sentTo todo d)).length ≤ 32) :
    ∃ sched', (run env (init peers) (sched ++ sched')).handler = .idle
      ∧ (run env (init peers) (sched ++ sched')).events = (run env (init peers) sched).events
      ∧ (run env (init peers) (sched ++ sched')).log = (run env (init peers) sched).log
      ∧ (∀ d, SameReader ((run env (init peers) sched).conns d) ((run env (init peers) (sched ++ sched')).conns d))
      ∧ ∀ d, Calm ((run env (init peers) (sched ++ sched')).conns d) := by
  induction todo generalizing sched with
  | nil => exact absurd rfl hne
  | cons x todo ih =>
    obtain ⟨d, e⟩ := x
    have hinv := inv_run env peers sched
    obtain ⟨hx, hq⟩ := hc d
    have hall := (hinv.writes d).all hx
    have hroom : ((run env (init peers) sched).conns d).queue.length < channelCapacity := by
      rcases hq with hq | ⟨r, hq⟩
      · rw [hq]; decide
      · have := hr d
        rw [hall, hq, List.append_assoc, fromAway_packets, List.cons_append, fromAway_disconnect] at this
        rw [hq]
        simp only [List.length_cons, List.length_append, sentTo_cons, ↓reduceIte, channelCapacity] at this ⊢
        simp only [List.length_nil] at this
        omega
    have e1 : run env (init peers) (sched ++ [.handler 0])
        = { run env (init peers) sched with handler := if todo = [] then .idle else .busy todo }.setConn d
        { (run env (init peers) sched).conns d with
          queue := ((run env (init peers) sched).conns d).queue ++ [e]
          delivered := ((run env (init peers) sched).conns d).delivered ++ [e] } := by
      rw [run_snoc, stepHandler_send env 0 hh hx hroom]
    -- after the send, and after the packet is written
    have h1 : ∃ w, (run env (init peers) (sched ++ .handler 0 :: w)).handler = (if todo = [] then .idle else .busy todo)
        ∧ (run env (init peers) (sched ++ .handler 0 :: w)).events = (run env (init peers) sched).events
        ∧ (run env (init peers) (sched ++ .handler 0 :: w)).log = (run env (init peers) sched).log
        ∧ (∀ c, SameReader ((run env (init peers) sched).conns c) ((run env (init peers) (sched ++ .handler 0 :: w)).conns c))
        ∧ (∀ c, ((run env (init peers) (sched ++ .handler 0 :: w)).conns c).delivered
            = ((run env (init peers) sched).conns c).delivered ++ if d = c then [e] else [])
        ∧ ∀ c, Calm ((run env (init peers) (sched ++ .handler 0 :: w)).conns c) := by
      have k1 : ∀ c, SameReader ((run env (init peers) sched).conns c) ((run env (init peers) (sched ++ [.handler 0])).conns c) := by
        intro c
        rw [e1]
        by_cases hcd : c = d
        · subst hcd; rw [setConn_self]; exact ⟨rfl, rfl, rfl, rfl, rfl⟩
        · rw [setConn_other _ _ hcd]; exact SameReader.refl _
      have k2 : ∀ c, ((run env (init peers) (sched ++ [.handler 0])).conns c).delivered
            = ((run env (init peers) sched).conns c).delivered ++ if d = c then [e] else [] := by
        intro c
        rw [e1]
        by_cases hcd : c = d
        · subst hcd; rw [setConn_self]; simp
        · rw [setConn_other _ _ hcd, if_neg (fun h : d = c => hcd h.symm), List.append_nil]
      have k3 : ∀ c, c ≠ d → Calm ((run env (init peers) (sched ++ [.handler 0])).conns c) := by
        intro c hcd
        rw [e1, setConn_other _ _ hcd]
        exact hc c
      have k4 : (run env (init peers) (sched ++ [.handler 0])).served <+: evs := by rw [e1]; exact hs
      have k5 : ((run env (init peers) (sched ++ [.handler 0])).conns d).rxOpen = true := by rw [e1, setConn_self]; exact hx
      have k6 : ((run env (init peers) (sched ++ [.handler 0])).conns d).queue = ((run env (init peers) sched).conns d).queue ++ [e] := by
        rw [e1, setConn_self]
      have stay : Calm ((run env (init peers) (sched ++ [.handler 0])).conns d) →
          ∀ c, Calm ((run env (init peers) (sched ++ [.handler 0])).conns c) := by
        intro h c
        by_cases hcd : c = d
        · subst hcd; exact h
        · exact k3 c hcd
      rcases hq with hq | ⟨r, hq⟩
      · cases e with
        | disconnect => exact ⟨[], by rw [e1]; rfl, by rw [e1]; rfl, by rw [e1]; rfl, k1, k2, stay ⟨k5, .inr ⟨[], by rw [k6, hq]; rfl⟩⟩⟩
        | controlPacket p =>
          refine ⟨[.write d], ?_⟩
          have hf := flush hA (sched ++ [.handler 0]) k4 k5 (p := p) (by rw [k6, hq]; rfl)
          have happ : sched ++ [Step.handler 0, .write d] = sched ++ [.handler 0] ++ [.write d] := by simp
          rw [happ]
          have hw : run env (init peers) (sched ++ [.handler 0] ++ [.write d]) = stepWrite env (run env (init peers) (sched ++ [.handler 0])) d := by
            rw [run_snoc]; rfl
          rw [hw] at hf ⊢
          obtain ⟨r1, r2, r3, r4⟩ := stepWrite_rest env (run env (init peers) (sched ++ [.handler 0])) d
          refine ⟨by rw [r2, e1]; rfl, by rw [r1, e1]; rfl, by rw [r4.1, e1]; rfl, fun c => ?_, fun c => by rw [stepWrite_delivered]; exact k2 c, fun c => ?_⟩
          · have h1 := k1 c
            have h2 := stepWrite_reader env (run env (init peers) (sched ++ [.handler 0])) d c
            exact ⟨h2.addr.trans h1.addr, h2.uuid.trans h1.uuid, h2.rd.trans h1.rd, h2.phase.trans h1.phase, h2.outbox.trans h1.outbox⟩
          · by_cases hcd : c = d
            · subst hcd; exact hf
            · rw [stepWrite_other env _ hcd]; exact k3 c hcd
      · exact ⟨[], by rw [e1]; rfl, by rw [e1]; rfl, by rw [e1]; rfl, k1, k2, stay ⟨k5, .inr ⟨r ++ [e], by rw [k6, hq]; rfl⟩⟩⟩
    obtain ⟨w, w1, w2, w3, w4, w5, w6⟩ := h1
    by_cases ht : todo = []
    · rw [if_pos ht] at w1
      exact ⟨.handler 0 :: w, w1, w2, w3, w4, w6⟩
    · rw [if_neg ht] at w1
      have hserved : (run env (init peers) (sched ++ .handler 0 :: w)).served = (run env (init peers) sched).served := by
        unfold served; rw [w3]
      obtain ⟨sched', i1, i2, i3, i4, i5⟩ := ih ht (sched ++ .handler 0 :: w) (by rw [hserved]; exact hs) w1 w6 (by
        intro c
        rw [w5 c, List.append_assoc, ← sentTo_cons]
        exact hr c)
      rw [List.append_assoc] at i1 i2 i3 i4 i5
      refine ⟨.handler 0 :: w ++ sched', i1, i2.trans w2, i3.trans w3, fun c => ?_, i5⟩
      have h1 := w4 c
      have h2 := i4 c
      exact ⟨h2.addr.trans h1.addr, h2.uuid.trans h1.uuid, h2.rd.trans h1.rd, h2.phase.trans h1.phase, h2.outbox.trans h1.outbox⟩

/-! ### Reading -/

/-- The read task will next find the packets `ps`. -/
def Finds (env : Env) (k : Conn) (ps : List ControlPacket) : Prop :=
  letI := RStream.source env.alloc
  k.outbox = none ∧ ∃ rd, (readMany env.profile ps.length : M RStream _) k.rd = (.ok ps, rd)

theorem Finds.cons {env : Env} {k : Conn} {p : ControlPacket} {ps : List ControlPacket} (h : Finds env k (p :: ps)) :
    letI := RStream.source env.alloc
    ∃ rd, (Decoder.readPacket env.profile : M RStream _) k.rd = (.ok p, rd) ∧ ∀ k' : Conn, k'.outbox = none → k'.rd = rd → Finds env k' ps := by
  letI := RStream.source env.alloc
  obtain ⟨_, rd, h⟩ := h
  rw [List.length_cons, readMany] at h
  obtain ⟨q, rd', h1, h2⟩ := M.bind_eq_ok.mp h
  obtain ⟨qs, rd'', h3, h4⟩ := M.bind_eq_ok.mp h2
  cases h4
  exact ⟨rd', h1, fun k' ho hr => ⟨ho, rd, by rw [hr]; exact h3⟩⟩

theorem finds_new (env : Env) (peer : Peer) {ps : List ControlPacket} (hd : Decodes env.profile peer.segs.flatten peer.fin ps)
    (hl : peer.segs.flatten.length < 4096) : Finds env peer.conn ps := by
  letI := RStream.source env.alloc
  refine ⟨rfl, ?_⟩
  obtain ⟨rest, hd⟩ := hd
  have h := readMany_sim env.alloc closed_small env.profile ps.length (RStream.new 4096 peer.segs peer.fin) _ (rel_new 4096 peer.segs peer.fin)
    (by simpa [Small, RStream.total, RStream.new, BytesMut.withCapacity] using hl)
  rcases hm : (readMany env.profile ps.length : M RStream _) (RStream.new 4096 peer.segs peer.fin) with ⟨r, s'⟩
  rw [hm, hd] at h
  cases r with
  | ok a =>
    obtain ⟨p', h1, _⟩ := h
    cases h1
    exact ⟨s', hm⟩
  | err e => obtain ⟨_, h⟩ := h; cases h
  | panic => obtain ⟨_, h⟩ := h; cases h
  | pending => obtain ⟨_, h⟩ := h; cases h
  | hang => exact h.elim

/-- Where the read task of connection `c` is after the events `evs`. -/
def ReadTo (env : Env) (peers : ConnId → Peer) (ps : List ControlPacket) (evs : List ClientEvent) (c : ConnId) (k : Conn) : Prop :=
  (evs.filter (From c) = [] ∧ k.phase = .first ∧ k.addr = (peers c).addr ∧ k.uuid = (peers c).uuid ∧ Finds env k ps)
  ∨ ∃ p rest, ps = .connect p :: rest ∧ evs.filter (From c) ≠ []
    ∧ k.phase = .running (idOf (peers c) p) ∧ Finds env k (rest.drop ((evs.filter (From c)).length - 1))

theorem ReadTo.congr {env : Env} {peers : ConnId → Peer} {ps : List ControlPacket} {evs evs' : List ClientEvent} {c : ConnId} {k k' : Conn}
    (h : ReadTo env peers ps evs c k) (he : evs'.filter (From c) = evs.filter (From c)) (hr : SameReader k k') :
    ReadTo env peers ps evs' c k' := by
  unfold ReadTo Finds at *
  rw [he, hr.phase, hr.addr, hr.uuid, hr.rd, hr.outbox]
  exact h

theorem ReadTo.speaks {env : Env} {peers : ConnId → Peer} {ps : List ControlPacket} {evs : List ClientEvent} {c : ConnId} {k : Conn}
    {ev : ClientEvent} (h : ReadTo env peers ps evs c k) (hf : From c ev) (hp : (evs ++ [ev]).filter (From c) <+: eventsOf (peers c) c ps) :
    ∃ k', Speaks env c k ev k' ∧ ReadTo env peers ps (evs ++ [ev]) c k' ∧ k'.rxOpen = k.rxOpen ∧ k'.queue = k.queue := by
  letI := RStream.source env.alloc
  have hfil : (evs ++ [ev]).filter (From c) = evs.filter (From c) ++ [ev] := by
    rw [List.filter_append, List.filter_cons, if_pos (by simpa using hf), List.filter_nil]
  rw [hfil] at hp
  rcases h with ⟨hnil, hph, haddr, huuid, hn⟩ | ⟨p, rest, rfl, hne, hph, hn⟩
  · rw [hnil, List.nil_append] at hp
    cases ps with
    | nil => simp [eventsOf] at hp
    | cons a rest =>
      cases a with
      | connect p =>
        rw [eventsOf] at hp
        have hev := (List.cons_prefix_cons.mp hp).1
        obtain ⟨rd, h1, h2⟩ := hn.cons
        have hid : effectiveClientId k p = idOf (peers c) p := by simp [effectiveClientId, idOf, huuid]
        refine ⟨{ k with rd := rd, phase := .running (idOf (peers c) p) }, ⟨hn.1, hn.1, ?_⟩, .inr ⟨p, rest, rfl, ?_, rfl, ?_⟩, rfl, rfl⟩
        · unfold readTask
          simp only [hph]
          rw [h1]
          simp only [hid, haddr]
          rw [hev]
        · rw [hfil]; simp
        · rw [hfil, hnil]
          exact h2 _ hn.1 rfl
      | _ => simp [eventsOf] at hp
  · generalize hl : evs.filter (From c) = l at *
    have hlen : 0 < l.length := List.length_pos_iff.mpr hne
    obtain ⟨t, ht⟩ := hp
    have hget : (eventsOf (peers c) c (.connect p :: rest))[l.length]? = some ev := by
      rw [← ht]; simp
    rw [eventsOf] at hget
    obtain ⟨n, hn'⟩ : ∃ n, l.length = n + 1 := ⟨l.length - 1, by omega⟩
    rw [hn', List.getElem?_cons_succ, List.getElem?_map, Option.map_eq_some_iff] at hget
    obtain ⟨a, ha, hev⟩ := hget
    rw [hn', Nat.add_sub_cancel] at hn
    have hdrop : rest.drop n = a :: rest.drop (n + 1) := by
      obtain ⟨hlt, rfl⟩ := List.getElem?_eq_some_iff.mp ha
      exact List.drop_eq_getElem_cons hlt
    rw [hdrop] at hn
    obtain ⟨rd, h1, h2⟩ := hn.cons
    refine ⟨{ k with rd := rd }, ⟨hn.1, hn.1, ?_⟩, .inr ⟨p, rest, rfl, ?_, hph, ?_⟩, rfl, rfl⟩
    · unfold readTask
      simp only [hph]
      rw [h1]
      simp only
      rw [hev]
    · rw [hfil]; simp
    · rw [hfil, List.length_append, hn', List.length_singleton, Nat.add_sub_cancel]
      exact h2 _ hn.1 rfl

/-- The events `evs` have been handled, and all packets written. -/
structure ServedAll (env : Env) (peers : ConnId → Peer) (ps : ConnId → List ControlPacket) (evs : List ClientEvent) (s : Sys) : Prop where
  idle : s.handler = .idle
  events : s.events = []
  served : s.served = evs
  ready : ∀ c, ReadTo env peers (ps c) evs c (s.conns c)
  calm : ∀ c, Calm (s.conns c)

theorem idle_rest {env : Env} {s : Sys} (h : Serves env s) (hi : s.handler = .idle) :
    ∃ b, Broker.start.after env.auth s.served = some b ∧ Rep s.messaging b
      ∧ ∀ d, (s.conns d).delivered = Broker.start.outputs env.auth s.served d := by
  cases h with
  | rest b _ ha hr ho => exact ⟨b, ha, hr, ho⟩
  | sending _ _ _ _ _ _ h' => rw [hi] at h'; cases h'
  | failed _ _ _ h' => rw [hi] at h'; cases h'
  | broken _ _ _ _ _ _ h' => rw [hi] at h'; cases h'

/-- One more event. -/
theorem ServedAll.one {env : Env} {peers : ConnId → Peer} {ps : ConnId → List ControlPacket} {evs : List ClientEvent} {sched : List Step}
    (h : ServedAll env peers ps evs (run env (init peers) sched)) {ev : ClientEvent} (hA : Ample env peers (evs ++ [ev]))
    (hc : ∃ c, From c ev) (hp : ∀ c, (evs ++ [ev]).filter (From c) <+: eventsOf (peers c) c (ps c)) {b b' : Broker} {out : Outputs}
    (hb1 : Broker.start.after env.auth evs = some b) (hstep : b.step env.auth ev = some (b', out))
    (hroom : ∀ d, (fromAway (Broker.start.outputs env.auth (evs ++ [ev]) d)).length ≤ 32) :
    ∃ sched', ServedAll env peers ps (evs ++ [ev]) (run env (init peers) (sched ++ sched')) := by
  obtain ⟨c, hc⟩ := hc
  obtain ⟨k', hsp, hready, k1, k2⟩ := (h.ready c).speaks hc (hp c)
  have hinv := inv_run env peers sched
  obtain ⟨b₀, ha', hrep, ho⟩ := idle_rest hinv.serves h.idle
  rw [h.served, hb1] at ha'
  cases ha'
  have href := handle_refines env.auth 0 hrep ev
  rw [hstep] at href
  cases hhandle : Handler.handle env.auth 0 (run env (init peers) sched).messaging ev with
  | none => rw [hhandle] at href; exact href.elim
  | some r =>
    obtain ⟨m', sends⟩ := r
    rw [hhandle] at href
    obtain ⟨_, hout⟩ := href
    -- the event is taken
    have e1 : run env (init peers) (sched ++ [.read c, .read c, .handler 0])
        = { (run env (init peers) sched).setConn c k' with
            log := (run env (init peers) sched).log ++ [(ev, 0)]
            messaging := m'
            handler := if sends = [] then .idle else .busy sends
            events := [] } := by
      have : sched ++ [Step.read c, .read c, .handler 0] = sched ++ [.read c, .read c] ++ [.handler 0] := by simp
      rw [this, run_snoc, run_append, enter env ⟨h.idle, h.events, rfl⟩ hsp]
      unfold step stepHandler
      simp only [setConn_handler, h.idle, setConn_events, setConn_messaging, hhandle, setConn_log]
      cases sends with
      | nil => simp only [↓reduceIte]; rw [← h.idle]; rfl
      | cons => rfl
    have hserved : (run env (init peers) (sched ++ [.read c, .read c, .handler 0])).served = evs ++ [ev] := by
      have := h.served
      rw [e1]
      unfold Sys.served at this ⊢
      simp [this]
    have hconn : ∀ d, (run env (init peers) (sched ++ [.read c, .read c, .handler 0])).conns d
        = if d = c then k' else (run env (init peers) sched).conns d := fun d => by rw [e1]; rfl
    have hready' : ∀ d, ReadTo env peers (ps d) (evs ++ [ev]) d ((run env (init peers) (sched ++ [.read c, .read c, .handler 0])).conns d) := by
      intro d
      rw [hconn]
      split
      · rename_i hd; subst hd; exact hready
      · rename_i hd
        refine (h.ready d).congr ?_ (SameReader.refl _)
        rw [List.filter_append, List.filter_cons, if_neg, List.filter_nil, List.append_nil]
        intro h'
        exact hd (from_unique (by simpa using h') hc)
    have hcalm : ∀ d, Calm ((run env (init peers) (sched ++ [.read c, .read c, .handler 0])).conns d) := by
      intro d
      rw [hconn]
      split
      · rename_i hd; subst hd
        have := h.calm d
        unfold Calm at this ⊢
        rw [k1, k2]
        exact this
      · exact h.calm d
    by_cases hne : sends = []
    · refine ⟨[.read c, .read c, .handler 0], ?_, ?_, hserved, hready', hcalm⟩
      · rw [e1]; simp [hne]
      · rw [e1]
    · have hbusy : (run env (init peers) (sched ++ [.read c, .read c, .handler 0])).handler = .busy sends := by rw [e1]; simp [hne]
      have hdel : ∀ d, ((run env (init peers) (sched ++ [.read c, .read c, .handler 0])).conns d).delivered ++ sentTo sends d
          = Broker.start.outputs env.auth (evs ++ [ev]) d := by
        have hs := (inv_run env peers (sched ++ [.read c, .read c, .handler 0])).serves
        cases hs with
        | rest _ h' => rw [hbusy] at h'; rcases h' with h' | h' <;> cases h'
        | sending todo _ _ _ _ _ h' _ _ _ _ ho =>
          rw [hbusy] at h'
          cases h'
          rw [hserved] at ho
          exact ho
        | failed _ _ _ h' => rw [hbusy] at h'; cases h'
        | broken _ _ _ _ _ _ h' => rw [hbusy] at h'; cases h'
      obtain ⟨sched', d1, d2, d3, d4, d5⟩ := deliver_writing hA sends hne (sched ++ [.read c, .read c, .handler 0])
        (by rw [hserved]; exact List.prefix_refl _) hbusy hcalm (fun d => by rw [hdel]; exact hroom d)
      refine ⟨[.read c, .read c, .handler 0] ++ sched', ?_⟩
      rw [← List.append_assoc]
      refine ⟨d1, ?_, ?_, fun d => (hready' d).congr rfl (d4 d), d5⟩
      · rw [d2, e1]
      · rw [← hserved]; unfold Sys.served; rw [d3]

theorem servedAll_init (env : Env) (peers : ConnId → Peer) (ps : ConnId → List ControlPacket)
    (h : ∀ c, Finds env (peers c).conn (ps c)) : ServedAll env peers ps [] (run env (init peers) []) :=
  ⟨rfl, rfl, rfl, fun c => .inl ⟨rfl, rfl, rfl, rfl, h c⟩, fun _ => ⟨rfl, .inl rfl⟩⟩

/-- All events. -/
theorem servedAll {env : Env} {peers : ConnId → Peer} {ps : ConnId → List ControlPacket} (h : ∀ c, Finds env (peers c).conn (ps c))
    (evs : List ClientEvent) (hA : Ample env peers evs) (hf : ∀ ev ∈ evs, ∃ c, From c ev)
    (hp : ∀ c, evs.filter (From c) <+: eventsOf (peers c) c (ps c)) (ha : (Broker.start.after env.auth evs).isSome = true)
    (hroom : ∀ d, (fromAway (Broker.start.outputs env.auth evs d)).length ≤ 32) :
    ∃ sched, ServedAll env peers ps evs (run env (init peers) sched) := by
  revert hA hf hp ha hroom
  refine snoc_induction (P := fun evs => Ample env peers evs → (∀ ev ∈ evs, ∃ c, From c ev)
    → (∀ c, evs.filter (From c) <+: eventsOf (peers c) c (ps c)) → (Broker.start.after env.auth evs).isSome = true
    → (∀ d, (fromAway (Broker.start.outputs env.auth evs d)).length ≤ 32) →
    ∃ sched, ServedAll env peers ps evs (run env (init peers) sched)) ?_ ?_ evs
  · intro _ _ _ _ _
    exact ⟨[], servedAll_init env peers ps h⟩
  · intro evs ev ih hA hf hp ha hroom
    obtain ⟨b', ha⟩ := Option.isSome_iff_exists.mp ha
    obtain ⟨b, hb1, hb2⟩ := after_prefix ha
    obtain ⟨out, hstep⟩ := after_one hb2
    obtain ⟨sched, h⟩ := ih (hA.pre (List.prefix_append _ _)) (fun e he => hf e (List.mem_append_left _ he))
      (fun c => List.IsPrefix.trans (by rw [List.filter_append _ [ev]]; exact List.prefix_append _ _) (hp c)) (by rw [hb1]; rfl)
      (fun d => by
        refine Nat.le_trans ?_ (hroom d)
        rw [outputs_append]
        exact fromAway_append_le _ _)
    obtain ⟨sched', h⟩ := h.one hA (hf ev (by simp)) hp hb1 hstep hroom
    exact ⟨_, h⟩

/-! ### The other direction -/

/-- What is put into a queue from the request to go away on is never taken out. -/
theorem away_room_step (env : Env) (peers : ConnId → Peer) (s : Sys) (st : Step) (h : Inv env peers s) (d : ConnId)
    (hd : (fromAway (s.conns d).delivered).length ≤ 32) : (fromAway ((step env s st).conns d).delivered).length ≤ 32 := by
  by_cases hsame : ((step env s st).conns d).delivered = (s.conns d).delivered
  · rw [hsame]; exact hd
  · cases st with
    | read c =>
      exact absurd (stepRead_conn env s c d).2.2.2.2.2 hsame
    | write c => exact absurd (stepWrite_delivered env s c d) hsame
    | ctrlC => exact absurd rfl hsame
    | stop =>
      refine absurd ?_ hsame
      simp only [step]
      split
      · split <;> rfl
      · rfl
    | handler now =>
      cases hh : s.handler with
      | idle =>
        refine absurd ?_ hsame
        simp only [step, stepHandler, hh]
        split
        · rfl
        · split <;> rfl
      | crashed => exact absurd (by simp [step, stepHandler, hh]) hsame
      | stopped => exact absurd (by simp [step, stepHandler, hh]) hsame
      | busy todo =>
        cases todo with
        | nil => exact absurd (by simp [step, stepHandler, hh]) hsame
        | cons x todo =>
          obtain ⟨c, e⟩ := x
          by_cases hx : (s.conns c).rxOpen = true
          · by_cases hr : (s.conns c).queue.length < channelCapacity
            · rw [stepHandler_send env now hh hx hr]
              by_cases hcd : d = c
              · subst hcd
                rw [setConn_self]
                simp only
                rw [(h.writes d).all hx, List.append_assoc, fromAway_packets]
                refine Nat.le_trans (fromAway_le _) ?_
                rw [List.length_append, List.length_singleton]
                exact hr
              · rw [setConn_other _ _ hcd]; exact hd
            · exact absurd (by simp [step, stepHandler, hh, hx, hr]) hsame
          · exact absurd (by simp [step, stepHandler, hh, hx]) hsame

theorem away_room (env : Env) (peers : ConnId → Peer) (sched : List Step) (d : ConnId) :
    (fromAway ((run env (init peers) sched).conns d).delivered).length ≤ 32 := by
  have : Inv env peers (run env (init peers) sched) ∧ (fromAway ((run env (init peers) sched).conns d).delivered).length ≤ 32 :=
    run_induction (P := fun s => Inv env peers s ∧ (fromAway (s.conns d).delivered).length ≤ 32)
      (fun s st h => ⟨inv_step env peers s st h.1, away_room_step env peers s st h.1 d h.2⟩)
      ⟨inv_init env peers, by simp [init, Peer.conn, fromAway]⟩ sched
  exact this.2

/-- What was sent before the event at which the handler crashed. -/
theorem crash_room (env : Env) (peers : ConnId → Peer) (sched : List Step) (hc : (run env (init peers) sched).handler = .crashed) :
    ∃ pre ev, (run env (init peers) sched).served = pre ++ [ev] ∧ (∃ b, Broker.start.after env.auth pre = some b)
      ∧ ∀ d, (fromAway (Broker.start.outputs env.auth pre d)).length ≤ 32 := by
  obtain ⟨l, rfl⟩ : ∃ l, sched = l.reverse := ⟨sched.reverse, by simp⟩
  induction l with
  | nil => cases hc
  | cons st l ih =>
    rw [List.reverse_cons, run_snoc] at hc ⊢
    have hinv := inv_run env peers l.reverse
    have hroom := away_room env peers l.reverse
    by_cases hcr : (run env (init peers) l.reverse).handler = .crashed
    · have := still_dead env _ (.inl hcr) [st]
      change Still _ (step env (run env (init peers) l.reverse) st) at this
      have hs : (step env (run env (init peers) l.reverse) st).served = (run env (init peers) l.reverse).served := by
        unfold served; rw [this.log]
      rw [hs]
      exact ih hcr
    · clear ih
      generalize run env (init peers) l.reverse = s at *
      cases st with
      | read c => exact absurd ((stepRead_rest env s c).1.symm.trans hc) hcr
      | write c => exact absurd ((stepWrite_rest env s c).2.1.symm.trans hc) hcr
      | ctrlC => exact absurd hc hcr
      | stop =>
        simp only [step] at hc
        split at hc
        · split at hc
          · cases hc
          · exact absurd hc hcr
        · exact absurd hc hcr
      | handler now =>
        cases hh : s.handler with
        | idle =>
          obtain ⟨b, ha, _, ho⟩ := idle_rest hinv.serves hh
          cases hev : s.events with
          | nil => simp [step, stepHandler, hh, hev] at hc
          | cons ev rest =>
            refine ⟨s.served, ev, ?_, ⟨b, ha⟩, fun d => by rw [← ho]; exact hroom d⟩
            simp only [step, stepHandler, hh, hev]
            split <;> simp [served]
        | crashed => exact absurd hh hcr
        | stopped => simp [step, stepHandler, hh] at hc
        | busy todo =>
          cases hinv.serves with
          | rest _ h' => rw [hh] at h'; rcases h' with h' | h' <;> cases h'
          | failed _ _ _ h' => rw [hh] at h'; cases h'
          | broken _ _ _ _ _ _ h' => rw [hh] at h'; cases h'
          | sending todo' pre ev b b' out h' he hp hs hr ho hout =>
            rw [hh] at h'
            cases h'
            have hlog : (step env s (.handler now)).served = s.served := by
              unfold served
              congr 1
              simp only [step, stepHandler, hh]
              cases todo with
              | nil => rfl
              | cons x todo =>
                simp only
                split
                · split <;> rfl
                · rfl
            refine ⟨pre, ev, hlog.trans he, ⟨b, hp⟩, fun d => ?_⟩
            have h1 := ho d
            rw [he, outputs_snoc hp hs] at h1
            obtain ⟨t, ht⟩ := hout d
            rw [← ht, ← List.append_assoc] at h1
            have h2 := List.append_cancel_right h1
            refine Nat.le_trans (fromAway_append_le _ t) ?_
            rw [← h2]
            exact hroom d

end Sys

end Ratel
