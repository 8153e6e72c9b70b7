/-
C78–C80: what happens in the long run. Schedules here are endless; `firstSteps σ n` are the first `n` steps.
-/
import Verif.Proofs.SysBound
import Verif.Props.Protocol

namespace Ratel

open Decoder Encoder Spec Sys

/-- C78. With finitely many connections, whatever they send and whatever the schedule, from some point on nothing changes any more: the
broker never keeps itself busy. -/
theorem C78_comes_to_rest (env : Env) (peers : ConnId → Peer) (N : Nat) (σ : Nat → Step) (hf : Few N σ) :
    ∃ n, ∀ m, n ≤ m → run env (init peers) (firstSteps σ m) = run env (init peers) (firstSteps σ n) :=
  comes_to_rest env peers hf

/-- C79. If every task gets its turn again and again, then in the end the broker has crashed, on one of the events known to be fatal; or
it was stopped with ctrl-c; or it waits for ever for a connection whose socket takes no more; or all is done, and then every packet that
can be decoded, of every connection whose read task does not spin, has been handled. -/
theorem C79_everything_handled (env : Env) (peers : ConnId → Peer) (N : Nat) (σ : Nat → Step) (hf : Fair N σ) :
    ∃ n, (∀ m, n ≤ m → run env (init peers) (firstSteps σ m) = run env (init peers) (firstSteps σ n))
      ∧ (((run env (init peers) (firstSteps σ n)).handler = .crashed
            ∧ Fatal env.auth ((run env (init peers) (firstSteps σ n)).log.map Prod.fst))
        ∨ ((run env (init peers) (firstSteps σ n)).handler = .stopped ∧ ∃ i, i < n ∧ σ i = .ctrlC)
        ∨ (∃ d e todo, d < N ∧ Stuck (run env (init peers) (firstSteps σ n)) d e todo)
        ∨ (AllDone env N (run env (init peers) (firstSteps σ n))
          ∧ ∀ c, c < N → ((run env (init peers) (firstSteps σ n)).conns c).phase ≠ .stuck → ∀ ps,
              Decodes env.profile (peers c).segs.flatten (peers c).fin ps →
              eventsOf (peers c) c ps <+: ((run env (init peers) (firstSteps σ n)).log.map Prod.fst).filter (From c))) := by
  obtain ⟨n, h1, h2⟩ := fair_rest env peers hf
  refine ⟨n, h1, ?_⟩
  rcases h2 with h | h | h | h
  · exact .inl ⟨h, crashed_run env peers _ h⟩
  · refine .inr (.inl ⟨h, Classical.byContradiction fun hno => ?_⟩)
    refine stopped_ctrlC env (s := init peers) (by simp [init]) rfl (fun hmem => ?_) h
    obtain ⟨i, hi, he⟩ := List.mem_map.mp hmem
    exact hno ⟨i, List.mem_range.mp hi, he⟩
  · exact .inr (.inr (.inl h))
  · refine .inr (.inr (.inr ⟨h, fun c hc hs => ?_⟩))
    exact allDone_complete (reads_run env peers _) (endsComplete_run env peers _) h hc hs

/-- What has been sent when all is done. -/
theorem sent_when_done (env : Env) (peers : ConnId → Peer) (N : Nat) (sched : List Step)
    (hblock : ∀ c : Nat, c < N → ((run env (init peers) sched).conns c).wrBlocked = false)
    (hfail : ∀ c, ∀ o ∈ (peers c).script, o ≠ .fail) (hdone : AllDone env N (run env (init peers) sched)) (d : ConnId) (hd : d < N) :
    ∃ sent : List ControlPacket,
        sent.map .controlPacket = (Broker.start.outputs env.auth ((run env (init peers) sched).log.map Prod.fst) d).takeWhile (· ≠ .disconnect)
        ∧ allBytes ((run env (init peers) sched).conns d).wr = wireOf sent := by
  have hinv := inv_run env peers sched
  have hord := reads_orderly_served hinv.reads
  have hopen : ((run env (init peers) sched).conns d).written.map .controlPacket
      = (((run env (init peers) sched).conns d).delivered).takeWhile (· ≠ .disconnect) := by
    cases hx : ((run env (init peers) sched).conns d).rxOpen with
    | true =>
      rw [(hinv.writes d).all hx, hdone.queue d hd (hblock d hd)]
      exact (takeWhile_map_append _ _ (.inl rfl)).symm
    | false =>
      obtain ⟨rest, e1, e2⟩ := wroteAll_run env peers sched d hx
      rw [e1]
      exact (takeWhile_map_append _ _ e2).symm
  refine ⟨((run env (init peers) sched).conns d).written, ?_, ?_⟩
  · rw [hopen]
    cases hinv.serves with
    | rest b _ _ _ ho => rw [ho d]; rfl
    | sending _ _ _ _ _ _ h' => rw [hdone.handler] at h'; cases h'
    | failed _ _ _ h' => rw [hdone.handler] at h'; cases h'
    | broken _ _ _ _ _ _ h' => rw [hdone.handler] at h'; cases h'
  · refine ((hinv.writes d).clean (hfail d) (fun p hp => ?_)).2.1 (hblock d hd)
    refine delivered_server hord (d := d) ((hinv.serves.delivered d).subset ((hinv.writes d).sent.subset ?_))
    exact List.mem_append_left _ (List.mem_map_of_mem hp)

/-- What has been delivered when all is done. -/
theorem delivered_when_done (env : Env) (peers : ConnId → Peer) (N : Nat) (sched : List Step)
    (hshort : ∀ c, c < N → (peers c).segs.flatten.length < 4096)
    (hblock : ∀ c : Nat, c < N → ((run env (init peers) sched).conns c).wrBlocked = false)
    (hfail : ∀ c, ∀ o ∈ (peers c).script, o ≠ .fail) (hdone : AllDone env N (run env (init peers) sched))
    (hall : ∀ c, c < N → ((run env (init peers) sched).conns c).phase ≠ .stuck → ∀ ps,
      Decodes env.profile (peers c).segs.flatten (peers c).fin ps →
      eventsOf (peers c) c ps <+: ((run env (init peers) sched).log.map Prod.fst).filter (From c)) :
    (∀ c, c < N → ∃ ps, Decodes env.profile (peers c).segs.flatten (peers c).fin ps
        ∧ ((run env (init peers) sched).log.map Prod.fst).filter (From c) = eventsOf (peers c) c ps
        ∧ ∀ ps', Decodes env.profile (peers c).segs.flatten (peers c).fin ps' → eventsOf (peers c) c ps' <+: eventsOf (peers c) c ps)
    ∧ ∀ d, d < N → ∃ sent : List ControlPacket,
        sent.map .controlPacket = (Broker.start.outputs env.auth ((run env (init peers) sched).log.map Prod.fst) d).takeWhile (· ≠ .disconnect)
        ∧ allBytes ((run env (init peers) sched).conns d).wr = wireOf sent := by
  refine ⟨fun c hc => ?_, sent_when_done env peers N sched hblock hfail hdone⟩
  have hcomp := hall c hc ((noSpin_run env peers sched) c (hshort c hc)).1
  obtain ⟨_, _, ps, pl, g1, _, _, g4, _⟩ := (inv_run env peers sched).reads.conn c
  have g4 := g4 (by simp [handlerAlive, hdone.handler])
  rw [hdone.outbox c hc, taken, hdone.events] at g4
  simp only [Option.toList_none, List.append_nil] at g4
  exact ⟨ps, ⟨pl, g1⟩, g4, fun ps' h' => g4 ▸ hcomp ps' h'⟩

/-- C80, for sockets that do not block. -/
theorem everything_delivered (env : Env) (peers : ConnId → Peer) (N : Nat) (σ : Nat → Step) (hf : Fair N σ)
    (hshort : ∀ c, c < N → (peers c).segs.flatten.length < 4096)
    (hacc : ∀ c q ps, Decodes env.profile (peers c).segs.flatten (peers c).fin (.connect q :: ps) → login env.auth q = .accepted)
    (hping : (∀ c ps, Decodes env.profile (peers c).segs.flatten (peers c).fin ps → .pingReq ∉ ps)
      ∨ ∀ c ps, Decodes env.profile (peers c).segs.flatten (peers c).fin ps → .disconnect ∉ ps)
    (hblock : ∀ n (c : Nat), c < N → ((run env (init peers) (firstSteps σ n)).conns c).wrBlocked = false)
    (hfail : ∀ c, ∀ o ∈ (peers c).script, o ≠ .fail) (hctrl : ∀ n, σ n ≠ .ctrlC) :
    ∃ n evs, (∀ m, n ≤ m → run env (init peers) (firstSteps σ m) = run env (init peers) (firstSteps σ n))
      ∧ (run env (init peers) (firstSteps σ n)).log.map Prod.fst = evs
      ∧ (∀ c, c < N → ∃ ps, Decodes env.profile (peers c).segs.flatten (peers c).fin ps ∧ evs.filter (From c) = eventsOf (peers c) c ps
          ∧ ∀ ps', Decodes env.profile (peers c).segs.flatten (peers c).fin ps' → eventsOf (peers c) c ps' <+: eventsOf (peers c) c ps)
      ∧ ∀ d, d < N → ∃ sent : List ControlPacket,
          sent.map .controlPacket = (Broker.start.outputs env.auth evs d).takeWhile (· ≠ .disconnect)
          ∧ allBytes ((run env (init peers) (firstSteps σ n)).conns d).wr = wireOf sent := by
  obtain ⟨n, h1, h2⟩ := C79_everything_handled env peers N σ hf
  have hinv := inv_run env peers (firstSteps σ n)
  have hord := reads_orderly_served hinv.reads
  have hnf : ¬ Fatal env.auth ((run env (init peers) (firstSteps σ n)).log.map Prod.fst) :=
    not_fatal hord (fun ev hev => hinv.reads.from_conn ev (List.mem_append_left _ hev)) hacc hping
  rcases h2 with ⟨_, h⟩ | ⟨_, i, _, h⟩ | ⟨d, e, todo, hd, _, _, _, h⟩ | ⟨hdone, hall⟩
  · exact (hnf h).elim
  · exact (hctrl i h).elim
  · rw [hblock n d hd] at h; cases h
  · obtain ⟨g1, g2⟩ := delivered_when_done env peers N (firstSteps σ n) hshort (hblock n) hfail hdone hall
    exact ⟨n, _, h1, rfl, g1, g2⟩

/-- C80. Let every connection bring fewer than 4096 bytes, let every CONNECT be accepted, and let nobody ping or nobody disconnect. Then,
however the bytes are split, if no write fails and the sockets take enough of them (`B`), if every task gets its turn again and again and
ctrl-c is not pressed: in the end every packet of every connection has been handled, and what every connection has been sent is, in the
wire format, exactly what the sequential broker sends for the packets in the order they were handled, up to the order to disconnect if
there is one; it is on the wire or in the write buffer. -/
theorem C80_everything_delivered (env : Env) (input : ConnId → Peer) (N : Nat)
    (hshort : ∀ c, c < N → (input c).segs.flatten.length < 4096)
    (hacc : ∀ c q ps, Decodes env.profile (input c).segs.flatten (input c).fin (.connect q :: ps) → login env.auth q = .accepted)
    (hping : (∀ c ps, Decodes env.profile (input c).segs.flatten (input c).fin ps → .pingReq ∉ ps)
      ∨ ∀ c ps, Decodes env.profile (input c).segs.flatten (input c).fin ps → .disconnect ∉ ps) :
    ∃ B, ∀ peers, (∀ c, SameInput (input c) (peers c)) → (∀ c, ∀ o ∈ (peers c).script, o ≠ .fail) →
      (∀ c, c < N → B ≤ (peers c).script.length) → ∀ σ, Fair N σ → (∀ n, σ n ≠ .ctrlC) →
      ∃ n evs, (∀ m, n ≤ m → run env (init peers) (firstSteps σ m) = run env (init peers) (firstSteps σ n))
        ∧ (run env (init peers) (firstSteps σ n)).log.map Prod.fst = evs
        ∧ (∀ c, c < N → ∃ ps, Decodes env.profile (peers c).segs.flatten (peers c).fin ps ∧ evs.filter (From c) = eventsOf (peers c) c ps
            ∧ ∀ ps', Decodes env.profile (peers c).segs.flatten (peers c).fin ps' → eventsOf (peers c) c ps' <+: eventsOf (peers c) c ps)
        ∧ ∀ d, d < N → ∃ sent : List ControlPacket,
            sent.map .controlPacket = (Broker.start.outputs env.auth evs d).takeWhile (· ≠ .disconnect)
            ∧ allBytes ((run env (init peers) (firstSteps σ n)).conns d).wr = wireOf sent := by
  obtain ⟨B, hB⟩ := enough_writes env input N
  refine ⟨B, fun peers hin hfail hlen σ hf hctrl => ?_⟩
  refine everything_delivered env peers N σ hf (fun c hc => ?_) (fun c q ps hd => ?_) ?_ (hB peers hin hlen σ hf.few) hfail hctrl
  · rw [(hin c).bytes]; exact hshort c hc
  · rw [(hin c).bytes, (hin c).fin] at hd; exact hacc c q ps hd
  · refine hping.imp (fun h c ps hd => ?_) (fun h c ps hd => ?_) <;>
    · rw [(hin c).bytes, (hin c).fin] at hd; exact h c ps hd

/-- C80, in terms of what clients send: let each connection bring legal packets, the first of which is a CONNECT that is accepted, together
fewer than 4096 bytes, and let nobody ping or nobody disconnect. Then in the end all these packets have been handled, those of each
connection in the order sent, and every connection has been sent all that the sequential broker sends it. -/
theorem C80_clients (env : Env) (cs : ConnId → List ClientPacket) (addr : ConnId → SocketAddr) (uuid : ConnId → String) (N : Nat)
    (hs : ∀ c, Sendable (cs c)) (hshort : ∀ c, c < N → (clientBytes (cs c)).length < 4096)
    (hacc : ∀ c q rest, (cs c).map meaning = .connect q :: rest → login env.auth q = .accepted)
    (hping : (∀ c, .pingReq ∉ cs c) ∨ ∀ c, .disconnect ∉ cs c) :
    ∃ B, ∀ peers, (∀ c, (peers c).addr = addr c ∧ (peers c).uuid = uuid c ∧ (peers c).segs.flatten = clientBytes (cs c) ∧ (peers c).fin = .eof) →
      (∀ c, ∀ o ∈ (peers c).script, o ≠ .fail) → (∀ c, c < N → B ≤ (peers c).script.length) → ∀ σ, Fair N σ → (∀ n, σ n ≠ .ctrlC) →
      ∃ n evs, (∀ m, n ≤ m → run env (init peers) (firstSteps σ m) = run env (init peers) (firstSteps σ n))
        ∧ (run env (init peers) (firstSteps σ n)).log.map Prod.fst = evs
        ∧ (∀ c, c < N → evs.filter (From c) = eventsOf (peers c) c ((cs c).map meaning))
        ∧ ∀ d, d < N → ∃ sent : List ControlPacket,
            sent.map .controlPacket = (Broker.start.outputs env.auth evs d).takeWhile (· ≠ .disconnect)
            ∧ allBytes ((run env (init peers) (firstSteps σ n)).conns d).wr = wireOf sent := by
  have hmem : ∀ c p ps, Decodes env.profile [clientBytes (cs c)].flatten .eof ps → p ∈ ps → ∃ x ∈ cs c, meaning x = p := by
    intro c p ps hd hp
    have := (decodes_client_only (hs c) (by simpa using hd)).subset hp
    exact List.mem_map.mp this
  obtain ⟨B, hB⟩ := C80_everything_delivered env (fun c => ⟨addr c, uuid c, [clientBytes (cs c)], .eof, []⟩) N
    (fun c hc => by simpa using hshort c hc)
    (fun c q ps hd => by
      obtain ⟨rest, hr⟩ := decodes_client_only (hs c) (by simpa using hd)
      exact hacc c q _ hr.symm)
    (hping.imp
      (fun h c ps hd hp => by
        obtain ⟨x, hx, he⟩ := hmem c _ ps hd hp
        cases x <;> cases he
        exact h c hx)
      (fun h c ps hd hp => by
        obtain ⟨x, hx, he⟩ := hmem c _ ps hd hp
        cases x <;> cases he
        exact h c hx))
  refine ⟨B, fun peers hin hfail hlen σ hf hctrl => ?_⟩
  obtain ⟨n, evs, h1, h2, h3, h4⟩ := hB peers (fun c => ⟨(hin c).1, (hin c).2.1, by simp [(hin c).2.2.1], (hin c).2.2.2⟩) hfail hlen σ hf hctrl
  refine ⟨n, evs, h1, h2, fun c hc => ?_, h4⟩
  obtain ⟨ps, e1, e2, e3⟩ := h3 c hc
  rw [(hin c).2.2.1, (hin c).2.2.2] at e1 e3
  rw [e2]
  have a1 := eventsOf_mono (peer := peers c) (c := c) (decodes_client_only (hs c) e1)
  have a2 := e3 _ (decodes_client env.profile .eof (cs c) (hs c))
  exact a1.eq_of_length (Nat.le_antisymm a1.length_le a2.length_le)

/-- C81. Finite input causes only so much traffic: there is a bound, the same for all schedules, all ways to split the bytes and whatever
the sockets do, on how many events are handled and how many packets a connection is sent. -/
theorem C81_bounded_traffic (env : Env) (input : ConnId → Peer) (N : Nat) :
    ∃ B, ∀ peers, (∀ c, SameInput (input c) (peers c)) → ∀ σ, Few N σ → ∀ n,
      (run env (init peers) (firstSteps σ n)).log.length ≤ B
      ∧ ∀ d, ((run env (init peers) (firstSteps σ n)).conns d).delivered.length ≤ B := by
  obtain ⟨B, hB⟩ := bounded_orderly env input N fun evs =>
    evs.length + sumTo N fun d => (Broker.start.outputs env.auth evs d).length
  refine ⟨B, fun peers hin σ hf n => ?_⟩
  have hinv := inv_run env peers (firstSteps σ n)
  have h1 := hB _ (sameInput_orderly hin (reads_orderly_served hinv.reads)) (few_from env peers hf n)
  have hlen : (run env (init peers) (firstSteps σ n)).served.length = (run env (init peers) (firstSteps σ n)).log.length := List.length_map _
  rw [hlen] at h1
  refine ⟨by omega, fun d => ?_⟩
  have h2 := (hinv.serves.delivered d).length_le
  by_cases hd : d < N
  · have := le_sumTo hd fun d => (Broker.start.outputs env.auth (run env (init peers) (firstSteps σ n)).served d).length
    omega
  · have : Broker.start.outputs env.auth (run env (init peers) (firstSteps σ n)).served d = [] := by
      cases ho : Broker.start.outputs env.auth (run env (init peers) (firstSteps σ n)).served d with
      | nil => rfl
      | cons e l =>
        obtain ⟨ev, h3, h4⟩ := outputs_from (e := e) (by rw [ho]; exact List.mem_cons_self)
        obtain ⟨c, hc, h5⟩ := few_from env peers hf n ev h3
        have : d = c := by
          cases ev with
          | connected p a tx => exact h4.symm.trans h5
          | controlPacket i p tx => exact h4.symm.trans h5
          | disconnected i => exact h4.elim
          | connectionLost i => exact h4.elim
        exact absurd (this ▸ hc) hd
    rw [this] at h2
    simp only [List.length_nil] at h2
    omega

/-! ### The hypotheses can be met -/

/-- Everybody in turn. -/
def roundRobin (n : Nat) : Step :=
  if n % 5 = 0 then .read 0 else if n % 5 = 1 then .write 0 else if n % 5 = 2 then .read 1 else if n % 5 = 3 then .write 1 else .handler n

theorem roundRobin_ctrlC (n : Nat) : roundRobin n ≠ .ctrlC := by
  intro h
  unfold roundRobin at h
  repeat' split at h
  all_goals cases h

theorem roundRobin_fair : Fair 2 roundRobin where
  few n c h := by
    unfold roundRobin at h
    repeat' split at h
    all_goals
      rcases h with h | h <;> cases h
      try decide
  read c hc n := by
    have : c = 0 ∨ c = 1 := by omega
    rcases this with rfl | rfl
    · exact ⟨5 * n, by omega, by simp [roundRobin]⟩
    · exact ⟨5 * n + 2, by omega, by simp [roundRobin, Nat.add_mod]⟩
  write c hc n := by
    have : c = 0 ∨ c = 1 := by omega
    rcases this with rfl | rfl
    · exact ⟨5 * n + 1, by omega, by simp [roundRobin, Nat.add_mod]⟩
    · exact ⟨5 * n + 3, by omega, by simp [roundRobin, Nat.add_mod]⟩
  handler n := ⟨5 * n + 4, 5 * n + 4, by omega, by simp [roundRobin, Nat.add_mod]⟩

-- C78, C79: even with a client that makes the broker crash
example : ∃ n, ∀ m, n ≤ m → run exampleEnv (init examplePeers) (firstSteps roundRobin m) = run exampleEnv (init examplePeers) (firstSteps roundRobin n) :=
  C78_comes_to_rest _ _ _ _ roundRobin_fair.few

/-- What the clients of the example send: 0 subscribes, 1 publishes, all others nothing. -/
def examplePackets (c : ConnId) : List ClientPacket := if c = 0 then subscriberPackets else if c = 1 then publisherPackets else []

-- C80: however slowly the sockets take the bytes, the subscriber gets all it is to be sent
example : ∃ k evs sent, ∃ n, (∀ peers : ConnId → Peer,
      peers = (fun c => ⟨someAddr, "u", [clientBytes (examplePackets c)], .eof, List.replicate k (.accept 0)⟩) →
      (run exampleEnv (init peers) (firstSteps roundRobin n)).log.map Prod.fst = evs
      ∧ evs.filter (From 1) = eventsOf (peers 1) 1 (publisherPackets.map meaning)
      ∧ sent.map .controlPacket = (Broker.start.outputs exampleEnv.auth evs 0).takeWhile (· ≠ .disconnect)
      ∧ allBytes ((run exampleEnv (init peers) (firstSteps roundRobin n)).conns 0).wr = wireOf sent) := by
  obtain ⟨B, hB⟩ := C80_clients exampleEnv examplePackets (fun _ => someAddr) (fun _ => "u") 2
    (fun c => by
      unfold examplePackets
      split
      · exact subscriber_sendable
      · split
        · exact publisher_sendable
        · intro x hx; cases hx)
    (fun c hc => by
      have : c = 0 ∨ c = 1 := by
        have : (c : Nat) < 2 := hc
        omega
      rcases this with rfl | rfl <;> decide +kernel)
    (fun c q rest h => by
      unfold examplePackets at h
      split at h
      · cases h; simp [login]
      · split at h
        · cases h; simp [login]
        · cases h)
    (.inr fun c => by
      unfold examplePackets
      split
      · simp [subscriberPackets, hello]
      · split
        · simp [publisherPackets, hello]
        · simp)
  obtain ⟨n, evs, _, h2, h3, h4⟩ := hB (fun c => ⟨someAddr, "u", [clientBytes (examplePackets c)], .eof, List.replicate B (.accept 0)⟩)
    (fun c => ⟨rfl, rfl, by simp, rfl⟩) (fun c o ho => by
      rw [List.mem_replicate] at ho; rw [ho.2]; simp) (fun c _ => by simp) roundRobin roundRobin_fair (fun n h => by
      unfold roundRobin at h
      repeat' split at h
      all_goals cases h)
  obtain ⟨sent, h5, h6⟩ := h4 0 (by decide)
  refine ⟨B, evs, sent, n, fun peers hp => ?_⟩
  subst hp
  exact ⟨h2, h3 1 (by decide), h5, h6⟩

-- C81
example : ∃ B, ∀ n, ((run exampleEnv (init examplePeers) (firstSteps roundRobin n)).conns 0).delivered.length ≤ B :=
  let ⟨B, h⟩ := C81_bounded_traffic exampleEnv examplePeers 2
  ⟨B, fun n => (h examplePeers (fun _ => ⟨rfl, rfl, rfl, rfl⟩) roundRobin roundRobin_fair.few n).2 0⟩

end Ratel
