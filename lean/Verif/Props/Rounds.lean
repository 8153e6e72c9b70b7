/-
C133: how long a packet waits, counted in turns of the tasks.
-/
import Verif.Proofs.Rounds
import Verif.Proofs.SysMore
import Verif.Props.Liveness

namespace Ratel

open Decoder Encoder Spec Sys

/-! ### C133 -/

/-- C133. The first `k` events in the packet handler's queue are handled, and all that is to be sent because of them is in the queues of
the connections, after at most two rounds for each of these events and each packet that is still to be sent for them or for earlier ones,
and two more; whatever else clients send meanwhile and however the turns are ordered, as long as the handler is alive and the sockets take
what is written. -/
theorem C133_handled (env : Env) (peers : ConnId → Peer) (N : Nat) (sched : List Step) (rounds : List (List Step))
    (hN : ReadsBelow N (sched ++ rounds.flatten)) (hr : ∀ r ∈ rounds, Round N r)
    (ha : (run env (init peers) (sched ++ rounds.flatten)).handlerAlive = true)
    (hb : ∀ c : Nat, c < N → ((run env (init peers) (sched ++ rounds.flatten)).conns c).wrBlocked = false)
    (evs first : List ClientEvent) (hevs : (run env (init peers) sched).log.map Prod.fst = evs)
    (hx : first <+: (run env (init peers) sched).events)
    (hlen : 2 * (first.length + (sendsFor env.auth N (evs ++ first) - sentSoFar N (run env (init peers) sched)) + 1) ≤ rounds.length) :
    evs ++ first <+: (run env (init peers) (sched ++ rounds.flatten)).log.map Prod.fst
    ∧ ∀ d, Broker.start.outputs env.auth (evs ++ first) d <+: ((run env (init peers) (sched ++ rounds.flatten)).conns d).delivered := by
  subst hevs
  have h := answered_in_time env peers sched rounds hN hr ha hb hx hlen
  exact ⟨h.served, h.sent⟩

/-- The packets among the first server events, up to the order to disconnect. -/
theorem exists_packets (l : List ServerEvent) : ∃ ws : List ControlPacket, ws.map .controlPacket = l.takeWhile (· ≠ .disconnect) := by
  induction l with
  | nil => exact ⟨[], rfl⟩
  | cons e l ih =>
    cases e with
    | disconnect => exact ⟨[], by simp⟩
    | controlPacket p =>
      obtain ⟨ws, h⟩ := ih
      exact ⟨p :: ws, by simp [h]⟩

/-- C133. And 32 rounds later it has been written, to every connection in the order the sequential broker sends it, up to the order to
disconnect if there is one; if no write fails it is, in the wire format, on the wire or in the write buffer. -/
theorem C133_written (env : Env) (peers : ConnId → Peer) (N : Nat) (sched : List Step) (rounds : List (List Step))
    (hN : ReadsBelow N (sched ++ rounds.flatten)) (hr : ∀ r ∈ rounds, Round N r)
    (ha : (run env (init peers) (sched ++ rounds.flatten)).handlerAlive = true)
    (hb : ∀ c : Nat, c < N → ((run env (init peers) (sched ++ rounds.flatten)).conns c).wrBlocked = false)
    (evs first : List ClientEvent) (hevs : (run env (init peers) sched).log.map Prod.fst = evs)
    (hx : first <+: (run env (init peers) sched).events)
    (hlen : 2 * (first.length + (sendsFor env.auth N (evs ++ first) - sentSoFar N (run env (init peers) sched)) + 1) + 32 ≤ rounds.length)
    (d : Nat) (hd : d < N) :
    ∃ sent : List ControlPacket, sent.map .controlPacket = (Broker.start.outputs env.auth (evs ++ first) d).takeWhile (· ≠ .disconnect)
      ∧ sent <+: ((run env (init peers) (sched ++ rounds.flatten)).conns d).written
      ∧ ((∀ o ∈ (peers d).script, o ≠ .fail) →
          wireOf sent <+: allBytes ((run env (init peers) (sched ++ rounds.flatten)).conns d).wr) := by
  obtain ⟨n, hn⟩ : ∃ n, n = 2 * (first.length + (sendsFor env.auth N (evs ++ first) - sentSoFar N (run env (init peers) sched)) + 1) := ⟨_, rfl⟩
  rw [← hn] at hlen
  have hsplit : sched ++ rounds.flatten = (sched ++ (rounds.take n).flatten) ++ (rounds.drop n).flatten := by
    rw [List.append_assoc, ← List.flatten_append, List.take_append_drop]
  obtain ⟨ws, hws⟩ := exists_packets (Broker.start.outputs env.auth (evs ++ first) d)
  have hl := later_run env (run env (init peers) (sched ++ (rounds.take n).flatten)) (rounds.drop n).flatten
  rw [← run_append, ← hsplit] at hl
  obtain ⟨_, h2⟩ := C133_handled env peers N sched (rounds.take n) (fun st hst => hN st (by rw [hsplit]; exact List.mem_append_left _ hst))
    (fun r h => hr r (List.mem_of_mem_take h)) (hl.alive ha) (fun c hc => hl.blocked c (hb c hc)) evs first hevs hx
    (by rw [← hn, List.length_take]; omega)
  have hws' : ws.map .controlPacket <+: ((run env (init peers) (sched ++ (rounds.take n).flatten)).conns d).delivered :=
    (hws ▸ List.takeWhile_prefix _).trans (h2 d)
  have hwrote : ws <+: ((run env (init peers) (sched ++ rounds.flatten)).conns d).written := by
    refine Classical.byContradiction fun hno => ?_
    have hcount := rounds_write env peers hd 32 (sched ++ (rounds.take n).flatten) (rounds.drop n) (by rw [List.length_drop]; omega)
      (fun r h => hr r (List.mem_of_mem_drop h)) (by rw [← hsplit]; exact hb d hd) hws' (by rw [← hsplit]; exact hno)
    rw [← hsplit] at hcount
    have hnow : ¬ ws <+: ((run env (init peers) (sched ++ (rounds.take n).flatten)).conns d).written := fun h => hno (h.trans (hl.written d))
    have hin := (inv_run env peers (sched ++ (rounds.take n).flatten)).writes d
    have hend := (inv_run env peers (sched ++ rounds.flatten)).writes d
    have hshort : ((run env (init peers) (sched ++ rounds.flatten)).conns d).written.length < ws.length := by
      have h1 := (List.prefix_append _ _).trans hend.sent
      rcases List.prefix_or_prefix_of_prefix (hws'.trans (hl.delivered d)) h1 with h | h
      · exact absurd (List.IsPrefix.filterMap (fun | .controlPacket p => some p | .disconnect => none) h) (by
          intro h
          simp only [List.filterMap_map] at h
          exact hno (by simpa [Function.comp_def] using h))
      · have hle := h.length_le
        simp only [List.length_map] at hle
        refine Nat.lt_of_le_of_ne hle fun he => hno ?_
        have := h.eq_of_length (by simpa using he)
        have hinj := List.map_inj_right (f := ServerEvent.controlPacket) (fun _ _ h => by simpa using h) |>.mp this
        rw [hinj]
        exact List.prefix_refl _
    cases ho : ((run env (init peers) (sched ++ (rounds.take n).flatten)).conns d).rxOpen with
    | true =>
      have hle := hws'.length_le
      rw [hin.all ho] at hle
      have := hin.bound
      simp only [List.length_append, List.length_map] at hle
      unfold channelCapacity at this
      omega
    | false =>
      obtain ⟨rest, e1, e2⟩ := wroteAll_run env peers (sched ++ (rounds.take n).flatten) d ho
      rw [e1] at hws'
      obtain ⟨q, rest', hq⟩ := ahead hws' hnow
      rcases e2 with e2 | ⟨_, e2⟩ <;> rw [e2] at hq <;> cases hq
  refine ⟨ws, hws, hwrote, fun hfail => ?_⟩
  have hinv := inv_run env peers (sched ++ rounds.flatten)
  have hclean := ((hinv.writes d).clean hfail fun p hp => delivered_server (reads_orderly_served hinv.reads) (d := d)
    ((hinv.serves.delivered d).subset ((hinv.writes d).sent.subset (List.mem_append_left _ (List.mem_map_of_mem hp))))).2.1 (hb d hd)
  obtain ⟨t, ht⟩ := hwrote
  show _ <+: ((run env (init peers) (sched ++ rounds.flatten)).conns d).wr.out
  rw [hclean, ← ht]
  unfold wireOf
  rw [List.flatMap_append]
  exact List.prefix_append _ _

/-- A finite schedule as the beginning of an infinite one. -/
theorem firstSteps_of_list (sched : List Step) : firstSteps (fun n => sched.getD n (.handler 0)) sched.length = sched := by
  unfold firstSteps
  refine List.ext_getElem (by simp) fun i h1 h2 => ?_
  simp [h2]

/-- C133, in terms of the clients: let every CONNECT be accepted, let nobody ping or nobody disconnect, let ctrl-c not be pressed and let
no write fail. If the sockets take enough writes (`B`), the packets that wait in the handler's queue are handled in that time, and all that
is to be sent because of them and of earlier ones is on the wire or in the write buffer 32 rounds later. -/
theorem C133_clients (env : Env) (input : ConnId → Peer) (N : Nat)
    (hacc : ∀ c q ps, Decodes env.profile (input c).segs.flatten (input c).fin (.connect q :: ps) → login env.auth q = .accepted)
    (hping : (∀ c ps, Decodes env.profile (input c).segs.flatten (input c).fin ps → .pingReq ∉ ps)
      ∨ ∀ c ps, Decodes env.profile (input c).segs.flatten (input c).fin ps → .disconnect ∉ ps) :
    ∃ B, ∀ peers, (∀ c, SameInput (input c) (peers c)) → (∀ c, ∀ o ∈ (peers c).script, o ≠ .fail) →
      (∀ c, c < N → B ≤ (peers c).script.length) → ∀ (sched : List Step) (rounds : List (List Step)),
      (∀ st ∈ sched ++ rounds.flatten, ∀ c : ConnId, st = .read c ∨ st = .write c → c < N) → (∀ r ∈ rounds, Round N r) →
      .ctrlC ∉ sched ++ rounds.flatten → ∀ evs first, (run env (init peers) sched).log.map Prod.fst = evs →
      first <+: (run env (init peers) sched).events →
      2 * (first.length + (sendsFor env.auth N (evs ++ first) - sentSoFar N (run env (init peers) sched)) + 1) + 32 ≤ rounds.length →
      evs ++ first <+: (run env (init peers) (sched ++ rounds.flatten)).log.map Prod.fst
      ∧ ∀ d, d < N → ∃ sent : List ControlPacket,
          sent.map .controlPacket = (Broker.start.outputs env.auth (evs ++ first) d).takeWhile (· ≠ .disconnect)
          ∧ wireOf sent <+: allBytes ((run env (init peers) (sched ++ rounds.flatten)).conns d).wr := by
  obtain ⟨B, hB⟩ := enough_writes env input N
  refine ⟨B, fun peers hin hfail hlen sched rounds hfew hr hctrl evs first hevs hx hl => ?_⟩
  have hb : ∀ c : Nat, c < N → ((run env (init peers) (sched ++ rounds.flatten)).conns c).wrBlocked = false := by
    intro c hc
    have := hB peers hin hlen (fun n => (sched ++ rounds.flatten).getD n (.handler 0)) (fun n c hn => ?_) (sched ++ rounds.flatten).length c hc
    · rw [firstSteps_of_list] at this
      exact this
    · by_cases hlt : n < (sched ++ rounds.flatten).length
      · simp only [List.getD_eq_getElem?_getD, List.getElem?_eq_getElem hlt, Option.getD_some] at hn
        exact hfew _ (List.getElem_mem hlt) c hn
      · simp only [List.getD_eq_getElem?_getD, List.getElem?_eq_none (Nat.le_of_not_lt hlt), Option.getD_none] at hn
        rcases hn with hn | hn <;> cases hn
  have hinv := inv_run env peers (sched ++ rounds.flatten)
  have hnf : ¬ Fatal env.auth ((run env (init peers) (sched ++ rounds.flatten)).log.map Prod.fst) := by
    refine not_fatal (reads_orderly_served hinv.reads) (fun ev hev => hinv.reads.from_conn ev (List.mem_append_left _ hev)) (fun c q ps hd => ?_) ?_
    · rw [(hin c).bytes, (hin c).fin] at hd; exact hacc c q ps hd
    · refine hping.imp (fun h c ps hd => ?_) (fun h c ps hd => ?_) <;>
      · rw [(hin c).bytes, (hin c).fin] at hd; exact h c ps hd
  have ha : (run env (init peers) (sched ++ rounds.flatten)).handlerAlive = true := by
    unfold handlerAlive
    cases hh : (run env (init peers) (sched ++ rounds.flatten)).handler with
    | idle => rfl
    | busy _ => rfl
    | crashed => exact (hnf (crashed_run env peers _ hh)).elim
    | stopped => exact (stopped_ctrlC env (s := init peers) (by simp [init]) rfl hctrl hh).elim
  have hN : ReadsBelow N (sched ++ rounds.flatten) := fun st hst c hc => hfew st hst c (.inl hc)
  refine ⟨(C133_handled env peers N sched rounds hN hr ha hb evs first hevs hx (by omega)).1, fun d hd => ?_⟩
  obtain ⟨sent, h1, _, h3⟩ := C133_written env peers N sched rounds hN hr ha hb evs first hevs hx hl d hd
  exact ⟨sent, h1, h3 (hfail d)⟩

/-- What the sequential broker says to a CONNECT without user name. -/
theorem outputs_hello (auth : IdentityProvider) (id : ClientId) (addr : SocketAddr) (c d : ConnId) :
    Broker.start.outputs auth [.connected ⟨.mqtt3, id, 60, true, none, none, none⟩ addr c] d
      = if d = c then [.controlPacket (.connAck ⟨false, .accepted⟩)] else [] := by
  have hl : login auth ⟨.mqtt3, id, 60, true, none, none, none⟩ = .accepted := by simp [login]
  unfold Broker.outputs Broker.step
  simp only [hl, Spec.to, Broker.outputs, List.append_nil]

-- C133: the subscriber's CONNECT is in the queue after two turns of its read task; 38 rounds later the CONNACK is on its way, whatever
-- happens in these rounds
example : ∃ k, ∀ peers : ConnId → Peer,
    peers = (fun c => ⟨someAddr, "u", [clientBytes (examplePackets c)], .eof, List.replicate k (.accept 0)⟩) →
    ∀ rounds : List (List Step), rounds.length = 38 → (∀ r ∈ rounds, Round 2 r) →
      (∀ st ∈ rounds.flatten, st ≠ .ctrlC ∧ ∀ c : ConnId, st = .read c ∨ st = .write c → c < 2) →
      wireOf [.connAck ⟨false, .accepted⟩] <+: allBytes ((run exampleEnv (init peers) ([.read 0, .read 0] ++ rounds.flatten)).conns 0).wr := by
  have hcs : ∀ c, Sendable (examplePackets c) := fun c => by
    unfold examplePackets
    split
    · exact subscriber_sendable
    · split
      · exact publisher_sendable
      · intro x hx; cases hx
  have hmem : ∀ c p ps, Decodes exampleEnv.profile [clientBytes (examplePackets c)].flatten .eof ps → p ∈ ps → ∃ x ∈ examplePackets c, meaning x = p := by
    intro c p ps hd hp
    have := (decodes_client_only (hcs c) (by simpa using hd)).subset hp
    exact List.mem_map.mp this
  obtain ⟨B, hB⟩ := C133_clients exampleEnv (fun c => ⟨someAddr, "u", [clientBytes (examplePackets c)], .eof, []⟩) 2
    (fun c q ps hd => by
      obtain ⟨x, hx, he⟩ := hmem c (.connect q) _ hd List.mem_cons_self
      unfold examplePackets at hx
      split at hx
      · simp only [subscriberPackets, List.mem_cons, List.not_mem_nil, or_false] at hx
        rcases hx with rfl | rfl <;> cases he
        simp [login]
      · split at hx
        · rcases List.mem_cons.mp hx with rfl | hx
          · cases he; simp [login]
          · rw [(List.mem_replicate.mp hx).2] at he; cases he
        · cases hx)
    (.inr fun c ps hd h => by
      obtain ⟨x, hx, he⟩ := hmem c _ _ hd h
      unfold examplePackets at hx
      split at hx
      · simp only [subscriberPackets, List.mem_cons, List.not_mem_nil, or_false] at hx
        rcases hx with rfl | rfl <;> cases he
      · split at hx
        · rcases List.mem_cons.mp hx with rfl | hx
          · cases he
          · rw [(List.mem_replicate.mp hx).2] at he; cases he
        · cases hx)
  refine ⟨B, fun peers hp rounds hl hr hst => ?_⟩
  have n0 : Next (peers 0).conn subscriberPackets (peers 0).fin := next_new _ _ (by subst hp; simp [examplePackets]) subscriber_sendable (by decide +kernel)
  obtain ⟨rd, hsp, _⟩ := next_hello (env := exampleEnv) (c := 0) (by decide) n0 rfl
  have he := enter exampleEnv (s := init peers) (m := .new) ⟨rfl, rfl, rfl⟩ (c := 0) hsp
  obtain ⟨_, h2⟩ := hB peers (fun c => by subst hp; exact ⟨rfl, rfl, rfl, rfl⟩)
    (fun c o ho => by subst hp; rw [(List.mem_replicate.mp ho).2]; simp) (fun c _ => by subst hp; simp) [.read 0, .read 0] rounds
    (fun st hs c hc => by
      rcases List.mem_append.mp hs with hs | hs
      · simp only [List.mem_cons, List.not_mem_nil, or_false, or_self] at hs
        subst hs
        rcases hc with hc | hc <;> cases hc
        decide
      · exact (hst st hs).2 c hc)
    hr (fun h => by
      rcases List.mem_append.mp h with h | h
      · simp at h
      · exact (hst _ h).1 rfl)
    [] [.connected ⟨.mqtt3, "s", 60, true, none, none, none⟩ (peers 0).conn.addr 0] (by rw [he]; rfl) (by rw [he]; exact List.prefix_refl _) (by
      simp only [List.nil_append, List.length_cons, List.length_nil]
      unfold sendsFor
      have e : ∀ d, _ := outputs_hello exampleEnv.auth "s" (peers 0).conn.addr 0
      simp only [List.range, List.range.loop, List.map_cons, List.map_nil, e, hl]
      simp
      omega)
  obtain ⟨sent, h3, h4⟩ := h2 0 (by decide)
  rw [List.nil_append, outputs_hello] at h3
  cases sent with
  | nil => simp at h3
  | cons p sent =>
    simp only [↓reduceIte, List.map_cons] at h3
    simp at h3
    rw [h3.1, h3.2] at h4
    exact h4

end Ratel
