/-
C154: connections that last. Also C79 and C86 in terms of what is received through the buffers.
-/
import Verif.Proofs.SysTook
import Verif.Props.Behaved
import Verif.Props.Window
import Verif.Props.Orders

namespace Ratel

open Decoder Encoder Spec Sys

/-! ### What a client of legal packets gets through -/

theorem fitting_prefix (size left : Nat) (cs : List ClientPacket) : fitting size left cs <+: cs := by
  induction cs generalizing left with
  | nil => exact List.prefix_rfl
  | cons c cs ih =>
    unfold fitting
    split
    · exact List.cons_prefix_cons.mpr ⟨rfl, ih _⟩
    · exact List.nil_prefix

theorem fitting_fits (size left : Nat) (cs : List ClientPacket) : (windows size left ((fitting size left cs).flatMap fields)).isSome = true := by
  induction cs generalizing left with
  | nil => rfl
  | cons c cs ih =>
    unfold fitting
    split
    · rename_i l hl
      rw [List.flatMap_cons, windows_append, hl]
      exact ih l
    · rfl

theorem fits_fitting (size left : Nat) {pre cs : List ClientPacket} (hp : pre <+: cs) (h : (windows size left (pre.flatMap fields)).isSome = true) :
    pre <+: fitting size left cs := by
  induction pre generalizing cs left with
  | nil => exact List.nil_prefix
  | cons c pre ih =>
    cases cs with
    | nil => cases List.prefix_nil.mp hp
    | cons c' cs =>
      obtain ⟨rfl, hp'⟩ := List.cons_prefix_cons.mp hp
      rw [List.flatMap_cons, windows_append] at h
      unfold fitting
      cases hw : windows size left (fields c) with
      | none => rw [hw] at h; cases h
      | some l =>
        rw [hw] at h
        exact List.cons_prefix_cons.mpr ⟨rfl, ih l hp' h⟩

/-- All packets fit exactly if the texts and payloads of all together do. -/
theorem fitting_all_iff (size left : Nat) (cs : List ClientPacket) :
    fitting size left cs = cs ↔ (windows size left (cs.flatMap fields)).isSome = true :=
  ⟨fun h => by have := fitting_fits size left cs; rwa [h] at this,
   fun h => (fitting_prefix size left cs).eq_of_length_le (fits_fitting size left List.prefix_rfl h).length_le⟩

/-- Of legal packets those that fit are received, and nothing else. -/
theorem receives_client {env : Env} (hal : env.alloc.clearOnFullAdvance = false) {peer : Peer} {cs : List ClientPacket} (hs : Sendable cs)
    (hb : peer.segs.flatten = clientBytes cs) :
    Receives env peer ((fitting 4096 4096 cs).map meaning) ∧ ∀ qs, Receives env peer qs → qs <+: (fitting 4096 4096 cs).map meaning := by
  have part : ∀ pre, pre <+: cs → (received env.alloc env.profile 4096 peer.segs peer.fin pre.length).1
      = if (windows 4096 4096 (pre.flatMap fields)).isSome then .ok (pre.map meaning) else .hang := by
    rintro pre ⟨rest, rfl⟩
    refine C92_window env.alloc hal env.profile 4096 (by decide) pre (fun c hc => hs c (List.mem_append_left _ hc)) peer.segs peer.fin
      (sentBytes rest) ?_
    rw [hb]
    simp [clientBytes, sentBytes]
  constructor
  · have := part _ (fitting_prefix 4096 4096 cs)
    rw [if_pos (fitting_fits _ _ _)] at this
    unfold Receives
    rw [List.length_map]
    exact this
  · intro qs hq
    unfold Receives at hq
    have hpre : qs <+: cs.map meaning := by
      rcases C13_fragmentation env.alloc env.profile 4096 peer.segs peer.fin qs.length with h | ⟨h, _⟩
      · rw [h] at hq; cases hq
      · rw [hq, hb] at h
        refine decodes_client_only hs (pr := env.profile) (fin := peer.fin) ?_
        rcases hm : (readMany env.profile qs.length : M Plain _) ⟨clientBytes cs, peer.fin⟩ with ⟨r, pl⟩
        rw [hm] at h
        cases h
        exact ⟨pl, hm⟩
    obtain ⟨m, rfl⟩ : ∃ m, qs = (cs.take m).map meaning := by
      refine ⟨qs.length, ?_⟩
      rw [List.map_take]
      exact List.prefix_iff_eq_take.mp hpre
    rw [List.length_map] at hq
    have := part _ (List.take_prefix m cs)
    rw [hq] at this
    have hw : (windows 4096 4096 ((cs.take m).flatMap fields)).isSome = true := by
      refine Classical.byContradiction fun h => ?_
      rw [if_neg h] at this
      cases this
    exact (fits_fitting 4096 4096 (List.take_prefix m cs) hw).map _

/-- Reading on goes round for ever only if reading on does from where the first packets end. -/
theorem readMany_hang_split {σ : Type} [ByteSource σ] (pr : Profile) (k n : Nat) {s s' : σ} {ps : List ControlPacket}
    (h : (readMany pr k : M σ _) s = (.ok ps, s')) (hh : ((readMany pr (k + n) : M σ _) s).1 = .hang) :
    ((readMany pr n : M σ _) s').1 = .hang := by
  induction k generalizing s ps with
  | zero =>
    cases h
    rwa [Nat.zero_add] at hh
  | succ k ih =>
    rw [readMany] at h
    obtain ⟨p, s₁, h1, h⟩ := M.bind_eq_ok.mp h
    obtain ⟨ps', s₂, h2, h⟩ := M.bind_eq_ok.mp h
    cases h
    refine ih h2 ?_
    rw [show k + 1 + n = k + n + 1 by omega, readMany, M.bind_ok h1] at hh
    rcases hk : (readMany pr (k + n) : M σ _) s₁ with ⟨r, s₃⟩
    cases r with
    | hang => rfl
    | ok _ => rw [M.bind_ok hk] at hh; cases hh
    | err _ => rw [M.bind_err hk] at hh; cases hh
    | panic => rw [M.bind_panic hk] at hh; cases hh
    | pending => rw [M.bind_pending hk] at hh; cases hh

/-- Reading from a client of legal packets goes round for ever at some packet exactly if not all of them fit. -/
theorem spinning_iff {env : Env} (hal : env.alloc.clearOnFullAdvance = false) {peer : Peer} {cs : List ClientPacket} (hs : Sendable cs)
    (hb : peer.segs.flatten = clientBytes cs) : Spinning env peer ↔ fitting 4096 4096 cs ≠ cs := by
  letI := RStream.source env.alloc
  have part : ∀ pre, pre <+: cs → (received env.alloc env.profile 4096 peer.segs peer.fin pre.length).1
      = if (windows 4096 4096 (pre.flatMap fields)).isSome then .ok (pre.map meaning) else .hang := by
    rintro pre ⟨rest, rfl⟩
    refine C92_window env.alloc hal env.profile 4096 (by decide) pre (fun c hc => hs c (List.mem_append_left _ hc)) peer.segs peer.fin
      (sentBytes rest) ?_
    rw [hb]
    simp [clientBytes, sentBytes]
  constructor
  · rintro ⟨k, hk⟩ he
    have hw := (fitting_all_iff 4096 4096 cs).mp he
    rcases Nat.lt_or_ge cs.length k with hlt | hle
    · obtain ⟨j, rfl⟩ := Nat.exists_eq_add_of_lt hlt
      have h1 := (readMany_same (RStream.tape env.alloc hal 4096 (by decide)) env.profile (cs.length + j + 1) _ _
        (RStream.onTape_new 4096 peer.segs peer.fin)).1
      have h2 := readMany_tape (T := 4096) env.profile cs hs [] peer.fin 4096
      obtain ⟨l, hl⟩ := Option.isSome_iff_exists.mp hw
      rw [hl, List.append_nil] at h2
      have hb' : peer.segs.flatten = sentBytes cs := hb
      unfold received at hk
      rw [h1, hb'] at hk
      have h3 := readMany_hang_split env.profile cs.length (j + 1) h2 hk
      rw [readMany] at h3
      have h4 : (Decoder.readPacket env.profile : M (Tape 4096) _) ⟨[], peer.fin, l⟩ = (RStream.endRes peer.fin, ⟨[], peer.fin, l⟩) := by
        rw [Decoder.readPacket]
        cases peer.fin <;> rfl
      cases hf : peer.fin <;> simp only [hf, RStream.endRes] at h3 h4
      · rw [M.bind_err h4] at h3; cases h3
      · rw [M.bind_err h4] at h3; cases h3
      · rw [M.bind_pending h4] at h3; cases h3
    · have hpre : cs.take k <+: cs := List.take_prefix k cs
      have := part _ hpre
      rw [List.length_take_of_le hle, hk] at this
      have hfit : (windows 4096 4096 ((cs.take k).flatMap fields)).isSome = true := by
        have h5 : cs.flatMap fields = (cs.take k).flatMap fields ++ (cs.drop k).flatMap fields := by
          rw [← List.flatMap_append, List.take_append_drop]
        rw [h5, windows_append] at hw
        cases hc : windows 4096 4096 ((cs.take k).flatMap fields) with
        | none => rw [hc] at hw; cases hw
        | some _ => rfl
      rw [if_pos hfit] at this
      cases this
  · intro hne
    refine ⟨cs.length, ?_⟩
    rw [part cs List.prefix_rfl, if_neg fun h => hne ((fitting_all_iff 4096 4096 cs).mpr h)]

/-! ### C79 -/

/-- C79, with connections that spin: if every task gets its turn again and again, then in the end the broker has crashed on one of the events
known to be fatal; or it was stopped with ctrl-c; or it waits for ever for a connection whose socket takes no more; or exactly those packets
have been handled, of every connection, that can be received through its buffer. -/
theorem C79_received (env : Env) (peers : ConnId → Peer) (N : Nat) (σ : Nat → Step) (hf : Fair N σ) :
    ∃ n, (∀ m, n ≤ m → run env (init peers) (firstSteps σ m) = run env (init peers) (firstSteps σ n))
      ∧ (((run env (init peers) (firstSteps σ n)).handler = .crashed
            ∧ Fatal env.auth ((run env (init peers) (firstSteps σ n)).log.map Prod.fst))
        ∨ ((run env (init peers) (firstSteps σ n)).handler = .stopped ∧ ∃ i, i < n ∧ σ i = .ctrlC)
        ∨ (∃ d e todo, d < N ∧ Stuck (run env (init peers) (firstSteps σ n)) d e todo)
        ∨ (AllDone env N (run env (init peers) (firstSteps σ n))
          ∧ ∀ c, c < N → ∃ ps, Receives env (peers c) ps
              ∧ ((run env (init peers) (firstSteps σ n)).log.map Prod.fst).filter (From c) = eventsOf (peers c) c ps
              ∧ ∀ qs, Receives env (peers c) qs → eventsOf (peers c) c qs <+: eventsOf (peers c) c ps)) := by
  obtain ⟨n, h1, h2⟩ := C79_everything_handled env peers N σ hf
  refine ⟨n, h1, ?_⟩
  rcases h2 with h | h | h | ⟨h, _⟩
  · exact .inl h
  · exact .inr (.inl h)
  · exact .inr (.inr (.inl h))
  · exact .inr (.inr (.inr ⟨h, fun c hc => done_received (reads_run env peers _) (took_run env peers _) h hc⟩))

/-! ### C80 -/

/-- Nothing fatal happens if every CONNECT is accepted and nobody pings or nobody disconnects, however the bytes are split. -/
theorem same_not_fatal (env : Env) {input peers : ConnId → Peer} (hin : ∀ c, SameInput (input c) (peers c))
    (hacc : ∀ c q ps, Decodes env.profile (input c).segs.flatten (input c).fin (.connect q :: ps) → login env.auth q = .accepted)
    (hping : (∀ c ps, Decodes env.profile (input c).segs.flatten (input c).fin ps → .pingReq ∉ ps)
      ∨ ∀ c ps, Decodes env.profile (input c).segs.flatten (input c).fin ps → .disconnect ∉ ps) (sched : List Step) :
    ¬ Fatal env.auth ((run env (init peers) sched).log.map Prod.fst) := by
  have hinv := inv_run env peers sched
  refine not_fatal (reads_orderly_served hinv.reads) (fun ev hev => hinv.reads.from_conn ev (List.mem_append_left _ hev)) (fun c q ps hd => ?_) ?_
  · rw [(hin c).bytes, (hin c).fin] at hd; exact hacc c q ps hd
  · refine hping.imp (fun h c ps hd => ?_) (fun h c ps hd => ?_) <;>
    · rw [(hin c).bytes, (hin c).fin] at hd; exact h c ps hd

/-- C80, for connections that bring any number of bytes: let every CONNECT be accepted, and nobody ping or nobody disconnect. Then, however the
bytes are split, if no write fails and the sockets take enough of them (`B`), if every task gets its turn again and again and ctrl-c is not
pressed: in the end there have been handled, of each connection, exactly the packets that can be received through its buffer, and what every
connection has been sent is, in the wire format, exactly what the sequential broker sends for them in the order they were handled, up to the
order to disconnect if there is one; it is on the wire or in the write buffer. -/
theorem C80_received (env : Env) (input : ConnId → Peer) (N : Nat)
    (hacc : ∀ c q ps, Decodes env.profile (input c).segs.flatten (input c).fin (.connect q :: ps) → login env.auth q = .accepted)
    (hping : (∀ c ps, Decodes env.profile (input c).segs.flatten (input c).fin ps → .pingReq ∉ ps)
      ∨ ∀ c ps, Decodes env.profile (input c).segs.flatten (input c).fin ps → .disconnect ∉ ps) :
    ∃ B, ∀ peers, (∀ c, SameInput (input c) (peers c)) → (∀ c, ∀ o ∈ (peers c).script, o ≠ .fail) →
      (∀ c, c < N → B ≤ (peers c).script.length) → ∀ σ, Fair N σ → (∀ n, σ n ≠ .ctrlC) →
      ∃ n evs, (∀ m, n ≤ m → run env (init peers) (firstSteps σ m) = run env (init peers) (firstSteps σ n))
        ∧ (run env (init peers) (firstSteps σ n)).log.map Prod.fst = evs
        ∧ (∀ c, c < N → ∃ ps, Receives env (peers c) ps ∧ evs.filter (From c) = eventsOf (peers c) c ps
            ∧ ∀ qs, Receives env (peers c) qs → eventsOf (peers c) c qs <+: eventsOf (peers c) c ps)
        ∧ ∀ d, d < N → ∃ sent : List ControlPacket,
            sent.map .controlPacket = (Broker.start.outputs env.auth evs d).takeWhile (· ≠ .disconnect)
            ∧ allBytes ((run env (init peers) (firstSteps σ n)).conns d).wr = wireOf sent := by
  obtain ⟨B, hB⟩ := Sys.enough_writes env input N
  refine ⟨B, fun peers hin hfail hlen σ hf hctrl => ?_⟩
  obtain ⟨n, h1, h2⟩ := C79_received env peers N σ hf
  have hblock := hB peers hin hlen σ hf.few n
  rcases h2 with ⟨_, h⟩ | ⟨_, i, _, h⟩ | ⟨d, e, todo, hd, _, _, _, h⟩ | ⟨hdone, hall⟩
  · exact (same_not_fatal env hin hacc hping _ h).elim
  · exact (hctrl i h).elim
  · rw [hblock d hd] at h; cases h
  · exact ⟨n, _, h1, rfl, hall, sent_when_done env peers N _ hblock hfail hdone⟩

/-! ### C154 -/

/-- Nothing fatal happens with clients whose CONNECTs are accepted and of whom none pings or none disconnects. -/
theorem client_not_fatal (env : Env) {peers : ConnId → Peer} {cs : ConnId → List ClientPacket}
    (hb : ∀ c, (peers c).segs.flatten = clientBytes (cs c)) (hs : ∀ c, Sendable (cs c))
    (hacc : ∀ c q rest, (cs c).map meaning = .connect q :: rest → login env.auth q = .accepted)
    (hping : (∀ c, .pingReq ∉ cs c) ∨ ∀ c, .disconnect ∉ cs c) (sched : List Step) :
    ¬ Fatal env.auth ((run env (init peers) sched).log.map Prod.fst) := by
  have hmem : ∀ c p ps, Decodes env.profile (peers c).segs.flatten (peers c).fin ps → p ∈ ps → ∃ x ∈ cs c, meaning x = p := by
    intro c p ps hd hp
    rw [hb] at hd
    exact List.mem_map.mp ((decodes_client_only (hs c) hd).subset hp)
  have hinv := inv_run env peers sched
  refine not_fatal (reads_orderly_served hinv.reads) (fun ev hev => hinv.reads.from_conn ev (List.mem_append_left _ hev)) (fun c q ps hd => ?_) ?_
  · rw [hb] at hd
    obtain ⟨rest, hr⟩ := decodes_client_only (hs c) hd
    exact hacc c q _ hr.symm
  · refine hping.imp (fun h c ps hd hp => ?_) (fun h c ps hd hp => ?_) <;>
    · obtain ⟨x, hx, he⟩ := hmem c _ ps hd hp
      cases x <;> cases he
      exact h c hx

/-- C154, the part that holds: let each connection bring any number of legal packets, the first of which is a CONNECT that is accepted, and let
nobody ping or nobody disconnect. With a release of the library whose `advance` leaves an emptied view where it is, and sockets that take
enough writes (`B`), if every task gets its turn again and again and ctrl-c is not pressed: in the end there have been handled, of each
connection, exactly the packets up to the first one with a text or payload that contains the end of a window of the buffer; and every
connection has been sent all that the sequential broker sends it. Missing: the packets from there on. -/
theorem C154_lasting_partial (env : Env) (hal : env.alloc.clearOnFullAdvance = false) (cs : ConnId → List ClientPacket)
    (input : ConnId → Peer) (N : Nat) (hin : ∀ c, (input c).segs.flatten = clientBytes (cs c)) (hs : ∀ c, Sendable (cs c))
    (hacc : ∀ c q rest, (cs c).map meaning = .connect q :: rest → login env.auth q = .accepted)
    (hping : (∀ c, .pingReq ∉ cs c) ∨ ∀ c, .disconnect ∉ cs c) :
    ∃ B, ∀ peers, (∀ c, SameInput (input c) (peers c)) →
      (∀ c, ∀ o ∈ (peers c).script, o ≠ .fail) → (∀ c, c < N → B ≤ (peers c).script.length) → ∀ σ, Fair N σ → (∀ n, σ n ≠ .ctrlC) →
      ∃ n evs, (∀ m, n ≤ m → run env (init peers) (firstSteps σ m) = run env (init peers) (firstSteps σ n))
        ∧ (run env (init peers) (firstSteps σ n)).log.map Prod.fst = evs
        ∧ (∀ c, c < N → evs.filter (From c) = eventsOf (peers c) c ((fitting 4096 4096 (cs c)).map meaning))
        ∧ ∀ d, d < N → ∃ sent : List ControlPacket,
            sent.map .controlPacket = (Broker.start.outputs env.auth evs d).takeWhile (· ≠ .disconnect)
            ∧ allBytes ((run env (init peers) (firstSteps σ n)).conns d).wr = wireOf sent := by
  obtain ⟨B, hB⟩ := Sys.enough_writes env input N
  refine ⟨B, fun peers hp hfail hlen σ hf hctrl => ?_⟩
  obtain ⟨n, h1, h2⟩ := C79_received env peers N σ hf
  have hb : ∀ c, (peers c).segs.flatten = clientBytes (cs c) := fun c => by rw [(hp c).bytes, hin]
  have hnf := client_not_fatal env hb hs hacc hping (firstSteps σ n)
  have hblock := hB peers hp hlen σ hf.few n
  rcases h2 with ⟨_, h⟩ | ⟨_, i, _, h⟩ | ⟨d, e, todo, hd, _, _, _, h⟩ | ⟨hdone, hall⟩
  · exact (hnf h).elim
  · exact (hctrl i h).elim
  · rw [hblock d hd] at h; cases h
  · refine ⟨n, _, h1, rfl, fun c hc => ?_, sent_when_done env peers N _ hblock hfail hdone⟩
    obtain ⟨ps, e1, e2, e3⟩ := hall c hc
    obtain ⟨g1, g2⟩ := receives_client hal (hs c) (hb c)
    rw [e2]
    have a1 := eventsOf_mono (peer := peers c) (c := c) (g2 ps e1)
    exact a1.eq_of_length_le (e3 _ g1).length_le

/-- A client that sends CONNECT and the 18-byte message of the repository's own test, again and again. -/
def persistent (n : Nat) : List ClientPacket := hello "c" :: List.replicate n (.publish testMessage)

theorem persistent_sendable (n : Nat) : Sendable (persistent n) := by
  have hsmall : (clientRest (.publish testMessage)).length < 2097152 := by
    show (publishRest testMessage).length < _
    rw [testMessage_rest]; decide
  intro c hc
  rcases List.mem_cons.mp hc with rfl | hc
  · exact hello_sendable "c" (by unfold Fits; decide +kernel) (by decide +kernel)
  · rw [List.eq_of_mem_replicate hc]
    exact ⟨testMessage_legal, trivial, hsmall⟩

/-- C154 is violated: of a client that sends the 18-byte message of the repository's own test 227 times after its CONNECT, the last one is
handled in no execution, whatever the other connections do. This holds however the bytes are split if the library's `advance` leaves an
emptied buffer where it is, and for every version of the library if the bytes are there at once. -/
theorem C154_lasting_fails (env : Env) (peers : ConnId → Peer) (c : ConnId) (hb : (peers c).segs.flatten = clientBytes (persistent 227))
    (hsplit : env.alloc.clearOnFullAdvance = false ∨ ∃ all, (peers c).segs = [all]) (sched : List Step) :
    (((run env (init peers) sched).log.map Prod.fst).filter (From c)).length < (eventsOf (peers c) c ((persistent 227).map meaning)).length := by
  have hhello : (packet (clientFirst (hello "c")) (clientRest (hello "c"))).length = 15 := by decide +kernel
  have hlen : (sentBytes (persistent 226)).length = 4083 := by
    have : sentBytes (persistent 226) = packet (clientFirst (hello "c")) (clientRest (hello "c"))
        ++ sentBytes (List.replicate 226 (.publish testMessage)) := rfl
    rw [this, List.length_append, hhello, sentBytes_replicate]
    show 15 + 226 * (packet (publishFirst testMessage) (publishRest testMessage)).length = 4083
    rw [testMessage_packet]
    rfl
  have hsmall : (publishRest testMessage).length < 2097152 := by rw [testMessage_rest]; decide
  have hpay : testMessage.message.payload.length = 9 := by decide +kernel
  have key := C90_small_messages_fails env.alloc env.profile (persistent 226) (persistent_sendable 226) testMessage testMessage_legal hsmall
    (peers c).segs (peers c).fin [] (by
      rw [hb]
      show clientBytes (persistent 227) = _
      have : persistent 227 = persistent 226 ++ [.publish testMessage] := by
        show hello "c" :: List.replicate (226 + 1) _ = _
        rw [List.replicate_succ']
        rfl
      rw [this]
      simp [clientBytes, sentBytes, clientFirst, clientRest]) hsplit (.inr (by
      rw [hpay, List.length_append, hlen, testMessage_packet]
      decide))
  have hl : ∀ n, (persistent n).length = n + 1 := fun n => by rw [persistent, List.length_cons, List.length_replicate]
  have h : (persistent 226).length = 227 := hl 226
  rw [h] at key
  have := taken_le (env := env) (peers := peers) (c := c) (n := 227) (fun ps hps => by rw [key] at hps; cases hps) sched
  have h2 : (eventsOf (peers c) c ((persistent 227).map meaning)).length = 228 := by
    show (_ :: List.map _ (List.map meaning (List.replicate 227 _))).length = 228
    rw [List.length_cons, List.length_map, List.length_map, List.length_replicate]
  omega

-- the packets handled of such a client are its CONNECT and 226 messages
example : (fitting 4096 4096 (persistent 227)).length = 227 := by decide +kernel

/-- A client may stay for ever if it only pings after its first packets. -/
theorem fitting_pings (left n : Nat) : fitting 4096 left (List.replicate n .pingReq) = List.replicate n .pingReq := by
  have hf : fields .pingReq = [.one, .one] := by
    unfold fields
    rw [show (clientRest .pingReq).length = 0 from rfl, varInt]
    rfl
  induction n generalizing left with
  | zero => rfl
  | succ n ih =>
    rw [List.replicate_succ, fitting, hf]
    simp only [windows, window, Option.bind_some]
    rw [ih]

-- any number of pings after a CONNECT and a SUBSCRIBE: all is handled
theorem pings_received (env : Env) (hal : env.alloc.clearOnFullAdvance = false) (peer : Peer) (n : Nat)
    (h : peer.segs.flatten = clientBytes (subscriberPackets ++ List.replicate n ClientPacket.pingReq)) :
    Receives env peer ((subscriberPackets ++ List.replicate n ClientPacket.pingReq).map meaning) := by
  have hs : Sendable (subscriberPackets ++ List.replicate n ClientPacket.pingReq) := by
    intro c hc
    rcases List.mem_append.mp hc with hc | hc
    · exact subscriber_sendable c hc
    · rw [List.eq_of_mem_replicate hc]
      exact ⟨trivial, trivial, by decide⟩
  have := (receives_client hal hs h).1
  have hfit : fitting 4096 4096 (subscriberPackets ++ List.replicate n ClientPacket.pingReq) = subscriberPackets ++ List.replicate n .pingReq := by
    rw [fitting_all_iff, List.flatMap_append, windows_append]
    cases hw : windows 4096 4096 (subscriberPackets.flatMap fields) with
    | none => exact absurd hw (by decide +kernel)
    | some l => exact (fitting_all_iff 4096 l _).mp (fitting_pings l n)
  rwa [hfit] at this

/-- Connection 1 sends a CONNECT, a SUBSCRIBE and `m` pings; the sockets take as many writes as wanted. -/
def pingingPeers (m : Nat) (n : ConnId → Nat) : ConnId → Peer := fun c =>
  ⟨someAddr, "u", if c = 1 then [clientBytes (subscriberPackets ++ List.replicate m ClientPacket.pingReq)] else [], .eof, List.replicate (n c) (.accept 4)⟩

-- C77_any_length_iff, C77_any_possible: what is sent on connection 1 may be as long as one likes
example (m : Nat) (n : ConnId → Nat) : (∀ c, n c ≤ (pingingPeers m n c).script.length)
    ∧ Possible exampleEnv (pingingPeers m n) (eventsOf (pingingPeers m n 1) 1 (subscriberPackets.map meaning)) := by
  have hev : eventsOf (pingingPeers m n 1) 1 (subscriberPackets.map meaning)
      = [.connected ⟨.mqtt3, "s", 60, true, none, none, none⟩ someAddr 1, .controlPacket "s" (.subscribe ⟨1, [⟨"t", .atMostOnce⟩]⟩) 1] := rfl
  refine ⟨fun c => by simp [pingingPeers], ⟨fun c => ?_, fun ev h => ?_, fun p addr c h => ?_, fun d => ?_⟩⟩
  · by_cases hc : c = 1
    · subst hc
      refine ⟨_, pings_received exampleEnv rfl (pingingPeers m n 1) m (by simp [pingingPeers]), ?_⟩
      rw [hev]
      refine ⟨List.replicate m (.controlPacket "s" .pingReq 1), ?_⟩
      rw [List.map_append, List.map_replicate]
      show _ = _ :: List.map _ (_ :: List.replicate m _)
      rw [List.map_cons, List.map_replicate]
      rfl
    · refine ⟨[], rfl, ?_⟩
      have : 1 ≠ c := fun h => hc h.symm
      simp [hev, From, this]
  · rw [hev] at h
    simp only [List.mem_cons, List.not_mem_nil, or_false] at h
    rcases h with rfl | rfl <;> exact ⟨1, rfl⟩
  · rw [hev] at h
    simp only [List.mem_cons, List.not_mem_nil, or_false, reduceCtorEq] at h
    cases h
    simp [login]
  · rw [hev]
    refine Nat.le_trans (fromAway_le _) ?_
    by_cases hd : d = 1
    · subst hd; decide +kernel
    · simp [Broker.outputs, Broker.step, login, Spec.to, hd, Broker.packet, Broker.start]

-- C80_received: connection 1 pings `m` times, connection 0 is silent
example (m : Nat) : ∃ B, ∀ n : ConnId → Nat, (∀ c, B ≤ n c) → ∃ k evs,
    (run exampleEnv (init (pingingPeers m n)) (firstSteps roundRobin k)).log.map Prod.fst = evs
    ∧ evs.filter (From 1) = eventsOf (pingingPeers m n 1) 1 ((subscriberPackets ++ List.replicate m ClientPacket.pingReq).map meaning) := by
  have hsend : Sendable (subscriberPackets ++ List.replicate m ClientPacket.pingReq) := by
    intro c hc
    rcases List.mem_append.mp hc with hc | hc
    · exact subscriber_sendable c hc
    · rw [List.eq_of_mem_replicate hc]
      exact ⟨trivial, trivial, by decide⟩
  have honly : ∀ c ps, Decodes exampleEnv.profile (pingingPeers m (fun _ => 0) c).segs.flatten (pingingPeers m (fun _ => 0) c).fin ps →
      ps <+: (subscriberPackets ++ List.replicate m ClientPacket.pingReq).map meaning := by
    intro c ps h
    by_cases hc : c = 1
    · simp only [pingingPeers, hc, ↓reduceIte, List.flatten_cons, List.flatten_nil, List.append_nil] at h
      exact decodes_client_only hsend h
    · simp only [pingingPeers, hc, ↓reduceIte, List.flatten_nil] at h
      exact (decodes_client_only (cs := []) (fun _ h => by cases h) h).trans List.nil_prefix
  obtain ⟨B, h⟩ := C80_received exampleEnv (pingingPeers m fun _ => 0) 2 (fun c q ps h => by
      have := honly c _ h
      simp only [subscriberPackets, List.cons_append, List.map_cons, List.cons_prefix_cons, hello] at this
      cases this.1
      rfl) (.inr fun c ps h hm => by
      obtain ⟨x, hx, he⟩ := List.mem_map.mp ((honly c _ h).subset hm)
      rcases List.mem_append.mp hx with hx | hx
      · simp only [subscriberPackets, List.mem_cons, List.not_mem_nil, or_false, hello] at hx
        rcases hx with rfl | rfl <;> cases he
      · rw [List.eq_of_mem_replicate hx] at he
        cases he)
  refine ⟨B, fun n hn => ?_⟩
  obtain ⟨k, evs, _, h2, h3, _⟩ := h (pingingPeers m n) (fun c => ⟨rfl, rfl, rfl, rfl⟩) (fun c o ho => by
      rw [List.eq_of_mem_replicate ho]; simp) (fun c _ => by simpa [pingingPeers] using hn c) roundRobin roundRobin_fair roundRobin_ctrlC
  refine ⟨k, evs, h2, ?_⟩
  obtain ⟨ps, g1, g2, g3⟩ := h3 1 (by decide)
  rw [g2]
  have a1 := g3 _ (pings_received exampleEnv rfl (pingingPeers m n 1) m (by simp [pingingPeers]))
  have a2 := eventsOf_mono (peer := pingingPeers m n 1) (c := 1) (honly 1 ps (receives_decodes g1))
  exact a2.eq_of_length_le a1.length_le

/-! ### C86 -/

/-- C86, with what the buffers make of the connections instead of a bound on the bytes: if there are fewer connections that cannot be read
to their end (`bad`) than worker threads, then, if every task gets its turn again and again and ctrl-c is not pressed, in the end every
connection that asks to be accepted is accepted, and the handler has crashed on one of the events known to be fatal, or waits for ever for
a connection whose socket takes no more, or exactly those packets have been handled, of every connection, that can be received through its
buffer. Missing: that the number of such connections does not matter. -/
theorem C86_spinning_partial (env : Env) (W L N : Nat) (peers : ConnId → Peer) (τ : Nat → PStep) (hf : PFair N L τ) (hk : Knocking N L τ)
    (hs : ∀ i, τ i ≠ .signal) (bad : List ConnId) (hbad : ∀ c, c < N → Spinning env (peers c) → c ∈ bad) (hW : bad.length < W) :
    ∃ n, (∀ m, n ≤ m → Proc.run env W (Proc.start L peers) (firstPSteps τ m) = Proc.run env W (Proc.start L peers) (firstPSteps τ n))
      ∧ (∀ c, c < N → c ∈ (Proc.run env W (Proc.start L peers) (firstPSteps τ n)).accepted)
      ∧ (((Proc.run env W (Proc.start L peers) (firstPSteps τ n)).sys.handler = .crashed
            ∧ Fatal env.auth ((Proc.run env W (Proc.start L peers) (firstPSteps τ n)).sys.log.map Prod.fst))
        ∨ (∃ d e todo, d < N ∧ Stuck (Proc.run env W (Proc.start L peers) (firstPSteps τ n)).sys d e todo)
        ∨ (AllDone env N (Proc.run env W (Proc.start L peers) (firstPSteps τ n)).sys
          ∧ ∀ c, c < N → ∃ ps, Receives env (peers c) ps
              ∧ ((Proc.run env W (Proc.start L peers) (firstPSteps τ n)).sys.log.map Prod.fst).filter (From c) = eventsOf (peers c) c ps
              ∧ ∀ qs, Receives env (peers c) qs → eventsOf (peers c) c qs <+: eventsOf (peers c) c ps)) := by
  obtain ⟨n, h1, h2, h3⟩ := served_unless_spinning env W L N peers τ hf hk hs fun n =>
    Nat.lt_of_le_of_lt (Proc.spinning_few (Proc.pinv_run env W L peers (firstPSteps τ n)) (Proc.accepted_few hf.few n) hbad) hW
  refine ⟨n, h1, h2, ?_⟩
  rcases h3 with h | h | ⟨h, _⟩
  · exact .inl h
  · exact .inr (.inl h)
  · refine .inr (.inr ⟨h, fun c hc => ?_⟩)
    obtain ⟨sched, e1, _⟩ := (Proc.pinv_run env W L peers (firstPSteps τ n)).sys
    rw [e1] at h ⊢
    exact done_received (reads_run env peers _) (took_run env peers _) h hc

/-- C80 for the whole process, for connections that bring any number of bytes, if there are fewer connections that cannot be read to their end
(`bad`) than worker threads. -/
theorem C80_process_received (env : Env) (input : ConnId → Peer) (N W : Nat)
    (hacc : ∀ c q ps, Decodes env.profile (input c).segs.flatten (input c).fin (.connect q :: ps) → login env.auth q = .accepted)
    (hping : (∀ c ps, Decodes env.profile (input c).segs.flatten (input c).fin ps → .pingReq ∉ ps)
      ∨ ∀ c ps, Decodes env.profile (input c).segs.flatten (input c).fin ps → .disconnect ∉ ps) :
    ∃ B, ∀ peers, (∀ c, SameInput (input c) (peers c)) → (∀ c, ∀ o ∈ (peers c).script, o ≠ .fail) →
      (∀ c, c < N → B ≤ (peers c).script.length) → ∀ bad : List ConnId, (∀ c, c < N → Spinning env (peers c) → c ∈ bad) → bad.length < W →
      ∀ L τ, PFair N L τ → Knocking N L τ → (∀ i, τ i ≠ .signal) →
      ∃ n evs, (∀ m, n ≤ m → Proc.run env W (Proc.start L peers) (firstPSteps τ m) = Proc.run env W (Proc.start L peers) (firstPSteps τ n))
        ∧ (∀ c, c < N → c ∈ (Proc.run env W (Proc.start L peers) (firstPSteps τ n)).accepted)
        ∧ (Proc.run env W (Proc.start L peers) (firstPSteps τ n)).sys.log.map Prod.fst = evs
        ∧ (∀ c, c < N → ∃ ps, Receives env (peers c) ps ∧ evs.filter (From c) = eventsOf (peers c) c ps
            ∧ ∀ qs, Receives env (peers c) qs → eventsOf (peers c) c qs <+: eventsOf (peers c) c ps)
        ∧ ∀ d, d < N → ∃ sent : List ControlPacket,
            sent.map .controlPacket = (Broker.start.outputs env.auth evs d).takeWhile (· ≠ .disconnect)
            ∧ allBytes ((Proc.run env W (Proc.start L peers) (firstPSteps τ n)).sys.conns d).wr = wireOf sent := by
  obtain ⟨B, hB⟩ := Proc.enough_writes env input N
  refine ⟨B, fun peers hin hfail hlen bad hbad hW L τ hf hk hs => ?_⟩
  obtain ⟨n, h1, h2, h3⟩ := C86_spinning_partial env W L N peers τ hf hk hs bad hbad hW
  refine ⟨n, _, h1, h2, rfl, ?_⟩
  obtain ⟨sched, e1, e2⟩ := hB peers hin hlen W L τ hf.few n
  rw [e1] at h3 ⊢
  rcases h3 with ⟨_, h⟩ | ⟨d, e, todo, hd, _, _, _, h⟩ | ⟨hdone, hall⟩
  · exact (same_not_fatal env hin hacc hping _ h).elim
  · rw [e2 d hd] at h; cases h
  · exact ⟨hall, sent_when_done env peers N sched e2 hfail hdone⟩

/-! ### C84 -/

/-- C84, the good case, with clients that may send any number of bytes: let every connection be one that can be read to its end, let every
CONNECT be accepted, and let nobody ping or nobody disconnect. If the sockets take enough writes (`B`), every task gets its turn again and
again, and ctrl-c is pressed, at whatever moment, then in the end the process is gone, without a panic. Missing: other clients. -/
theorem C84_spinning_partial (env : Env) (input : ConnId → Peer) (N : Nat)
    (hacc : ∀ c q ps, Decodes env.profile (input c).segs.flatten (input c).fin (.connect q :: ps) → login env.auth q = .accepted)
    (hping : (∀ c ps, Decodes env.profile (input c).segs.flatten (input c).fin ps → .pingReq ∉ ps)
      ∨ ∀ c ps, Decodes env.profile (input c).segs.flatten (input c).fin ps → .disconnect ∉ ps) :
    ∃ B, ∀ peers, (∀ c, SameInput (input c) (peers c)) → (∀ c, c < N → B ≤ (peers c).script.length) →
      (∀ c, c < N → ¬ Spinning env (peers c)) → ∀ W L τ, 0 < W → PFair N L τ → (∃ i, τ i = .signal) →
      ∃ n, ∀ m, n ≤ m → (Proc.run env W (Proc.start L peers) (firstPSteps τ m)).main = .exited true := by
  obtain ⟨B, hB⟩ := Proc.enough_writes env input N
  refine ⟨B, fun peers hin hlen hend W L τ hW hf hs => ?_⟩
  obtain ⟨n, h1, h2⟩ := C84_ctrl_c_partial env W L N peers τ hf hs hW
  have hN := Proc.accepted_few (env := env) (W := W) (L := L) (peers := peers) hf.few n
  refine ⟨n, fun m hm => ?_⟩
  rw [h1 m hm]
  obtain ⟨sched, e1, e2⟩ := hB peers hin hlen W L τ hf.few n
  rcases h2 with h | ⟨_, h⟩ | ⟨d, e, todo, hd, h⟩ | ⟨c, hc, _, h⟩
  · exact h
  · rw [e1] at h
    have hinv := inv_run env peers sched
    refine absurd h (not_fatal (reads_orderly_served hinv.reads) (fun ev hev => hinv.reads.from_conn ev (List.mem_append_left _ hev))
      (fun c q ps hd => ?_) ?_)
    · rw [(hin c).bytes, (hin c).fin] at hd; exact hacc c q ps hd
    · refine hping.imp (fun h c ps hd => ?_) (fun h c ps hd => ?_) <;>
      · rw [(hin c).bytes, (hin c).fin] at hd; exact h c ps hd
  · rw [e1] at h
    obtain ⟨_, _, _, h⟩ := h
    rw [e2 d (hN d hd)] at h; cases h
  · exact absurd h (hend c (hN c hc))

/-! ### C154 for the process -/

/-- C154 for the whole process: as `C154_lasting_partial`, if there are fewer connections some of whose packets do not fit than worker
threads. Missing: the packets that do not fit, and what becomes of the process if there are more such connections. -/
theorem C154_process_partial (env : Env) (hal : env.alloc.clearOnFullAdvance = false) (cs : ConnId → List ClientPacket)
    (input : ConnId → Peer) (N W : Nat) (hin : ∀ c, (input c).segs.flatten = clientBytes (cs c)) (hs : ∀ c, Sendable (cs c))
    (hacc : ∀ c q rest, (cs c).map meaning = .connect q :: rest → login env.auth q = .accepted)
    (hping : (∀ c, .pingReq ∉ cs c) ∨ ∀ c, .disconnect ∉ cs c)
    (bad : List ConnId) (hbad : ∀ c, c < N → c ∉ bad → fitting 4096 4096 (cs c) = cs c) (hW : bad.length < W) :
    ∃ B, ∀ peers, (∀ c, SameInput (input c) (peers c)) →
      (∀ c, ∀ o ∈ (peers c).script, o ≠ .fail) → (∀ c, c < N → B ≤ (peers c).script.length) →
      ∀ L τ, PFair N L τ → Knocking N L τ → (∀ i, τ i ≠ .signal) →
      ∃ n evs, (∀ m, n ≤ m → Proc.run env W (Proc.start L peers) (firstPSteps τ m) = Proc.run env W (Proc.start L peers) (firstPSteps τ n))
        ∧ (∀ c, c < N → c ∈ (Proc.run env W (Proc.start L peers) (firstPSteps τ n)).accepted)
        ∧ (Proc.run env W (Proc.start L peers) (firstPSteps τ n)).sys.log.map Prod.fst = evs
        ∧ (∀ c, c < N → evs.filter (From c) = eventsOf (peers c) c ((fitting 4096 4096 (cs c)).map meaning))
        ∧ ∀ d, d < N → ∃ sent : List ControlPacket,
            sent.map .controlPacket = (Broker.start.outputs env.auth evs d).takeWhile (· ≠ .disconnect)
            ∧ allBytes ((Proc.run env W (Proc.start L peers) (firstPSteps τ n)).sys.conns d).wr = wireOf sent := by
  obtain ⟨B, hB⟩ := Proc.enough_writes env input N
  refine ⟨B, fun peers hp hfail hlen L τ hf hk hsig => ?_⟩
  have hb : ∀ c, (peers c).segs.flatten = clientBytes (cs c) := fun c => by rw [(hp c).bytes, hin]
  obtain ⟨n, h1, h2, h3⟩ := C86_spinning_partial env W L N peers τ hf hk hsig bad (fun c hc he =>
    Classical.byContradiction fun hn => (spinning_iff hal (hs c) (hb c)).mp he (hbad c hc hn)) hW
  obtain ⟨sched, e1, e2⟩ := hB peers hp hlen W L τ hf.few n
  rw [e1] at h3
  rcases h3 with ⟨_, h⟩ | ⟨d, e, todo, hd, _, _, _, h⟩ | ⟨hdone, hall⟩
  · exact absurd h (client_not_fatal env hb hs hacc hping sched)
  · rw [e2 d hd] at h; cases h
  · have g := sent_when_done env peers N sched e2 hfail hdone
    have g1 : ∀ c, c < N → ((run env (init peers) sched).log.map Prod.fst).filter (From c)
        = eventsOf (peers c) c ((fitting 4096 4096 (cs c)).map meaning) := by
      intro c hc
      obtain ⟨ps, e1, e2, e3⟩ := hall c hc
      obtain ⟨g1, g2⟩ := receives_client hal (hs c) (hb c)
      rw [e2]
      have a1 := eventsOf_mono (peer := peers c) (c := c) (g2 ps e1)
      exact a1.eq_of_length_le (e3 _ g1).length_le
    rw [← e1] at g g1
    exact ⟨n, _, h1, h2, rfl, g1, g⟩

/-- One connection that sends message upon message, and others that ping. -/
def lastingPackets (c : ConnId) : List ClientPacket :=
  if c = 0 then persistent 227 else hello "d" :: List.replicate 5000 .pingReq

-- with two worker threads the 5000 pings of connection 1 are handled, whatever becomes of connection 0, of which 227 packets are
example : ∃ B, ∀ k, B ≤ k → ∃ n evs, (Proc.run exampleEnv 2 (Proc.start 1 fun c =>
      ⟨someAddr, "u", [clientBytes (lastingPackets c)], .eof, List.replicate k (.accept 0)⟩) (firstPSteps (procRound false) n)).sys.log.map Prod.fst
        = evs ∧ (evs.filter (From 1)).length = 5001 ∧ (evs.filter (From 0)).length = 227 := by
  have hsend : ∀ c, Sendable (lastingPackets c) := by
    intro c
    unfold lastingPackets
    split
    · exact persistent_sendable 227
    · intro x hx
      rcases List.mem_cons.mp hx with rfl | hx
      · exact hello_sendable "d" (by unfold Fits; decide +kernel) (by decide +kernel)
      · rw [List.eq_of_mem_replicate hx]
        exact ⟨trivial, trivial, by decide⟩
  have hpings : ∀ n, fitting 4096 4096 (hello "d" :: List.replicate n .pingReq) = hello "d" :: List.replicate n .pingReq := by
    intro n
    rw [fitting]
    cases hw : windows 4096 4096 (fields (hello "d")) with
    | none => exact absurd hw (by decide +kernel)
    | some l => simp only [fitting_pings]
  obtain ⟨B, h⟩ := C154_process_partial exampleEnv rfl lastingPackets (fun c => ⟨someAddr, "u", [clientBytes (lastingPackets c)], .eof, []⟩) 2 2
    (fun c => by simp) hsend
    (fun c q rest h => by
      unfold lastingPackets at h
      split at h <;> cases h <;> rfl)
    (.inr fun c h => by
      unfold lastingPackets at h
      split at h
      · rcases List.mem_cons.mp h with h | h
        · cases h
        · cases List.eq_of_mem_replicate h
      · rcases List.mem_cons.mp h with h | h
        · cases h
        · cases List.eq_of_mem_replicate h)
    [0] (fun c _ hc => by
      unfold lastingPackets
      rw [if_neg (by simpa using hc)]
      exact hpings 5000) (by decide)
  refine ⟨B, fun k hk => ?_⟩
  obtain ⟨n, evs, _, _, h1, h2, _⟩ := h (fun c => ⟨someAddr, "u", [clientBytes (lastingPackets c)], .eof, List.replicate k (.accept 0)⟩)
    (fun c => ⟨rfl, rfl, rfl, rfl⟩) (fun c o ho => by rw [List.eq_of_mem_replicate ho]; simp) (fun c _ => by simpa using hk) 1 (procRound false)
    (procRound_fair false) (procRound_knocking false) (fun i h => by
      unfold procRound at h
      split at h <;> cases h)
  refine ⟨n, evs, h1, ?_, ?_⟩
  · rw [h2 1 (by decide)]
    show (eventsOf _ 1 ((fitting 4096 4096 (hello "d" :: List.replicate 5000 .pingReq)).map meaning)).length = 5001
    rw [hpings]
    show (_ :: List.map _ (List.map meaning (List.replicate 5000 _))).length = 5001
    rw [List.length_cons, List.length_map, List.length_map, List.length_replicate]
  · rw [h2 0 (by decide)]
    show (eventsOf _ 0 ((fitting 4096 4096 (persistent 227)).map meaning)).length = 227
    have hf : fitting 4096 4096 (persistent 227) = persistent 226 := by
      have h3 := List.prefix_iff_eq_take.mp (fitting_prefix 4096 4096 (persistent 227))
      have h4 : (fitting 4096 4096 (persistent 227)).length = 226 + 1 := by decide +kernel
      rw [h4] at h3
      rw [h3, persistent, List.take_succ_cons, List.take_replicate]
      rfl
    rw [hf]
    show (_ :: List.map _ (List.map meaning (List.replicate 226 _))).length = 227
    rw [List.length_cons, List.length_map, List.length_map, List.length_replicate]

end Ratel
