/-
C43–C55: the broker as a whole. `Sys.run env (Sys.init peers) sched` is the state reached from the start by the schedule `sched`, an
arbitrary list of steps of the individual tasks; `peers` says, for each connection, what bytes arrive on it, in what pieces, how they
end, and how the socket answers writes; `env` is the allocation behaviour, the build profile and the identity provider.
-/
import Verif.Proofs.SysWitness

namespace Ratel

open Decoder Encoder Spec Sys

/-- Connections for the examples: 0 subscribes, its socket takes nothing and then ends; 1 publishes; 2 gives a user name without a
password; 3 gives a wrong password, and its socket takes one write; all others send nothing. -/
def examplePeers : ConnId → Peer := fun c =>
  if c = 0 then ⟨someAddr, "u0", [clientBytes subscriberPackets], .eof, []⟩
  else if c = 1 then ⟨someAddr, "u1", [clientBytes publisherPackets], .eof, []⟩
  else if c = 2 then ⟨someAddr, "u2", [clientBytes [.connect ⟨"MQTT", 4, true, 60, "x", none, some "u", none⟩]], .eof, []⟩
  else if c = 3 then ⟨someAddr, "u3", [clientBytes [.connect ⟨"MQTT", 4, true, 60, "y", none, some "u", some "p"⟩, .pingReq]], .eof, [.accept 4]⟩
  else ⟨someAddr, "u", [], .eof, []⟩

/-- An environment for the examples. -/
def exampleEnv : Env := ⟨⟨false, false, fun _ _ n => n, fun off _ _ => off⟩, ⟨true⟩, denyAll⟩

/-! ### C43, C44, C45 -/

/-- C43, the part that holds: whatever clients send and however the tasks are scheduled, the handler crashes only on a CONNECT with a
user name but no password, or on a SUBSCRIBE, UNSUBSCRIBE or PINGREQ of a connection it had told to go away before. Missing: these. -/
theorem C43_no_crash_partial (env : Env) (peers : ConnId → Peer) (sched : List Step)
    (h : (run env (init peers) sched).handler = .crashed) : Fatal env.auth ((run env (init peers) sched).log.map Prod.fst) :=
  crashed_run env peers sched h

/-- C43 is violated: whenever the handler is at rest, a new connection whose first packet is any legal CONNECT with a user name and no
password makes it crash, whoever else is connected and whatever happened before. -/
theorem C43_no_password_fails (env : Env) (peers : ConnId → Peer) (sched : List Step) (c : ConnId) (q : Connect)
    (more : List ClientPacket) (hq : Sendable (.connect q :: more)) (hu : q.userName ≠ none) (hp : q.password = none)
    (hb : (peers c).segs.flatten = clientBytes (.connect q :: more)) (hl : (clientBytes (.connect q :: more)).length < 4096)
    (hh : (run env (init peers) sched).handler = .idle) (he : (run env (init peers) sched).events = [])
    (hc : (run env (init peers) sched).conns c = (peers c).conn) :
    (run env (init peers) (sched ++ [.read c, .read c, .handler 0])).handler = .crashed := by
  have hn := next_new (peers c) _ hb hq hl
  rw [← hc] at hn
  obtain ⟨rd, hsp, _⟩ := next_first (env := env) (c := c) hn (by rw [hc]; rfl) _ rfl
  rw [run_append]
  refine enter_crash env 0 ⟨hh, he, rfl⟩ hsp ?_
  obtain ⟨u, hu⟩ := Option.ne_none_iff_exists'.mp hu
  simp [Handler.handle, Handler.onConnect, hu, hp]

/-- C43 is violated: so does a new connection with a legal CONNECT whose password is wrong, followed by a PINGREQ, SUBSCRIBE or
UNSUBSCRIBE, if its socket takes at least one write (or fails on it). -/
theorem C43_refused_fails (env : Env) (peers : ConnId → Peer) (sched : List Step) (c : ConnId) (q : Connect) (r : ClientPacket)
    (more : List ClientPacket) (hq : Sendable (.connect q :: r :: more)) (user pw : String) (hu : q.userName = some user)
    (hp : q.password = some pw) (e : AuthenticationError) (ha : env.auth user pw = .error e)
    (hr : r = .pingReq ∨ (∃ i fs, r = .subscribe i fs) ∨ ∃ i fs, r = .unsubscribe i fs)
    (hb : (peers c).segs.flatten = clientBytes (.connect q :: r :: more))
    (hl : (clientBytes (.connect q :: r :: more)).length < 4096) (hw : (peers c).script ≠ [])
    (hh : (run env (init peers) sched).handler = .idle) (he : (run env (init peers) sched).events = [])
    (hc : (run env (init peers) sched).conns c = (peers c).conn) :
    ∃ sched', (run env (init peers) (sched ++ sched')).handler = .crashed := by
  have hn := next_new (peers c) _ hb hq hl
  rw [← hc] at hn
  obtain ⟨rd, hsp, hn'⟩ := next_first (env := env) (c := c) hn (by rw [hc]; rfl) _ rfl
  have hw' : ∃ o os, (peers c).script = o :: os := List.exists_cons_of_ne_nil hw
  obtain ⟨o, os, hw'⟩ := hw'
  have hfresh : ((run env (init peers) sched).conns c).wr = WStream.new 4096 (o :: os) := by rw [hc, ← hw']; rfl
  have hrx : ((run env (init peers) sched).conns c).rxOpen = true := by rw [hc]; rfl
  have hbl : ((run env (init peers) sched).conns c).wrBlocked = false := by rw [hc]; rfl
  have hqu : ((run env (init peers) sched).conns c).queue = [] := by rw [hc]; rfl
  suffices h : ∃ sched', (run env (run env (init peers) sched) sched').handler = .crashed by
    obtain ⟨sched', h⟩ := h
    exact ⟨sched', by rw [run_append]; exact h⟩
  generalize run env (init peers) sched = s at *
  clear hc
  -- the CONNECT is refused
  obtain ⟨sa, qa, _, _, ca⟩ := turn env 0 ⟨hh, he, rfl⟩ hsp (C33_refused env.auth 0 s.messaging _ _ c user pw hu hp e ha) (by
    intro d hd
    by_cases h : d = c
    · subst h
      simp [sentTo, hrx, hqu, channelCapacity]
    · have : c ≠ d := fun h' => h h'.symm
      simp [sentTo, this] at hd)
  have ca := congrFun ca c
  generalize hsA : run env s sa = sA at *
  simp only [withSends, setConn_self, hqu, sentTo, List.filter_cons, decide_true, ↓reduceIte, List.filter_nil, List.map_cons, List.map_nil,
    List.nil_append] at ca
  -- the write task leaves
  obtain ⟨k, hk, k1, k2, k3, k4⟩ := write_refusal env (s := sA) (c := c) (by rw [ca]; exact hrx) (by rw [ca]; exact hbl)
    ⟨false, .notAuthorized⟩ (by rw [ca]) o os (by rw [ca]; exact hfresh)
  have qb : Quiet (run env sA [.write c, .write c]) s.messaging := by rw [hk]; exact ⟨qa.idle, qa.events, qa.messaging⟩
  have cb : (run env sA [.write c, .write c]).conns c = k := by rw [hk, setConn_self]
  generalize hsB : run env sA [.write c, .write c] = sB at *
  have nb : Next (sB.conns c) (r :: more) (peers c).fin := hn'.congr (by rw [cb, k2, ca]) (by rw [cb, k3, ca])
  obtain ⟨rd', hsp', _⟩ := next_running (env := env) (c := c) nb (id := _) (by rw [cb, k4, ca])
  have hm : ∀ id, ∃ m' e' sends, Handler.handle env.auth 0 s.messaging (.controlPacket id (meaning r) c) = some (m', (c, e') :: sends) := by
    intro id
    rcases hr with rfl | ⟨i, fs, rfl⟩ | ⟨i, fs, rfl⟩
    · cases hs : s.messaging.sessions.get id with
      | some x => exact ⟨_, _, _, (C31_ping _ _ _ _ _).1 (by rw [hs]; rfl)⟩
      | none => exact ⟨_, _, _, (C31_ping _ _ _ _ _).2 hs⟩
    · obtain ⟨m', h, _⟩ := C29_suback env.auth 0 s.messaging id ⟨i, fs.map fun (f, q) => { topic := f, qos := q }⟩ c
      exact ⟨_, _, _, h⟩
    · obtain ⟨m', h, _⟩ := C30_unsuback env.auth 0 s.messaging id ⟨i, fs⟩ c
      exact ⟨_, _, _, h⟩
  obtain ⟨m', e', sends, hm⟩ := hm _
  refine ⟨sa ++ ([.write c, .write c] ++ [.read c, .read c, .handler 0, .handler 0]), ?_⟩
  rw [run_append, hsA, run_append, hsB]
  exact enter_closed env 0 qb hsp' hm (by rw [setConn_self, cb, k1])

theorem example_incomplete : Sendable [.connect ⟨"MQTT", 4, true, 60, "x", none, some "u", none⟩] := by
  intro c hc
  rw [List.mem_singleton.mp hc]
  refine ⟨⟨?_, ?_, ?_, by simp, by simp⟩, rfl, by decide +kernel⟩
  · unfold Fits; decide +kernel
  · unfold Fits; decide +kernel
  · simp only [Option.mem_def, Option.some.injEq, forall_eq']
    unfold Fits; decide +kernel

theorem example_wrong : Sendable [.connect ⟨"MQTT", 4, true, 60, "y", none, some "u", some "p"⟩, .pingReq] := by
  intro c hc
  simp only [List.mem_cons, List.not_mem_nil, or_false] at hc
  rcases hc with rfl | rfl
  · refine ⟨⟨?_, ?_, ?_, ?_, by simp⟩, rfl, by decide +kernel⟩
    · unfold Fits; decide +kernel
    · unfold Fits; decide +kernel
    · simp only [Option.mem_def, Option.some.injEq, forall_eq']
      unfold Fits; decide +kernel
    · simp only [Option.mem_def, Option.some.injEq, forall_eq']
      unfold Fits; decide +kernel
  · exact ⟨trivial, trivial, by decide +kernel⟩

example : (run exampleEnv (init examplePeers) ([] ++ [.read 2, .read 2, .handler 0])).handler = .crashed :=
  C43_no_password_fails exampleEnv examplePeers [] 2 _ [] example_incomplete (by simp) rfl (by simp [examplePeers]) (by decide +kernel) rfl rfl rfl

example : ∃ sched, (run exampleEnv (init examplePeers) ([] ++ sched)).handler = .crashed :=
  C43_refused_fails exampleEnv examplePeers [] 3 _ .pingReq [] example_wrong "u" "p" rfl rfl _ rfl (.inl rfl) (by simp [examplePeers])
    (by decide +kernel) (by simp [examplePeers]) rfl rfl rfl

/-- C44. The handler never has to send a PUBLISH to a connection whose write task has ended, and a crash never comes from a PUBLISH. -/
theorem C44_publish_never_crashes (env : Env) (peers : ConnId → Peer) (sched : List Step) :
    (∀ d q todo, (run env (init peers) sched).handler = .busy ((d, .controlPacket (.publish q)) :: todo) →
      ((run env (init peers) sched).conns d).rxOpen = true)
    ∧ ((run env (init peers) sched).handler = .crashed →
      ∀ pre id q tx, (run env (init peers) sched).log.map Prod.fst ≠ pre ++ [.controlPacket id (.publish q) tx]) := by
  have hinv := inv_run env peers sched
  refine ⟨fun d q todo hh => ?_, fun hc pre id q tx he => ?_⟩
  · apply Classical.byContradiction
    intro hrx
    obtain ⟨pre, ev, he, hf, ha, _⟩ := closed_target hinv hh (by simpa using hrx)
    cases hinv.serves with
    | rest b h' => rw [hh] at h'; rcases h' with h' | h' <;> cases h'
    | failed _ _ _ h' => rw [hh] at h'; cases h'
    | broken _ _ _ _ _ _ h' => rw [hh] at h'; cases h'
    | sending todo' pre' ev' b b' out hh' he' hp hs hr ho hout =>
      rw [hh] at hh'
      cases hh'
      rw [he] at he'
      obtain ⟨rfl, he''⟩ := List.append_inj' he' rfl
      clear he'
      cases he''
      have hmem : ServerEvent.controlPacket (.publish q) ∈ out d :=
        (hout d).subset (by simp [sentTo_cons])
      have := step_sends hs hmem
      cases this with
      | publish => exact ha
  · obtain ⟨pre', ev, he', h⟩ := crashed_run env peers sched hc
    unfold served at he'
    rw [he] at he'
    obtain ⟨_, he'⟩ := List.append_inj' he' rfl
    cases he'
    rcases h with ⟨_, _, _, h, _⟩ | ⟨_, p, _, h, hp, _⟩
    · cases h
    · cases h
      rcases hp with ⟨_, h⟩ | ⟨_, h⟩ | h <;> cases h

example : ∃ sched, (run exampleEnv (init examplePeers) sched).handler = .busy [(0, .controlPacket (.publish blank))] :=
  let ⟨sched, h⟩ := stall_publish exampleEnv examplePeers (by simp [examplePeers]) (by simp [examplePeers]) (by simp [examplePeers])
  ⟨sched, h.1.1⟩

/-- C45. Once the handler has crashed it stays so: whatever happens next, no event is taken and nothing is put into any queue. -/
theorem C45_crashed_serves_nobody (env : Env) (s : Sys) (h : s.handler = .crashed) (sched : List Step) :
    (run env s sched).handler = .crashed ∧ (run env s sched).log = s.log
    ∧ ∀ d, ((run env s sched).conns d).delivered = (s.conns d).delivered := by
  have := still_dead env s (.inl h) sched
  exact ⟨this.handler.trans h, this.log, this.delivered⟩

example : ∃ s : Sys, s.handler = .crashed ∧ s.log ≠ [] :=
  ⟨run exampleEnv (init examplePeers) ([] ++ [.read 2, .read 2, .handler 0]),
    C43_no_password_fails exampleEnv examplePeers [] 2 _ [] example_incomplete (by simp) rfl (by simp [examplePeers]) (by decide +kernel) rfl rfl rfl,
    by
      have h := C43_no_crash_partial exampleEnv examplePeers ([] ++ [.read 2, .read 2, .handler 0])
        (C43_no_password_fails exampleEnv examplePeers [] 2 _ [] example_incomplete (by simp) rfl (by simp [examplePeers]) (by decide +kernel) rfl rfl rfl)
      obtain ⟨pre, ev, he, _⟩ := h
      intro hl
      rw [hl] at he
      simp at he⟩

/-! ### C46, C47 -/

/-- C46. A connection whose bytes do not begin with a well-formed CONNECT: no event ever comes from it, nothing is ever sent to it, and
all the rest of the broker is as if the tasks of this connection had not run at all. -/
theorem C46_nothing_before_connect (env : Env) (peers : ConnId → Peer) (c : ConnId) (h : NoConnect (peers c).segs.flatten)
    (sched : List Step) :
    (∀ ev ∈ (run env (init peers) sched).log.map Prod.fst ++ (run env (init peers) sched).events, ¬ From c ev)
    ∧ ((run env (init peers) sched).conns c).delivered = [] ∧ ((run env (init peers) sched).conns c).wr.wire = []
    ∧ SameBut c (run env (init peers) sched) (run env (init peers) (sched.filter fun st => !ownStep c st)) := by
  have hinv := inv_run env peers sched
  obtain ⟨h1, _⟩ := silent_delivered hinv h
  refine ⟨?_, h1, ?_, silent_run env peers h sched⟩
  · have := no_events hinv.reads h
    unfold taken at this
    rw [List.filter_eq_nil_iff] at this
    exact fun ev hev hf => this ev hev (by simpa using hf)
  · have hw := (hinv.writes c).sent
    rw [h1] at hw
    have hn := List.prefix_nil.mp hw
    have hn : ((run env (init peers) sched).conns c).written = [] := by simpa using (List.append_eq_nil_iff.mp hn).1
    rw [(hinv.writes c).wr, hn]
    rfl

example : NoConnect [0xC0, 0] := by
  intro first lf n body rest p h _ hw
  have hf : first = 0xC0 := by simpa using (List.cons.inj h).1.symm
  subst hf
  exact absurd hw.1 (by decide)

/-- C47. Every event comes from a connection; and those of one connection are, in order: nothing at all, or its CONNECT and then a
packet event for each of the next packets it sent, all under the one client id: that of the CONNECT or, if that is empty, the
generated one. -/
theorem C47_identity (env : Env) (peers : ConnId → Peer) (sched : List Step) :
    (∀ ev ∈ (run env (init peers) sched).log.map Prod.fst ++ (run env (init peers) sched).events, ∃ c, From c ev)
    ∧ ∀ c, ((run env (init peers) sched).log.map Prod.fst ++ (run env (init peers) sched).events).filter (From c) = []
      ∨ ∃ q ps n, Decodes env.profile (peers c).segs.flatten (peers c).fin (.connect q :: ps)
        ∧ ((run env (init peers) sched).log.map Prod.fst ++ (run env (init peers) sched).events).filter (From c)
          = .connected { q with clientId := if q.clientId = "" then (peers c).uuid else q.clientId } (peers c).addr c
            :: (ps.take n).map fun p => .controlPacket (if q.clientId = "" then (peers c).uuid else q.clientId) p c := by
  have hr := (inv_run env peers sched).reads
  refine ⟨hr.from_conn, fun c => ?_⟩
  obtain ⟨ps, h1, h2⟩ := reads_orderly hr c
  cases ps with
  | nil => exact .inl (List.prefix_nil.mp h2)
  | cons p ps =>
    cases p with
    | connect q =>
      generalize ((run env (init peers) sched).log.map Prod.fst ++ (run env (init peers) sched).events).filter (From c) = l at h2 ⊢
      cases l with
      | nil => exact .inl rfl
      | cons ev l =>
        obtain ⟨h3, h4⟩ := List.cons_prefix_cons.mp h2
        refine .inr ⟨q, ps, l.length, h1, ?_⟩
        have h5 := List.prefix_iff_eq_take.mp h4
        rw [← List.map_take] at h5
        rw [h3]
        exact congrArg _ h5
    | _ => exact .inl (List.prefix_nil.mp h2)

/-! ### C48, C49, C50 -/

/-- C48. In every execution there is one sequence of events, made up of a beginning of what each connection's bytes stand for, such that
each connection has been sent a beginning of what the sequential broker sends it for that sequence; and unless a write failed, its
socket has got a beginning of the wire format of that. -/
theorem C48_linearizable (env : Env) (peers : ConnId → Peer) (sched : List Step) :
    ∃ evs : List ClientEvent, (∀ ev ∈ evs, ∃ c, From c ev) ∧ Orderly env peers evs
      ∧ ∀ d, ∃ sent : List ControlPacket, sent.map .controlPacket <+: Broker.start.outputs env.auth evs d
        ∧ ((run env (init peers) sched).conns d).wr = writeOn env.alloc sent (WStream.new 4096 (peers d).script)
        ∧ ((∀ o ∈ (peers d).script, o ≠ .fail) → ((run env (init peers) sched).conns d).wr.wire <+: wireOf sent) := by
  have hinv := inv_run env peers sched
  have hord := reads_orderly_served hinv.reads
  refine ⟨(run env (init peers) sched).served, fun ev hev => hinv.reads.from_conn ev (List.mem_append_left _ hev), hord,
    fun d => ⟨((run env (init peers) sched).conns d).written, ?_, (hinv.writes d).wr, fun hf => ?_⟩⟩
  · exact ((List.prefix_append _ _).trans (hinv.writes d).sent).trans (hinv.serves.delivered d)
  · have hs : ∀ p ∈ ((run env (init peers) sched).conns d).written, ServerPacket p := by
      intro p hp
      refine delivered_server hord (d := d) ((hinv.serves.delivered d).subset ((hinv.writes d).sent.subset ?_))
      exact List.mem_append_left _ (List.mem_map_of_mem hp)
    have := ((hinv.writes d).clean hf hs).2.2
    exact (List.prefix_append _ _).trans this

/-- C48, nothing is lost or held back: when the handler is at rest, every connection has been sent all the sequential broker sends for
the events taken; what was sent is written or still queued, as long as the connection is open; and what was written is on the wire or in
the write buffer, unless a write failed or is still blocked. -/
theorem C48_nothing_lost (env : Env) (peers : ConnId → Peer) (sched : List Step)
    (hh : (run env (init peers) sched).handler = .idle) (d : ConnId) (hx : ((run env (init peers) sched).conns d).rxOpen = true) :
    ((run env (init peers) sched).conns d).written.map .controlPacket ++ ((run env (init peers) sched).conns d).queue
      = Broker.start.outputs env.auth ((run env (init peers) sched).log.map Prod.fst) d
    ∧ ((∀ o ∈ (peers d).script, o ≠ .fail) → ((run env (init peers) sched).conns d).wrBlocked = false →
        allBytes ((run env (init peers) sched).conns d).wr = wireOf ((run env (init peers) sched).conns d).written) := by
  have hinv := inv_run env peers sched
  refine ⟨?_, fun hf hb => ?_⟩
  · rw [← (hinv.writes d).all hx]
    cases hinv.serves with
    | rest b _ _ _ ho => exact ho d
    | sending _ _ _ _ _ _ h' => rw [hh] at h'; cases h'
    | failed _ _ _ h' => rw [hh] at h'; cases h'
    | broken _ _ _ _ _ _ h' => rw [hh] at h'; cases h'
  · have hs : ∀ p ∈ ((run env (init peers) sched).conns d).written, ServerPacket p := by
      intro p hp
      refine delivered_server (reads_orderly_served hinv.reads) (d := d)
        ((hinv.serves.delivered d).subset ((hinv.writes d).sent.subset ?_))
      exact List.mem_append_left _ (List.mem_map_of_mem hp)
    exact ((hinv.writes d).clean hf hs).2.1 hb

/-- C49. Each message delivered to a connection is some connection's packet; and those that are packets of the same connection are
delivered in the order in which that connection sent them. `src` names, for each message delivered, the connection it came from and its
position among that connection's packets. -/
theorem C49_publisher_order (env : Env) (peers : ConnId → Peer) (sched : List Step) (d : ConnId) :
    ∃ packets : ConnId → List ControlPacket,
      (∀ c, Decodes env.profile (peers c).segs.flatten (peers c).fin (packets c))
      ∧ ∃ src : List (ConnId × Nat),
        (messagesOf ((run env (init peers) sched).conns d).delivered).map (fun q => some (.publish q))
          = src.map (fun x => (packets x.1)[x.2]?)
        ∧ src.Pairwise fun a b => a.1 = b.1 → a.2 ≤ b.2 := by
  have hinv := inv_run env peers sched
  have hord := reads_orderly_served hinv.reads
  refine ⟨fun c => (hord c).choose, fun c => (hord c).choose_spec.1, ?_⟩
  obtain ⟨src, h1, _, h3⟩ := outputs_order (auth := env.auth) d (fun c => (hord c).choose) peers _ fun c => (hord c).choose_spec.2
  obtain ⟨t, ht⟩ := hinv.serves.delivered d
  rw [← ht, messagesOf_append, List.map_append] at h1
  refine ⟨src.take (messagesOf ((run env (init peers) sched).conns d).delivered).length, ?_, h3.sublist (List.take_sublist _ _)⟩
  have := congrArg (List.take (messagesOf ((run env (init peers) sched).conns d).delivered).length) h1
  rw [List.take_left' (by simp), ← List.map_take] at this
  exact this

/-- C50. A PUBLISH queued for a connection was sent, as a packet, on some connection, which had sent a CONNECT before, under the client id
of that; and at that point a client reached on the receiving connection held a subscription matching the topic. -/
theorem C50_no_invented_messages (env : Env) (peers : ConnId → Peer) (sched : List Step) (d : ConnId) (q : PublishPacket)
    (h : .controlPacket (.publish q) ∈ ((run env (init peers) sched).conns d).delivered) :
    ∃ pre id tx post, (run env (init peers) sched).log.map Prod.fst = pre ++ .controlPacket id (.publish q) tx :: post
      ∧ (∃ p addr, .connected p addr tx ∈ pre ∧ p.clientId = id)
      ∧ (∃ ps, Decodes env.profile (peers tx).segs.flatten (peers tx).fin ps ∧ .publish q ∈ ps)
      ∧ ∃ c f, (c, f) ∈ held pre ∧ ReachedOn env.auth pre c d ∧ Matches f q.message.topic := by
  have hinv := inv_run env peers sched
  have hord := reads_orderly_served hinv.reads
  obtain ⟨pre, ev, post, b, he, h1, h2⟩ := outputs_mem ((hinv.serves.delivered d).subset h)
  rw [he] at hord
  cases h2 with
  | publish id q tx x hx hs hm =>
    refine ⟨pre, id, tx, post, he, ?_, ?_, x.1, x.2, ?_, (after_session h1 _ _).mp hs, hm⟩
    · exact Orderly.connected_before (Orderly.pre (post := post) (by simpa using hord))
    · obtain ⟨ps, hd, hp⟩ := hord tx
      have hm : ClientEvent.controlPacket id (.publish q) tx ∈ eventsOf (peers tx) tx ps :=
        hp.subset (List.mem_filter.mpr ⟨by simp, by simp [From]⟩)
      obtain ⟨i, hi⟩ := List.mem_iff_getElem?.mp hm
      exact ⟨ps, hd, List.mem_of_getElem? (eventsOf_index hi)⟩
    · have := after_subs h1
      rw [this] at hx
      exact hx

/-- A run in which a message is delivered: the hypothesis of C50 can be met, and C48 and C49 speak about something. -/
theorem example_delivery : ∃ sched, .controlPacket (.publish blank) ∈ ((run exampleEnv (init examplePeers) sched).conns 0).delivered :=
  stall_delivered exampleEnv examplePeers (by simp [examplePeers]) (by simp [examplePeers]) (by simp [examplePeers])

example : ∃ sched pre id tx post, (run exampleEnv (init examplePeers) sched).log.map Prod.fst
    = pre ++ .controlPacket id (.publish blank) tx :: post ∧ ∃ p addr, .connected p addr tx ∈ pre ∧ p.clientId = id :=
  let ⟨sched, h⟩ := example_delivery
  let ⟨pre, id, tx, post, h1, h2, _⟩ := C50_no_invented_messages _ _ _ _ _ h
  ⟨sched, pre, id, tx, post, h1, h2⟩

/-! ### C51, C53 -/

/-- C51. The queue of events for the handler and the queue of each connection hold at most 32 elements. -/
theorem C51_bounded (env : Env) (peers : ConnId → Peer) (sched : List Step) :
    (run env (init peers) sched).events.length ≤ 32 ∧ ∀ c, ((run env (init peers) sched).conns c).queue.length ≤ 32 :=
  ⟨(inv_run env peers sched).input, fun c => ((inv_run env peers sched).writes c).bound⟩

/-- C53. As long as the handler is alive and no write task is parked on its socket, some task can make a step that changes something,
if work remains at all. -/
theorem C53_no_deadlock (env : Env) (peers : ConnId → Peer) (sched : List Step)
    (ha : (run env (init peers) sched).handlerAlive = true) (hb : ∀ c, ((run env (init peers) sched).conns c).wrBlocked = false)
    (hw : WorkLeft env (run env (init peers) sched)) :
    ∃ st, ((∃ c, st = .read c) ∨ (∃ c, st = .write c) ∨ ∃ now, st = .handler now)
      ∧ step env (run env (init peers) sched) st ≠ run env (init peers) sched := by
  have hinv := inv_run env peers sched
  generalize run env (init peers) sched = s at *
  have hwrite : ∀ c, (s.conns c).queue ≠ [] → step env s (.write c) ≠ s := by
    intro c hc he
    have hrx : (s.conns c).rxOpen = true := by
      cases hrx : (s.conns c).rxOpen with
      | true => rfl
      | false => exact absurd ((hinv.writes c).shut hrx) hc
    have := write_takes env hrx (hb c) hc
    rw [he] at this
    omega
  have hhandler : ∀ now, (∃ todo, s.handler = .busy todo) → (∃ c, (s.conns c).queue ≠ []) ∨ step env s (.handler now) ≠ s := by
    rintro now ⟨todo, hh⟩
    cases todo with
    | nil =>
      refine .inr fun he => ?_
      have : (step env s (.handler now)).handler = .idle := by simp [step, stepHandler, hh]
      rw [he, hh] at this
      cases this
    | cons x todo =>
      obtain ⟨d, e⟩ := x
      by_cases hr : (s.conns d).queue.length < channelCapacity
      · refine .inr fun he => ?_
        rcases handler_sends env now hh hr with h | ⟨h, _⟩
        · rw [he, hh] at h; cases h
        · rw [he, hh] at h
          split at h
          · cases h
          · exact absurd (congrArg List.length (HandlerState.busy.inj h)) (by simp)
      · refine .inl ⟨d, fun h => hr ?_⟩
        rw [h]
        decide
  have hevents : ∀ now, s.events ≠ [] → (∃ todo, s.handler = .busy todo) ∨ step env s (.handler now) ≠ s := by
    intro now hev
    cases hh : s.handler with
    | idle =>
      refine .inr fun he => ?_
      cases hl : s.events with
      | nil => exact hev hl
      | cons ev rest =>
        have : (step env s (.handler now)).log.length = s.log.length + 1 := by
          simp only [step, stepHandler, hh, hl]
          split <;> simp
        rw [he] at this
        omega
    | busy todo => exact .inl ⟨todo, rfl⟩
    | crashed => simp [handlerAlive, hh] at ha
    | stopped => simp [handlerAlive, hh] at ha
  have goWrite : (∃ c, (s.conns c).queue ≠ []) → ∃ st, ((∃ c, st = Step.read c) ∨ (∃ c, st = .write c) ∨ ∃ now, st = .handler now) ∧ step env s st ≠ s :=
    fun ⟨c, hc⟩ => ⟨.write c, .inr (.inl ⟨c, rfl⟩), hwrite c hc⟩
  have goBusy : (∃ todo, s.handler = .busy todo) → ∃ st, ((∃ c, st = Step.read c) ∨ (∃ c, st = .write c) ∨ ∃ now, st = .handler now) ∧ step env s st ≠ s :=
    fun h => (hhandler 0 h).elim goWrite fun h => ⟨.handler 0, .inr (.inr ⟨0, rfl⟩), h⟩
  have goEvents : s.events ≠ [] → ∃ st, ((∃ c, st = Step.read c) ∨ (∃ c, st = .write c) ∨ ∃ now, st = .handler now) ∧ step env s st ≠ s :=
    fun h => (hevents 0 h).elim goBusy fun h => ⟨.handler 0, .inr (.inr ⟨0, rfl⟩), h⟩
  have goOut : ∀ c, (s.conns c).outbox ≠ none → ∃ st, ((∃ c, st = Step.read c) ∨ (∃ c, st = .write c) ∨ ∃ now, st = .handler now) ∧ step env s st ≠ s := by
    intro c hc
    by_cases hev : s.events = []
    · refine ⟨.read c, .inl ⟨c, rfl⟩, fun he => ?_⟩
      obtain ⟨ev, hev'⟩ := Option.ne_none_iff_exists'.mp hc
      have : (step env s (.read c)).events.length = 1 := by
        unfold step stepRead
        simp [hev', ha, hev, channelCapacity]
      rw [he, hev] at this
      cases this
    · exact goEvents hev
  rcases hw with h | h | ⟨c, h | h | h⟩
  · exact goBusy h
  · exact goEvents h
  · exact goWrite ⟨c, h⟩
  · exact goOut c h
  · by_cases ho : (s.conns c).outbox = none
    · exact ⟨.read c, .inl ⟨c, rfl⟩, read_changes hinv.reads h ho⟩
    · exact goOut c ho

example : (∀ c, ((run exampleEnv (init examplePeers) [.read 0]).conns c).wrBlocked = false)
    ∧ WorkLeft exampleEnv (run exampleEnv (init examplePeers) [.read 0]) := by
  constructor
  · intro c
    exact (stepRead_conn exampleEnv (init examplePeers) 0 c).2.2.2.1.trans rfl
  · refine .inr (.inr ⟨0, .inr (.inl ?_)⟩)
    obtain ⟨rd, hsp, _⟩ := next_hello (env := exampleEnv) (c := 0) (k := (examplePeers 0).conn) (id := "s") (by decide)
      (next_new (examplePeers 0) subscriberPackets (by simp [examplePeers]) subscriber_sendable (by decide +kernel)) rfl
    have : (run exampleEnv (init examplePeers) [.read 0]).conns 0 = readTask exampleEnv 0 (examplePeers 0).conn :=
      setConn_self _ _ _
    rw [this, hsp.2.2]
    simp

/-! ### C52, C54, C55 -/

/-- C52 is violated: connection 0 subscribes to "t" and stops reading; connection 1 publishes 32 messages on "t". Then there is an
execution after which, whatever happens, the handler takes no event any more, and no other connection, whatever it sends, is ever sent
anything, not even the answer to its CONNECT. -/
theorem C52_slow_subscriber_fails (env : Env) (peers : ConnId → Peer) (h0 : (peers 0).segs.flatten = clientBytes subscriberPackets)
    (hw : (peers 0).script = []) (h1 : (peers 1).segs.flatten = clientBytes publisherPackets) :
    ∃ sched, ∀ sched', (run env (init peers) (sched ++ sched')).log = (run env (init peers) sched).log
      ∧ ∀ d, d ≠ 0 → d ≠ 1 → ((run env (init peers) (sched ++ sched')).conns d).delivered = [] := by
  obtain ⟨sched, e, hs, hd⟩ := stall env peers h0 h1 hw
  refine ⟨sched, fun sched' => ?_⟩
  rw [run_append]
  obtain ⟨h2, _⟩ := stuck_run env hs sched'
  exact ⟨h2.log, fun d hd0 hd1 => (h2.delivered d).trans (hd d hd0 hd1)⟩

example : ∃ sched, ∀ sched', (run exampleEnv (init examplePeers) (sched ++ sched')).log = (run exampleEnv (init examplePeers) sched).log :=
  let ⟨sched, h⟩ := C52_slow_subscriber_fails exampleEnv examplePeers (by simp [examplePeers]) (by simp [examplePeers]) (by simp [examplePeers])
  ⟨sched, fun sched' => (h sched').1⟩

/-- C52, the part that holds: that is the only way for the handler to get stuck. From every reachable state in which it is in the middle
of an event there are steps of it and of the write tasks that bring it to its end, unless it crashes (C43) or is waiting for a connection
with 32 packets queued whose write task is parked in the socket. Missing: then it waits for ever. -/
theorem C52_slow_subscriber_partial (env : Env) (peers : ConnId → Peer) (sched : List Step) (now : Instant)
    (todo : List (ConnId × ServerEvent)) (h : (run env (init peers) sched).handler = .busy todo) :
    ∃ sched', (∀ st ∈ sched', (∃ c, st = .write c) ∨ st = .handler now)
      ∧ ((run env (init peers) (sched ++ sched')).handler = .idle ∨ (run env (init peers) (sched ++ sched')).handler = .crashed
        ∨ ∃ d e t, Stuck (run env (init peers) (sched ++ sched')) d e t) := by
  obtain ⟨sched', h1, h2⟩ := settle env now todo _ h fun c => ((inv_run env peers sched).writes c).bound
  exact ⟨sched', h1, by rw [run_append]; exact h2⟩

/-- C54 is violated: connection 0 subscribes to "t" and its TCP connection ends. If nobody else connects, then, once its read task has
ended, its session and subscription are there for ever: a message on "t" would still be sent to that connection. -/
theorem C54_cleanup_fails (env : Env) (peers : ConnId → Peer) (h0 : (peers 0).segs.flatten = clientBytes subscriberPackets)
    (hf : (peers 0).fin = .eof) (hd : ∀ d, d ≠ 0 → NoConnect (peers d).segs.flatten) :
    ∃ sched, ((run env (init peers) sched).conns 0).phase = .ended
      ∧ ∀ sched', ((run env (init peers) (sched ++ sched')).messaging.sessions.get "s").map Session.sender = some 0
        ∧ (run env (init peers) (sched ++ sched')).messaging.sendersToPublish "t" = [0] := by
  obtain ⟨sched, hs⟩ := lost_start env peers h0 hf
  refine ⟨sched, hs.phase, fun sched' => ?_⟩
  have := lost_forever env peers hd sched hs sched'
  rw [this.messaging]
  refine ⟨rfl, ?_⟩
  have h1 : (lostService (peers 0).addr).subscriptions.subscribedClients "t" = some ["s"] := by
    show ((MessagingService.new.subscriptions.subscribe "s" ⟨"t", .atMostOnce⟩).2).subscribedClients "t" = some ["s"]
    decide +kernel
  unfold MessagingService.sendersToPublish
  rw [h1]
  rfl

example : ∃ peers : ConnId → Peer, (peers 0).segs.flatten = clientBytes subscriberPackets ∧ (peers 0).fin = .eof
    ∧ ∀ d, d ≠ 0 → NoConnect (peers d).segs.flatten :=
  ⟨fun c => if c = 0 then examplePeers 0 else examplePeers 4, by simp [examplePeers], by simp [examplePeers], fun d hd => by
    intro first lf n body rest p h
    simp [examplePeers, hd] at h⟩

/-- C54, the part that holds: a "connection lost" event, in any state, removes the session of its client and no other, takes its
subscriptions away as C24 says, and sends nothing. Missing: the listener never makes this event (it is none of those of `From`, C47). -/
theorem C54_cleanup_partial (env : Env) (now : Instant) (m : MessagingService) (id : ClientId) :
    (∃ m', Handler.handle env.auth now m (.connectionLost id) = some (m', [])
      ∧ m'.sessions.get id = none ∧ (∀ c, c ≠ id → m'.sessions.get c = m.sessions.get c)
      ∧ ∀ h, m.subscriptions = repo h → m'.subscriptions = repo (h ++ [.connectionLost id]))
    ∧ ∀ peers sched, ∀ ev ∈ (run env (init peers) sched).log.map Prod.fst, ev ≠ .connectionLost id ∧ ev ≠ .disconnected id := by
  refine ⟨⟨_, rfl, ?_, ?_, ?_⟩, ?_⟩
  · exact (AssocMap.get?_erase _ _ _).trans (if_pos rfl)
  · intro c hc
    exact (AssocMap.get?_erase _ _ _).trans (if_neg hc)
  · intro h hm
    show m.subscriptions.connectionsLost id = _
    simp [repo, applyOp, hm]
  · intro peers sched ev hev
    obtain ⟨c, hc⟩ := (inv_run env peers sched).reads.from_conn ev (List.mem_append_left _ hev)
    constructor <;> rintro rfl <;> exact hc

/-- C55 is violated: in the situation of C52, the handler never stops, whether ctrl-c is pressed or not. -/
theorem C55_shutdown_fails (env : Env) (peers : ConnId → Peer) (h0 : (peers 0).segs.flatten = clientBytes subscriberPackets)
    (hw : (peers 0).script = []) (h1 : (peers 1).segs.flatten = clientBytes publisherPackets) :
    ∃ sched, (run env (init peers) (sched ++ [.ctrlC])).ctrlC = true
      ∧ ∀ sched', (run env (init peers) (sched ++ .ctrlC :: sched')).handler ≠ .stopped
        ∧ (run env (init peers) (sched ++ .ctrlC :: sched')).handler ≠ .crashed := by
  obtain ⟨sched, e, hs, _⟩ := stall env peers h0 h1 hw
  refine ⟨sched, by rw [run_append]; rfl, fun sched' => ?_⟩
  rw [run_append]
  have := (stuck_run env hs (.ctrlC :: sched')).2.1
  rw [this]
  simp

/-- C55, the part that holds: from every reachable state the handler can be brought to a stop after ctrl-c, whatever else goes on, unless
it has crashed, crashes on what it is just sending, or is stuck as in C52. Missing: those. -/
theorem C55_shutdown_partial (env : Env) (peers : ConnId → Peer) (sched : List Step) (now : Instant)
    (hc : (run env (init peers) sched).ctrlC = true) :
    ∃ sched', (∀ st ∈ sched', (∃ c, st = .write c) ∨ st = .handler now ∨ st = .stop)
      ∧ ((run env (init peers) (sched ++ sched')).handler = .stopped ∨ (run env (init peers) (sched ++ sched')).handler = .crashed
        ∨ ∃ d e t, Stuck (run env (init peers) (sched ++ sched')) d e t) := by
  have hstop : ∀ s : Sys, s.ctrlC = true → s.handler = .idle → (run env s [.stop]).handler = .stopped := by
    intro s h1 h2
    simp [run, step, h1, h2]
  cases hh : (run env (init peers) sched).handler with
  | idle => exact ⟨[.stop], by simp, .inl (by rw [run_append]; exact hstop _ hc hh)⟩
  | crashed => exact ⟨[], by simp, .inr (.inl (by simpa using hh))⟩
  | stopped => exact ⟨[], by simp, .inl (by simpa using hh)⟩
  | busy todo =>
    obtain ⟨sched', h1, h2⟩ := C52_slow_subscriber_partial env peers sched now todo hh
    rcases h2 with h2 | h2
    · refine ⟨sched' ++ [.stop], ?_, .inl ?_⟩
      · intro st hst
        rcases List.mem_append.mp hst with h | h
        · exact (h1 st h).imp_right .inl
        · exact .inr (.inr (List.mem_singleton.mp h))
      · rw [← List.append_assoc, run_append]
        refine hstop _ ?_ h2
        rw [run_append]
        exact ctrlC_run env hc sched'
    · exact ⟨sched', fun st hst => (h1 st hst).imp_right .inl, .inr h2⟩

end Ratel
