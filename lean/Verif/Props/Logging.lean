/-
C157–C161: the log. `transcript t env (init peers) sched` are the records made in an execution, `upTo level` those that are written with
RUST_LOG set to that level, `logText` the text. `t` stands for what depends on releases of libraries.
-/
import Verif.Proofs.LogAlike
import Verif.Proofs.LogText
import Verif.Props.System

namespace Ratel

open Spec Sys

theorem transcript_append (t : Texts) (env : Env) (s : Sys) (a b : List Step) :
    transcript t env s (a ++ b) = transcript t env s a ++ transcript t env (run env s a) b := by
  induction a generalizing s with
  | nil => rfl
  | cons x a ih =>
    show records t env s x ++ transcript t env (step env s x) (a ++ b) = _
    rw [ih, ← List.append_assoc]
    rfl

/-- What was logged for an event that was handled. -/
theorem handled_records (t : Texts) (env : Env) (peers : ConnId → Peer) (sched : List Step) {ev : ClientEvent} {now : Instant}
    (h : (ev, now) ∈ (run env (init peers) sched).log) :
    ∃ m, ∀ r ∈ Handler.records t env.auth m ev, r ∈ transcript t env (init peers) sched := by
  obtain ⟨new, h1, h2, h3⟩ := transcript_handler t env (init peers) sched
  rw [h1] at h
  have key : ∀ m evs, Handler.Lives env.auth m evs → (ev, now) ∈ evs →
      ∃ m', ∀ r ∈ Handler.records t env.auth m' ev, r ∈ Handler.history t env.auth m evs := by
    intro m evs
    induction evs generalizing m with
    | nil => intro _ h; exact absurd h List.not_mem_nil
    | cons x evs ih =>
      intro hl hm
      obtain ⟨ev', now'⟩ := x
      simp only [Handler.Lives] at hl
      rcases List.mem_cons.mp hm with he | hm
      · injection he with he _
        subst he
        exact ⟨m, fun r hr => List.mem_append_left _ hr⟩
      · cases hx : Handler.handle env.auth now' m ev' with
        | none => rw [hx] at hl; simp only at hl; subst hl; exact absurd hm List.not_mem_nil
        | some z =>
          rw [hx] at hl
          obtain ⟨m', h⟩ := ih z.1 hl hm
          refine ⟨m', fun r hr => List.mem_append_right _ ?_⟩
          rw [hx]
          exact h r hr
  obtain ⟨m, h⟩ := key _ _ h2 (by simpa [init] using h)
  refine ⟨m, fun r hr => ?_⟩
  have : r ∈ (transcript t env (init peers) sched).filter ofHandler := by rw [h3]; exact List.mem_append_left _ (h r hr)
  exact (List.mem_filter.mp this).1

/-! ### C157 -/

theorem escapeChar_plain {t : Texts} {c : Char} (h : t.printable c = true ∧ ¬ Control c ∧ c ≠ '\\' ∧ c ≠ '"') : Fmt.escapeChar t c = [c] := by
  obtain ⟨h1, h2, h3, h4⟩ := h
  have hc : ∀ d : Char, Control d → c ≠ d := fun d hd he => h2 (he ▸ hd)
  unfold Fmt.escapeChar
  rw [if_neg (hc _ (.inl (by decide +kernel))), if_neg (hc _ (.inl (by decide +kernel))), if_neg (hc _ (.inl (by decide +kernel))),
    if_neg (hc _ (.inl (by decide +kernel))), if_neg h3, if_neg h4, if_pos h1]

theorem quoted_plain {t : Texts} {s : String} (h : PlainText t s) : s.toList <:+: Fmt.quoted t s := by
  have key : ∀ l : List Char, (∀ c ∈ l, t.printable c = true ∧ ¬ Control c ∧ c ≠ '\\' ∧ c ≠ '"') → l.flatMap (Fmt.escapeChar t) = l := by
    intro l
    induction l with
    | nil => intro _; rfl
    | cons c l ih =>
      intro h
      rw [List.flatMap_cons, escapeChar_plain (h c List.mem_cons_self), ih fun d hd => h d (List.mem_cons_of_mem _ hd)]
      rfl
  refine ⟨['"'], ['"'], ?_⟩
  unfold Fmt.quoted
  rw [key _ h]

theorem bytes_plain {l : List UInt8} (h : PlainBytes l) : l.map (fun b => Char.ofNat b.toNat) <:+: Fmt.bytes l := by
  have key : l.flatMap Fmt.escapeByte = l.map fun b => Char.ofNat b.toNat := by
    induction l with
    | nil => rfl
    | cons b l ih =>
      rw [List.flatMap_cons, ih fun d hd => h d (List.mem_cons_of_mem _ hd), List.map_cons]
      have hb := h b List.mem_cons_self
      have : Fmt.escapeByte b = [Char.ofNat b.toNat] := by
        have hall : ∀ n : Fin 256, 0x20 ≤ UInt8.ofNat n.val ∧ UInt8.ofNat n.val < 0x7f ∧ UInt8.ofNat n.val ≠ 0x22 ∧ UInt8.ofNat n.val ≠ 0x5c →
            Fmt.escapeByte (UInt8.ofNat n.val) = [Char.ofNat (UInt8.ofNat n.val).toNat] := by decide +kernel
        have := hall ⟨b.toNat, b.toNat_lt⟩
        simp only [UInt8.ofNat_toNat] at this
        exact this hb
      rw [this]
      rfl
  refine ⟨['b', '"'], ['"'], ?_⟩
  unfold Fmt.bytes
  rw [key]

theorem infix_mid {a b c : List Char} (h : a <:+: b) : a <:+: c ++ b := h.trans (List.suffix_append _ _).isInfix

theorem infix_left {a b c : List Char} (h : a <:+: b) : a <:+: b ++ c := h.trans (List.prefix_append _ _).isInfix

theorem password_shown (t : Texts) (p : ConnectPacket) {pw : String} (hp : p.password = some pw) : Fmt.quoted t pw <:+: Fmt.connect t p := by
  unfold Fmt.connect
  rw [hp]
  exact infix_left (infix_mid (infix_left (infix_mid List.infix_rfl)))

theorem user_shown (t : Texts) (p : ConnectPacket) {u : String} (hu : p.userName = some u) : Fmt.quoted t u <:+: Fmt.connect t p := by
  unfold Fmt.connect
  rw [hu]
  exact infix_left (infix_left (infix_left (infix_mid (infix_left (infix_mid List.infix_rfl)))))

theorem event_connect_shown (t : Texts) (p : ConnectPacket) (a : SocketAddr) (c : ConnId) :
    Fmt.connect t p <:+: Fmt.clientEvent t (.connected p a c) :=
  ⟨"Connected(".toList, ", ".toList ++ t.address a ++ ", ".toList ++ t.sender c ++ [')'], by
    show _ = "Connected(".toList ++ Fmt.connect t p ++ ", ".toList ++ t.address a ++ ", ".toList ++ t.sender c ++ [')']
    simp only [List.append_assoc]⟩

theorem payload_shown (t : Texts) (id : ClientId) (q : PublishPacket) (c : ConnId) :
    Fmt.bytes q.message.payload <:+: Fmt.clientEvent t (.controlPacket id (.publish q) c) := by
  have h1 : Fmt.bytes q.message.payload <:+: Fmt.message t q.message := by
    unfold Fmt.message
    exact infix_left (infix_left (infix_left (infix_left (infix_left (infix_mid List.infix_rfl)))))
  have h2 : Fmt.message t q.message <:+: Fmt.packet t (.publish q) := by
    show _ <:+: "Publish(PublishPacket { packet_id: ".toList ++ Fmt.option (fun n : UInt16 => Fmt.decimal n.toNat) q.packetId ++ ", dup: ".toList
      ++ Fmt.bool q.dup ++ ", message: ".toList ++ Fmt.message t q.message ++ " })".toList
    exact infix_left (infix_mid List.infix_rfl)
  have h3 : Fmt.packet t (.publish q) <:+: Fmt.clientEvent t (.controlPacket id (.publish q) c) := by
    show _ <:+: "ControlPacket(".toList ++ Fmt.quoted t id ++ ", ".toList ++ Fmt.packet t (.publish q) ++ ", ".toList ++ t.sender c ++ [')']
    exact infix_left (infix_left (infix_left (infix_mid List.infix_rfl)))
  exact h1.trans (h2.trans h3)

theorem refusal_login {auth auth' : IdentityProvider} {p p' : ConnectPacket} {a a' : SocketAddr} {c c' : ConnId}
    (hu : p.userName = p'.userName) (hp : p.password.isSome = p'.password.isSome)
    (hr : refusal auth (.connected p a c) = refusal auth' (.connected p' a' c')) : login auth p = login auth' p' := by
  unfold refusal at hr
  simp only at hr
  unfold login
  rw [← hu] at hr ⊢
  cases hn : p.userName with
  | none => rfl
  | some u =>
    rw [hn] at hr
    cases hq : p.password with
    | none =>
      rw [hq] at hp
      cases hq' : p'.password with
      | none => rfl
      | some _ => rw [hq'] at hp; simp at hp
    | some pw =>
      rw [hq] at hp hr
      cases hq' : p'.password with
      | none => rw [hq'] at hp; simp at hp
      | some pw' =>
        rw [hq'] at hr
        simp only at hr ⊢
        cases h1 : auth u pw <;> cases h2 : auth' u pw' <;> rw [h1, h2] at hr <;> simp at hr <;> rfl

/-- Events that differ in secrets only are logged alike, short of TRACE. -/
theorem alike_of_redacted {auth auth' : IdentityProvider} {ev ev' : ClientEvent} (h : redacted ev = redacted ev')
    (hr : refusal auth ev = refusal auth' ev') : LogAlike auth auth' ev ev' := by
  cases ev with
  | connected p a c =>
    cases ev' with
    | connected p' a' c' =>
      simp only [redacted, ClientEvent.connected.injEq, ConnectPacket.mk.injEq] at h
      obtain ⟨⟨_, h1, _, _, _, h2, h3⟩, _, _⟩ := h
      refine .connect h1 hr (refusal_login h2 ?_ hr)
      have := congrArg Option.isSome h3
      simpa using this
    | controlPacket id' p' c' => cases p' <;> simp [redacted] at h
    | disconnected id' => simp [redacted] at h
    | connectionLost id' => simp [redacted] at h
  | controlPacket id p c =>
    cases ev' with
    | connected p' a' c' => cases p <;> simp [redacted] at h
    | controlPacket id' p' c' =>
      cases p <;> cases p' <;> simp only [redacted, ClientEvent.controlPacket.injEq, reduceCtorEq, false_and, and_false] at h
      all_goals obtain ⟨rfl, h, -⟩ := h
      case connect.connect => exact .second
      case publish.publish q q' =>
        simp only [ControlPacket.publish.injEq, PublishPacket.mk.injEq, Message.mk.injEq] at h
        exact .publish h.2.2.1
      all_goals first | (rw [h]; exact .packet) | exact .packet
    | disconnected id' => cases p <;> simp [redacted] at h
    | connectionLost id' => cases p <;> simp [redacted] at h
  | disconnected id =>
    cases ev' with
    | connected p' a' c' => simp [redacted] at h
    | controlPacket id' p' c' => cases p' <;> simp [redacted] at h
    | disconnected id' => simp only [redacted, ClientEvent.disconnected.injEq] at h; rw [h]; exact .disconnected
    | connectionLost id' => simp [redacted] at h
  | connectionLost id =>
    cases ev' with
    | connected p' a' c' => simp [redacted] at h
    | controlPacket id' p' c' => cases p' <;> simp [redacted] at h
    | disconnected id' => simp [redacted] at h
    | connectionLost id' => simp only [redacted, ClientEvent.connectionLost.injEq] at h; rw [h]; exact .lost

theorem alikes_of {auth auth' : IdentityProvider} {r : ClientEvent × Instant → ClientEvent × Instant → Prop}
    (hr : ∀ x y, r x y → LogAlike auth auth' x.1 y.1) {l l' : List (ClientEvent × Instant)} (h : Matched r l l') :
    LogAlikes auth auth' l l' := by
  induction h with
  | nil => exact .nil
  | @cons a b l l' h hl ih => exact .cons (ev := a.1) (ev' := b.1) (now := a.2) (now' := b.2) (hr a b h) ih

/-- The log of the packet handler, short of TRACE, in executions whose events are logged alike. -/
theorem debug_alike (t : Texts) (env env' : Env) (peers peers' : ConnId → Peer) (sched sched' : List Step)
    (h : LogAlikes env.auth env'.auth (run env (init peers) sched).log (run env' (init peers') sched').log)
    (hs : (run env (init peers) sched).handler = .stopped ↔ (run env' (init peers') sched').handler = .stopped) :
    upTo .debug ((transcript t env (init peers) sched).filter ofHandler)
      = upTo .debug ((transcript t env' (init peers') sched').filter ofHandler) := by
  obtain ⟨new, h1, _, h3⟩ := transcript_handler t env (init peers) sched
  obtain ⟨new', h1', _, h3'⟩ := transcript_handler t env' (init peers') sched'
  have e1 : (run env (init peers) sched).log = new := by rw [h1]; rfl
  have e2 : (run env' (init peers') sched').log = new' := by rw [h1']; rfl
  rw [e1, e2] at h
  rw [h3, h3', upTo_append, upTo_append]
  have hm : (init peers).messaging = (init peers').messaging := rfl
  rw [history_alike (t := t) (m := (init peers).messaging) (m' := (init peers').messaging) ⟨rfl, fun _ => rfl⟩ h]
  congr 2
  unfold endsNow
  simp only [hs]
  rfl

/-- C157, the part that holds: with RUST_LOG set to DEBUG or something coarser, neither passwords nor the contents of messages get into the
log. (1) Take any two executions in which the same events are handled in the same order, except that passwords and contents of messages differ;
then as long as the same logins are refused for the same reasons, the packet handler and the messaging service log the same. (2) All other tasks
log fixed texts and the errors of sockets only. Missing: TRACE. -/
theorem C157_debug_partial (t : Texts) (env env' : Env) (peers peers' : ConnId → Peer) (sched sched' : List Step) :
    (Matched (fun x y => redacted x.1 = redacted y.1 ∧ refusal env.auth x.1 = refusal env'.auth y.1)
        (run env (init peers) sched).log (run env' (init peers') sched').log →
      ((run env (init peers) sched).handler = .stopped ↔ (run env' (init peers') sched').handler = .stopped) →
      upTo .debug ((transcript t env (init peers) sched).filter ofHandler)
        = upTo .debug ((transcript t env' (init peers') sched').filter ofHandler))
    ∧ ∀ r ∈ upTo .debug (transcript t env (init peers) sched), ofHandler r = false →
      r.message = "Error while sending client event to be processed: channel closed".toList
      ∨ r.message = "The first received packet is not CONNECT".toList
      ∨ r.message = "Stopping RatelMQ...".toList
      ∨ ∃ e, r.message = "Error while writing packet: ".toList ++ t.ioError e := by
  refine ⟨fun h hs => debug_alike t env env' peers peers' sched sched' (alikes_of (fun x y h => alike_of_redacted h.1 h.2) h) hs,
    fun r hr ho => ?_⟩
  obtain ⟨h1, h2⟩ := List.mem_filter.mp hr
  rcases transcript_others h1 ho with h | h
  · rw [h] at h2; exact absurd h2 (by decide)
  · exact h

/-- C157 is violated: with RUST_LOG set to TRACE the password of every CONNECT, right or wrong, is in the log as soon as the CONNECT has been
read from the socket; whoever else is connected and whatever happened before. -/
theorem C157_password_fails (t : Texts) (env : Env) (peers : ConnId → Peer) (sched : List Step) (c : ConnId) (q : Connect)
    (more : List ClientPacket) (hq : Sendable (.connect q :: more)) (pw : String) (hp : q.password = some pw) (ht : PlainText t pw)
    (hb : (peers c).segs.flatten = clientBytes (.connect q :: more)) (hl : (clientBytes (.connect q :: more)).length < 4096)
    (hc : (run env (init peers) sched).conns c = (peers c).conn) :
    ∃ r ∈ upTo .trace (transcript t env (init peers) (sched ++ [.read c])), pw.toList <:+: r.message := by
  have hn := next_new (peers c) _ hb hq hl
  rw [← hc] at hn
  obtain ⟨h1, h2, h3⟩ := hn.legal _ List.mem_cons_self
  obtain ⟨rd, h4, _, _⟩ := read_legal env.alloc env.profile h1 h2 h3 (rest := clientBytes more) (fin := (peers c).fin) hn.rel hn.small
  have hmem : (⟨.trace, .listener, "Read the first packet: ".toList ++ Fmt.packet t (meaning (.connect q))⟩ : LogRecord)
      ∈ readRecords t env (run env (init peers) sched) c := by
    unfold readRecords
    simp only [hn.free]
    have hph : ((run env (init peers) sched).conns c).phase = .first := by rw [hc]; rfl
    simp only [hph]
    rw [h4]
    exact List.mem_cons_self
  refine ⟨⟨.trace, .listener, "Read the first packet: ".toList ++ Fmt.packet t (meaning (.connect q))⟩, List.mem_filter.mpr ⟨?_, rfl⟩, ?_⟩
  · rw [transcript_append]
    exact List.mem_append_right _ (List.mem_append_left _ hmem)
  · refine infix_mid ((quoted_plain ht).trans ((password_shown t
      ⟨.mqtt3, q.clientId, q.keepAlive, q.cleanSession, q.will.map fun (t, m, q, r) => { topic := t, payload := m, qos := q, retain := r },
        q.userName, q.password⟩ hp).trans ?_))
    exact ⟨"Connect(".toList, [')'], rfl⟩

/-- C157 is violated: with RUST_LOG set to TRACE the passwords of all CONNECTs and the contents of all messages handled are in the log, in
every execution. -/
theorem C157_all_fails (t : Texts) (env : Env) (peers : ConnId → Peer) (sched : List Step) :
    (∀ p a c now pw, (ClientEvent.connected p a c, now) ∈ (run env (init peers) sched).log → p.password = some pw → PlainText t pw →
      ∃ r ∈ upTo .trace (transcript t env (init peers) sched), pw.toList <:+: r.message)
    ∧ ∀ id q c now, (ClientEvent.controlPacket id (.publish q) c, now) ∈ (run env (init peers) sched).log → PlainBytes q.message.payload →
      ∃ r ∈ upTo .trace (transcript t env (init peers) sched), q.message.payload.map (fun b => Char.ofNat b.toNat) <:+: r.message := by
  have key : ∀ ev now, (ev, now) ∈ (run env (init peers) sched).log →
      (⟨.trace, .handler, "Got event ".toList ++ Fmt.clientEvent t ev⟩ : LogRecord) ∈ upTo .trace (transcript t env (init peers) sched) := by
    intro ev now h
    obtain ⟨m, hm⟩ := handled_records t env peers sched h
    exact List.mem_filter.mpr ⟨hm _ List.mem_cons_self, rfl⟩
  refine ⟨fun p a c now pw h hp ht => ⟨_, key _ _ h, ?_⟩, fun id q c now h hb => ⟨_, key _ _ h, ?_⟩⟩
  · exact infix_mid ((quoted_plain ht).trans ((password_shown t p hp).trans (event_connect_shown t p a c)))
  · exact infix_mid ((bytes_plain hb).trans (payload_shown t id q c))

/-! ### C158 -/

/-- C158: with RUST_LOG set to INFO, as in the image, or to something finer, the log shows the refused logins, each once, in the order in which
they were handled, with the name of the user and the reason; and no others, whatever clients send. -/
theorem C158_refusals (t : Texts) (env : Env) (peers : ConnId → Peer) (sched : List Step) (level : Level)
    (hlevel : level = .info ∨ level = .debug ∨ level = .trace) :
    (upTo level (transcript t env (init peers) sched)).filterMap (shown t)
      = (run env (init peers) sched).log.filterMap fun x => refusal env.auth x.1 := by
  have hup : ∀ rs : List LogRecord, (upTo level rs).filterMap (shown t) = rs.filterMap (shown t) := by
    intro rs
    induction rs with
    | nil => rfl
    | cons r rs ih =>
      by_cases hr : r.level.rank ≤ level.rank
      · have : upTo level (r :: rs) = r :: upTo level rs := by unfold upTo; rw [List.filter_cons, if_pos (by simpa using hr)]
        rw [this, List.filterMap_cons, List.filterMap_cons, ih]
      · have : upTo level (r :: rs) = upTo level rs := by unfold upTo; rw [List.filter_cons, if_neg (by simpa using hr)]
        rw [this, ih, List.filterMap_cons_none]
        refine shown_level (.inl fun hi => hr ?_)
        rw [hi]
        rcases hlevel with rfl | rfl | rfl <;> decide
  have hof : ∀ rs : List LogRecord, (rs.filter ofHandler).filterMap (shown t) = rs.filterMap (shown t) := by
    intro rs
    induction rs with
    | nil => rfl
    | cons r rs ih =>
      by_cases hr : ofHandler r = true
      · rw [List.filter_cons, if_pos hr, List.filterMap_cons, List.filterMap_cons, ih]
      · rw [List.filter_cons, if_neg hr, ih, List.filterMap_cons_none]
        refine shown_level (.inr fun hi => hr ?_)
        simp [ofHandler, hi]
  obtain ⟨new, h1, h2, h3⟩ := transcript_handler t env (init peers) sched
  rw [hup, ← hof, h3, List.filterMap_append, shown_history t env.auth _ _ h2]
  have he : (endsNow env (init peers) sched).filterMap (shown t) = [] := by
    unfold endsNow
    split
    · refine filterMap_nil fun r hr => shown_level (.inl ?_)
      simp only [stopRecords, List.mem_cons, List.not_mem_nil, or_false] at hr
      rcases hr with rfl | rfl <;> simp
    · rfl
  rw [he, List.append_nil, h1]
  rfl

/-! ### C159 -/

/-- C159: from the text of the log the records can be told, each with its time, level, module and message, whatever texts are in the messages.
In particular a client cannot make the log show records that were not made. -/
theorem C159_readable (log log' : List (List Char × LogRecord)) (h1 : ∀ x ∈ log, ' ' ∉ x.1) (h2 : ∀ x ∈ log', ' ' ∉ x.1)
    (h : logText log = logText log') : log = log' := logText_inj h1 h2 h

/-- C159 and C158 together: two executions that leave the same text refused the same logins. -/
theorem C159_same_text (t : Texts) (env env' : Env) (peers peers' : ConnId → Peer) (sched sched' : List Step) (level : Level)
    (hlevel : level = .info ∨ level = .debug ∨ level = .trace) (log log' : List (List Char × LogRecord))
    (h1 : ∀ x ∈ log, ' ' ∉ x.1) (h2 : ∀ x ∈ log', ' ' ∉ x.1)
    (hl : log.map Prod.snd = upTo level (transcript t env (init peers) sched))
    (hl' : log'.map Prod.snd = upTo level (transcript t env' (init peers') sched'))
    (h : logText log = logText log') :
    ((run env (init peers) sched).log.filterMap fun x => refusal env.auth x.1)
      = (run env' (init peers') sched').log.filterMap fun x => refusal env'.auth x.1 := by
  rw [← C158_refusals t env peers sched level hlevel, ← C158_refusals t env' peers' sched' level hlevel, ← hl, ← hl',
    C159_readable log log' h1 h2 h]

/-! ### C160 -/

/-- C160, the part that holds: control characters get into a record in two ways only: as part of the user name of a refused login, or of the
client id of a PINGREQ from a client without session. Missing: these. -/
theorem C160_control_partial (t : Texts) (ht : Sober t) (env : Env) (peers : ConnId → Peer) (sched : List Step) (r : LogRecord)
    (hr : r ∈ transcript t env (init peers) sched) (ch : Char) (hch : ch ∈ r.message) (hk : Control ch) :
    (∃ u e, ch ∈ u.toList ∧ r = ⟨.info, .handler, "Client ".toList ++ String.toList u ++ " authentication error: ".toList ++ Fmt.authError t e⟩)
    ∨ ∃ id, ch ∈ id.toList ∧ r = ⟨.error, .handler, "Received PING from not existing session with client id ".toList ++ String.toList id⟩ := by
  rcases transcript_clean ht hr with h | ⟨u, e, h⟩ | ⟨id, h⟩
  · exact absurd hk (h ch hch)
  · refine .inl ⟨u, e, ?_, h⟩
    rw [h] at hch
    have hclean : Clean (Fmt.authError t e) := by
      cases e with
      | userNotFound => exact clean_of (l := "UserNotFound".toList) (by decide +kernel)
      | invalidPassword => exact clean_of (l := "InvalidPassword".toList) (by decide +kernel)
      | encryptionError =>
        rw [authError_encryption]
        exact clean_append (clean_lit2 (by decide +kernel) ht.hashError) (clean_of (by decide +kernel))
    simp only [Handler.refusalRecord] at hch
    rcases List.mem_append.mp hch with hch | hch
    · rcases List.mem_append.mp hch with hch | hch
      · rcases List.mem_append.mp hch with hch | hch
        · exact absurd hk (clean_of (l := "Client ".toList) (by decide +kernel) ch hch)
        · exact hch
      · exact absurd hk (clean_of (l := " authentication error: ".toList) (by decide +kernel) ch hch)
    · exact absurd hk (hclean ch hch)
  · refine .inr ⟨id, ?_, h⟩
    rw [h] at hch
    simp only [Handler.strayPingRecord] at hch
    rcases List.mem_append.mp hch with hch | hch
    · exact absurd hk (clean_of (l := "Received PING from not existing session with client id ".toList) (by decide +kernel) ch hch)
    · exact hch

/-- C160 is violated: whenever the packet handler is at rest, a new connection whose CONNECT carries any text at all as user name, and a wrong
password, puts that text into the log as it is, at level INFO. -/
theorem C160_user_name_fails (t : Texts) (env : Env) (peers : ConnId → Peer) (sched : List Step) (c : ConnId) (q : Connect)
    (more : List ClientPacket) (hq : Sendable (.connect q :: more)) (user pw : String) (hu : q.userName = some user)
    (hp : q.password = some pw) (e : AuthenticationError) (ha : env.auth user pw = .error e)
    (hb : (peers c).segs.flatten = clientBytes (.connect q :: more)) (hl : (clientBytes (.connect q :: more)).length < 4096)
    (hh : (run env (init peers) sched).handler = .idle) (he : (run env (init peers) sched).events = [])
    (hc : (run env (init peers) sched).conns c = (peers c).conn) :
    ∃ r ∈ upTo .info (transcript t env (init peers) (sched ++ [.read c, .read c, .handler 0])), user.toList <:+: r.message := by
  have hn := next_new (peers c) _ hb hq hl
  rw [← hc] at hn
  obtain ⟨rd, hsp, _⟩ := next_first (env := env) (c := c) hn (by rw [hc]; rfl) _ rfl
  refine ⟨Handler.refusalRecord t user e, List.mem_filter.mpr ⟨?_, rfl⟩, ?_⟩
  · rw [transcript_append]
    refine List.mem_append_right _ ?_
    show _ ∈ transcript t env _ ([.read c, .read c] ++ [.handler 0])
    rw [transcript_append, enter env ⟨hh, he, rfl⟩ hsp]
    refine List.mem_append_right _ (List.mem_append_left _ ?_)
    simp only [records, handlerRecords, setConn_handler, hh, setConn_events]
    refine List.mem_cons_of_mem _ ?_
    simp only [Handler.connectRecords, hu, hp, ha]
    exact List.mem_cons_of_mem _ List.mem_cons_self
  · exact infix_left (infix_left (infix_mid List.infix_rfl))

/-- C160 is violated: whenever the packet handler is at rest, a new connection with a CONNECT that is refused, followed by a PINGREQ, can put
any client id, if no client is connected with it, into the log as it is, at level ERROR. -/
theorem C160_client_id_fails (t : Texts) (env : Env) (peers : ConnId → Peer) (sched : List Step) (c : ConnId) (q : Connect)
    (more : List ClientPacket) (hq : Sendable (.connect q :: .pingReq :: more)) (user pw : String) (hu : q.userName = some user)
    (hp : q.password = some pw) (e : AuthenticationError) (ha : env.auth user pw = .error e) (hid : q.clientId ≠ "")
    (hb : (peers c).segs.flatten = clientBytes (.connect q :: .pingReq :: more))
    (hl : (clientBytes (.connect q :: .pingReq :: more)).length < 4096)
    (hh : (run env (init peers) sched).handler = .idle) (he : (run env (init peers) sched).events = [])
    (hno : (run env (init peers) sched).messaging.sessionExists q.clientId = false)
    (hc : (run env (init peers) sched).conns c = (peers c).conn) :
    ∃ sched', ∃ r ∈ upTo .error (transcript t env (init peers) (sched ++ sched')), q.clientId.toList <:+: r.message := by
  have hn := next_new (peers c) _ hb hq hl
  rw [← hc] at hn
  obtain ⟨rd, hsp, hn'⟩ := next_first (env := env) (c := c) hn (by rw [hc]; rfl) _ rfl
  have hrx : ((run env (init peers) sched).conns c).rxOpen = true := by rw [hc]; rfl
  have hqu : ((run env (init peers) sched).conns c).queue = [] := by rw [hc]; rfl
  suffices h : ∃ sched', Handler.strayPingRecord q.clientId ∈ transcript t env (run env (init peers) sched) sched' by
    obtain ⟨sched', h⟩ := h
    refine ⟨sched', Handler.strayPingRecord q.clientId, List.mem_filter.mpr ⟨?_, rfl⟩, infix_mid List.infix_rfl⟩
    rw [transcript_append]
    exact List.mem_append_right _ h
  generalize run env (init peers) sched = s at *
  clear hc
  obtain ⟨sa, qa, _, _, ca⟩ := turn env 0 ⟨hh, he, rfl⟩ hsp (C33_refused env.auth 0 s.messaging _ _ c user pw hu hp e ha) (by
    intro d hd
    by_cases h : d = c
    · subst h
      simp [sentTo, hrx, hqu, channelCapacity]
    · have : c ≠ d := fun h' => h h'.symm
      simp [sentTo, this] at hd)
  have ca := congrFun ca c
  generalize hsA : run env s sa = sA at *
  simp only [withSends, setConn_self] at ca
  have nb : Next (sA.conns c) (.pingReq :: more) (peers c).fin := hn'.congr (by rw [ca]) (by rw [ca])
  obtain ⟨rd', hsp', _⟩ := next_running (env := env) (c := c) nb (id := q.clientId) (by rw [ca]; simp [effectiveClientId, hid])
  refine ⟨sa ++ ([.read c, .read c] ++ [.handler 0]), ?_⟩
  rw [transcript_append, hsA, transcript_append, enter env qa hsp']
  refine List.mem_append_right _ (List.mem_append_right _ (List.mem_append_left _ ?_))
  simp only [records, handlerRecords, setConn_handler, qa.idle, setConn_events]
  refine List.mem_cons_of_mem _ (List.mem_cons_of_mem _ ?_)
  show _ ∈ if sA.messaging.sessionExists q.clientId = true then [] else [Handler.strayPingRecord q.clientId]
  rw [qa.messaging, hno]
  exact List.mem_singleton.mpr rfl

/-! ### C161 -/

/-- C161 is violated: with RUST_LOG set to DEBUG or something coarser it cannot be told from the log as which user a client has logged in,
nor whether it gave a user name at all. Take any two executions in which the same events are handled, except that accepted CONNECTs of the same
client ids come from other users, with other passwords, from other addresses; then the packet handler and the messaging service log the same. -/
theorem C161_who_fails (t : Texts) (env env' : Env) (peers peers' : ConnId → Peer) (sched sched' : List Step)
    (h : Matched (fun x y => (x.1 = y.1 ∧ refusal env.auth x.1 = refusal env'.auth y.1)
          ∨ ∃ p a c p' a' c', x.1 = .connected p a c ∧ y.1 = .connected p' a' c' ∧ p.clientId = p'.clientId
            ∧ login env.auth p = .accepted ∧ login env'.auth p' = .accepted)
        (run env (init peers) sched).log (run env' (init peers') sched').log)
    (hs : (run env (init peers) sched).handler = .stopped ↔ (run env' (init peers') sched').handler = .stopped) :
    upTo .debug ((transcript t env (init peers) sched).filter ofHandler)
      = upTo .debug ((transcript t env' (init peers') sched').filter ofHandler) := by
  refine debug_alike t env env' peers peers' sched sched' (alikes_of ?_ h) hs
  rintro x y (⟨h1, h2⟩ | ⟨p, a, c, p', a', c', h1, h2, h3, h4, h5⟩)
  · exact alike_of_redacted (by rw [h1]) h2
  · have key : ∀ (auth : IdentityProvider) (p : ConnectPacket) (a : SocketAddr) (c : ConnId), login auth p = .accepted →
        refusal auth (.connected p a c) = none := by
      intro auth p a c hl
      unfold login at hl
      unfold refusal
      simp only
      cases hu : p.userName with
      | none => rfl
      | some u =>
        cases hp : p.password with
        | none => rfl
        | some pw =>
          rw [hu, hp] at hl
          simp only at hl ⊢
          cases ha : auth u pw with
          | ok _ => rfl
          | error e => rw [ha] at hl; simp at hl
    rw [h1, h2]
    exact .connect h3 (by rw [key _ _ _ _ h4, key _ _ _ _ h5]) (by rw [h4, h5])

/-- C161, the part that holds: with RUST_LOG set to TRACE, for every CONNECT handled there is a record that shows user name and client id.
Missing: DEBUG and INFO. -/
theorem C161_trace_partial (t : Texts) (env : Env) (peers : ConnId → Peer) (sched : List Step) (p : ConnectPacket) (a : SocketAddr) (c : ConnId)
    (now : Instant) (u : String) (h : (ClientEvent.connected p a c, now) ∈ (run env (init peers) sched).log) (hu : p.userName = some u) :
    ∃ r ∈ upTo .trace (transcript t env (init peers) sched), Fmt.quoted t u <:+: r.message ∧ Fmt.quoted t p.clientId <:+: r.message := by
  obtain ⟨m, hm⟩ := handled_records t env peers sched h
  refine ⟨_, List.mem_filter.mpr ⟨hm _ List.mem_cons_self, rfl⟩, ?_, ?_⟩
  · exact infix_mid ((user_shown t p hu).trans (event_connect_shown t p a c))
  · refine infix_mid (List.IsInfix.trans ?_ (event_connect_shown t p a c))
    unfold Fmt.connect
    iterate 11 refine infix_left ?_
    exact infix_mid List.infix_rfl

/-! ### Examples -/

/-- Characters outside ASCII are escaped, socket addresses are shown as "addr", and so on. -/
def exampleTexts : Texts := ⟨fun c => 32 ≤ c.toNat && c.toNat < 127, fun _ => "io".toList, "hash".toList, fun _ => "Sender".toList, fun _ => "addr".toList⟩

theorem exampleTexts_sober : Sober exampleTexts := by
  have h : ∀ l : List Char, cleanB l = true → ∀ c ∈ l, ¬ Control c := fun l hl => clean_of hl
  refine ⟨fun c hc hk => ?_, fun _ => h "io".toList (by decide +kernel), h "hash".toList (by decide +kernel),
    fun _ => h "Sender".toList (by decide +kernel), fun _ => h "addr".toList (by decide +kernel)⟩
  simp only [exampleTexts, Bool.and_eq_true, decide_eq_true_eq] at hc
  unfold Control at hk
  omega

/-- The log at level INFO of a client whose login is refused, and that keeps talking. -/
example : (upTo .info (transcript exampleTexts exampleEnv (init examplePeers) [.read 3, .read 3, .handler 0, .handler 0, .handler 0, .read 3, .read 3, .handler 0])).map (·.message)
    = ["Client u authentication error: UserNotFound".toList, "Received PING from not existing session with client id y".toList] := by
  decide +kernel

/-- C157: the password. -/
example : ∃ r ∈ upTo .trace (transcript exampleTexts exampleEnv (init examplePeers) ([] ++ [.read 3])), "p".toList <:+: r.message :=
  C157_password_fails exampleTexts exampleEnv examplePeers [] 3 _ [.pingReq] example_wrong "p" rfl (by
    intro c hc
    have e : "p".toList = ['p'] := by decide +kernel
    rw [e, List.mem_singleton] at hc
    subst hc
    exact ⟨by decide +kernel, by unfold Control; decide, by decide, by decide⟩) (by simp [examplePeers]) (by decide +kernel) rfl

/-- C157: two executions that differ in the password. -/
def otherPeers (pw : String) : ConnId → Peer := fun _ =>
  ⟨someAddr, "u", [clientBytes [.connect ⟨"MQTT", 4, true, 60, "y", none, some "u", some pw⟩]], .eof, []⟩

example : upTo .debug ((transcript exampleTexts exampleEnv (init (otherPeers "p")) [.read 3, .read 3, .handler 0]).filter ofHandler)
    = upTo .debug ((transcript exampleTexts exampleEnv (init (otherPeers "secret")) [.read 3, .read 3, .handler 0]).filter ofHandler) :=
  (C157_debug_partial exampleTexts exampleEnv exampleEnv (otherPeers "p") (otherPeers "secret") _ _).1 (by
    have e : ∀ pw ∈ ["p", "secret"], (run exampleEnv (init (otherPeers pw)) [.read 3, .read 3, .handler 0]).log
        = [(.connected ⟨.mqtt3, "y", 60, true, none, some "u", some pw⟩ someAddr 3, 0)] := by decide +kernel
    rw [e "p" (by simp), e "secret" (by simp)]
    exact .cons ⟨rfl, rfl⟩ .nil) (by
    have e : ∀ pw ∈ ["p", "secret"], (run exampleEnv (init (otherPeers pw)) [.read 3, .read 3, .handler 0]).handler ≠ .stopped := by decide +kernel
    exact ⟨fun h => absurd h (e "p" (by simp)), fun h => absurd h (e "secret" (by simp))⟩)

/-- C158: the refusal of that execution. -/
example : (run exampleEnv (init (otherPeers "p")) [.read 3, .read 3, .handler 0]).log.filterMap (fun x => refusal exampleEnv.auth x.1)
    = [("u", .userNotFound)] := by decide +kernel

/-- C159: a message that looks like a record of its own is seen not to be one. -/
example : logText [("t".toList, ⟨.info, .handler, "Client a\n[t INFO  ratelmq] authentication error: UserNotFound".toList⟩)]
    = "[t INFO  ratelmq::broker::client_packet_handler] Client a\n    [t INFO  ratelmq] authentication error: UserNotFound\n".toList := by decide +kernel

/-- C160: a user name with a line feed and an escape sequence. -/
def rudePeers : ConnId → Peer := fun _ =>
  ⟨someAddr, "u", [clientBytes [.connect ⟨"MQTT", 4, true, 60, "y\n", none, some "u\x1b[2J", some "p"⟩, .pingReq]], .eof, []⟩

theorem example_rude : Sendable [.connect ⟨"MQTT", 4, true, 60, "y\n", none, some "u\x1b[2J", some "p"⟩, .pingReq] := by
  intro c hc
  simp only [List.mem_cons, List.not_mem_nil, or_false] at hc
  rcases hc with rfl | rfl
  · refine ⟨⟨?_, ?_, ?_, ?_, by simp⟩, rfl, by decide +kernel⟩
    · unfold Fits; decide +kernel
    · unfold Fits; decide +kernel
    · simp only [Option.mem_def, Option.some.injEq, forall_eq']
      unfold Fits; decide +kernel
    · simp only [Option.mem_def, Option.some.injEq, forall_eq']
      unfold Fits; decide +kernel
  · exact ⟨trivial, trivial, by decide +kernel⟩

example : ∃ r ∈ upTo .info (transcript exampleTexts exampleEnv (init rudePeers) ([] ++ [.read 0, .read 0, .handler 0])),
    "u\x1b[2J".toList <:+: r.message :=
  C160_user_name_fails exampleTexts exampleEnv rudePeers [] 0 _ _ example_rude _ "p" rfl rfl _ rfl (by simp [rudePeers]) (by decide +kernel) rfl rfl rfl

example : ∃ sched, ∃ r ∈ upTo .error (transcript exampleTexts exampleEnv (init rudePeers) ([] ++ sched)), "y\n".toList <:+: r.message :=
  C160_client_id_fails exampleTexts exampleEnv rudePeers [] 0 _ _ example_rude _ "p" rfl rfl _ rfl (by decide) (by simp [rudePeers])
    (by decide +kernel) rfl rfl rfl rfl

/-- C161: two executions in which different users log in. -/
def userPeers (u : String) : ConnId → Peer := fun _ =>
  ⟨someAddr, "u", [clientBytes [.connect ⟨"MQTT", 4, true, 60, "y", none, some u, some "p"⟩]], .eof, []⟩

/-- Everybody authenticates. -/
def openEnv : Env := ⟨⟨false, false, fun _ _ n => n, fun off _ _ => off⟩, ⟨true⟩, fun _ _ => .ok ()⟩

example : upTo .debug ((transcript exampleTexts openEnv (init (userPeers "alice")) [.read 3, .read 3, .handler 0]).filter ofHandler)
    = upTo .debug ((transcript exampleTexts openEnv (init (userPeers "bob")) [.read 3, .read 3, .handler 0]).filter ofHandler) :=
  C161_who_fails exampleTexts openEnv openEnv (userPeers "alice") (userPeers "bob") _ _ (by
    have e : ∀ u ∈ ["alice", "bob"], (run openEnv (init (userPeers u)) [.read 3, .read 3, .handler 0]).log
        = [(.connected ⟨.mqtt3, "y", 60, true, none, some u, some "p"⟩ someAddr 3, 0)] := by decide +kernel
    rw [e "alice" (by simp), e "bob" (by simp)]
    exact .cons (.inr ⟨_, _, _, _, _, _, rfl, rfl, rfl, rfl, rfl⟩) .nil) (by
    have e : ∀ u ∈ ["alice", "bob"], (run openEnv (init (userPeers u)) [.read 3, .read 3, .handler 0]).handler ≠ .stopped := by decide +kernel
    exact ⟨fun h => absurd h (e "alice" (by simp)), fun h => absurd h (e "bob" (by simp))⟩)

end Ratel
