/-
C109–C114: rules of MQTT 3.1.1 about single packets.
-/
import Verif.Spec.Rules
import Verif.Props.Close
import Verif.Props.Language
import Verif.Props.Conformance

namespace Ratel

open Decoder Encoder Spec Sys

/-- An execution in which the broker serves one client without user name. -/
theorem solo_login (env : Env) {peers : ConnId → Peer} {cs : List ClientPacket} (h : Solo peers cs)
    (hn : ∀ c, .connect c ∈ cs → c.userName.isSome = true → c.password.isSome = true)
    (h32 : ∀ d, (Broker.start.outputs env.auth (eventsOf (peers 0) 0 (cs.map meaning)) d).length ≤ 32) :
    ∃ sched, (run env (init peers) sched).handler = .idle
      ∧ (run env (init peers) sched).log.map Prod.fst = eventsOf (peers 0) 0 (cs.map meaning)
      ∧ ∀ d, ((run env (init peers) sched).conns d).delivered
        = Broker.start.outputs env.auth (eventsOf (peers 0) 0 (cs.map meaning)) d := by
  have hfrom : ∀ ev ∈ eventsOf (peers 0) 0 (cs.map meaning), From 0 ev := fun ev hev => from_eventsOf hev
  refine C77_any_interleaving env peers (fun d => if d = 0 then cs else []) (fun d hd => ?_) (fun d => ?_) (fun d => ?_) _
    (fun ev hev => ⟨0, hfrom ev hev⟩) (fun d => ?_) (fun p addr d hp => ?_) h32
  · by_cases h0 : d = 0
    · subst h0; simpa using h.bytes
    · simp [h0] at hd
  · by_cases h0 : d = 0
    · simp only [if_pos h0]
      intro x hx
      have h1 := clientBytes_part hx
      have h2 := h.short
      exact ⟨(h.legal x hx).1, (h.legal x hx).2, by omega⟩
    · simp [h0, Sendable]
  · by_cases h0 : d = 0
    · simp only [if_pos h0]; exact h.short
    · simp [h0, clientBytes]
  · by_cases h0 : d = 0
    · subst h0
      rw [List.filter_eq_self.mpr (fun ev hev => decide_eq_true (hfrom ev hev))]
      exact List.prefix_refl _
    · rw [List.filter_eq_nil_iff.mpr (fun ev hev hf => ?_)]
      · exact List.nil_prefix
      · have h1 := hfrom ev hev
        have h2 : From d ev := of_decide_eq_true hf
        cases ev <;> simp_all [From]
  · cases cs with
    | nil => cases hp
    | cons c cs =>
      cases c with
      | connect c =>
        have := hn c List.mem_cons_self
        simp only [List.map_cons, meaning, eventsOf, List.mem_cons] at hp
        rcases hp with hp | hp
        · cases hp
          cases hu : c.userName with
          | none => simp [login, hu]
          | some u =>
            cases hpw : c.password with
            | none => rw [hu, hpw] at this; cases this rfl
            | some pw => simp only [login, hu, hpw]; split <;> simp
        · simp at hp
      | _ => cases hp

theorem solo (env : Env) {peers : ConnId → Peer} {cs : List ClientPacket} (h : Solo peers cs)
    (hn : ∀ c, .connect c ∈ cs → c.userName = none)
    (h32 : ∀ d, (Broker.start.outputs env.auth (eventsOf (peers 0) 0 (cs.map meaning)) d).length ≤ 32) :
    ∃ sched, (run env (init peers) sched).handler = .idle
      ∧ (run env (init peers) sched).log.map Prod.fst = eventsOf (peers 0) 0 (cs.map meaning)
      ∧ ∀ d, ((run env (init peers) sched).conns d).delivered
        = Broker.start.outputs env.auth (eventsOf (peers 0) 0 (cs.map meaning)) d :=
  solo_login env h (fun c hc hu => by rw [hn c hc] at hu; cases hu) h32

/-! ### C109 -/

/-- C109 is violated: in a CONNECT, PINGREQ or DISCONNECT the reserved bits of the first byte make no difference to the decoder. -/
theorem C109_flags_fails (pr : Profile) (first first' : UInt8) (rest : List UInt8) (fin : Ending)
    (ht : first.toNat / 16 ∈ [1, 12, 14]) (hs : first'.toNat / 16 = first.toNat / 16) :
    decoded pr (first' :: rest) fin = decoded pr (first :: rest) fin := by
  have hb : ∀ n, decodeBody (σ := Plain) pr first' n = decodeBody pr first n := by
    intro n
    obtain ⟨a1, a2, a3⟩ := SourceLaws.decodeBody_type (σ := Plain) pr n first
    obtain ⟨b1, b2, b3⟩ := SourceLaws.decodeBody_type (σ := Plain) pr n first'
    simp only [List.mem_cons, List.not_mem_nil, or_false] at ht
    rcases ht with ht | ht | ht
    · rw [a1 ht, b1 (hs.trans ht)]
    · rw [a2 ht, b2 (hs.trans ht)]
    · rw [a3 ht, b3 (hs.trans ht)]
  unfold decoded readPacket
  show (decodeRemainingLength >>= fun n => decodeBody pr first' n : M Plain _) ⟨rest, fin⟩
    = (decodeRemainingLength >>= fun n => decodeBody pr first n : M Plain _) ⟨rest, fin⟩
  simp only [hb]

theorem publishFirst_good (dup : Bool) (qos : QoS) (retain : Bool) :
    GoodFlags (48 + (if dup then 8 else 0) + 2 * qosNum qos + (if retain then 1 else 0)) := by
  unfold GoodFlags
  cases dup <;> cases retain <;> cases qos <;> decide

/-- C109 for all other packets: bytes whose first byte has flags the standard does not allow are never decoded as a packet. -/
theorem C109_flags_partial (pr : Profile) (first : UInt8) (rest : List UInt8) (fin : Ending) (hf : ¬ GoodFlags first.toNat)
    (ht : first.toNat / 16 ∉ [1, 12, 14]) (p : ControlPacket) : (decoded pr (first :: rest) fin).1 ≠ .ok p := by
  intro h
  rcases hd : decoded pr (first :: rest) fin with ⟨r, p'⟩
  rw [hd] at h
  cases h
  obtain ⟨first', lf, n, body, hb, _, hw⟩ := C10_only_well_formed pr _ _ _ _ hd
  obtain rfl : first = first' := by
    simp only [List.cons_append, List.cons.injEq] at hb
    exact hb.1
  simp only [List.mem_cons, List.not_mem_nil, or_false, not_or] at ht
  cases p with
  | connect c => exact ht.1 hw.1
  | pingReq => exact ht.2.1 hw.1
  | disconnect => exact ht.2.2 hw.1
  | publish q =>
    refine hf ?_
    have h1 : first.toNat = publishFirst q := hw.1
    rw [h1]
    exact publishFirst_good q.dup q.message.qos q.message.retain
  | pubAck i => exact hf (by rw [hw.1]; unfold GoodFlags; decide)
  | pubRec i => exact hf (by rw [hw.1]; unfold GoodFlags; decide)
  | pubRel i => exact hf (by rw [hw.1]; unfold GoodFlags; decide)
  | pubComp i => exact hf (by rw [hw.1]; unfold GoodFlags; decide)
  | subscribe q => exact hf (by rw [hw.1]; unfold GoodFlags; decide)
  | unsubscribe q => exact hf (by rw [hw.1]; unfold GoodFlags; decide)
  | _ => exact hw

-- a PINGREQ with reserved bits set
example : decoded ⟨true⟩ [0xCF, 0] .eof = (.ok .pingReq, ⟨[], .eof⟩) :=
  (C109_flags_fails ⟨true⟩ 0xC0 0xCF [0] .eof (by decide) (by decide)).trans (by decide +kernel)

-- a PUBLISH with QoS 3, a SUBSCRIBE with QoS 0 in its header
example : ¬ GoodFlags (0x36 : UInt8).toNat ∧ (0x36 : UInt8).toNat / 16 ∉ [1, 12, 14] := by unfold GoodFlags; decide
example : ¬ GoodFlags (0x80 : UInt8).toNat ∧ (0x80 : UInt8).toNat / 16 ∉ [1, 12, 14] := by unfold GoodFlags; decide

/-! ### C110 -/

/-- C110 is violated: a SUBSCRIBE with packet id 0 is served. -/
theorem C110_subscribe_zero_fails (env : Env) (peers : ConnId → Peer) (f : String) (q : QoS)
    (h : Solo peers [hello "s", .subscribe 0 [(f, q)]]) :
    ∃ sched, ((run env (init peers) sched).conns 0).delivered
        = [.controlPacket (.connAck ⟨false, .accepted⟩), .controlPacket (.subAck ⟨0, [.successQoS0]⟩)]
      ∧ ("s", f) ∈ held ((run env (init peers) sched).log.map Prod.fst) := by
  have hev : eventsOf (peers 0) 0 ([hello "s", .subscribe 0 [(f, q)]].map meaning)
      = [.connected ⟨.mqtt3, "s", 60, true, none, none, none⟩ (peers 0).addr 0, .controlPacket "s" (.subscribe ⟨0, [⟨f, q⟩]⟩) 0] := by
    simp [hello, meaning, eventsOf, idOf]
  have hout : ∀ d, Broker.start.outputs env.auth (eventsOf (peers 0) 0 ([hello "s", .subscribe 0 [(f, q)]].map meaning)) d
      = if d = 0 then [.controlPacket (.connAck ⟨false, .accepted⟩), .controlPacket (.subAck ⟨0, [.successQoS0]⟩)] else [] := by
    intro d
    rw [hev]
    by_cases hd : d = 0 <;> simp [Broker.outputs, Broker.step, Broker.packet, login, to, hd]
  obtain ⟨sched, _, h2, h3⟩ := solo env h (fun c hc => by simp [hello] at hc; simp [hc])
    (fun d => by rw [hout]; split <;> simp)
  refine ⟨sched, by rw [h3, hout, if_pos rfl], ?_⟩
  rw [h2, hev]
  simp [held, subOps, Entries.counted, Entries.counting]

/-- C110 is violated: a message with QoS above 0 and packet id 0 is passed on. -/
theorem C110_publish_zero_fails (env : Env) (peers : ConnId → Peer) (f : String) (q : QoS) (m : PublishPacket)
    (hm : m.packetId = some 0) (h : Scene peers f q [m] []) :
    ∃ sched n, .controlPacket (.publish n) ∈ ((run env (init peers) sched).conns 0).delivered ∧ n.packetId = some 0
      ∧ n.message.qos ≠ .atMostOnce := by
  obtain ⟨sched, _, _, h3, _⟩ := relay env h
  exact ⟨sched, m, by rw [h3]; simp, hm, (h.legal m (by simp)).id.mp (by rw [hm]; rfl)⟩

/-- C110 as far as it holds: the broker itself brings no packet id 0 into the world. Whatever packet with id 0 it sends, some client sent a
packet with id 0. -/
theorem C110_ids_partial (env : Env) (peers : ConnId → Peer) (sched : List Step) (d : ConnId) (p : ControlPacket)
    (h : .controlPacket p ∈ ((run env (init peers) sched).conns d).delivered)
    (h0 : (∃ q, p = .publish q ∧ q.packetId = some 0) ∨ (∃ cs, p = .subAck ⟨0, cs⟩) ∨ p = .unsubAck 0) :
    ∃ c ps, Decodes env.profile (peers c).segs.flatten (peers c).fin ps
      ∧ ((∃ q, .publish q ∈ ps ∧ q.packetId = some 0) ∨ (∃ fs, .subscribe ⟨0, fs⟩ ∈ ps) ∨ ∃ ts, .unsubscribe ⟨0, ts⟩ ∈ ps) := by
  have hinv := inv_run env peers sched
  have hord := reads_orderly_served hinv.reads
  obtain ⟨pre, ev, post, b, he, h1, h2⟩ := outputs_mem ((hinv.serves.delivered d).subset h)
  rw [he] at hord
  have key : ∀ id q tx, ev = .controlPacket id q tx → ∃ ps, Decodes env.profile (peers tx).segs.flatten (peers tx).fin ps ∧ q ∈ ps := by
    intro id q tx hev
    subst hev
    exact orderly_packet hord (id := id) (by simp)
  rcases h0 with ⟨q, rfl, hq⟩ | ⟨cs, rfl⟩ | rfl
  · cases h2 with
    | publish id _ tx _ _ _ _ =>
      obtain ⟨ps, h1, h2⟩ := key _ _ _ rfl
      exact ⟨tx, ps, h1, .inl ⟨q, h2, hq⟩⟩
  · generalize hr : ServerEvent.controlPacket (.subAck ⟨0, cs⟩) = r at h2
    cases h2 with
    | subAck id s =>
      obtain ⟨ps, h1, h2⟩ := key _ _ _ rfl
      rcases s with ⟨i, fs⟩
      simp only [ServerEvent.controlPacket.injEq, ControlPacket.subAck.injEq, SubAckPacket.mk.injEq] at hr
      rw [← hr.1] at h2
      exact ⟨d, ps, h1, .inr (.inl ⟨fs, h2⟩)⟩
    | _ => cases hr
  · generalize hr : ServerEvent.controlPacket (.unsubAck 0) = r at h2
    cases h2 with
    | unsubAck id u =>
      obtain ⟨ps, h1, h2⟩ := key _ _ _ rfl
      rcases u with ⟨i, ts⟩
      simp only [ServerEvent.controlPacket.injEq, ControlPacket.unsubAck.injEq] at hr
      rw [← hr] at h2
      exact ⟨d, ps, h1, .inr (.inr ⟨ts, h2⟩)⟩
    | _ => cases hr

/-! ### C111 -/

/-- C111 is violated: a CONNECT with a password but no user name is accepted. -/
theorem C111_password_alone_fails (env : Env) (peers : ConnId → Peer) (c : Connect) (hn : c.userName = none)
    (hp : c.password ≠ none) (h : Solo peers [.connect c]) :
    ∃ sched, ((run env (init peers) sched).conns 0).delivered = [.controlPacket (.connAck ⟨false, .accepted⟩)]
      ∧ ∃ p addr, (run env (init peers) sched).log.map Prod.fst = [.connected p addr 0] ∧ p.userName = none ∧ p.password = c.password
        ∧ p.password ≠ none := by
  have hout : ∀ d, Broker.start.outputs env.auth (eventsOf (peers 0) 0 ([.connect c].map meaning)) d
      = if d = 0 then [.controlPacket (.connAck ⟨false, .accepted⟩)] else [] := by
    intro d
    simp [meaning, eventsOf, Broker.outputs, Broker.step, login, hn, to]
  obtain ⟨sched, _, h2, h3⟩ := solo env h (fun c' hc => by simp at hc; rw [hc, hn]) (fun d => by rw [hout]; split <;> simp)
  refine ⟨sched, by rw [h3, hout, if_pos rfl], _, _, h2, hn, rfl, hp⟩

/-- C111 as far as it holds: without a user name the password makes no difference; nobody gains anything by sending one. -/
theorem C111_password_partial (auth : IdentityProvider) (now : Instant) (m : MessagingService) (p : ConnectPacket) (hn : p.userName = none)
    (pw : Option String) (addr : SocketAddr) (tx : ConnId) :
    Handler.handle auth now m (.connected p addr tx) = Handler.handle auth now m (.connected { p with password := pw } addr tx) := by
  simp only [Handler.handle, Handler.onConnect, hn]
  rfl

/-- Connection 0 sends these packets, nobody else anything. -/
def soloPeers (cs : List ClientPacket) : ConnId → Peer := fun c => ⟨someAddr, "u", if c = 0 then [clientBytes cs] else [], .eof, []⟩

example : Solo (soloPeers [.connect ⟨"MQTT", 4, true, 60, "c", none, none, some "secret"⟩])
    [.connect ⟨"MQTT", 4, true, 60, "c", none, none, some "secret"⟩] := by
  refine ⟨by simp [soloPeers], fun c hc => ?_, by decide +kernel⟩
  rw [List.mem_singleton] at hc
  subst hc
  refine ⟨⟨?_, ?_, by simp, ?_, by simp⟩, rfl⟩
  · show (utf8 "MQTT").length < 65536; decide +kernel
  · show (utf8 "c").length < 65536; decide +kernel
  · simp only [Option.mem_def, Option.some.injEq, forall_eq']
    show (utf8 "secret").length < 65536; decide +kernel

example : Solo (soloPeers [hello "s", .subscribe 0 [("t", .atMostOnce)]]) [hello "s", .subscribe 0 [("t", .atMostOnce)]] := by
  refine ⟨by simp [soloPeers], fun c hc => ?_, by decide +kernel⟩
  simp only [List.mem_cons, List.not_mem_nil, or_false] at hc
  rcases hc with rfl | rfl
  · refine ⟨⟨?_, ?_, by simp, by simp, by simp⟩, rfl⟩
    · show (utf8 "MQTT").length < 65536; decide +kernel
    · show (utf8 "s").length < 65536; decide +kernel
  · refine ⟨⟨by simp, ?_⟩, trivial⟩
    simp only [List.mem_singleton, forall_eq]
    show (utf8 "t").length < 65536; decide +kernel

/-! ### C112 -/

/-- C112 is violated: a client without client id that asks for a persistent session is accepted. -/
theorem C112_no_id_fails (env : Env) (peers : ConnId → Peer) (c : Connect) (hid : c.clientId = "") (hc : c.cleanSession = false)
    (hn : c.userName = none) (h : Solo peers [.connect c]) :
    ∃ sched, ((run env (init peers) sched).conns 0).delivered = [.controlPacket (.connAck ⟨false, .accepted⟩)]
      ∧ ∃ p addr, (run env (init peers) sched).log.map Prod.fst = [.connected p addr 0] ∧ p.clientId = (peers 0).uuid
        ∧ p.cleanSession = false := by
  have hout : ∀ d, Broker.start.outputs env.auth (eventsOf (peers 0) 0 ([.connect c].map meaning)) d
      = if d = 0 then [.controlPacket (.connAck ⟨false, .accepted⟩)] else [] := by
    intro d
    simp [meaning, eventsOf, Broker.outputs, Broker.step, login, hn, to]
  obtain ⟨sched, _, h2, h3⟩ := solo env h (fun c' hc => by simp at hc; rw [hc, hn]) (fun d => by rw [hout]; split <;> simp)
  refine ⟨sched, by rw [h3, hout, if_pos rfl], _, _, h2, ?_, hc⟩
  simp [idOf, hid]

/-- C112, what holds: a client without client id is known under the id generated for its connection. As long as no other client has that
id, it is reached on its own connection from the moment its CONNECT is handled. Missing: that it must ask for a clean session. -/
theorem C112_generated_id_partial (env : Env) (peers : ConnId → Peer) (sched : List Step) (d : ConnId) (p : ConnectPacket)
    (hp : Decodes env.profile (peers d).segs.flatten (peers d).fin [.connect p]) (hid : p.clientId = "")
    (hacc : login env.auth p = .accepted) (ho : OwnIds env peers (· ≠ d))
    (hnd : ∀ ps, Decodes env.profile (peers d).segs.flatten (peers d).fin ps → .disconnect ∉ ps)
    (hc : ∃ ev ∈ (run env (init peers) sched).log.map Prod.fst, From d ev) :
    ReachedOn env.auth ((run env (init peers) sched).log.map Prod.fst) (peers d).uuid d := by
  have hinv := inv_run env peers sched
  have := reached_own (reads_orderly_served hinv.reads)
    (fun ev hev => hinv.reads.from_conn ev (List.mem_append_left _ hev)) ho hp hacc hnd hc
  rw [idOf, if_pos hid] at this
  exact this

/-! ### C113 -/

theorem connectFlags_will {c : Connect} {t : String} {m : List UInt8} {q : QoS} {r : Bool}
    (hw : c.will = some (t, m, q, r)) (hn : c.userName = none) (hpw : c.password = none) :
    (c.cleanSession = true ↔ (byte (connectFlags c)).toNat / 2 % 2 = 1) ∧ (byte (connectFlags c)).toNat / 128 % 2 ≠ 1
      ∧ (byte (connectFlags c)).toNat / 64 % 2 ≠ 1 := by
  simp only [connectFlags, hw, hn, hpw]
  generalize c.cleanSession = b
  cases b <;> cases r <;> cases q <;> decide +kernel

/-- What is decoded of a CONNECT with a will and without user name: the CONNECT without its will, and nothing more, since the bytes of
the will are taken for the next packet. -/
theorem will_decodes {pr : Profile} {fin : Ending} {c : Connect} {t : String} {m : List UInt8} {q : QoS} {r : Bool}
    (hw : c.will = some (t, m, q, r)) (hl : Legal (.connect c)) (hn : c.userName = none) (hpw : c.password = none)
    (hs : (connectRest c).length < 4096) {ps : List ControlPacket}
    (h : Decodes pr (clientBytes [.connect c]) fin ps) :
    ps <+: [.connect ⟨.mqtt3, c.clientId, c.keepAlive, c.cleanSession, none, none, none⟩] := by
  obtain ⟨l1, l2, _, _, _⟩ := hl
  have hflags := connectFlags_will hw hn hpw
  have hrest : connectRest c = connectBody c.protocolName c.protocolLevel (byte (connectFlags c))
      ⟨.mqtt3, c.clientId, c.keepAlive, c.cleanSession, none, none, none⟩ ++ (str t ++ twoBytes m.length ++ m) := by
    simp [connectRest, connectBody, hw, hn, hpw, Spec.optional]
  have hlt : (utf8 t).length < 4096 := by
    rw [hrest] at hs
    simp only [str, List.length_append] at hs
    omega
  have h1 : decoded pr (clientBytes [.connect c]) fin
      = (.ok (.connect ⟨.mqtt3, c.clientId, c.keepAlive, c.cleanSession, none, none, none⟩), ⟨str t ++ twoBytes m.length ++ m, fin⟩) := by
    have hbytes : clientBytes [.connect c] = byte 0x10 :: varInt (connectRest c).length
        ++ connectBody c.protocolName c.protocolLevel (byte (connectFlags c))
          ⟨.mqtt3, c.clientId, c.keepAlive, c.cleanSession, none, none, none⟩ ++ (str t ++ twoBytes m.length ++ m) := by
      rw [List.append_assoc, ← hrest]
      simp [clientBytes, packet, clientFirst, clientRest]
    have hvl : (varInt (connectRest c).length).length ≤ 3 := length_varInt_small (by omega)
    refine (C10_language pr _ fin _ _ fin (.inr ?_)).mpr ⟨rfl, byte 0x10, _, _, _, hbytes, lengthField_varInt _, hvl, ?_,
      fun h => False.elim h⟩
    · have : (clientBytes [.connect c]).length = 1 + (varInt (connectRest c).length).length + (connectRest c).length := by
        simp [clientBytes, packet, clientFirst, clientRest]
        omega
      omega
    · exact ⟨by decide, rfl, rfl, l2, by simp, by simp, _, _, _, l1, rfl, hflags.1, by simpa using hflags.2.1, by simpa using hflags.2.2⟩
  obtain ⟨u, h⟩ := h
  refine readMany_mono (n := 1) (t := ⟨str t ++ twoBytes m.length ++ m, fin⟩) ?_ (fun p u hp => ?_) h
  · rw [readMany]
    show (_ >>= _ : M Plain _) _ = _
    rw [M.bind_ok h1]
    rfl
  · obtain ⟨first, lf, n, body, hb, _, hwf⟩ := C10_only_well_formed pr _ _ _ u (show decoded pr _ fin = _ from hp)
    have hf : first.toNat / 16 = 0 := by
      have : byte ((utf8 t).length / 256) = first := by
        simp only [str, twoBytes, List.cons_append, List.cons.injEq] at hb
        exact hb.1
      rw [← this]
      show ((utf8 t).length / 256) % 256 / 16 = 0
      omega
    cases p with
    | connect c => exact absurd (hf.symm.trans hwf.1) (by decide)
    | pingReq => exact absurd (hf.symm.trans hwf.1) (by decide)
    | disconnect => exact absurd (hf.symm.trans hwf.1) (by decide)
    | publish q =>
      have h1 : first.toNat = publishFirst q := hwf.1
      rw [h1, publishFirst] at hf
      omega
    | pubAck i => have h1 := hwf.1; omega
    | pubRec i => have h1 := hwf.1; omega
    | pubRel i => have h1 := hwf.1; omega
    | pubComp i => have h1 := hwf.1; omega
    | subscribe q => have h1 := hwf.1; omega
    | unsubscribe q => have h1 := hwf.1; omega
    | _ => exact hwf

/-- C113: nobody ever receives a message that nobody has published, in particular no will, neither after an orderly DISCONNECT, when there
must not be any, nor otherwise. -/
theorem C113_will_partial (env : Env) (peers : ConnId → Peer) (sched : List Step)
    (h : ∀ c ps, Decodes env.profile (peers c).segs.flatten (peers c).fin ps → ∀ q, .publish q ∉ ps) (d : ConnId) :
    messagesOf ((run env (init peers) sched).conns d).delivered = [] := by
  rw [messagesOf, List.filterMap_eq_nil_iff]
  intro e he
  split
  · obtain ⟨_, _, tx, _, _, _, ⟨ps, h1, h2⟩, _⟩ := C50_no_invented_messages env peers sched d _ he
    exact (h tx ps h1 _ h2).elim
  · rfl

/-- C113 is violated: a client announces a will in its CONNECT; whatever then happens, nobody receives it. -/
theorem C113_will_fails (env : Env) (peers : ConnId → Peer) (w : ConnId) (c : Connect) (t : String) (m : List UInt8) (q : QoS) (r : Bool)
    (hw : c.will = some (t, m, q, r)) (hl : Legal (.connect c)) (hn : c.userName = none) (hpw : c.password = none)
    (hs : (connectRest c).length < 4096) (hb : (peers w).segs.flatten = clientBytes [.connect c])
    (h : ∀ e, e ≠ w → ∀ ps, Decodes env.profile (peers e).segs.flatten (peers e).fin ps → ∀ q, .publish q ∉ ps)
    (sched : List Step) (d : ConnId) : messagesOf ((run env (init peers) sched).conns d).delivered = [] := by
  refine C113_will_partial env peers sched (fun e ps he q hq => ?_) d
  by_cases hew : e = w
  · subst hew
    rw [hb] at he
    have := (will_decodes hw hl hn hpw hs he).subset hq
    simp at this
  · exact h e hew ps he q hq

/-! ### C114 -/

/-- C114: the packet handler does nothing about an acknowledgement, in any state. -/
theorem C114_ack_ignored (auth : IdentityProvider) (now : Instant) (m : MessagingService) (ev : ClientEvent) (h : AckEvent ev) :
    Handler.handle auth now m ev = some (m, []) := by
  unfold AckEvent at h
  split at h
  all_goals first | rfl | exact h.elim

theorem ack_step (auth : IdentityProvider) (b : Broker) {ev : ClientEvent} (h : AckEvent ev) : b.step auth ev = some (b, nothing) := by
  unfold AckEvent at h
  split at h
  all_goals first | rfl | exact h.elim

theorem ack_outputs (auth : IdentityProvider) (b : Broker) (evs : List ClientEvent) (d : ConnId) :
    b.outputs auth (evs.filter fun ev => ¬ AckEvent ev) d = b.outputs auth evs d := by
  induction evs generalizing b with
  | nil => rfl
  | cons ev evs ih =>
    by_cases h : AckEvent ev
    · rw [List.filter_cons_of_neg (by simpa using h), ih, Broker.outputs, ack_step auth b h]
      rfl
    · rw [List.filter_cons_of_pos (by simpa using h), Broker.outputs, Broker.outputs]
      cases b.step auth ev with
      | none => rfl
      | some x => simp only [ih]

/-- C114, for the whole broker: whatever all clients have received is what they would have received, had nobody ever acknowledged
anything. -/
theorem C114_acks_unseen (env : Env) (peers : ConnId → Peer) (sched : List Step) (d : ConnId) :
    ((run env (init peers) sched).conns d).delivered
      <+: Broker.start.outputs env.auth (((run env (init peers) sched).log.map Prod.fst).filter fun ev => ¬ AckEvent ev) d
    ∧ ((run env (init peers) sched).handler = .idle → ((run env (init peers) sched).conns d).delivered
      = Broker.start.outputs env.auth (((run env (init peers) sched).log.map Prod.fst).filter fun ev => ¬ AckEvent ev) d) := by
  have hinv := inv_run env peers sched
  rw [ack_outputs]
  refine ⟨hinv.serves.delivered d, fun hh => ?_⟩
  cases hinv.serves with
  | rest b _ _ _ ho => exact ho d
  | sending _ _ _ _ _ _ h' => rw [hh] at h'; cases h'
  | failed _ _ _ h' => rw [hh] at h'; cases h'
  | broken _ _ _ _ _ _ h' => rw [hh] at h'; cases h'

/-! ### Examples -/

-- C110: a QoS 1 message with packet id 0
theorem scene_zero : Scene (scenePeers "t" .atLeastOnce [⟨some 0, false, ⟨"t", [1], .atLeastOnce, false⟩⟩] []) "t" .atLeastOnce
    [⟨some 0, false, ⟨"t", [1], .atLeastOnce, false⟩⟩] [] where
  bytes₀ := by simp [scenePeers]
  bytes₁ := by simp [scenePeers]
  bytes₂ := by simp [scenePeers]
  short₀ := by decide +kernel
  short₁ := by decide +kernel
  short₂ := by decide +kernel
  few := by decide
  legal := by
    intro m hm
    simp at hm
    subst hm
    exact ⟨by show (utf8 "t").length < 65536; decide +kernel, by simp⟩
  wanted := by
    intro m hm
    simp at hm
    subst hm
    exact scene_same_id.wanted ⟨some 1, false, ⟨"t", [1], .atLeastOnce, false⟩⟩ (by simp)

example : ∃ sched n, .controlPacket (.publish n) ∈ ((run exampleEnv (init (scenePeers "t" .atLeastOnce
      [⟨some 0, false, ⟨"t", [1], .atLeastOnce, false⟩⟩] [])) sched).conns 0).delivered ∧ n.packetId = some 0 ∧ n.message.qos ≠ .atMostOnce :=
  C110_publish_zero_fails _ _ _ _ _ rfl scene_zero

-- C112: no client id, persistent session
theorem anonymous_solo : Solo (soloPeers [.connect ⟨"MQTT", 4, false, 60, "", none, none, none⟩])
    [.connect ⟨"MQTT", 4, false, 60, "", none, none, none⟩] := by
  refine ⟨by simp [soloPeers], fun c hc => ?_, by decide +kernel⟩
  rw [List.mem_singleton] at hc
  subst hc
  refine ⟨⟨?_, ?_, by simp, by simp, by simp⟩, rfl⟩
  · show (utf8 "MQTT").length < 65536; decide +kernel
  · show (utf8 "").length < 65536; decide +kernel

example : ∃ sched, ReachedOn exampleEnv.auth
    ((run exampleEnv (init (soloPeers [.connect ⟨"MQTT", 4, false, 60, "", none, none, none⟩])) sched).log.map Prod.fst) "u" 0 := by
  obtain ⟨sched, _, p, addr, h2, _⟩ := C112_no_id_fails exampleEnv _ ⟨"MQTT", 4, false, 60, "", none, none, none⟩ rfl rfl rfl anonymous_solo
  have hsend : Sendable [.connect ⟨"MQTT", 4, false, 60, "", none, none, none⟩] := by
    intro c hc
    refine ⟨(anonymous_solo.legal c hc).1, (anonymous_solo.legal c hc).2, ?_⟩
    rw [List.mem_singleton] at hc
    subst hc
    decide +kernel
  have hdec : ∀ ps c, Decodes exampleEnv.profile (soloPeers [.connect ⟨"MQTT", 4, false, 60, "", none, none, none⟩] c).segs.flatten .eof ps →
      ps <+: if c = 0 then [.connect ⟨.mqtt3, "", 60, false, none, none, none⟩] else [] := by
    intro ps c h
    by_cases hc : c = 0
    · simp only [soloPeers, if_pos hc, List.flatten_cons, List.flatten_nil, List.append_nil] at h
      rw [if_pos hc]
      exact decodes_client_only hsend h
    · simp only [soloPeers, if_neg hc, List.flatten_nil] at h
      rw [if_neg hc]
      exact decodes_client_only (cs := []) (fun _ h => by cases h) h
  refine ⟨sched, C112_generated_id_partial exampleEnv _ sched 0 ⟨.mqtt3, "", 60, false, none, none, none⟩ ?_ rfl rfl ?_ ?_
    ⟨.connected p addr 0, by rw [h2]; exact List.mem_singleton.mpr rfl, rfl⟩⟩
  · have := decodes_client exampleEnv.profile .eof _ hsend
    simpa [soloPeers, meaning] using this
  · intro c d hc _ p ps q qs h1 _
    have := hdec _ c h1
    rw [if_neg hc] at this
    simp at this
  · intro ps h1 h2
    have := (hdec _ 0 h1).subset h2
    simp at this

/-- A CONNECT with a will on topic "t". -/
def testament : Connect := ⟨"MQTT", 4, true, 60, "w", some ("t", [1], .atLeastOnce, false), none, none⟩

/-- Connection 0 subscribes to "t"; connection 1 announces a will on "t" and is lost. -/
def heirs : ConnId → Peer := fun c =>
  ⟨someAddr, "u", if c = 0 then [clientBytes subscriberPackets] else if c = 1 then [clientBytes [.connect testament]] else [],
    if c = 0 then .silence else .eof, []⟩

-- C113: the subscriber receives nothing
example (sched : List Step) : messagesOf ((run exampleEnv (init heirs) sched).conns 0).delivered = [] := by
  refine C113_will_fails exampleEnv heirs 1 testament "t" [1] .atLeastOnce false rfl ?_ rfl rfl (by decide +kernel) (by simp [heirs])
    (fun e he ps h q hq => ?_) sched 0
  · refine ⟨?_, ?_, by simp [testament], by simp [testament], ?_⟩
    · show (utf8 "MQTT").length < 65536; decide +kernel
    · show (utf8 "w").length < 65536; decide +kernel
    · simp only [testament, Option.mem_def, Option.some.injEq, forall_eq']
      exact ⟨by show (utf8 "t").length < 65536; decide +kernel, by decide⟩
  · by_cases h0 : e = 0
    · simp only [heirs, if_pos h0, List.flatten_cons, List.flatten_nil, List.append_nil] at h
      have := (decodes_client_only subscriber_sendable h).subset hq
      simp [subscriberPackets, hello, meaning] at this
    · simp only [heirs, if_neg h0, if_neg he, List.flatten_nil] at h
      have := (decodes_client_only (cs := []) (fun _ h => by cases h) h).subset hq
      simp at this

-- the bytes of the will are what makes it disappear: the CONNECT is decoded, the rest is not a packet
example : (decoded ⟨true⟩ (clientBytes [.connect testament]) .eof).1 = .ok (.connect ⟨.mqtt3, "w", 60, true, none, none, none⟩) := by
  decide +kernel

-- C114: a client that acknowledges a message
example : AckEvent (.controlPacket "c" (.pubAck 7) 0) := trivial
example (auth : IdentityProvider) (now : Instant) (m : MessagingService) :
    Handler.handle auth now m (.controlPacket "c" (.pubRel 7) 0) = some (m, []) := C114_ack_ignored auth now m _ trivial
example : ([.controlPacket "c" .pingReq 0, .controlPacket "c" (.pubAck 7) 0, .controlPacket "c" .disconnect 0].filter
    fun ev => ¬ AckEvent ev) = [.controlPacket "c" .pingReq 0, .controlPacket "c" .disconnect 0] := by
  simp [AckEvent]

end Ratel
