/-
What a single connection sees: consequences of the invariants of the running broker.
-/
import Verif.Proofs.SysLive
import Verif.Spec.Protocol

namespace Ratel

open Decoder Encoder Spec

/-! ### The CONNACK -/

/-- An accepted or refused CONNECT is answered. -/
theorem connected_answered {auth : IdentityProvider} {evs : List ClientEvent} {b : Broker} (h : Broker.start.after auth evs = some b)
    {p : ConnectPacket} {addr : SocketAddr} {d : ConnId} (hp : .connected p addr d ∈ evs) : Broker.start.outputs auth evs d ≠ [] := by
  obtain ⟨pre, post, rfl⟩ := List.append_of_mem hp
  obtain ⟨b₁, h1, h2⟩ := after_prefix h
  rw [outputs_append, h1]
  rw [Broker.after] at h2
  intro he
  have he := (List.append_eq_nil_iff.mp he).2
  simp only [Broker.outputs] at he
  cases hs : b₁.step auth (.connected p addr d) with
  | none => rw [hs] at h2; cases h2
  | some r =>
    rw [hs] at he
    have hr : r.2 d = [] := (List.append_eq_nil_iff.mp he).1
    simp only [Broker.step] at hs
    split at hs
    · cases hs; simp [Spec.to] at hr
    · cases hs; simp [Spec.to] at hr
    · cases hs

namespace Sys

/-- What a connection is sent begins with a CONNACK, and there is no other. -/
theorem connAck_first {env : Env} {peers : ConnId → Peer} (d : ConnId) (evs : List ClientEvent) : Orderly env peers evs →
    Broker.start.outputs env.auth evs d = []
    ∨ ∃ code rest, (code = .accepted ∨ code = .notAuthorized)
      ∧ Broker.start.outputs env.auth evs d = .controlPacket (.connAck ⟨false, code⟩) :: rest
      ∧ ∀ a, .controlPacket (.connAck a) ∉ rest := by
  refine snoc_induction (P := fun evs => Orderly env peers evs → Broker.start.outputs env.auth evs d = []
    ∨ ∃ code rest, (code = .accepted ∨ code = .notAuthorized)
      ∧ Broker.start.outputs env.auth evs d = .controlPacket (.connAck ⟨false, code⟩) :: rest
      ∧ ∀ a, .controlPacket (.connAck a) ∉ rest) (fun _ => .inl rfl) ?_ evs
  intro evs ev ih ho
  have ih := ih ho.pre
  cases hb : Broker.start.after env.auth evs with
  | none =>
    rw [outputs_append, hb, List.append_nil]
    exact ih
  | some b =>
    cases hs : b.step env.auth ev with
    | none => rw [outputs_snoc_none hb hs]; exact ih
    | some r =>
      obtain ⟨b', out⟩ := r
      rw [outputs_snoc hb hs]
      by_cases hc : ∃ p addr, ev = .connected p addr d
      · obtain ⟨p, addr, rfl⟩ := hc
        have hnil : Broker.start.outputs env.auth evs d = [] := by
          apply List.eq_nil_iff_forall_not_mem.mpr
          intro e he
          obtain ⟨ev, hev, hf⟩ := outputs_from he
          exact ho.connected_first ev hev hf
        rw [hnil, List.nil_append]
        simp only [Broker.step] at hs
        split at hs
        · cases hs
          exact .inr ⟨.accepted, [], .inl rfl, by simp [Spec.to], by simp⟩
        · cases hs
          exact .inr ⟨.notAuthorized, [.disconnect], .inr rfl, by simp [Spec.to], by simp⟩
        · cases hs
      · have hno : ∀ a, ServerEvent.controlPacket (.connAck a) ∉ out d := by
          intro a ha
          have := step_sends hs ha
          cases this with
          | accepted p addr => exact hc ⟨p, addr, rfl⟩
          | refused p addr => exact hc ⟨p, addr, rfl⟩
        rcases ih with ih | ⟨code, rest, h0, h1, h2⟩
        · left
          rw [ih, List.nil_append]
          apply List.eq_nil_iff_forall_not_mem.mpr
          intro e he
          -- whoever gets something has sent a CONNECT, and got an answer to it
          have key : ∀ p addr, .connected p addr d ∈ evs → False := fun p addr hp => connected_answered hb hp ih
          have hsend := step_sends hs he
          cases hsend with
          | accepted p addr => exact hc ⟨p, addr, rfl⟩
          | refused p addr => exact hc ⟨p, addr, rfl⟩
          | away p addr => exact hc ⟨p, addr, rfl⟩
          | publish id q tx x hx hse hm =>
            obtain ⟨p, addr, hp, _⟩ := session_connected hb hse
            exact key p addr hp
          | subAck id s => obtain ⟨p, addr, hp, _⟩ := ho.connected_before; exact key p addr hp
          | unsubAck id u => obtain ⟨p, addr, hp, _⟩ := ho.connected_before; exact key p addr hp
          | pingResp id h => obtain ⟨p, addr, hp, _⟩ := ho.connected_before; exact key p addr hp
          | expired id h => obtain ⟨p, addr, hp, _⟩ := ho.connected_before; exact key p addr hp
        · refine .inr ⟨code, rest ++ out d, h0, by rw [h1]; rfl, fun a ha => ?_⟩
          rcases List.mem_append.mp ha with ha | ha
          · exact h2 a ha
          · exact hno a ha

/-! ### Acknowledgements -/

/-- The acknowledgement due for an event of connection `d`. -/
def evAck (d : ConnId) : ClientEvent → Option ControlPacket
  | .controlPacket _ p tx => if tx = d then ackOf p else none
  | _ => none

theorem acksIn_append (a b : List ServerEvent) : acksIn (a ++ b) = acksIn a ++ acksIn b := by simp [acksIn]

theorem acksIn_replicate (n : Nat) (q : PublishPacket) : acksIn (List.replicate n (.controlPacket (.publish q))) = [] := by
  unfold acksIn
  induction n with
  | zero => rfl
  | succ n _ => simp [List.replicate_succ]

theorem step_acks {auth : IdentityProvider} {b b' : Broker} {ev : ClientEvent} {out : Outputs} (h : b.step auth ev = some (b', out))
    (d : ConnId) : acksIn (out d) = (evAck d ev).toList := by
  cases ev with
  | connected p addr tx =>
    simp only [Broker.step] at h
    split at h
    · cases h; by_cases hd : d = tx <;> simp [Spec.to, hd, acksIn, evAck]
    · cases h; by_cases hd : d = tx <;> simp [Spec.to, hd, acksIn, evAck]
    · cases h
  | controlPacket id p tx =>
    have hsym : ∀ h : ¬ d = tx, ¬ tx = d := fun h h' => h h'.symm
    cases p <;> simp only [Broker.step, Broker.packet, Option.some.injEq, Prod.mk.injEq] at h <;> obtain ⟨_, rfl⟩ := h
    case publish q _ => simp [acksIn_replicate, evAck, ackOf]
    case subscribe s _ => by_cases hd : d = tx <;> simp [Spec.to, hd, acksIn, evAck, ackOf, hsym]
    case unsubscribe u _ => by_cases hd : d = tx <;> simp [Spec.to, hd, acksIn, evAck, ackOf, hsym]
    case pingReq =>
      by_cases hd : d = tx
      · by_cases hx : (b.session id).isSome = true <;> simp [Spec.to, hd, acksIn, evAck, ackOf, hx]
      · simp [Spec.to, hd, acksIn, evAck, ackOf]
    all_goals simp [nothing, acksIn, evAck, ackOf]
  | disconnected id => cases h; rfl
  | connectionLost id => cases h; rfl

theorem outputs_acks {auth : IdentityProvider} (d : ConnId) (evs : List ClientEvent) (b : Broker) :
    acksIn (b.outputs auth evs d) <+: evs.filterMap (evAck d)
    ∧ ((b.after auth evs).isSome = true → acksIn (b.outputs auth evs d) = evs.filterMap (evAck d)) := by
  induction evs generalizing b with
  | nil => exact ⟨List.prefix_rfl, fun _ => rfl⟩
  | cons ev evs ih =>
    rw [Broker.outputs, Broker.after]
    cases hs : b.step auth ev with
    | none => exact ⟨by simp [acksIn], fun h => by cases h⟩
    | some r =>
      obtain ⟨b', out⟩ := r
      obtain ⟨h1, h2⟩ := ih b'
      simp only
      rw [acksIn_append, step_acks hs, List.filterMap_cons]
      cases evAck d ev with
      | none => exact ⟨h1, h2⟩
      | some a => exact ⟨(List.prefix_append_right_inj [a]).mpr h1, fun h => congrArg (a :: ·) (h2 h)⟩

theorem evAck_filter (d : ConnId) (evs : List ClientEvent) : (evs.filter (From d)).filterMap (evAck d) = evs.filterMap (evAck d) := by
  induction evs with
  | nil => rfl
  | cons ev evs ih =>
    by_cases h : From d ev
    · rw [List.filter_cons, if_pos (by simpa using h), List.filterMap_cons, List.filterMap_cons, ih]
    · rw [List.filter_cons, if_neg (by simpa using h), List.filterMap_cons, ih]
      have : evAck d ev = none := by
        cases ev with
        | controlPacket id p tx => exact if_neg h
        | _ => rfl
      rw [this]

theorem evAck_eventsOf (peer : Peer) (d : ConnId) (p : ConnectPacket) (ps : List ControlPacket) :
    (eventsOf peer d (.connect p :: ps)).filterMap (evAck d) = (ControlPacket.connect p :: ps).filterMap ackOf := by
  show _ = List.filterMap ackOf (ControlPacket.connect p :: ps)
  rw [eventsOf, List.filterMap_cons, List.filterMap_cons]
  simp only [evAck, ackOf, List.filterMap_map]
  congr 1
  funext q
  simp [evAck]

/-! ### Decoding is deterministic -/

theorem Decodes.head {pr : Profile} {bytes : List UInt8} {fin : Ending} {p p' : ControlPacket} {ps ps' : List ControlPacket}
    (h : Decodes pr bytes fin (p :: ps)) (h' : Decodes pr bytes fin (p' :: ps')) : p = p' := by
  obtain ⟨rest, h⟩ := h
  obtain ⟨rest', h'⟩ := h'
  rw [List.length_cons, readMany] at h h'
  obtain ⟨q, t, hq, h⟩ := M.bind_eq_ok.mp h
  obtain ⟨qs, t₁, hqs, h⟩ := M.bind_eq_ok.mp h
  obtain ⟨q', t', hq', h'⟩ := M.bind_eq_ok.mp h'
  obtain ⟨qs', t₁', hqs', h'⟩ := M.bind_eq_ok.mp h'
  have he := congrArg Prod.fst h
  have he' := congrArg Prod.fst h'
  simp only [M.pure_apply, Res.ok.injEq, List.cons.injEq] at he he'
  rw [hq] at hq'
  simp only [Prod.mk.injEq, Res.ok.injEq] at hq'
  rw [← he.1, ← he'.1, hq'.1]

theorem decodes_client (pr : Profile) (fin : Ending) (cs : List ClientPacket) (h : Sendable cs) :
    Decodes pr (clientBytes cs) fin (cs.map meaning) := by
  induction cs with
  | nil => exact ⟨_, rfl⟩
  | cons c cs ih =>
    obtain ⟨rest, ih⟩ := ih fun x hx => h x (List.mem_cons_of_mem _ hx)
    obtain ⟨h1, h2, h3⟩ := h c List.mem_cons_self
    refine ⟨rest, ?_⟩
    have := C07_client_packets pr c h1 h2 h3 (clientBytes cs) fin
    rw [List.map_cons, List.length_cons, readMany]
    show (_ >>= _ : M Plain _) ⟨packet (clientFirst c) (clientRest c) ++ clientBytes cs, fin⟩ = _
    rw [M.bind_ok this, M.bind_ok ih]
    rfl

/-! ### Things only grow -/

theorem step_grows (env : Env) (s : Sys) (st : Step) : s.log <+: (step env s st).log
    ∧ ∀ d, (s.conns d).delivered <+: ((step env s st).conns d).delivered := by
  cases st with
  | read c => have := still_read env s c; exact ⟨by rw [step, this.log]; exact List.prefix_rfl, fun d => by rw [step, this.delivered]; exact List.prefix_rfl⟩
  | write c => have := still_write env s c; exact ⟨by rw [step, this.log]; exact List.prefix_rfl, fun d => by rw [step, this.delivered]; exact List.prefix_rfl⟩
  | handler now =>
    show s.log <+: (stepHandler env now s).log ∧ ∀ d, (s.conns d).delivered <+: ((stepHandler env now s).conns d).delivered
    unfold stepHandler
    cases s.handler with
    | idle =>
      simp only
      split
      · exact ⟨List.prefix_rfl, fun _ => List.prefix_rfl⟩
      · split <;> exact ⟨List.prefix_append _ _, fun _ => List.prefix_rfl⟩
    | busy todo =>
      cases todo with
      | nil => exact ⟨List.prefix_rfl, fun _ => List.prefix_rfl⟩
      | cons x todo =>
        simp only
        split
        · split
          · refine ⟨List.prefix_rfl, fun d => ?_⟩
            by_cases hd : d = x.1
            · subst hd; rw [setConn_self]; exact List.prefix_append _ _
            · rw [setConn_other _ _ hd]; exact List.prefix_rfl
          · exact ⟨List.prefix_rfl, fun _ => List.prefix_rfl⟩
        · exact ⟨List.prefix_rfl, fun _ => List.prefix_rfl⟩
    | crashed => exact ⟨List.prefix_rfl, fun _ => List.prefix_rfl⟩
    | stopped => exact ⟨List.prefix_rfl, fun _ => List.prefix_rfl⟩
  | ctrlC => exact ⟨List.prefix_rfl, fun _ => List.prefix_rfl⟩
  | stop =>
    unfold step
    simp only
    split
    · split <;> exact ⟨List.prefix_rfl, fun _ => List.prefix_rfl⟩
    · exact ⟨List.prefix_rfl, fun _ => List.prefix_rfl⟩

theorem run_grows (env : Env) (s : Sys) (sched : List Step) : s.log <+: (run env s sched).log
    ∧ ∀ d, (s.conns d).delivered <+: ((run env s sched).conns d).delivered := by
  refine run_induction (P := fun s' => s.log <+: s'.log ∧ ∀ d, (s.conns d).delivered <+: (s'.conns d).delivered) ?_
    ⟨List.prefix_rfl, fun _ => List.prefix_rfl⟩ sched
  rintro s' st ⟨h1, h2⟩
  obtain ⟨h3, h4⟩ := step_grows env s' st
  exact ⟨h1.trans h3, fun d => (h2 d).trans (h4 d)⟩

/-- After a DISCONNECT on a connection no client is reached there. -/
theorem disconnected_unreached {env : Env} {peers : ConnId → Peer} {evs : List ClientEvent} (ho : Orderly env peers evs) {id c : ClientId}
    {d : ConnId} (h : .controlPacket id .disconnect d ∈ evs) : ¬ ReachedOn env.auth evs c d := by
  rintro ⟨pre, p, addr, post, rfl, rfl, hl, hno⟩
  obtain ⟨a, b, hab⟩ := List.append_of_mem h
  have ho' : Orderly env peers (a ++ [.controlPacket id .disconnect d]) := Orderly.pre (post := b) (by rw [hab] at ho; simpa using ho)
  obtain ⟨p', addr', hp', rfl⟩ := ho'.connected_before
  obtain ⟨rfl, _⟩ := ho.connected_unique (p := p) (addr := addr) (tx := d) (by simp) (by rw [hab]; exact List.mem_append_left _ hp')
  rcases List.mem_append.mp h with h1 | h1
  · -- not before the CONNECT
    have ho'' : Orderly env peers (pre ++ [.connected p addr d]) := Orderly.pre (post := post) (by simpa using ho)
    exact ho''.connected_first _ h1 rfl
  · rcases List.mem_cons.mp h1 with h1 | h1
    · cases h1
    · exact hno _ h1 rfl

end Sys

end Ratel
