/-
Consequences of the invariants: silent connections, the order of messages.
-/
import Verif.Proofs.SysCrash

namespace Ratel

open Decoder Encoder Spec

/-! ### What decoded packets look like -/

theorem readMany_wellFormed (pr : Profile) {n : Nat} {s s' : Plain} {ps : List ControlPacket}
    (h : (readMany pr n : M Plain _) s = (.ok ps, s')) : ∀ p ∈ ps, ∃ first body, WellFormed first body p := by
  induction n generalizing s ps with
  | zero => cases h; simp
  | succ n ih =>
    rw [readMany] at h
    obtain ⟨q, t, hq, h⟩ := M.bind_eq_ok.mp h
    obtain ⟨qs, t', hqs, h⟩ := M.bind_eq_ok.mp h
    cases h
    intro p hp
    rcases List.mem_cons.mp hp with rfl | hp
    · obtain ⟨first, _, _, body, _, _, hw⟩ := C10_only_well_formed pr s.bytes s.fin p t hq
      exact ⟨first.toNat, body, hw⟩
    · exact ih hqs p hp

theorem Decodes.legal {pr : Profile} {bytes : List UInt8} {fin : Ending} {ps : List ControlPacket} (h : Decodes pr bytes fin ps)
    {q : PublishPacket} (hq : .publish q ∈ ps) : LegalPublish q := by
  obtain ⟨rest, h⟩ := h
  obtain ⟨_, _, hw⟩ := readMany_wellFormed pr h _ hq
  exact hw.2.2

theorem Decodes.noConnect {pr : Profile} {bytes : List UInt8} {fin : Ending} {p : ConnectPacket} {ps : List ControlPacket}
    (h : Decodes pr bytes fin (.connect p :: ps)) (hn : NoConnect bytes) : False := by
  obtain ⟨rest, h⟩ := h
  rw [List.length_cons, readMany] at h
  obtain ⟨q, t, hq, h⟩ := M.bind_eq_ok.mp h
  obtain ⟨qs, t', hqs, h⟩ := M.bind_eq_ok.mp h
  have he := congrArg Prod.fst h
  simp only [M.pure_apply, Res.ok.injEq, List.cons.injEq] at he
  obtain ⟨rfl, _⟩ := he
  obtain ⟨first, lf, n, body, hb, hl, hw⟩ := C10_only_well_formed pr bytes fin _ t hq
  exact hn first lf n body t.bytes p hb hl hw

/-- A connection gets something only if it sent something. -/
theorem outputs_from {auth : IdentityProvider} {evs : List ClientEvent} {d : ConnId} {e : ServerEvent}
    (h : e ∈ Broker.start.outputs auth evs d) : ∃ ev ∈ evs, From d ev := by
  obtain ⟨pre, ev, post, b, rfl, h1, h2⟩ := outputs_mem h
  cases h2 with
  | publish id q tx x hx hs hm =>
    obtain ⟨p, addr, hp, _⟩ := Sys.session_connected h1 hs
    exact ⟨.connected p addr d, by simp [hp], rfl⟩
  | accepted p addr hl => exact ⟨.connected p addr d, by simp, rfl⟩
  | refused p addr hl => exact ⟨.connected p addr d, by simp, rfl⟩
  | away p addr hl => exact ⟨.connected p addr d, by simp, rfl⟩
  | subAck id s => exact ⟨.controlPacket id (.subscribe s) d, by simp, rfl⟩
  | unsubAck id u => exact ⟨.controlPacket id (.unsubscribe u) d, by simp, rfl⟩
  | pingResp id h => exact ⟨.controlPacket id .pingReq d, by simp, rfl⟩
  | expired id h => exact ⟨.controlPacket id .pingReq d, by simp, rfl⟩

namespace Sys

theorem no_events {env : Env} {peers : ConnId → Peer} {s : Sys} (h : Reads env peers s) {c : ConnId}
    (hn : NoConnect (peers c).segs.flatten) : s.taken c = [] := by
  obtain ⟨_, _, ps, pl, h1, _, _, _, h2⟩ := h.conn c
  have : eventsOf (peers c) c ps = [] := by
    cases ps with
    | nil => rfl
    | cons p ps =>
      cases p with
      | connect p => exact (Decodes.noConnect ⟨pl, h1⟩ hn).elim
      | _ => rfl
  rw [this] at h2
  exact List.prefix_nil.mp h2

theorem not_running {env : Env} {peers : ConnId → Peer} {s : Sys} (h : Reads env peers s) {c : ConnId}
    (hn : NoConnect (peers c).segs.flatten) (id : ClientId) : (s.conns c).phase ≠ .running id := by
  intro hr
  obtain ⟨_, _, ps, pl, h1, _, h3, _, _⟩ := h.conn c
  obtain ⟨_, p, ps', rfl, _⟩ := h3 id hr
  exact Decodes.noConnect ⟨pl, h1⟩ hn

theorem readTask_outbox (env : Env) (c : ConnId) (k : Conn) (h : k.outbox = none) (hr : ∀ id, (readTask env c k).phase ≠ .running id) :
    (readTask env c k).outbox = none := by
  unfold readTask at hr ⊢
  cases hp : k.phase with
  | first =>
    rw [hp] at hr
    simp only at hr ⊢
    split
    · rename_i heq
      rw [heq] at hr
      exact absurd rfl (hr _)
    all_goals exact h
  | running id =>
    rw [hp] at hr
    simp only at hr ⊢
    split
    · rename_i heq
      rw [heq] at hr
      exact absurd rfl (hr id)
    all_goals exact h
  | ended => exact h
  | stuck => exact h

/-- A silent connection has nothing on its way. -/
theorem no_outbox (env : Env) (peers : ConnId → Peer) (sched : List Step) {c : ConnId} (hn : NoConnect (peers c).segs.flatten) :
    ((run env (init peers) sched).conns c).outbox = none := by
  have : Reads env peers (run env (init peers) sched) ∧ ((run env (init peers) sched).conns c).outbox = none := by
    refine run_induction (P := fun s => Reads env peers s ∧ (s.conns c).outbox = none) ?_ ⟨reads_init env peers, rfl⟩ sched
    rintro s st ⟨h1, h2⟩
    have h3 := reads_step env peers s st h1
    refine ⟨h3, ?_⟩
    cases st with
    | read d =>
      have hnr := not_running h3 hn
      revert hnr
      unfold step stepRead
      simp only
      by_cases hd : c = d
      · subst hd
        rw [h2]
        simp only [setConn_self]
        exact fun hr => readTask_outbox env c _ h2 hr
      · intro _
        split
        · split
          · split
            · rw [setConn_other _ _ hd]; exact h2
            · exact h2
          · rw [setConn_other _ _ hd]; exact h2
        · rw [setConn_other _ _ hd]; exact h2
    | write d => simp only [step, (stepWrite_reader env s d c).outbox]; exact h2
    | handler now => simp only [step, (stepHandler_reader env now s c).outbox]; exact h2
    | ctrlC => exact h2
    | stop =>
      unfold step
      cases hh : s.handler with
      | idle => simp only; split <;> exact h2
      | _ => exact h2
  exact this.2

theorem silent_delivered {env : Env} {peers : ConnId → Peer} {s : Sys} (h : Inv env peers s) {c : ConnId}
    (hn : NoConnect (peers c).segs.flatten) : (s.conns c).delivered = [] ∧ sentTo s.todo c = [] := by
  have hout : Broker.start.outputs env.auth s.served c = [] := by
    apply List.eq_nil_iff_forall_not_mem.mpr
    intro e he
    obtain ⟨ev, hev, hf⟩ := outputs_from he
    have := no_events h.reads hn
    unfold taken at this
    rw [List.filter_eq_nil_iff] at this
    exact this ev (List.mem_append_left _ hev) (by simpa using hf)
  refine ⟨?_, ?_⟩
  · have := h.serves.delivered c
    rw [hout] at this
    exact List.prefix_nil.mp this
  · unfold todo
    cases h.serves with
    | rest _ h' => rcases h' with h' | h' <;> rw [h'] <;> rfl
    | sending t _ _ _ _ _ hh _ _ _ _ ho =>
      rw [hh]
      have := ho c
      rw [hout] at this
      exact (List.append_eq_nil_iff.mp this).2
    | failed _ _ _ h' => rw [h']; rfl
    | broken _ _ _ _ _ _ h' => rw [h']; rfl

theorem _root_.Ratel.Spec.SameBut.refl (c : ConnId) (s : Sys) : SameBut c s s := ⟨rfl, rfl, rfl, rfl, rfl, fun _ _ => rfl⟩

theorem _root_.Ratel.Spec.SameBut.trans {c : ConnId} {s s' s'' : Sys} (h : SameBut c s s') (h' : SameBut c s' s'') : SameBut c s s'' :=
  ⟨h.events.trans h'.events, h.handler.trans h'.handler, h.messaging.trans h'.messaging, h.ctrlC.trans h'.ctrlC, h.log.trans h'.log,
    fun d hd => (h.conns d hd).trans (h'.conns d hd)⟩

theorem _root_.Ratel.Spec.SameBut.setConn {c d : ConnId} {s s' : Sys} (h : SameBut c s s') (k : Conn) : SameBut c (s.setConn d k) (s'.setConn d k) where
  events := h.events
  handler := h.handler
  messaging := h.messaging
  ctrlC := h.ctrlC
  log := h.log
  conns e he := by
    by_cases hed : e = d
    · subst hed; simp
    · rw [setConn_other _ _ hed, setConn_other _ _ hed]; exact h.conns e he

theorem _root_.Ratel.Spec.SameBut.setSelf {c : ConnId} {s s' : Sys} (h : SameBut c s s') (k : Conn) : SameBut c (s.setConn c k) s' where
  events := h.events
  handler := h.handler
  messaging := h.messaging
  ctrlC := h.ctrlC
  log := h.log
  conns e he := by rw [setConn_other _ _ he]; exact h.conns e he

theorem sameBut_own {env : Env} {c : ConnId} {s s' : Sys} (h : SameBut c s s') (ho : (s.conns c).outbox = none) {st : Step}
    (hst : ownStep c st = true) : SameBut c (step env s st) s' := by
  cases st with
  | read d =>
    have : d = c := by simpa [ownStep] using hst
    subst this
    unfold step stepRead
    simp only [ho]
    exact h.setSelf _
  | write d =>
    have : d = c := by simpa [ownStep] using hst
    subst this
    obtain ⟨h1, h2, h3, h4, h5⟩ := stepWrite_rest env s d
    simp only [step]
    refine ⟨h1.trans h.events, h2.trans h.handler, h3.trans h.messaging, h5.trans h.ctrlC, h4.trans h.log, fun e he => ?_⟩
    rw [stepWrite_other env s he]
    exact h.conns e he
  | handler _ => simp [ownStep] at hst
  | ctrlC => simp [ownStep] at hst
  | stop => simp [ownStep] at hst

theorem sameBut_other {env : Env} {c : ConnId} {s s' : Sys} (h : SameBut c s s') (ht : sentTo s.todo c = []) {st : Step}
    (hst : ownStep c st = false) : SameBut c (step env s st) (step env s' st) := by
  have hal : s.handlerAlive = s'.handlerAlive := by unfold handlerAlive; rw [h.handler]
  cases st with
  | read d =>
    have hd : d ≠ c := by simpa [ownStep] using hst
    unfold step stepRead
    simp only [← h.conns d hd, ← hal, ← h.events]
    split
    · split
      · split
        · refine SameBut.setConn ?_ _
          exact ⟨by simp only [h.events], h.handler, h.messaging, h.ctrlC, h.log, h.conns⟩
        · exact h
      · exact h.setConn _
    · exact h.setConn _
  | write d =>
    have hd : d ≠ c := by simpa [ownStep] using hst
    have hse : s.hasSender d = s'.hasSender d := by
      unfold hasSender
      rw [h.conns d hd, hal, h.events, h.handler, h.messaging, h.log]
    unfold step stepWrite
    simp only [← h.conns d hd, ← hse]
    split
    · split
      · split <;> exact h.setConn _
      · exact h.setConn _
      · split
        · exact h
        · exact h.setConn _
    · exact h
  | handler now =>
    unfold step stepHandler
    simp only [← h.handler]
    cases hh : s.handler with
    | idle =>
      simp only [← h.events, ← h.messaging, ← h.log]
      split
      · exact h
      · split
        · exact ⟨rfl, rfl, rfl, h.ctrlC, rfl, h.conns⟩
        · exact ⟨rfl, rfl, rfl, h.ctrlC, rfl, h.conns⟩
        · exact ⟨rfl, rfl, rfl, h.ctrlC, rfl, h.conns⟩
    | busy t =>
      cases t with
      | nil => exact ⟨h.events, rfl, h.messaging, h.ctrlC, h.log, h.conns⟩
      | cons x t =>
        obtain ⟨d, e⟩ := x
        have hd : d ≠ c := by
          rintro rfl
          rw [todo, hh] at ht
          simp [sentTo_cons] at ht
        simp only [← h.conns d hd]
        split
        · split
          · refine SameBut.setConn ?_ _
            exact ⟨h.events, rfl, h.messaging, h.ctrlC, h.log, h.conns⟩
          · exact h
        · exact ⟨h.events, rfl, h.messaging, h.ctrlC, h.log, h.conns⟩
    | crashed => exact h
    | stopped => exact h
  | ctrlC => exact ⟨h.events, h.handler, h.messaging, rfl, h.log, h.conns⟩
  | stop =>
    unfold step
    simp only [← h.handler, ← h.ctrlC]
    split
    · split
      · exact ⟨h.events, rfl, h.messaging, rfl, h.log, h.conns⟩
      · exact h
    · exact h

/-- A silent connection does not matter to anybody else. -/
theorem silent_run (env : Env) (peers : ConnId → Peer) {c : ConnId} (hn : NoConnect (peers c).segs.flatten) (sched : List Step) :
    SameBut c (run env (init peers) sched) (run env (init peers) (sched.filter fun st => !ownStep c st)) := by
  refine snoc_induction (P := fun sched => SameBut c (run env (init peers) sched)
    (run env (init peers) (sched.filter fun st => !ownStep c st))) (SameBut.refl _ _) ?_ sched
  intro l st ih
  rw [List.filter_append, run_append, run_append]
  cases hst : ownStep c st with
  | true =>
    simp only [List.filter_cons, hst, Bool.not_true, Bool.false_eq_true, ↓reduceIte, List.filter_nil]
    exact sameBut_own ih (no_outbox env peers l hn) hst
  | false =>
    simp only [List.filter_cons, hst, Bool.not_false, ↓reduceIte, List.filter_nil]
    exact sameBut_other ih (silent_delivered (inv_run env peers l) hn).2 hst

/-! ### Message order -/

theorem eventsOf_index {peer : Peer} {c : ConnId} {ps : List ControlPacket} {i : Nat} {id : ClientId} {q : ControlPacket} {tx : ConnId}
    (h : (eventsOf peer c ps)[i]? = some (.controlPacket id q tx)) : ps[i]? = some q := by
  cases ps with
  | nil => cases h
  | cons a ps =>
    cases a with
    | connect p =>
      cases i with
      | zero => simp [eventsOf] at h
      | succ i =>
        simp only [eventsOf, List.getElem?_cons_succ, List.getElem?_map, Option.map_eq_some_iff] at h
        obtain ⟨q', h1, h2⟩ := h
        simp only [ClientEvent.controlPacket.injEq] at h2
        rw [List.getElem?_cons_succ, h1, h2.2.1]
    | _ => simp [eventsOf] at h

theorem messagesOf_append (a b : List ServerEvent) : messagesOf (a ++ b) = messagesOf a ++ messagesOf b := by simp [messagesOf]

/-- Each message sent comes from a packet; those from one connection come in the order of its packets. -/
theorem outputs_order {auth : IdentityProvider} (d : ConnId) (packets : ConnId → List ControlPacket) (peers : ConnId → Peer)
    (evs : List ClientEvent) : (∀ c, evs.filter (From c) <+: eventsOf (peers c) c (packets c)) →
    ∃ src : List (ConnId × Nat),
      (messagesOf (Broker.start.outputs auth evs d)).map (fun q => some (ControlPacket.publish q)) = src.map (fun x => (packets x.1)[x.2]?)
      ∧ (∀ x ∈ src, x.2 < (evs.filter (From x.1)).length) ∧ src.Pairwise fun a b => a.1 = b.1 → a.2 ≤ b.2 := by
  refine snoc_induction (P := fun evs => (∀ c, evs.filter (From c) <+: eventsOf (peers c) c (packets c)) → ∃ src : List (ConnId × Nat),
      (messagesOf (Broker.start.outputs auth evs d)).map (fun q => some (ControlPacket.publish q)) = src.map (fun x => (packets x.1)[x.2]?)
      ∧ (∀ x ∈ src, x.2 < (evs.filter (From x.1)).length) ∧ src.Pairwise fun a b => a.1 = b.1 → a.2 ≤ b.2) ?_ ?_ evs
  · intro _; exact ⟨[], rfl, by simp, by simp⟩
  · intro evs ev ih ho
    have ho' : ∀ c, evs.filter (From c) <+: eventsOf (peers c) c (packets c) := fun c =>
      List.IsPrefix.trans (by rw [List.filter_append]; exact List.prefix_append _ _) (ho c)
    obtain ⟨src, h1, h2, h3⟩ := ih ho'
    have hgrow : ∀ x ∈ src, x.2 < ((evs ++ [ev]).filter (From x.1)).length := by
      intro x hx
      have := h2 x hx
      rw [List.filter_append, List.length_append]
      omega
    have hsame : messagesOf (Broker.start.outputs auth (evs ++ [ev]) d) = messagesOf (Broker.start.outputs auth evs d) →
        ∃ src : List (ConnId × Nat), (messagesOf (Broker.start.outputs auth (evs ++ [ev]) d)).map (fun q => some (ControlPacket.publish q))
            = src.map (fun x => (packets x.1)[x.2]?)
          ∧ (∀ x ∈ src, x.2 < ((evs ++ [ev]).filter (From x.1)).length) ∧ src.Pairwise fun a b => a.1 = b.1 → a.2 ≤ b.2 :=
      fun he => ⟨src, by rw [he]; exact h1, hgrow, h3⟩
    cases hb : Broker.start.after auth evs with
    | none =>
      apply hsame
      rw [outputs_append, hb, List.append_nil]
    | some b =>
      cases hs : b.step auth ev with
      | none => apply hsame; rw [outputs_snoc_none hb hs]
      | some r =>
        obtain ⟨b', out⟩ := r
        have hnone : messagesOf (out d) = [] → messagesOf (Broker.start.outputs auth (evs ++ [ev]) d) = messagesOf (Broker.start.outputs auth evs d) := by
          intro he
          rw [outputs_snoc hb hs, messagesOf_append, he, List.append_nil]
        by_cases hpub : ∃ id q tx, ev = .controlPacket id (.publish q) tx
        · obtain ⟨id, q, tx, rfl⟩ := hpub
          have hout : out d = List.replicate (b.copiesTo d q.message.topic) (.controlPacket (.publish q)) := by
            simp only [Broker.step, Broker.packet, Option.some.injEq, Prod.mk.injEq] at hs
            rw [← hs.2]
          refine ⟨src ++ List.replicate (b.copiesTo d q.message.topic) (tx, (evs.filter (From tx)).length), ?_, ?_, ?_⟩
          · rw [outputs_snoc hb hs, messagesOf_append, List.map_append, h1, List.map_append, hout]
            congr 1
            have : messagesOf (List.replicate (b.copiesTo d q.message.topic) (.controlPacket (.publish q)))
                = List.replicate (b.copiesTo d q.message.topic) q := by
              unfold messagesOf
              induction b.copiesTo d q.message.topic with
              | zero => rfl
              | succ n ih => simp [List.replicate_succ, ih]
            rw [this, List.map_replicate, List.map_replicate]
            congr 1
            symm
            apply eventsOf_index (peer := peers tx) (c := tx) (id := id) (tx := tx)
            obtain ⟨t, ht⟩ := ho tx
            rw [← ht, List.filter_append, List.filter_cons, if_pos (by simp [From])]
            simp
          · intro x hx
            rcases List.mem_append.mp hx with hx | hx
            · exact hgrow x hx
            · rw [(List.mem_replicate.mp hx).2]
              simp only
              rw [List.filter_append, List.length_append, List.filter_cons, if_pos (by simp [From])]
              simp
          · rw [List.pairwise_append]
            refine ⟨h3, List.pairwise_replicate.mpr (.inr fun _ => Nat.le_refl _), fun a ha c hc hac => ?_⟩
            rw [(List.mem_replicate.mp hc).2] at hac ⊢
            have := h2 a ha
            simp only at hac ⊢
            rw [hac] at this
            omega
        · apply hsame
          apply hnone
          apply List.eq_nil_iff_forall_not_mem.mpr
          intro q hq
          unfold messagesOf at hq
          obtain ⟨e, he, hq⟩ := List.mem_filterMap.mp hq
          have hsend := step_sends hs he
          cases hsend with
          | publish id q' tx x _ _ _ => exact hpub ⟨id, q', tx, rfl⟩
          | _ => simp at hq

/-- Messages delivered are decoded messages. -/
theorem delivered_server {env : Env} {peers : ConnId → Peer} {evs : List ClientEvent} (h : Orderly env peers evs) {d : ConnId}
    {p : ControlPacket} (hp : .controlPacket p ∈ Broker.start.outputs env.auth evs d) : ServerPacket p := by
  obtain ⟨pre, ev, post, b, rfl, h1, h2⟩ := outputs_mem hp
  cases h2 with
  | publish id q tx x _ _ _ =>
    obtain ⟨ps, hd, hpre⟩ := h tx
    have hm : ClientEvent.controlPacket id (.publish q) tx ∈ eventsOf (peers tx) tx ps :=
      hpre.subset (List.mem_filter.mpr ⟨by simp, by simp [From]⟩)
    obtain ⟨i, hi⟩ := List.mem_iff_getElem?.mp hm
    exact Decodes.legal hd (List.mem_of_getElem? (eventsOf_index hi))
  | accepted => trivial
  | refused => trivial
  | subAck => trivial
  | unsubAck => trivial
  | pingResp => trivial

end Sys

end Ratel
