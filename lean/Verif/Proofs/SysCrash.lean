/-
Invariants of the running broker: why the packet handler crashes.
-/
import Verif.Proofs.SysWrite

namespace Ratel

open Decoder Encoder Spec

/-- Nothing is sent after the event that ends a connection. -/
theorem out_disconnect_last {auth : IdentityProvider} {b b' : Broker} {ev : ClientEvent} {out : Outputs}
    (h : b.step auth ev = some (b', out)) {d : ConnId} {w r : List ServerEvent} (ho : out d = w ++ r) (hr : r ≠ []) : .disconnect ∉ w := by
  intro hw
  have hlast : ∀ (x : ServerEvent) (l : List ServerEvent), .disconnect ∉ l → l ++ [x] = w ++ r → False := by
    intro x l hl he
    obtain ⟨r', y, rfl⟩ : ∃ r' y, r = r' ++ [y] := ⟨r.dropLast, r.getLast hr, (List.dropLast_concat_getLast hr).symm⟩
    rw [← List.append_assoc] at he
    have := List.append_inj_left' he rfl
    exact hl (by rw [this]; simp [hw])
  have hto : ∀ (c : ConnId) (x : ServerEvent) (l : List ServerEvent), .disconnect ∉ l → Spec.to c (l ++ [x]) d = w ++ r → False := by
    intro c x l hl he
    unfold Spec.to at he
    split at he
    · exact hlast x l hl he
    · have := (List.append_eq_nil_iff.mp he.symm).2
      exact hr this
  cases ev with
  | connected p addr tx =>
    simp only [Broker.step] at h
    cases hl : login auth p <;> rw [hl] at h <;> simp only [Option.some.injEq, Prod.mk.injEq, reduceCtorEq] at h
    · obtain ⟨_, rfl⟩ := h
      exact hto tx _ [] (by simp) ho
    · obtain ⟨_, rfl⟩ := h
      exact hto tx _ [_] (by simp) ho
  | controlPacket id p tx =>
    cases p <;> simp only [Broker.step, Broker.packet, Option.some.injEq, Prod.mk.injEq] at h <;> obtain ⟨_, rfl⟩ := h
    case publish q _ =>
      have : ServerEvent.disconnect ∈ List.replicate (b.copiesTo d q.message.topic) (ServerEvent.controlPacket (.publish q)) := by
        have ho' := ho
        simp only at ho'
        rw [ho']; simp [hw]
      have := (List.mem_replicate.mp this).2
      cases this
    case subscribe s _ => exact hto tx _ [] (by simp) ho
    case unsubscribe u _ => exact hto tx _ [] (by simp) ho
    case pingReq => exact hto tx _ [] (by simp) ho
    all_goals exact hr (List.append_eq_nil_iff.mp ho.symm).2
  | disconnected id =>
    simp only [Broker.step, Option.some.injEq, Prod.mk.injEq] at h
    obtain ⟨_, rfl⟩ := h
    exact hr (List.append_eq_nil_iff.mp ho.symm).2
  | connectionLost id =>
    simp only [Broker.step, Option.some.injEq, Prod.mk.injEq] at h
    obtain ⟨_, rfl⟩ := h
    exact hr (List.append_eq_nil_iff.mp ho.symm).2

/-- Who was told to go away. -/
theorem disconnect_turnedAway {auth : IdentityProvider} {evs : List ClientEvent} {d : ConnId}
    (h : .disconnect ∈ Broker.start.outputs auth evs d) : TurnedAway auth evs d ∧ ∃ ev ∈ evs, From d ev := by
  obtain ⟨pre, ev, post, b, rfl, h1, h2⟩ := outputs_mem h
  cases h2 with
  | away p addr hl => exact ⟨.inl ⟨p, addr, by simp, hl⟩, .connected p addr d, by simp, rfl⟩
  | expired id hs =>
    refine ⟨.inr ⟨pre, id, post, rfl, fun c hr => ?_⟩, .controlPacket id .pingReq d, by simp, rfl⟩
    rw [(after_session h1 id c).mpr hr] at hs
    cases hs

namespace Sys

/-- A closed connection that is still to be sent something was told to go away earlier; the event at hand is one of its own. -/
theorem closed_target {env : Env} {peers : ConnId → Peer} {s : Sys} (h : Inv env peers s) {d : ConnId} {e : ServerEvent}
    {todo : List (ConnId × ServerEvent)} (hh : s.handler = .busy ((d, e) :: todo)) (hrx : (s.conns d).rxOpen = false) :
    ∃ pre ev, s.served = pre ++ [ev] ∧ From d ev ∧ Answered ev ∧ .disconnect ∈ Broker.start.outputs env.auth pre d := by
  have hne : sentTo ((d, e) :: todo) d ≠ [] := by simp [sentTo_cons]
  cases h.serves with
  | rest b h' => rw [hh] at h'; rcases h' with h' | h' <;> cases h'
  | failed _ _ _ h' => rw [hh] at h'; cases h'
  | broken _ _ _ _ _ _ h' => rw [hh] at h'; cases h'
  | sending todo' pre ev b b' out hh' he hp hs hr ho hout =>
    rw [hh] at hh'
    cases hh'
    have hdis : .disconnect ∈ (s.conns d).delivered := by
      rcases h.closed d hrx with h' | h'
      · exact h'
      · obtain ⟨_, _, h5, _⟩ := h'.quiet (by simp [handlerAlive, hh])
        rw [Sys.todo, hh] at h5
        exact absurd h5 hne
    obtain ⟨w, hw⟩ := hout d
    have hdel : (s.conns d).delivered = Broker.start.outputs env.auth pre d ++ w := by
      have := ho d
      rw [he, outputs_snoc hp hs, ← hw, ← List.append_assoc] at this
      exact List.append_cancel_right this
    have hpre : .disconnect ∈ Broker.start.outputs env.auth pre d := by
      rw [hdel] at hdis
      rcases List.mem_append.mp hdis with h' | h'
      · exact h'
      · exact absurd h' (out_disconnect_last hs hw.symm hne)
    have hord : Orderly env peers (pre ++ [ev]) := he ▸ reads_orderly_served h.reads
    have hod : out d ≠ [] := by
      intro h0
      rw [h0] at hw
      exact hne (List.append_eq_nil_iff.mp hw).2
    rcases step_to hs hod with ⟨hf, ha⟩ | ⟨_, _, _, _, x, _, hx, _⟩
    · exact ⟨pre, ev, he, hf, ha, hpre⟩
    · exact absurd hx (away_no_session pre hord.pre hp hpre x.1)

theorem step_none {auth : IdentityProvider} {b : Broker} {ev : ClientEvent} (h : b.step auth ev = none) :
    ∃ p addr tx, ev = .connected p addr tx ∧ login auth p = .incomplete := by
  cases ev with
  | connected p addr tx =>
    simp only [Broker.step] at h
    cases hl : login auth p <;> rw [hl] at h <;> simp only [reduceCtorEq] at h
    exact ⟨p, addr, tx, rfl, hl⟩
  | _ => simp [Broker.step] at h

theorem crashed_step (env : Env) (peers : ConnId → Peer) (s : Sys) (st : Step) (h : Inv env peers s)
    (hc : s.handler = .crashed → Fatal env.auth s.served) : (step env s st).handler = .crashed → Fatal env.auth (step env s st).served := by
  cases st with
  | read c =>
    obtain ⟨h1, _, h3, _⟩ := stepRead_rest env s c
    simp only [step, served, h1, h3]
    exact hc
  | write c =>
    obtain ⟨_, h1, _, h3, _⟩ := stepWrite_rest env s c
    simp only [step, served, h1, h3]
    exact hc
  | ctrlC => exact hc
  | stop =>
    unfold step
    cases hh : s.handler with
    | idle => simp only; split <;> simp [hh]
    | crashed => intro _; exact hc hh
    | _ => simp [hh]
  | handler now =>
    intro hcr
    have hserv := serves_step env s (.handler now) h.serves
    cases hh : s.handler with
    | crashed =>
      have : step env s (.handler now) = s := by simp [step, stepHandler, hh]
      rw [this]
      exact hc hh
    | stopped =>
      have : step env s (.handler now) = s := by simp [step, stepHandler, hh]
      rw [this] at hcr
      rw [hh] at hcr
      cases hcr
    | idle =>
      cases hev : s.events with
      | nil =>
        have : step env s (.handler now) = s := by simp [step, stepHandler, hh, hev]
        rw [this, hh] at hcr
        cases hcr
      | cons ev rest =>
        simp only [step, stepHandler, hh, hev] at hcr hserv ⊢
        cases hm : Handler.handle env.auth now s.messaging ev with
        | none =>
          rw [hm] at hserv
          simp only at hserv ⊢
          cases hserv with
          | rest _ h' => rcases h' with h' | h' <;> cases h'
          | sending _ _ _ _ _ _ h' => cases h'
          | failed pre ev' b _ he _ hs => exact ⟨pre, ev', he, .inl (step_none hs)⟩
          | broken pre ev' b b' out d _ he hp hs hd hrx ho =>
            have hrep : ∃ b₀, Broker.start.after env.auth s.served = some b₀ ∧ Rep s.messaging b₀ := by
              cases h.serves with
              | rest b _ ha hr _ => exact ⟨b, ha, hr⟩
              | sending _ _ _ _ _ _ h' => rw [hh] at h'; cases h'
              | failed _ _ _ h' => rw [hh] at h'; cases h'
              | broken _ _ _ _ _ _ h' => rw [hh] at h'; cases h'
            obtain ⟨b₀, ha, hr⟩ := hrep
            have href := handle_refines env.auth now hr ev
            rw [hm] at href
            cases hb : b₀.step env.auth ev with
            | some r => rw [hb] at href; exact href.elim
            | none =>
              refine ⟨s.served, ev, ?_, .inl (step_none hb)⟩
              simp [served]
        | some r =>
          obtain ⟨m, sends⟩ := r
          rw [hm] at hcr
          cases sends with
          | nil => simp only at hcr; cases hcr
          | cons => simp only at hcr; cases hcr
    | busy t =>
      cases t with
      | nil => simp [step, stepHandler, hh] at hcr
      | cons x t =>
        obtain ⟨d, e⟩ := x
        simp only [step, stepHandler, hh] at hcr ⊢
        by_cases hrx : (s.conns d).rxOpen = true
        · rw [if_pos hrx] at hcr
          split at hcr
          · simp only [setConn_handler] at hcr
            split at hcr <;> cases hcr
          · rw [hh] at hcr; cases hcr
        · rw [if_neg hrx]
          have hrx : (s.conns d).rxOpen = false := by simpa using hrx
          obtain ⟨pre, ev, he, hf, ha, hdis⟩ := closed_target h hh hrx
          obtain ⟨haway, ev', hev', hf'⟩ := disconnect_turnedAway hdis
          refine ⟨pre, ev, he, ?_⟩
          have hord : Orderly env peers (pre ++ [ev]) := he ▸ reads_orderly_served h.reads
          cases ev with
          | connected p addr tx =>
            cases hf
            exact absurd hf' (hord.connected_first ev' hev')
          | controlPacket id p tx =>
            cases hf
            refine .inr ⟨id, p, d, rfl, ?_, haway⟩
            cases p with
            | subscribe q => exact .inl ⟨q, rfl⟩
            | unsubscribe q => exact .inr (.inl ⟨q, rfl⟩)
            | pingReq => exact .inr (.inr rfl)
            | _ => exact ha.elim
          | disconnected id => exact hf.elim
          | connectionLost id => exact hf.elim

theorem crashed_run (env : Env) (peers : ConnId → Peer) (sched : List Step) (hc : (run env (init peers) sched).handler = .crashed) :
    Fatal env.auth (run env (init peers) sched).served := by
  have : Inv env peers (run env (init peers) sched)
      ∧ ((run env (init peers) sched).handler = .crashed → Fatal env.auth (run env (init peers) sched).served) :=
    run_induction (P := fun s => Inv env peers s ∧ (s.handler = .crashed → Fatal env.auth s.served))
      (fun s st h => ⟨inv_step env peers s st h.1, crashed_step env peers s st h.1 h.2⟩)
      ⟨inv_init env peers, fun h => by cases h⟩ sched
  exact this.2 hc

end Sys

end Ratel
