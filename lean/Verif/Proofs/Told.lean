/-
Connections that are told to go away are closed, whatever becomes of the packet handler.
-/
import Verif.Proofs.Ends
import Verif.Proofs.SysCrash
import Verif.Proofs.SysProtocol
import Verif.Proofs.SysTook

namespace Ratel

open Decoder Encoder Spec

namespace Sys

/-- A connection that was to be told to go away was told. -/
theorem turnedAway_told {auth : IdentityProvider} {evs : List ClientEvent} {b : Broker} {d : ConnId}
    (h : Broker.start.after auth evs = some b) (ht : TurnedAway auth evs d) : .disconnect ∈ Broker.start.outputs auth evs d := by
  have hone : ∀ pre ev post, evs = pre ++ ev :: post → (∀ b₀ b₁ out, Broker.start.after auth pre = some b₀ → b₀.step auth ev = some (b₁, out) →
      .disconnect ∈ out d) → .disconnect ∈ Broker.start.outputs auth evs d := by
    rintro pre ev post rfl hout
    obtain ⟨b₀, h1, h2⟩ := after_prefix h
    rw [Broker.after] at h2
    cases hs : b₀.step auth ev with
    | none => rw [hs] at h2; cases h2
    | some r =>
      obtain ⟨b₁, out⟩ := r
      have := hout b₀ b₁ out h1 hs
      rw [outputs_append, h1]
      dsimp only
      rw [Broker.outputs, hs]
      exact List.mem_append_right _ (List.mem_append_left _ this)
  rcases ht with ⟨p, addr, hp, hl⟩ | ⟨pre, id, post, he, hno⟩
  · obtain ⟨pre, post, he⟩ := List.append_of_mem hp
    refine hone pre _ post he fun b₀ b₁ out _ hs => ?_
    simp only [Broker.step, hl, Option.some.injEq, Prod.mk.injEq] at hs
    rw [← hs.2, to_self]
    simp
  · refine hone pre _ post he fun b₀ b₁ out hb hs => ?_
    have hn : b₀.session id = none := by
      cases hses : b₀.session id with
      | none => rfl
      | some c => exact absurd ((after_session hb id c).mp hses) (hno c)
    simp only [Broker.step, Broker.packet, hn, Option.some.injEq, Prod.mk.injEq] at hs
    rw [← hs.2, to_self]
    simp

/-- At rest no task changes anything. -/
theorem rest_steps {env : Env} {peers : ConnId → Peer} {N : Nat} {σ : Nat → Step} (hf : Fair N σ) {n : Nat}
    (hn : ∀ m, n ≤ m → run env (init peers) (firstSteps σ m) = run env (init peers) (firstSteps σ n)) {d : ConnId} (hd : (d : Nat) < N) :
    step env (run env (init peers) (firstSteps σ n)) (.read d) = run env (init peers) (firstSteps σ n)
    ∧ step env (run env (init peers) (firstSteps σ n)) (.write d) = run env (init peers) (firstSteps σ n) := by
  have key : ∀ m st, n ≤ m → σ m = st → step env (run env (init peers) (firstSteps σ n)) st = run env (init peers) (firstSteps σ n) := by
    intro m st hm hst
    have := run_succ env (init peers) σ m
    rw [hn m hm, hn (m + 1) (by omega), hst] at this
    exact this.symm
  obtain ⟨m, hm, hst⟩ := hf.read d hd n
  obtain ⟨m', hm', hst'⟩ := hf.write d hd n
  exact ⟨key m _ hm hst, key m' _ hm' hst'⟩

/-- What is to be sent for all events but the last one has been put into the queues. -/
theorem earlier_run (env : Env) (peers : ConnId → Peer) (sched : List Step) (pre : List ClientEvent) (ev : ClientEvent)
    (h : (run env (init peers) sched).served = pre ++ [ev]) (d : ConnId) :
    Broker.start.outputs env.auth pre d <+: ((run env (init peers) sched).conns d).delivered := by
  have : Inv env peers (run env (init peers) sched) ∧ ∀ pre ev, (run env (init peers) sched).served = pre ++ [ev] →
      ∀ d, Broker.start.outputs env.auth pre d <+: ((run env (init peers) sched).conns d).delivered := by
    refine run_induction (P := fun s => Inv env peers s ∧ ∀ pre ev, s.served = pre ++ [ev] →
      ∀ d, Broker.start.outputs env.auth pre d <+: (s.conns d).delivered) (fun s st h => ⟨inv_step env peers s st h.1, fun pre ev he d => ?_⟩)
      ⟨inv_init env peers, fun pre ev he => by simp [served, init] at he⟩ sched
    obtain ⟨hinv, h⟩ := h
    have hg := (step_grows env s st).2 d
    by_cases hl : (step env s st).served = s.served
    · rw [hl] at he
      exact (h pre ev he d).trans hg
    · cases st with
      | read c => exact absurd (by rw [served, step, (still_read env s c).log]; rfl) hl
      | write c => exact absurd (by rw [served, step, (still_write env s c).log]; rfl) hl
      | ctrlC => exact absurd rfl hl
      | stop =>
        refine absurd ?_ hl
        simp only [step]
        split
        · split <;> rfl
        · rfl
      | handler now =>
        have key : ∃ ev', s.handler = .idle ∧ (step env s (.handler now)).served = s.served ++ [ev'] := by
          simp only [step, stepHandler] at hl ⊢
          cases hh : s.handler with
          | idle =>
            rw [hh] at hl
            cases hev : s.events with
            | nil => rw [hev] at hl; exact absurd rfl hl
            | cons ev' rest =>
              refine ⟨ev', rfl, ?_⟩
              simp only
              split <;> simp [served]
          | busy todo =>
            rw [hh] at hl
            refine absurd ?_ hl
            cases todo with
            | nil => rfl
            | cons x todo =>
              simp only
              split
              · split <;> rfl
              · rfl
          | crashed => rw [hh] at hl; exact absurd rfl hl
          | stopped => rw [hh] at hl; exact absurd rfl hl
        obtain ⟨ev', hi, he'⟩ := key
        rw [he'] at he
        obtain ⟨rfl, _⟩ := List.append_inj' he rfl
        cases hinv.serves with
        | rest _ _ _ _ ho => rw [← ho d]; exact hg
        | sending _ _ _ _ _ _ h' => rw [hi] at h'; cases h'
        | failed _ _ _ h' => rw [hi] at h'; cases h'
        | broken _ _ _ _ _ _ h' => rw [hi] at h'; cases h'
  exact this.2 pre ev h d

/-- All events but the last one can be served. -/
theorem serves_before {env : Env} {s : Sys} (h : Serves env s) {pre : List ClientEvent} {ev : ClientEvent} (he : s.served = pre ++ [ev]) :
    ∃ b, Broker.start.after env.auth pre = some b := by
  cases h with
  | rest b _ h1 =>
    rw [he, after_append] at h1
    cases hp : Broker.start.after env.auth pre with
    | none => rw [hp] at h1; cases h1
    | some b => exact ⟨b, rfl⟩
  | sending _ pre' ev' b _ _ _ he' hp => obtain ⟨rfl, _⟩ := List.append_inj' (he.symm.trans he') rfl; exact ⟨b, hp⟩
  | failed pre' ev' b _ he' hp => obtain ⟨rfl, _⟩ := List.append_inj' (he.symm.trans he') rfl; exact ⟨b, hp⟩
  | broken pre' ev' b _ _ _ _ he' hp => obtain ⟨rfl, _⟩ := List.append_inj' (he.symm.trans he') rfl; exact ⟨b, hp⟩

/-- At rest, a connection whose socket takes bytes and that was to be told to go away was told, or was closed already when pinged on. -/
theorem told_rest (env : Env) (peers : ConnId → Peer) {N : Nat} {σ : Nat → Step} (hf : Fair N σ) {n : Nat}
    (hn : ∀ m, n ≤ m → run env (init peers) (firstSteps σ m) = run env (init peers) (firstSteps σ n)) {d : ConnId}
    (hb : ((run env (init peers) (firstSteps σ n)).conns d).wrBlocked = false)
    (ht : TurnedAway env.auth (run env (init peers) (firstSteps σ n)).served d) :
    .disconnect ∈ ((run env (init peers) (firstSteps σ n)).conns d).delivered
    ∨ ((∃ pre id, (run env (init peers) (firstSteps σ n)).served = pre ++ [.controlPacket id .pingReq d])
      ∧ HungUp (run env (init peers) (firstSteps σ n)) d) := by
  have hinv := inv_run env peers (firstSteps σ n)
  have hearly := earlier_run env peers (firstSteps σ n)
  have hfatal := crashed_run env peers (firstSteps σ n)
  obtain ⟨n', h1, h2⟩ := fair_rest env peers hf
  have hsame : run env (init peers) (firstSteps σ n') = run env (init peers) (firstSteps σ n) := by
    rw [← h1 (max n n') (Nat.le_max_right _ _), hn (max n n') (Nat.le_max_left _ _)]
  rw [hsame] at h2
  generalize run env (init peers) (firstSteps σ n) = s at *
  -- all events before the last one
  have hpre : ∀ pre ev, s.served = pre ++ [ev] → TurnedAway env.auth pre d → .disconnect ∈ (s.conns d).delivered := by
    intro pre ev he h
    obtain ⟨b, hb⟩ := serves_before hinv.serves he
    exact (hearly pre ev he d).subset (turnedAway_told hb h)
  -- the last event
  have hlast : ∀ pre ev, s.served = pre ++ [ev] → (∀ b, Broker.start.after env.auth pre = some b → ∃ b' es, .disconnect ∈ es
      ∧ b.step env.auth ev = some (b', to d es)) → .disconnect ∈ (s.conns d).delivered ∨ (s.handler = .crashed ∧ HungUp s d) := by
    intro pre ev he h
    cases hinv.serves with
    | rest b _ h1 _ ho =>
      refine .inl ?_
      rw [ho d]
      exact turnedAway_told h1 ht
    | sending todo pre' ev' b b' out hh he' hp hs hr ho hout =>
      obtain ⟨rfl, hev⟩ := List.append_inj' (he.symm.trans he') rfl
      cases hev
      obtain ⟨b'', es, hd, hs'⟩ := h b hp
      rw [hs] at hs'
      cases hs'
      have hafter : Broker.start.after env.auth s.served = some b' := by rw [he, after_append, hp]; simp [Broker.after, hs]
      cases todo with
      | nil =>
        refine .inl ?_
        have := ho d
        rw [show sentTo [] d = [] from rfl, List.append_nil] at this
        rw [this]
        exact turnedAway_told hafter ht
      | cons x todo =>
        exfalso
        obtain ⟨c, e⟩ := x
        have hcd : c = d := Classical.byContradiction fun hne => by
          have := hout c
          rw [sentTo_cons, if_pos rfl, to_other (Ne.symm hne)] at this
          have := this.length_le
          simp at this
        subst hcd
        rcases h2 with h2 | h2 | ⟨d', e', todo', _, h2, _, _, h3⟩ | h2
        · rw [hh] at h2; cases h2
        · rw [hh] at h2; cases h2
        · rw [hh] at h2
          cases h2
          rw [hb] at h3; cases h3
        · have := h2.handler
          rw [hh] at this; cases this
    | failed pre' ev' b hh he' hp hs ho =>
      obtain ⟨rfl, hev⟩ := List.append_inj' (he.symm.trans he') rfl
      cases hev
      obtain ⟨b'', es, hd, hs'⟩ := h b hp
      rw [hs] at hs'
      cases hs'
    | broken pre' ev' b b' out c hh he' hp hs hd hrx ho =>
      obtain ⟨rfl, hev⟩ := List.append_inj' (he.symm.trans he') rfl
      cases hev
      obtain ⟨b'', es, _, hs'⟩ := h b hp
      rw [hs] at hs'
      cases hs'
      have hcd : c = d := Classical.byContradiction fun hne => hd (to_other (Ne.symm hne) _)
      subst hcd
      exact .inr ⟨hh, hrx⟩
  rcases ht with ⟨p, addr, hp, hl⟩ | ⟨pre, id, post, he, hno⟩
  · have hne : s.served ≠ [] := List.ne_nil_of_mem hp
    obtain ⟨pre, ev, he⟩ : ∃ pre ev, s.served = pre ++ [ev] := ⟨_, _, (List.dropLast_concat_getLast hne).symm⟩
    rw [he, List.mem_append, List.mem_singleton] at hp
    rcases hp with hp | rfl
    · exact .inl (hpre pre ev he (.inl ⟨p, addr, hp, hl⟩))
    · refine (hlast pre _ he fun b _ => ⟨b, _, ?_, by simp only [Broker.step, hl]; rfl⟩).imp_right fun ⟨hc, _⟩ => ?_
      · simp
      · obtain ⟨pre', ev', he', h⟩ := hfatal hc
        obtain ⟨_, hev⟩ := List.append_inj' (he.symm.trans he') rfl
        cases hev
        rcases h with ⟨_, _, _, h, h'⟩ | ⟨_, _, _, h, _⟩
        · cases h
          rw [hl] at h'; cases h'
        · cases h
  · rcases List.eq_nil_or_concat post with rfl | ⟨post', ev, rfl⟩
    · refine (hlast pre _ he fun b hb => ?_).imp_right fun ⟨_, h⟩ => ⟨⟨pre, id, he⟩, h⟩
      have hnone : b.session id = none := by
        cases hses : b.session id with
        | none => rfl
        | some c => exact absurd ((after_session hb id c).mp hses) (hno c)
      refine ⟨_, _, ?_, by simp only [Broker.step, Broker.packet, hnone]; rfl⟩
      simp
    · refine .inl (hpre (pre ++ .controlPacket id .pingReq d :: post') ev (by rw [he]; simp) (.inr ⟨pre, id, post', rfl, hno⟩))

/-- At rest, a connection that was told to go away and whose socket takes bytes is closed. -/
theorem told_closed {env : Env} {peers : ConnId → Peer} {s : Sys} (h : Inv env peers s) {d : ConnId} (hw : step env s (.write d) = s)
    (hb : (s.conns d).wrBlocked = false) (hc : .disconnect ∈ (s.conns d).delivered) : HungUp s d := by
  unfold HungUp
  cases hx : (s.conns d).rxOpen with
  | false => rfl
  | true =>
    exfalso
    have hq : (s.conns d).queue = [] := Classical.byContradiction fun hne => by
      have := write_takes env hx hb hne
      rw [hw] at this
      omega
    rw [(h.writes d).all hx, hq, List.append_nil] at hc
    obtain ⟨_, _, hc⟩ := List.mem_map.mp hc
    cases hc

end Sys

end Ratel
