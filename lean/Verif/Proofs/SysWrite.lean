/-
Invariants of the running broker: the write tasks and when they end.
-/
import Verif.Proofs.SysClose
import Verif.Proofs.WriteNoErr

namespace Ratel

open Decoder Encoder Spec

theorem writeOn_snoc (al : Alloc) (ps : List ControlPacket) (p : ControlPacket) (s : WStream) :
    writeOn al (ps ++ [p]) s = (letI := WStream.sink al; ((writePacket p : M WStream Unit) (writeOn al ps s)).2) := by
  induction ps generalizing s with
  | nil => rfl
  | cons q ps ih => simp only [List.cons_append, writeOn]; exact ih _

namespace Sys

/-- What a write task has done. -/
structure WriteInv (env : Env) (peer : Peer) (k : Conn) : Prop where
  wr : k.wr = writeOn env.alloc k.written (WStream.new 4096 peer.script)
  sent : k.written.map .controlPacket ++ k.queue <+: k.delivered
  all : k.rxOpen = true → k.delivered = k.written.map .controlPacket ++ k.queue
  bound : k.queue.length ≤ channelCapacity
  shut : k.rxOpen = false → k.queue = []
  clean : (∀ o ∈ peer.script, o ≠ .fail) → (∀ p ∈ k.written, ServerPacket p) → k.wr.WfQ (· ≠ .fail)
    ∧ (k.wrBlocked = false → k.wr.out = wireOf k.written) ∧ k.wr.out <+: wireOf k.written

theorem wireOf_snoc (ps : List ControlPacket) (p : ControlPacket) : wireOf (ps ++ [p]) = wireOf ps ++ (serverBytes p).getD [] := by
  simp [wireOf]

theorem WriteInv.wrote {env : Env} {peer : Peer} {s : Sys} {c : ConnId} {k k' : Conn} (h : WriteInv env peer k) (hw : Wrote env s c k k') :
    WriteInv env peer k' := by
  obtain ⟨h1, h2, h3, h4, h5, h6⟩ := h
  have hnext : ∀ p, k.wrBlocked = false → (∀ o ∈ peer.script, o ≠ .fail) → (∀ q ∈ k.written ++ [p], ServerPacket q) →
      letI := WStream.sink env.alloc
      ((writePacket p : M WStream Unit) k.wr).1 ≠ .panic ∧ ((writePacket p : M WStream Unit) k.wr).2.WfQ (· ≠ .fail)
      ∧ (((writePacket p : M WStream Unit) k.wr).1 ≠ .pending → ((writePacket p : M WStream Unit) k.wr).1 ≠ .hang →
          ((writePacket p : M WStream Unit) k.wr).2.out = wireOf (k.written ++ [p]))
      ∧ ((writePacket p : M WStream Unit) k.wr).2.out <+: wireOf (k.written ++ [p]) := by
    letI := WStream.sink env.alloc
    intro p hb hs hp
    obtain ⟨hwf, ho, _⟩ := h6 hs fun q hq => hp q (by simp [hq])
    have hsp := hp p (by simp)
    obtain ⟨bs, hbs, _⟩ := C04_wire_format p hsp
    have he := (WStream.laws (· ≠ .fail) env.alloc).writePacket p hsp bs hbs k.wr hwf
    have hne := ((WStream.steady env.alloc).writePacket p k.wr hwf.2).1
    have hw : wireOf (k.written ++ [p]) = k.wr.out ++ bs := by rw [wireOf_snoc, hbs, ho hb]; rfl
    rw [hw]
    rcases hm : (writePacket p : M WStream Unit) k.wr with ⟨r, wr⟩
    rw [hm] at he hne
    cases r with
    | ok u => exact ⟨by simp, he.2, fun _ _ => he.1, by rw [he.1]; exact List.prefix_refl _⟩
    | err e => exact absurd rfl (hne e)
    | panic => exact he.elim
    | hang => exact he.elim
    | pending =>
      obtain ⟨⟨pre, h1, h2⟩, h3⟩ := he
      exact ⟨by simp, h3, fun h => absurd rfl h, by rw [h2]; exact (List.prefix_append_right_inj _).mpr h1⟩
  cases hw with
  | idle => exact ⟨h1, h2, h3, h4, h5, h6⟩
  | packet p rest blocked hq ho hb hw hw' =>
    rw [hq] at h2 h4
    refine ⟨?_, by simpa using h2, fun _ => by simpa [hq] using h3 ho, ?_, fun h => ?_, fun hs hp => ?_⟩
    · simp only [writeOn_snoc]; rw [← h1]
    · simp only [List.length_cons] at h4 ⊢; omega
    · exact absurd h (by simp [ho])
    · obtain ⟨_, a2, a3, a4⟩ := hnext p hb hs hp
      exact ⟨a2, fun hbl => a3 (hw' hbl).1 (hw' hbl).2, a4⟩
  | panic p rest hq ho hb hp =>
    rw [hq] at h2
    refine ⟨?_, ?_, fun h => (by cases h), by simp, fun _ => rfl, fun hs hps => ?_⟩
    · simp only [writeOn_snoc]; rw [← h1]
    · refine List.IsPrefix.trans ⟨rest, ?_⟩ h2
      simp
    · exact absurd hp (hnext p hb hs hps).1
  | disconnect rest hq ho =>
    refine ⟨h1, ?_, fun h => (by cases h), by simp, fun _ => rfl, h6⟩
    exact List.IsPrefix.trans ⟨k.queue, by simp⟩ h2
  | gone hq ho hs =>
    refine ⟨h1, ?_, fun h => (by cases h), by simp, fun _ => rfl, h6⟩
    exact List.IsPrefix.trans ⟨k.queue, by simp⟩ h2

theorem writes_step (env : Env) (peers : ConnId → Peer) (s : Sys) (st : Step) (h : ∀ c, WriteInv env (peers c) (s.conns c)) (c : ConnId) :
    WriteInv env (peers c) ((step env s st).conns c) := by
  cases st with
  | read c' =>
    obtain ⟨h1, h2, h3, h4, h5, h6⟩ := stepRead_conn env s c' c
    obtain ⟨a1, a2, a3, a4, a5, a6⟩ := h c
    simp only [step]
    exact ⟨by rw [h3, h5]; exact a1, by rw [h5, h1, h6]; exact a2, by rw [h5, h1, h6, h2]; exact a3, by rw [h1]; exact a4,
      by rw [h2, h1]; exact a5, by rw [h3, h4, h5]; exact a6⟩
  | write c' =>
    by_cases hc : c = c'
    · subst hc; exact (h c).wrote (stepWrite_wrote env s c)
    · simp only [step, stepWrite_other env s hc]; exact h c
  | handler now =>
    simp only [step]
    rcases stepHandler_conn env now s c with he | ⟨e, todo, _, hrx, hroom, he⟩
    · rw [he]; exact h c
    · rw [he]
      obtain ⟨a1, a2, a3, a4, a5, a6⟩ := h c
      have a3' := a3 hrx
      refine ⟨a1, ?_, fun _ => ?_, ?_, fun h => absurd h (by simp [hrx]), a6⟩
      · simp [a3']
      · simp [a3']
      · simp only [List.length_append, List.length_singleton]; omega
  | ctrlC => exact h c
  | stop =>
    unfold step
    cases hh : s.handler with
    | idle => simp only; split <;> exact h c
    | _ => exact h c

theorem writes_init (env : Env) (peers : ConnId → Peer) (c : ConnId) : WriteInv env (peers c) ((init peers).conns c) :=
  ⟨rfl, by simp [init, Peer.conn], fun _ => rfl, by simp [init, Peer.conn], fun _ => rfl,
    fun h _ => ⟨⟨WStream.new_wf _ _, h⟩, fun _ => rfl, List.nil_prefix⟩⟩

/-! ### When write tasks end -/

/-- What the handler still has to send. -/
def todo (s : Sys) : List (ConnId × ServerEvent) :=
  match s.handler with
  | .busy t => t
  | _ => []

/-- No part of the broker can send to the connection any more. -/
structure Gone (s : Sys) (d : ConnId) : Prop where
  ended : (s.conns d).phase = .ended
  quiet : s.handlerAlive = true → (s.conns d).outbox = none ∧ (∀ ev ∈ s.events, ¬ From d ev) ∧ sentTo s.todo d = []
    ∧ ∀ x, (s.messaging.sessions.get x).map Session.sender ≠ some d

/-- Everything known about reachable states. -/
structure Inv (env : Env) (peers : ConnId → Peer) (s : Sys) : Prop where
  reads : Reads env peers s
  serves : Serves env s
  writes : ∀ c, WriteInv env (peers c) (s.conns c)
  input : s.events.length ≤ channelCapacity
  closed : ∀ d, (s.conns d).rxOpen = false → .disconnect ∈ (s.conns d).delivered ∨ Gone s d

theorem get_mem {V : Type} {m : AssocMap V} {k : String} {v : V} (h : m.get? k = some v) : (k, v) ∈ m := by
  induction m with
  | nil => cases h
  | cons e m ih =>
    obtain ⟨k', v'⟩ := e
    rw [AssocMap.get?] at h
    split at h
    · rename_i he
      cases h; subst he; exact List.mem_cons_self
    · exact List.mem_cons_of_mem _ (ih h)

theorem outbox_from {env : Env} {peers : ConnId → Peer} {s : Sys} (h : Reads env peers s) (ha : s.handlerAlive = true) {c : ConnId}
    {ev : ClientEvent} (ho : (s.conns c).outbox = some ev) : From c ev := by
  obtain ⟨_, _, ps, pl, _, _, _, h6, _⟩ := h.conn c
  have h6 := h6 ha
  rw [ho] at h6
  exact from_eventsOf (peer := peers c) (ps := ps) (by rw [← h6]; simp)

/-- With no sender left the connection is gone. -/
theorem gone_of_noSender {env : Env} {peers : ConnId → Peer} {s : Sys} (h : Reads env peers s) {d : ConnId} (hs : s.hasSender d = false) :
    Gone s d := by
  unfold hasSender at hs
  simp only [Bool.or_eq_false_iff, Bool.and_eq_false_imp] at hs
  obtain ⟨⟨h1, h2⟩, h3⟩ := hs
  refine ⟨?_, fun ha => ?_⟩
  · revert h1
    cases (s.conns d).phase <;> simp
  · obtain ⟨⟨h4, h5⟩, h6⟩ := h3 ha
    refine ⟨?_, ?_, ?_, ?_⟩
    · cases ho : (s.conns d).outbox with
      | none => rfl
      | some ev =>
        have := outbox_from h ha ho
        rw [← eventTx_iff] at this
        rw [ho] at h2
        simp only at h2
        rw [this] at h2
        cases h2
    · intro ev hev hf
      rw [← eventTx_iff] at hf
      rw [List.any_eq_false] at h4
      exact h4 ev hev hf
    · unfold todo sentTo
      cases hh : s.handler with
      | busy t =>
        rw [hh] at h5
        simp only [Bool.or_eq_false_iff] at h5 ⊢
        have h5 := h5.1
        rw [List.any_eq_false] at h5
        rw [List.filter_eq_nil_iff.mpr (fun e he => by simpa using h5 e he)]
        rfl
      | _ => rfl
    · intro x hx
      rw [Option.map_eq_some_iff] at hx
      obtain ⟨sess, hg, hsd⟩ := hx
      rw [List.any_eq_false] at h6
      have := h6 (x, sess) (get_mem hg)
      simp only [hsd, decide_true, not_true_eq_false] at this

/-- What is delivered is of a kind the server can write. -/
theorem delivered_kind {env : Env} {s : Sys} (h : Serves env s) {d : ConnId} {p : ControlPacket}
    (hp : .controlPacket p ∈ (s.conns d).delivered) : (serverBytes p).isSome = true := by
  obtain ⟨_, _, _, _, _, _, hs⟩ := outputs_mem ((h.delivered d).subset hp)
  exact sends_kind hs

theorem closed_write (env : Env) (peers : ConnId → Peer) (s : Sys) (c : ConnId) (h : Inv env peers s) (d : ConnId)
    (hd : ((stepWrite env s c).conns d).rxOpen = false) :
    .disconnect ∈ ((stepWrite env s c).conns d).delivered ∨ Gone (stepWrite env s c) d := by
  rw [stepWrite_delivered]
  have hgone : Gone s d → Gone (stepWrite env s c) d := by
    rintro ⟨h1, h2⟩
    obtain ⟨e1, e2, e3, _⟩ := stepWrite_rest env s c
    have hr := stepWrite_reader env s c d
    refine ⟨by rw [hr.phase]; exact h1, fun ha => ?_⟩
    have ha' : s.handlerAlive = true := by unfold handlerAlive at ha ⊢; rwa [e2] at ha
    obtain ⟨h3, h4, h5, h6⟩ := h2 ha'
    exact ⟨by rw [hr.outbox]; exact h3, by rw [e1]; exact h4, by unfold todo; rw [e2]; exact h5, by rw [e3]; exact h6⟩
  by_cases hrx : (s.conns d).rxOpen = false
  · exact (h.closed d hrx).imp_right hgone
  · by_cases hc : d = c
    · subst hc
      have hw := stepWrite_wrote env s d
      have hin := h.writes d
      have hk := fun p => delivered_kind h.serves (d := d) (p := p)
      generalize hk' : (stepWrite env s d).conns d = k' at hw hd
      cases hw with
      | idle => exact absurd hd hrx
      | packet p rest blocked hq ho hb hw hw' => exact absurd hd hrx
      | panic p rest hq ho hb hp =>
        exfalso
        have hall := hin.all ho
        have hmem : ∀ q ∈ (s.conns d).written ++ [p], (serverBytes q).isSome = true := by
          intro q hq'
          apply hk
          rw [hall, hq]
          rcases List.mem_append.mp hq' with hq' | hq'
          · exact List.mem_append_left _ (List.mem_map_of_mem hq')
          · rw [List.mem_singleton] at hq'; subst hq'; simp
        have := (C17_writer_terminates env.alloc 4096 (peers d).script (s.conns d).written p hmem).2
        rw [← hin.wr] at this
        exact this hp
      | disconnect rest hq ho =>
        left
        rw [hin.all ho, hq]
        simp
      | gone hq ho hs => exact .inr (hgone (gone_of_noSender h.reads hs))
    · rw [stepWrite_other env s hc] at hd; exact absurd hd hrx

theorem closed_read (env : Env) (peers : ConnId → Peer) (s : Sys) (c : ConnId) (h : Inv env peers s) (d : ConnId)
    (hd : ((stepRead env s c).conns d).rxOpen = false) :
    .disconnect ∈ ((stepRead env s c).conns d).delivered ∨ Gone (stepRead env s c) d := by
  obtain ⟨_, e2, _, _, _, e6⟩ := stepRead_conn env s c d
  rw [e2] at hd
  rw [e6]
  refine (h.closed d hd).imp_right ?_
  rintro ⟨h1, h2⟩
  obtain ⟨g1, g2, _, _⟩ := stepRead_rest env s c
  have hal : (stepRead env s c).handlerAlive = s.handlerAlive := by unfold handlerAlive; rw [g1]
  have htodo : (stepRead env s c).todo = s.todo := by unfold todo; rw [g1]
  have hq : ∀ s', ((s'.conns d).phase = .ended) → s'.handlerAlive = s.handlerAlive → s'.todo = s.todo → s'.messaging = s.messaging →
      (s.handlerAlive = true → (s.conns d).outbox = none → (∀ ev ∈ s.events, ¬ From d ev) → (s'.conns d).outbox = none ∧ ∀ ev ∈ s'.events, ¬ From d ev)
      → Gone s' d := by
    intro s' a1 a2 a3 a4 a5
    refine ⟨a1, fun ha => ?_⟩
    rw [a2] at ha
    obtain ⟨b1, b2, b3, b4⟩ := h2 ha
    obtain ⟨c1, c2⟩ := a5 ha b1 b2
    exact ⟨c1, c2, by rw [a3]; exact b3, by rw [a4]; exact b4⟩
  refine hq _ ?_ hal htodo g2 ?_
  · unfold stepRead
    simp only
    have hset : ∀ (s' : Sys) (k : Conn), s'.conns = s.conns → (k.phase = (s.conns c).phase ∨ (s.conns c).phase ≠ .ended) →
        ((s'.setConn c k).conns d).phase = .ended := by
      intro s' k hs hk
      by_cases hc : d = c
      · subst hc; rw [setConn_self]
        rcases hk with hk | hk
        · rw [hk, h1]
        · exact absurd h1 hk
      · rw [setConn_other _ _ hc, hs]; exact h1
    split
    · split
      · split
        · exact hset _ _ rfl (.inl rfl)
        · exact h1
      · exact hset _ _ rfl (.inl rfl)
    · apply hset _ _ rfl
      unfold readTask
      cases hp : (s.conns c).phase with
      | ended => simp [hp]
      | _ => right; simp
  · intro ha ho hev
    unfold stepRead
    simp only
    cases hoc : (s.conns c).outbox with
    | some ev =>
      simp only
      have hdc : d ≠ c := by rintro rfl; rw [ho] at hoc; cases hoc
      simp only [ha, ↓reduceIte]
      split
      · rw [setConn_other _ _ hdc]
        refine ⟨ho, fun e he => ?_⟩
        simp only [setConn_events, List.mem_append, List.mem_singleton] at he
        rcases he with he | rfl
        · exact hev e he
        · exact fun hf => hdc (from_unique hf (outbox_from h.reads ha hoc))
      · exact ⟨ho, hev⟩
    | none =>
      simp only [setConn_events]
      refine ⟨?_, hev⟩
      by_cases hdc : d = c
      · subst hdc
        rw [setConn_self]
        unfold readTask
        rw [h1]
        exact ho
      · rw [setConn_other _ _ hdc]; exact ho

theorem step_session_from {auth : IdentityProvider} {b b' : Broker} {ev : ClientEvent} {out : Outputs} (h : b.step auth ev = some (b', out))
    {x : ClientId} {d : ConnId} (hx : b'.session x = some d) : From d ev ∨ b.session x = some d := by
  classical
  rw [step_session x h] at hx
  split at hx
  · cases ev with
    | connected p addr tx =>
      simp only [Option.some.injEq] at hx
      exact .inl hx
    | _ => cases hx
  · exact .inr hx

theorem closed_handler (env : Env) (peers : ConnId → Peer) (s : Sys) (now : Instant) (h : Inv env peers s) (d : ConnId)
    (hd : ((stepHandler env now s).conns d).rxOpen = false) :
    .disconnect ∈ ((stepHandler env now s).conns d).delivered ∨ Gone (stepHandler env now s) d := by
  have hrx : (s.conns d).rxOpen = false := by
    rcases stepHandler_conn env now s d with he | ⟨e, t, _, hrx, hroom, he⟩
    · rwa [he] at hd
    · rw [he] at hd; exact hd
  have hconn : (stepHandler env now s).conns d = s.conns d := by
    rcases stepHandler_conn env now s d with he | ⟨e, t, _, hrx', hroom, he⟩
    · exact he
    · rw [hrx] at hrx'; cases hrx'
  rw [hconn]
  refine (h.closed d hrx).imp_right ?_
  rintro ⟨h1, h2⟩
  refine ⟨by rw [hconn]; exact h1, fun ha => ?_⟩
  have ha' := stepHandler_alive env now s ha
  obtain ⟨h3, h4, h5, h6⟩ := h2 ha'
  rw [hconn]
  refine ⟨h3, ?_⟩
  have hserv := h.serves
  unfold stepHandler at ha ⊢
  cases hh : s.handler with
  | idle =>
    rw [hh] at ha
    simp only at ha ⊢
    cases hev : s.events with
    | nil => exact ⟨by simp [hev], by rw [todo, hh]; rfl, h6⟩
    | cons ev rest =>
      rw [hev] at ha
      simp only at ha ⊢
      obtain ⟨b, hrep⟩ : ∃ b, Rep s.messaging b := by
        cases hserv with
        | rest b _ _ hr _ => exact ⟨b, hr⟩
        | sending _ _ _ _ b' _ _ _ _ _ hr => exact ⟨b', hr⟩
        | failed _ _ _ h' => rw [hh] at h'; cases h'
        | broken _ _ _ _ _ _ h' => rw [hh] at h'; cases h'
      have hnf : ¬ From d ev := h4 ev (by rw [hev]; exact List.mem_cons_self)
      have hrest : ∀ e ∈ rest, ¬ From d e := fun e he => h4 e (by rw [hev]; exact List.mem_cons_of_mem _ he)
      have hns : ∀ x, b.session x ≠ some d := fun x => by rw [← hrep.session x]; exact h6 x
      have href := handle_refines env.auth now hrep ev
      cases hm : Handler.handle env.auth now s.messaging ev with
      | none => rw [hm] at ha; cases ha
      | some r =>
        obtain ⟨m, sends⟩ := r
        rw [hm] at href
        cases hb : b.step env.auth ev with
        | none => rw [hb] at href; exact href.elim
        | some r =>
          obtain ⟨b', out⟩ := r
          rw [hb] at href
          obtain ⟨hrep', hsend⟩ := href
          have hout : out d = [] := by
            apply Classical.byContradiction
            intro hne
            rcases step_to hb hne with ⟨hf, _⟩ | ⟨_, _, _, _, e, _, hs, _⟩
            · exact hnf hf
            · exact hns _ hs
          have hses : ∀ x, (m.sessions.get x).map Session.sender ≠ some d := by
            intro x hx
            rw [hrep'.session x] at hx
            rcases step_session_from hb hx with hf | hs
            · exact hnf hf
            · exact hns _ hs
          cases sends with
          | nil => exact ⟨hrest, rfl, hses⟩
          | cons x sends => exact ⟨hrest, (hsend d).trans hout, hses⟩
  | busy t =>
    cases t with
    | nil => exact ⟨h4, rfl, h6⟩
    | cons x t =>
      obtain ⟨c, e⟩ := x
      rw [hh] at ha
      simp only at ha ⊢
      have h5' : sentTo t d = [] := by
        rw [todo, hh] at h5
        simp only [sentTo_cons, List.append_eq_nil_iff] at h5
        exact h5.2
      have hdone : sentTo (todo { s with handler := if t = [] then HandlerState.idle else .busy t }) d = [] := by
        by_cases ht : t = []
        · simp [ht, todo, sentTo]
        · simp [ht, todo, h5']
      split
      · split
        · exact ⟨h4, hdone, h6⟩
        · exact ⟨h4, h5, h6⟩
      · rename_i hr
        rw [if_neg hr] at ha
        cases ha
  | crashed => exact ⟨h4, h5, h6⟩
  | stopped => exact ⟨h4, h5, h6⟩

theorem Gone.congr {s s' : Sys} {d : ConnId} (h : Gone s d) (h1 : s'.conns = s.conns) (h2 : s'.events = s.events)
    (h3 : s'.messaging = s.messaging) (h4 : s'.handlerAlive = true → s'.handler = s.handler) : Gone s' d := by
  refine ⟨by rw [h1]; exact h.ended, fun ha => ?_⟩
  have hh := h4 ha
  obtain ⟨b1, b2, b3, b4⟩ := h.quiet (by unfold handlerAlive at ha ⊢; rwa [hh] at ha)
  exact ⟨by rw [h1]; exact b1, by rw [h2]; exact b2, by unfold todo; rw [hh]; exact b3, by rw [h3]; exact b4⟩

theorem inv_init (env : Env) (peers : ConnId → Peer) : Inv env peers (init peers) where
  reads := reads_init env peers
  serves := serves_init env peers
  writes := writes_init env peers
  input := by simp [init]
  closed d h := by cases h

theorem input_step (env : Env) (s : Sys) (st : Step) (h : s.events.length ≤ channelCapacity) :
    (step env s st).events.length ≤ channelCapacity := by
  cases st with
  | read c =>
    unfold step stepRead
    simp only
    split
    · split
      · split
        · simp only [setConn_events, List.length_append, List.length_singleton]; omega
        · exact h
      · exact h
    · exact h
  | write c => simp only [step, (stepWrite_rest env s c).1]; exact h
  | handler now =>
    unfold step stepHandler
    simp only
    split
    · split
      · exact h
      · rename_i ev rest hev
        rw [hev] at h
        simp only [List.length_cons] at h
        split <;> (show rest.length ≤ _; omega)
    · exact h
    · split
      · split <;> exact h
      · exact h
    · exact h
    · exact h
  | ctrlC => exact h
  | stop =>
    unfold step
    cases hh : s.handler with
    | idle => simp only; split <;> exact h
    | _ => exact h

theorem inv_step (env : Env) (peers : ConnId → Peer) (s : Sys) (st : Step) (h : Inv env peers s) : Inv env peers (step env s st) where
  reads := reads_step env peers s st h.reads
  serves := serves_step env s st h.serves
  writes := writes_step env peers s st h.writes
  input := input_step env s st h.input
  closed d hd := by
    cases st with
    | read c => exact closed_read env peers s c h d hd
    | write c => exact closed_write env peers s c h d hd
    | handler now => exact closed_handler env peers s now h d hd
    | ctrlC => exact (h.closed d hd).imp_right fun g => g.congr rfl rfl rfl fun _ => rfl
    | stop =>
      revert hd
      unfold step
      cases hh : s.handler with
      | idle =>
        simp only
        split
        · exact fun hd => (h.closed d hd).imp_right fun g => g.congr rfl rfl rfl fun ha => by cases ha
        · exact h.closed d
      | _ => exact h.closed d

theorem inv_run (env : Env) (peers : ConnId → Peer) (sched : List Step) : Inv env peers (run env (init peers) sched) :=
  run_induction (inv_step env peers) (inv_init env peers) sched

end Sys

end Ratel
