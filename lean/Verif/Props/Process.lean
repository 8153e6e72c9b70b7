/-
C82–C87: the process. `Proc.run env W (Proc.start L peers) ps` is the state reached by the schedule `ps` with `W` worker threads and `L`
listeners.
-/
import Verif.Proofs.ProcRun
import Verif.Props.Liveness

namespace Ratel

open Decoder Encoder Spec Sys

/-! ### C82 -/

/-- C82. Whatever the process does, however many worker threads and listeners it has: there is one sequence of events, made up of a
beginning of what the bytes of each accepted connection stand for, such that each connection has been sent a beginning of what the
sequential broker sends it for that sequence, its socket has got a beginning of the wire format of that unless a write failed, and a
connection that was not accepted is sent nothing. -/
theorem C82_process_linearizable (env : Env) (W L : Nat) (peers : ConnId → Peer) (ps : List PStep) :
    ∃ evs : List ClientEvent, (∀ ev ∈ evs, ∃ c, c ∈ (Proc.run env W (Proc.start L peers) ps).accepted ∧ From c ev) ∧ Orderly env peers evs
      ∧ ∀ d, ∃ sent : List ControlPacket, sent.map .controlPacket <+: Broker.start.outputs env.auth evs d
        ∧ ((Proc.run env W (Proc.start L peers) ps).sys.conns d).wr = writeOn env.alloc sent (WStream.new 4096 (peers d).script)
        ∧ ((∀ o ∈ (peers d).script, o ≠ .fail) →
            ((Proc.run env W (Proc.start L peers) ps).sys.conns d).wr.wire <+: wireOf sent)
        ∧ (d ∉ (Proc.run env W (Proc.start L peers) ps).accepted →
            ((Proc.run env W (Proc.start L peers) ps).sys.conns d).wr.wire = []) := by
  have hp := Proc.pinv_run env W L peers ps
  generalize Proc.run env W (Proc.start L peers) ps = p at hp
  have hun : ∀ d, d ∉ p.accepted → (p.sys.conns d).phase = .first ∧ (p.sys.conns d).wr = (peers d).conn.wr :=
    fun d hd => ⟨(Proc.unaccepted hp hd).1, (Proc.unaccepted hp hd).2.2.2⟩
  obtain ⟨sched, h1, h2, _⟩ := hp.sys
  rw [h1] at hun ⊢
  have hinv := inv_run env peers sched
  have hord := reads_orderly_served hinv.reads
  refine ⟨(Sys.run env (init peers) sched).served, fun ev hev => ?_, hord,
    fun d => ⟨((Sys.run env (init peers) sched).conns d).written, ?_, (hinv.writes d).wr, fun hf => ?_, fun hd => ?_⟩⟩
  · obtain ⟨c, hc⟩ := hinv.reads.from_conn ev (List.mem_append_left _ hev)
    refine ⟨c, Classical.byContradiction fun hn => ?_, hc⟩
    have hmem : ev ∈ (Sys.run env (init peers) sched).taken c :=
      List.mem_filter.mpr ⟨List.mem_append_left _ hev, by simpa using hc⟩
    rw [first_taken hinv.reads (hun c hn).1] at hmem
    cases hmem
  · exact ((List.prefix_append _ _).trans (hinv.writes d).sent).trans (hinv.serves.delivered d)
  · have hs : ∀ p ∈ ((Sys.run env (init peers) sched).conns d).written, ServerPacket p := by
      intro p hp
      refine delivered_server hord (d := d) ((hinv.serves.delivered d).subset ((hinv.writes d).sent.subset ?_))
      exact List.mem_append_left _ (List.mem_map_of_mem hp)
    have := ((hinv.writes d).clean hf hs).2.2
    exact (List.prefix_append _ _).trans this
  · rw [(hun d hd).2]; rfl

/-- C82, in one line: whatever the process does, its tasks have done something that the broker's tasks alone can do. What C43 to C104 say
about all executions of the broker therefore holds for the process. -/
theorem C82_process_is_broker (env : Env) (W L : Nat) (peers : ConnId → Peer) (ps : List PStep) :
    ∃ sched, (Proc.run env W (Proc.start L peers) ps).sys = Sys.run env (init peers) sched :=
  let ⟨sched, h, _⟩ := (Proc.pinv_run env W L peers ps).sys
  ⟨sched, h⟩

/-- C82, the other direction: with at least one worker thread and one listener, every execution of the broker on connections that can be read
to their end is one of the process. -/
theorem C82_process_realizes (env : Env) (W L : Nat) (peers : ConnId → Peer) (hW : 0 < W) (hL : 0 < L) (sched : List Step)
    (hend : ∀ st ∈ sched, ∀ c, st = .read c ∨ st = .write c → ¬ Spinning env (peers c)) :
    ∃ ps, (Proc.run env W (Proc.start L peers) ps).sys = Sys.run env (init peers) sched :=
  ⟨_, (Proc.realize env W L peers hW hL sched hend).1⟩

theorem examplePeers_short : ∀ c : ConnId, (examplePeers c).segs.flatten.length < 4096 := by
  have h0 : (clientBytes subscriberPackets).length < 4096 := by decide +kernel
  have h1 : (clientBytes publisherPackets).length < 4096 := by decide +kernel
  intro c
  unfold examplePeers
  repeat' split
  · simpa using h0
  · simpa using h1
  · show List.length _ < _; decide +kernel
  · show List.length _ < _; decide +kernel
  · show List.length _ < _; decide +kernel

-- the stall of C52 is an execution of the process
example : ∃ ps e, Stuck (Proc.run exampleEnv 4 (Proc.start 1 examplePeers) ps).sys 0 e [] := by
  obtain ⟨sched, e, h, _⟩ := stall exampleEnv examplePeers (by simp [examplePeers]) (by simp [examplePeers]) (by simp [examplePeers])
  obtain ⟨ps, hps⟩ := C82_process_realizes exampleEnv 4 1 examplePeers (by decide) (by decide) sched fun _ _ c _ => not_spinning (examplePeers_short c)
  exact ⟨ps, e, by rw [hps]; exact h⟩

/-! ### C83 -/

/-- C83. The process ends only because ctrl-c was pressed. If it ends well then no listener accepts any more, the messaging task is gone,
and the packet handler took its ctrl-c branch between two events; if not, then the packet handler crashed, on one of the events known to
be fatal. Once it has ended nothing happens any more. -/
theorem C83_exit (env : Env) (W L : Nat) (peers : ConnId → Peer) (ps : List PStep) (ok : Bool)
    (h : (Proc.run env W (Proc.start L peers) ps).main = .exited ok) :
    .signal ∈ ps
    ∧ (ok = true → (∀ b ∈ (Proc.run env W (Proc.start L peers) ps).listeners, b = false)
        ∧ (Proc.run env W (Proc.start L peers) ps).messagingUp = false
        ∧ (Proc.run env W (Proc.start L peers) ps).sys.handler = .stopped)
    ∧ (ok = false → Fatal env.auth ((Proc.run env W (Proc.start L peers) ps).sys.log.map Prod.fst))
    ∧ ∀ ps', (Proc.run env W (Proc.start L peers) (ps ++ ps')).accepted = (Proc.run env W (Proc.start L peers) ps).accepted
        ∧ (Proc.run env W (Proc.start L peers) (ps ++ ps')).sys = (Proc.run env W (Proc.start L peers) ps).sys
        ∧ (Proc.run env W (Proc.start L peers) (ps ++ ps')).main = .exited ok := by
  have hp := Proc.pinv_run env W L peers ps
  have hfin : ∀ ps', Proc.run env W (Proc.start L peers) (ps ++ ps') = Proc.run env W (Proc.start L peers) ps := by
    intro ps'
    rw [Proc.run_append]
    generalize Proc.run env W (Proc.start L peers) ps = p at h
    induction ps' with
    | nil => rfl
    | cons st ps' ih =>
      rw [Proc.run_cons]
      have hf : p.free W = false := by simp [Proc.free, Proc.gone, h]
      have : Proc.step env W p st = p := by
        cases st <;> simp [Proc.step, hf, Proc.stepSignal, Proc.stepMain, h]
      rw [this]
      exact ih
  have hst := hp.stage
  obtain ⟨sched, h1, _, _⟩ := hp.sys
  unfold Proc.Stage at hst
  rw [h] at hst
  cases ok with
  | true =>
    refine ⟨hst.1, fun _ => ⟨fun b hb => ?_, hst.2.2⟩, (fun h => by cases h), fun ps' => by rw [hfin]; exact ⟨rfl, rfl, h⟩⟩
    have := List.all_eq_true.mp hst.2.1 b hb
    simpa using this
  | false =>
    refine ⟨hst.1, (fun h => by cases h), fun _ => ?_, fun ps' => by rw [hfin]; exact ⟨rfl, rfl, h⟩⟩
    rw [h1]
    exact crashed_run env peers sched (by rw [← h1]; exact hst.2)

/-- Until ctrl-c is pressed all listeners accept. -/
theorem listening_run (env : Env) (W L : Nat) (peers : ConnId → Peer) (qs : List PStep) :
    .signal ∉ qs → (Proc.run env W (Proc.start L peers) qs).listeners = List.replicate L true := by
  have key : ∀ rs : List PStep, .signal ∉ rs.reverse → (Proc.run env W (Proc.start L peers) rs.reverse).listeners = List.replicate L true := by
    intro rs
    induction rs with
    | nil => intro _; rfl
    | cons st rs ih =>
      intro hn
      rw [List.reverse_cons] at hn ⊢
      rw [Proc.run_append]
      have hn1 : PStep.signal ∉ rs.reverse := fun hh => hn (List.mem_append_left _ hh)
      have hn2 : st ≠ .signal := fun hh => hn (by simp [hh])
      have ih := ih hn1
      have hc0 : (Proc.run env W (Proc.start L peers) rs.reverse).sys.ctrlC = false := by
        have hs := (Proc.pinv_run env W L peers rs.reverse).stage
        unfold Proc.Stage at hs
        split at hs
        · exact hs.2
        all_goals exact absurd hs.1 hn1
      generalize Proc.run env W (Proc.start L peers) rs.reverse = q at *
      show (Proc.step env W q st).listeners = _
      cases st with
      | accept l d => simp only [Proc.step]; split <;> exact ih
      | task st => simp only [Proc.step]; split <;> exact ih
      | stopListening l => simp only [Proc.step, hc0, Bool.and_false, Bool.false_eq_true, ↓reduceIte]; exact ih
      | messagingEnds => simp only [Proc.step]; split <;> exact ih
      | signal => exact absurd rfl hn2
      | main => simp only [Proc.step, Proc.stepMain]; repeat' split
                all_goals exact ih
  have := key qs.reverse
  rwa [List.reverse_reverse] at this

/-- C83, on the way: the shutdown has begun exactly if ctrl-c was pressed; listeners stop only then, and a stopped one accepts no more
connections; the messaging task, on which the packet handler depends, never ends before it. -/
theorem C83_order (env : Env) (W L : Nat) (peers : ConnId → Peer) (ps : List PStep) :
    ((Proc.run env W (Proc.start L peers) ps).main ≠ .serving ↔ .signal ∈ ps)
    ∧ (.signal ∉ ps → (Proc.run env W (Proc.start L peers) ps).listeners = List.replicate L true)
    ∧ ((∀ b ∈ (Proc.run env W (Proc.start L peers) ps).listeners, b = false) → ∀ ps',
        (Proc.run env W (Proc.start L peers) (ps ++ ps')).accepted = (Proc.run env W (Proc.start L peers) ps).accepted)
    ∧ ((Proc.run env W (Proc.start L peers) ps).messagingUp = false →
        (Proc.run env W (Proc.start L peers) ps).sys.handler = .crashed ∨ (Proc.run env W (Proc.start L peers) ps).sys.handler = .stopped) := by
  have hp := Proc.pinv_run env W L peers ps
  refine ⟨?_, listening_run env W L peers ps, fun hl ps' => ?_, fun hm => ?_⟩
  · have hst := hp.stage
    unfold Proc.Stage at hst
    constructor
    · intro hm
      split at hst
      · rename_i h; exact absurd h hm
      all_goals exact hst.1
    · intro hs hm
      rw [hm] at hst
      exact hst.1 hs
  · rw [Proc.run_append]
    generalize Proc.run env W (Proc.start L peers) ps = p at hl
    induction ps' generalizing p with
    | nil => rfl
    | cons st ps' ih =>
      rw [Proc.run_cons]
      have h : (Proc.step env W p st).accepted = p.accepted ∧ ∀ b ∈ (Proc.step env W p st).listeners, b = false := by
        cases st with
        | accept l d =>
          have : (p.listeners[l]? == some true) = false := by
            cases hx : p.listeners[l]? with
            | none => rfl
            | some b => rw [hl b (List.mem_of_getElem? hx)]; rfl
          simp only [Proc.step, this, Bool.and_false, Bool.false_and, Bool.false_eq_true, ↓reduceIte]
          exact ⟨trivial, hl⟩
        | stopListening l =>
          simp only [Proc.step]
          split
          · refine ⟨rfl, fun b hb => ?_⟩
            rcases List.mem_or_eq_of_mem_set hb with h | h
            · exact hl b h
            · exact h
          · exact ⟨rfl, hl⟩
        | task st => simp only [Proc.step]; split <;> exact ⟨rfl, hl⟩
        | messagingEnds => simp only [Proc.step]; split <;> exact ⟨rfl, hl⟩
        | signal => simp only [Proc.step, Proc.stepSignal]; repeat' split
                    all_goals exact ⟨rfl, hl⟩
        | main => simp only [Proc.step, Proc.stepMain]; repeat' split
                  all_goals exact ⟨rfl, hl⟩
      rw [ih _ h.2, h.1]
  · have := hp.down hm
    unfold handlerAlive at this
    split at this
    · cases this
    · cases this
    · rename_i h; exact .inl h
    · rename_i h; exact .inr h

/-- A schedule that ends the process when nothing is going on. -/
def endIt (L : Nat) : List PStep :=
  .signal :: (List.range L).map .stopListening ++ [.task .stop, .messagingEnds, .main, .main, .main, .main]

theorem endIt_ends (env : Env) (W L : Nat) (peers : ConnId → Peer) (ps : List PStep) (hW : 0 < W)
    (hm : (Proc.run env W (Proc.start L peers) ps).main = .serving)
    (hh : (Proc.run env W (Proc.start L peers) ps).sys.handler = .idle) (hs : (Proc.run env W (Proc.start L peers) ps).spinning = 0) :
    (Proc.run env W (Proc.start L peers) (ps ++ endIt L)).main = .exited true
    ∧ (Proc.run env W (Proc.start L peers) (ps ++ endIt L)).sys.conns = (Proc.run env W (Proc.start L peers) ps).sys.conns
    ∧ (Proc.run env W (Proc.start L peers) (ps ++ endIt L)).sys.events = (Proc.run env W (Proc.start L peers) ps).sys.events
    ∧ (Proc.run env W (Proc.start L peers) (ps ++ endIt L)).sys.log = (Proc.run env W (Proc.start L peers) ps).sys.log := by
  have hp := Proc.pinv_run env W L peers ps
  rw [Proc.run_append]
  generalize Proc.run env W (Proc.start L peers) ps = p at *
  have hlen := hp.listeners
  have e1 : Proc.step env W p .signal = { p with sys := { p.sys with ctrlC := true }, main := .joinListeners } := by
    simp [Proc.step, Proc.stepSignal, hm, handlerAlive, hh]
  have key : ∀ k, Proc.run env W (Proc.step env W p .signal) ((List.range k).map .stopListening)
      = { p with sys := { p.sys with ctrlC := true }, main := .joinListeners, listeners := List.replicate (min k p.listeners.length) false ++ p.listeners.drop k } := by
    intro k
    induction k with
    | zero => rw [e1]; simp [Proc.run]
    | succ k ih =>
      rw [List.range_succ, List.map_append, Proc.run_append, ih]
      have hf : Proc.free W { p with sys := { p.sys with ctrlC := true }, main := .joinListeners, listeners := List.replicate (min k p.listeners.length) false ++ p.listeners.drop k } = true := by
        have : Proc.spinning { p with sys := { p.sys with ctrlC := true }, main := .joinListeners, listeners := List.replicate (min k p.listeners.length) false ++ p.listeners.drop k } = 0 := hs
        simp [Proc.free, Proc.gone, this, hW]
      show Proc.step env W _ (.stopListening k) = _
      simp only [Proc.step, hf, Bool.and_self, ↓reduceIte]
      congr 1
      by_cases hk : k < p.listeners.length
      · rw [List.drop_eq_getElem_cons hk, Nat.min_eq_left (by omega), Nat.min_eq_left (by omega), List.set_append_right _ _ (by simp),
          List.length_replicate, Nat.sub_self, List.set_cons_zero, List.replicate_succ', List.append_assoc]
        rfl
      · rw [List.drop_eq_nil_of_le (by omega), List.drop_eq_nil_of_le (by omega), Nat.min_eq_right (by omega), Nat.min_eq_right (by omega)]
        simp only [List.append_nil]
        exact List.set_eq_of_length_le (by simp; omega)
  have key := key L
  rw [← hlen, Nat.min_self, List.drop_eq_nil_of_le (Nat.le_refl _), List.append_nil, hlen] at key
  unfold endIt
  rw [List.cons_append, Proc.run_cons, Proc.run_append, key]
  have sp : ∀ q : Proc, q.accepted = p.accepted → q.sys.conns = p.sys.conns → q.spinning = 0 := by
    intro q h1 h2; unfold Proc.spinning at hs ⊢; rw [h1, h2]; exact hs
  have fr : ∀ q : Proc, q.accepted = p.accepted → q.sys.conns = p.sys.conns → q.main = .joinListeners → q.free W = true := by
    intro q h1 h2 h3; simp [Proc.free, Proc.gone, h3, sp q h1 h2, hW]
  rw [Proc.run_cons]
  have s1 : Proc.step env W { p with sys := { p.sys with ctrlC := true }, main := .joinListeners, listeners := List.replicate L false } (.task .stop)
      = { p with sys := { p.sys with ctrlC := true, handler := .stopped }, main := .joinListeners, listeners := List.replicate L false } := by
    simp only [Proc.step]
    rw [fr _ (by rfl) (by rfl) (by rfl)]
    simp [Proc.runnable, Sys.step, hh]
  rw [s1, Proc.run_cons]
  have s2 : Proc.step env W { p with sys := { p.sys with ctrlC := true, handler := .stopped }, main := .joinListeners, listeners := List.replicate L false } .messagingEnds
      = { p with sys := { p.sys with ctrlC := true, handler := .stopped }, main := .joinListeners, listeners := List.replicate L false, messagingUp := false } := by
    simp only [Proc.step]
    rw [fr _ (by rfl) (by rfl) (by rfl)]
    simp [handlerAlive]
  rw [s2, Proc.run_cons]
  simp only [Proc.step, Proc.stepMain, List.all_replicate, Bool.not_false]
  rw [Proc.run_cons]
  have hall : (if L = 0 then true else true) = true := by split <;> rfl
  simp only [Proc.step, Proc.stepMain, hall, Bool.false_eq_true, ↓reduceIte]
  rw [Proc.run_cons]
  simp only [Proc.step, Proc.stepMain]
  rw [Proc.run_cons]
  simp only [Proc.step, Proc.stepMain]
  rw [if_pos (sp _ (by rfl) (by rfl))]
  exact ⟨rfl, rfl, rfl, rfl⟩

-- C83: a process that ends well
example : (Proc.run exampleEnv 4 (Proc.start 2 examplePeers) (endIt 2)).main = .exited true :=
  (endIt_ends exampleEnv 4 2 examplePeers [] (by decide) rfl rfl rfl).1

/-! ### C84 -/

/-- C84 is violated: once a connection has sent, as its first packet, a PUBLISH with more than 4096 bytes of payload, then the process
never ends, whatever happens, ctrl-c included; from every state of the process such a connection brings this about, as long as a worker
thread is free and some listener accepts. -/
theorem C84_spinning_fails (env : Env) (W L : Nat) (peers : ConnId → Peer) (ps : List PStep) (c : ConnId) (hc : Hog (peers c)) (l : Nat)
    (hW : (Proc.run env W (Proc.start L peers) ps).spinning < W) (hl : (Proc.run env W (Proc.start L peers) ps).listeners[l]? = some true)
    (hnew : c ∉ (Proc.run env W (Proc.start L peers) ps).accepted) (hg : ∀ ok, (Proc.run env W (Proc.start L peers) ps).main ≠ .exited ok) :
    ∃ ps', ∀ ps'' ok, (Proc.run env W (Proc.start L peers) (ps ++ ps' ++ ps'')).main ≠ .exited ok := by
  have hp := Proc.pinv_run env W L peers ps
  have hg' : (Proc.run env W (Proc.start L peers) ps).gone = false := by
    unfold Proc.gone
    split
    · rename_i ok h; exact absurd h (hg ok)
    · rfl
  obtain ⟨ps', h1, h2⟩ := Proc.hogs env W [c] (by simp) (by simpa using hc) hp (by simpa using hnew) hl hg'
  refine ⟨ps', fun ps'' ok he => ?_⟩
  have hpos : 0 < (Proc.run env W (Proc.run env W (Proc.start L peers) ps) ps').spinning := by
    simp only [List.length_singleton] at h1
    omega
  rw [← Proc.run_append] at hpos h2
  have := (Proc.spinning_stays env W (Proc.pinv_run env W L peers (ps ++ ps')) hpos h2 ps'').2
  rw [← Proc.run_append] at this
  unfold Proc.gone at this
  rw [he] at this
  cases this

/-- A connection whose first packet is a large PUBLISH. -/
def hogPeer : Peer := ⟨someAddr, "u", [Spec.packet (Spec.publishFirst bigPublish) (Spec.publishRest bigPublish)], .eof, []⟩

theorem hogPeer_hog : Hog hogPeer :=
  ⟨bigPublish, [], bigPublish_legal, by rw [bigPublish_rest]; simp [bigPayload_length], by simp [bigPublish, bigPayload_length],
    by simp [hogPeer]⟩

example : ∃ ps', ∀ ps'' ok, (Proc.run exampleEnv 4 (Proc.start 1 fun _ => hogPeer) ([] ++ ps' ++ ps'')).main ≠ .exited ok :=
  C84_spinning_fails exampleEnv 4 1 (fun _ => hogPeer) [] 0 hogPeer_hog 0 (by decide) rfl (by simp [Proc.run, Proc.start])
    (by intro ok h; cases h)

/-- C84 is violated also in the situation of C52: the process never ends. -/
theorem C84_stalled_fails (env : Env) (W L : Nat) (peers : ConnId → Peer) (hW : 0 < W) (hL : 0 < L)
    (h0 : (peers 0).segs.flatten = clientBytes subscriberPackets) (hw : (peers 0).script = [])
    (h1 : (peers 1).segs.flatten = clientBytes publisherPackets) (hshort : ∀ c, (peers c).segs.flatten.length < 4096) :
    ∃ ps, ∀ ps' ok, (Proc.run env W (Proc.start L peers) (ps ++ ps')).main ≠ .exited ok := by
  obtain ⟨sched, e, hs, _⟩ := stall env peers h0 h1 hw
  obtain ⟨r1, _, _, _⟩ := Proc.realize env W L peers hW hL sched fun _ _ c _ => not_spinning (hshort c)
  refine ⟨sched.flatMap Proc.asSteps, fun ps' ok he => ?_⟩
  have hst := (Proc.pinv_run env W L peers (sched.flatMap Proc.asSteps ++ ps')).stage
  obtain ⟨sched', hl⟩ := Proc.later (W := W) (Proc.pinv_run env W L peers (sched.flatMap Proc.asSteps)) ps'
  rw [← Proc.run_append, r1] at hl
  have hb := (stuck_run env hs sched').2.1
  rw [← hl] at hb
  unfold Proc.Stage at hst
  rw [he] at hst
  cases ok with
  | true => rw [hst.2.2.2] at hb; cases hb
  | false => rw [hst.2] at hb; cases hb

example : ∃ ps, ∀ ps' ok, (Proc.run exampleEnv 4 (Proc.start 1 examplePeers) (ps ++ ps')).main ≠ .exited ok :=
  C84_stalled_fails exampleEnv 4 1 examplePeers (by decide) (by decide) (by simp [examplePeers]) (by simp [examplePeers])
    (by simp [examplePeers]) examplePeers_short

/-- C84, the part that holds: if every task gets its turn again and again and ctrl-c is pressed, then in the end the process is gone, well
or, if the packet handler crashed on one of the events known to be fatal, by a panic; or the handler is waiting for ever for a connection
whose socket takes no more; or the read task of some connection that sent at least 4096 bytes spins. Missing: the last two. -/
theorem C84_ctrl_c_partial (env : Env) (W L N : Nat) (peers : ConnId → Peer) (τ : Nat → PStep) (hf : PFair N L τ) (hs : ∃ i, τ i = .signal)
    (hW : 0 < W) :
    ∃ n, (∀ m, n ≤ m → Proc.run env W (Proc.start L peers) (firstPSteps τ m) = Proc.run env W (Proc.start L peers) (firstPSteps τ n))
      ∧ ((Proc.run env W (Proc.start L peers) (firstPSteps τ n)).main = .exited true
        ∨ ((Proc.run env W (Proc.start L peers) (firstPSteps τ n)).main = .exited false
            ∧ Fatal env.auth ((Proc.run env W (Proc.start L peers) (firstPSteps τ n)).sys.log.map Prod.fst))
        ∨ (∃ d e todo, d ∈ (Proc.run env W (Proc.start L peers) (firstPSteps τ n)).accepted
            ∧ Stuck (Proc.run env W (Proc.start L peers) (firstPSteps τ n)).sys d e todo)
        ∨ ∃ c, c ∈ (Proc.run env W (Proc.start L peers) (firstPSteps τ n)).accepted
            ∧ ((Proc.run env W (Proc.start L peers) (firstPSteps τ n)).sys.conns c).phase = .stuck
            ∧ Spinning env (peers c)) := by
  obtain ⟨n, h1, h2⟩ := Proc.pfair_rest env W L peers hf
  refine ⟨n, h1, ?_⟩
  have hp := Proc.pinv_run env W L peers (firstPSteps τ n)
  by_cases hsp : (Proc.run env W (Proc.start L peers) (firstPSteps τ n)).spinning = 0
  · obtain ⟨_, h3, _⟩ := h2 _ rfl (by omega)
    rcases h3 hs with hg | h | ⟨h, _⟩
    · cases hm : (Proc.run env W (Proc.start L peers) (firstPSteps τ n)).main with
      | exited ok =>
        cases ok with
        | true => exact .inl rfl
        | false => exact .inr (.inl ⟨rfl, (C83_exit env W L peers _ false hm).2.2.1 rfl⟩)
      | _ => simp [Proc.gone, hm] at hg
    · exact .inr (.inr (.inl h))
    · omega
  · refine .inr (.inr (.inr ?_))
    unfold Proc.spinning at hsp
    obtain ⟨c, hc⟩ := List.exists_mem_of_length_pos (Nat.pos_of_ne_zero hsp)
    rw [List.mem_filter] at hc
    have hph : ((Proc.run env W (Proc.start L peers) (firstPSteps τ n)).sys.conns c).phase = .stuck := by simpa using hc.2
    refine ⟨c, hc.1, hph, ?_⟩
    obtain ⟨sched, h3, _⟩ := hp.sys
    rw [h3] at hph
    exact stuck_spinning env peers sched c hph

/-- An endless schedule in which everybody gets their turn, two connections knock, and, if `sig`, ctrl-c is pressed. -/
def procRound (sig : Bool) (n : Nat) : PStep :=
  match n % 12 with
  | 0 => .accept 0 0
  | 1 => .accept 0 1
  | 2 => .task (.read 0)
  | 3 => .task (.write 0)
  | 4 => .task (.read 1)
  | 5 => .task (.write 1)
  | 6 => .task (.handler n)
  | 7 => .task .stop
  | 8 => .stopListening 0
  | 9 => .messagingEnds
  | 10 => .main
  | _ => bif sig then .signal else .main

theorem procRound_few (sig : Bool) : PFew 2 (procRound sig) := by
  intro n l c h
  unfold procRound at h
  split at h <;> (try cases h) <;> (try decide)
  cases sig <;> cases h

theorem procRound_fair (sig : Bool) : PFair 2 1 (procRound sig) := by
  have at' : ∀ n k, k < 12 → (12 * n + k) % 12 = k := fun n k hk => by omega
  have two : ∀ c : Nat, c < 2 → c = 0 ∨ c = 1 := fun c hc => by omega
  refine ⟨procRound_few sig, fun c hc n => ?_, fun c hc n => ?_, fun n => ?_, fun n => ?_, fun l hl n => ?_, fun n => ?_, fun n => ?_⟩
  · rcases two c hc with rfl | rfl
    · exact ⟨12 * n + 2, by omega, by simp only [procRound, at' n 2 (by decide)]⟩
    · exact ⟨12 * n + 4, by omega, by simp only [procRound, at' n 4 (by decide)]⟩
  · rcases two c hc with rfl | rfl
    · exact ⟨12 * n + 3, by omega, by simp only [procRound, at' n 3 (by decide)]⟩
    · exact ⟨12 * n + 5, by omega, by simp only [procRound, at' n 5 (by decide)]⟩
  · exact ⟨12 * n + 6, (12 * n + 6 : Nat), by omega, by simp only [procRound, at' n 6 (by decide)]⟩
  · exact ⟨12 * n + 7, by omega, by simp only [procRound, at' n 7 (by decide)]⟩
  · have : l = 0 := by omega
    subst this
    exact ⟨12 * n + 8, by omega, by simp only [procRound, at' n 8 (by decide)]⟩
  · exact ⟨12 * n + 9, by omega, by simp only [procRound, at' n 9 (by decide)]⟩
  · exact ⟨12 * n + 10, by omega, by simp only [procRound, at' n 10 (by decide)]⟩

theorem procRound_knocking (sig : Bool) : Knocking 2 1 (procRound sig) := by
  intro c hc n
  have : c = 0 ∨ c = 1 := by omega
  rcases this with rfl | rfl
  · exact ⟨12 * n, 0, by omega, by decide, by simp only [procRound, show 12 * n % 12 = 0 by omega]⟩
  · exact ⟨12 * n + 1, 0, by omega, by decide, by simp only [procRound, show (12 * n + 1) % 12 = 1 by omega]⟩

-- C84 for the clients of the example
example : ∃ n, ∀ m, n ≤ m → Proc.run exampleEnv 1 (Proc.start 1 examplePeers) (firstPSteps (procRound true) m)
    = Proc.run exampleEnv 1 (Proc.start 1 examplePeers) (firstPSteps (procRound true) n) :=
  let ⟨n, h, _⟩ := C84_ctrl_c_partial exampleEnv 1 1 2 examplePeers _ (procRound_fair true) ⟨11, rfl⟩ (by decide)
  ⟨n, h⟩

/-! ### C85 -/

/-- C85 is violated: when the packet handler has crashed, the process lives on until ctrl-c is pressed: it never ends by itself, its
listeners go on accepting every new connection (while a worker thread is free), and nobody is ever sent anything. -/
theorem C85_zombie_fails (env : Env) (W L : Nat) (peers : ConnId → Peer) (ps : List PStep)
    (h : (Proc.run env W (Proc.start L peers) ps).sys.handler = .crashed) (hs : .signal ∉ ps) (ps' : List PStep) (hs' : .signal ∉ ps') :
    (Proc.run env W (Proc.start L peers) (ps ++ ps')).main = .serving
    ∧ (Proc.run env W (Proc.start L peers) (ps ++ ps')).sys.log = (Proc.run env W (Proc.start L peers) ps).sys.log
    ∧ (∀ d, ((Proc.run env W (Proc.start L peers) (ps ++ ps')).sys.conns d).delivered
        = ((Proc.run env W (Proc.start L peers) ps).sys.conns d).delivered)
    ∧ ∀ l c, l < L → (Proc.run env W (Proc.start L peers) (ps ++ ps')).spinning < W →
        c ∈ (Proc.run env W (Proc.start L peers) (ps ++ ps' ++ [.accept l c])).accepted := by
  have hp := Proc.pinv_run env W L peers ps
  have hq := Proc.pinv_run env W L peers (ps ++ ps')
  have hno : ¬ (PStep.signal ∈ ps ++ ps') := by simp [hs, hs']
  have hm : (Proc.run env W (Proc.start L peers) (ps ++ ps')).main = .serving := by
    have hst := hq.stage
    unfold Proc.Stage at hst
    split at hst
    · assumption
    all_goals exact absurd hst.1 hno
  obtain ⟨sched, hl⟩ := Proc.later (W := W) hp ps'
  rw [← Proc.run_append] at hl
  obtain ⟨_, h2, h3⟩ := C45_crashed_serves_nobody env _ h sched
  refine ⟨hm, by rw [hl]; exact h2, fun d => by rw [hl]; exact h3 d, fun l c hlL hW => ?_⟩
  rw [Proc.run_append]
  have hg : (Proc.run env W (Proc.start L peers) (ps ++ ps')).gone = false := by simp [Proc.gone, hm]
  have hfree : (Proc.run env W (Proc.start L peers) (ps ++ ps')).free W = true := by simp [Proc.free, hg, hW]
  have hup : (Proc.run env W (Proc.start L peers) (ps ++ ps')).listeners[l]? = some true := by rw [listening_run env W L peers _ hno]; simp [hlL]
  show c ∈ (Proc.step env W _ (.accept l c)).accepted
  simp only [Proc.step, hfree, hup, BEq.rfl, Bool.true_and]
  cases hcon : (Proc.run env W (Proc.start L peers) (ps ++ ps')).accepted.contains c with
  | true => simpa using hcon
  | false => simp

-- connection 2 of the example makes the handler crash
example : ∃ ps, (Proc.run exampleEnv 4 (Proc.start 1 examplePeers) ps).sys.handler = .crashed ∧ .signal ∉ ps := by
  refine ⟨([] ++ [Step.read 2, .read 2, .handler 0]).flatMap Proc.asSteps, ?_, by simp [Proc.asSteps]⟩
  rw [(Proc.realize exampleEnv 4 1 examplePeers (by decide) (by decide) _ fun _ _ c _ => not_spinning (examplePeers_short c)).1]
  exact C43_no_password_fails exampleEnv examplePeers [] 2 _ [] example_incomplete (by simp) rfl (by simp [examplePeers]) (by decide +kernel)
    rfl rfl rfl

/-- C85, the part that holds: once the handler has crashed the process does not end well, and with ctrl-c it does end, if every task gets
its turn again and again and no read task spins. Missing: that it ends by itself. -/
theorem C85_crash_partial (env : Env) (W L N : Nat) (peers : ConnId → Peer) (τ : Nat → PStep) (k : Nat)
    (h : (Proc.run env W (Proc.start L peers) (firstPSteps τ k)).sys.handler = .crashed) :
    (∀ m, k ≤ m → (Proc.run env W (Proc.start L peers) (firstPSteps τ m)).main ≠ .exited true)
    ∧ (PFair N L τ → (∃ i, τ i = .signal) → 0 < W → (∀ c, c < N → ¬ Spinning env (peers c)) →
        ∃ n, ∀ m, n ≤ m → (Proc.run env W (Proc.start L peers) (firstPSteps τ m)).main = .exited false) := by
  have still : ∀ m, k ≤ m → (Proc.run env W (Proc.start L peers) (firstPSteps τ m)).sys.handler = .crashed := by
    intro m hm
    obtain ⟨j, rfl⟩ := Nat.exists_eq_add_of_le hm
    have hsplit : firstPSteps τ (k + j) = firstPSteps τ k ++ (List.range j).map fun i => τ (k + i) := by
      unfold firstPSteps
      rw [List.range_add, List.map_append, List.map_map]
      rfl
    obtain ⟨sched, hl⟩ := Proc.later (W := W) (Proc.pinv_run env W L peers (firstPSteps τ k)) ((List.range j).map fun i => τ (k + i))
    rw [← Proc.run_append, ← hsplit] at hl
    rw [hl]
    exact (C45_crashed_serves_nobody env _ h sched).1
  have notok : ∀ m, k ≤ m → (Proc.run env W (Proc.start L peers) (firstPSteps τ m)).main ≠ .exited true := by
    intro m hm he
    have := ((C83_exit env W L peers _ true he).2.1 rfl).2.2
    rw [still m hm] at this
    cases this
  refine ⟨notok, fun hf hs hW hend => ?_⟩
  obtain ⟨n, h1, h2⟩ := C84_ctrl_c_partial env W L N peers τ hf hs hW
  have hmax := h1 (max n k) (Nat.le_max_left _ _)
  rcases h2 with h2 | h2 | ⟨d, e, todo, _, h2⟩ | ⟨c, hc, _, h2⟩
  · exact absurd (by rw [hmax]; exact h2) (notok (max n k) (Nat.le_max_right _ _))
  · exact ⟨n, fun m hm => by rw [h1 m hm]; exact h2.1⟩
  · have := still (max n k) (Nat.le_max_right _ _)
    rw [hmax, h2.1] at this
    cases this
  · exact absurd h2 (hend c (Proc.accepted_few hf.few n c hc))

/-! ### C86 -/

/-- C86 is violated: as many connections as there are worker threads, each sending as its first packet, without any CONNECT, a PUBLISH with
more than 4096 bytes of payload, stop the broker for good: from every state of the process in which some listener accepts there are steps
after which, whatever happens, no packet is read, handled or written any more on any connection, no connection is accepted, and the
process does not end. -/
theorem C86_starvation_fails (env : Env) (W L : Nat) (peers : ConnId → Peer) (ps : List PStep) (A : List ConnId) (hA : A.Nodup)
    (hlen : A.length = W) (hW : 0 < W) (hhog : ∀ c ∈ A, Hog (peers c))
    (hnew : ∀ c ∈ A, c ∉ (Proc.run env W (Proc.start L peers) ps).accepted) (l : Nat)
    (hl : (Proc.run env W (Proc.start L peers) ps).listeners[l]? = some true)
    (hg : ∀ ok, (Proc.run env W (Proc.start L peers) ps).main ≠ .exited ok) :
    ∃ ps', ∀ ps'',
      (Proc.run env W (Proc.start L peers) (ps ++ ps' ++ ps'')).sys.conns = (Proc.run env W (Proc.start L peers) (ps ++ ps')).sys.conns
      ∧ (Proc.run env W (Proc.start L peers) (ps ++ ps' ++ ps'')).sys.log = (Proc.run env W (Proc.start L peers) (ps ++ ps')).sys.log
      ∧ (Proc.run env W (Proc.start L peers) (ps ++ ps' ++ ps'')).accepted = (Proc.run env W (Proc.start L peers) (ps ++ ps')).accepted
      ∧ ∀ ok, (Proc.run env W (Proc.start L peers) (ps ++ ps' ++ ps'')).main ≠ .exited ok := by
  have hp := Proc.pinv_run env W L peers ps
  have hg' : (Proc.run env W (Proc.start L peers) ps).gone = false := by
    unfold Proc.gone
    split
    · rename_i ok h; exact absurd h (hg ok)
    · rfl
  obtain ⟨ps', h1, h2⟩ := Proc.hogs env W A hA hhog hp hnew hl hg'
  refine ⟨ps', fun ps'' => ?_⟩
  rw [← Proc.run_append] at h1 h2
  obtain ⟨f, h3⟩ := Proc.frozen_run env W hW (p := Proc.run env W (Proc.start L peers) (ps ++ ps')) (by omega) h2 ps''
  rw [← Proc.run_append] at f h3
  exact ⟨f.conns, f.log, f.accepted, fun ok he => by unfold Proc.gone at h3; rw [he] at h3; cases h3⟩

example : ∃ ps', ∀ ps'', (Proc.run exampleEnv 4 (Proc.start 1 fun _ => hogPeer) ([] ++ ps' ++ ps'')).sys.log
    = (Proc.run exampleEnv 4 (Proc.start 1 fun _ => hogPeer) ([] ++ ps')).sys.log :=
  let ⟨ps', h⟩ := C86_starvation_fails exampleEnv 4 1 (fun _ => hogPeer) [] [0, 1, 2, 3] (by decide) rfl (by decide) (fun _ _ => hogPeer_hog)
    (fun c _ h => by cases h) 0 rfl (by intro ok h; cases h)
  ⟨ps', fun ps'' => (h ps'').2.1⟩

/-- What C86 comes to when there are never as many spinning read tasks as there are worker threads. -/
theorem served_unless_spinning (env : Env) (W L N : Nat) (peers : ConnId → Peer) (τ : Nat → PStep) (hf : PFair N L τ) (hk : Knocking N L τ)
    (hs : ∀ i, τ i ≠ .signal) (hW : ∀ n, (Proc.run env W (Proc.start L peers) (firstPSteps τ n)).spinning < W) :
    ∃ n, (∀ m, n ≤ m → Proc.run env W (Proc.start L peers) (firstPSteps τ m) = Proc.run env W (Proc.start L peers) (firstPSteps τ n))
      ∧ (∀ c, c < N → c ∈ (Proc.run env W (Proc.start L peers) (firstPSteps τ n)).accepted)
      ∧ (((Proc.run env W (Proc.start L peers) (firstPSteps τ n)).sys.handler = .crashed
            ∧ Fatal env.auth ((Proc.run env W (Proc.start L peers) (firstPSteps τ n)).sys.log.map Prod.fst))
        ∨ (∃ d e todo, d < N ∧ Stuck (Proc.run env W (Proc.start L peers) (firstPSteps τ n)).sys d e todo)
        ∨ (AllDone env N (Proc.run env W (Proc.start L peers) (firstPSteps τ n)).sys
          ∧ ∀ c, c < N → ((Proc.run env W (Proc.start L peers) (firstPSteps τ n)).sys.conns c).phase ≠ .stuck → ∀ ps,
              Decodes env.profile (peers c).segs.flatten (peers c).fin ps →
              eventsOf (peers c) c ps <+: ((Proc.run env W (Proc.start L peers) (firstPSteps τ n)).sys.log.map Prod.fst).filter (From c))) := by
  obtain ⟨n, h1, h2⟩ := Proc.pfair_rest env W L peers hf
  have hp := Proc.pinv_run env W L peers (firstPSteps τ n)
  have hN := Proc.accepted_few (env := env) (W := W) (L := L) (peers := peers) hf.few n
  have hno : ¬ (PStep.signal ∈ firstPSteps τ n) := by
    intro hm
    obtain ⟨i, _, he⟩ := List.mem_map.mp hm
    exact hs i he
  obtain ⟨h3, _, h4⟩ := h2 _ rfl (hW n)
  have hg : ¬ ((Proc.run env W (Proc.start L peers) (firstPSteps τ n)).gone = true) := by
    intro hg
    have hst := hp.stage
    unfold Proc.Stage at hst
    unfold Proc.gone at hg
    split at hg
    · rename_i ok hm
      rw [hm] at hst
      cases ok <;> exact hno hst.1
    · cases hg
  have hall : ∀ c, c < N → c ∈ (Proc.run env W (Proc.start L peers) (firstPSteps τ n)).accepted := by
    rcases h4 hk with h | ⟨i, h⟩ | h
    · exact absurd h hg
    · exact absurd h (hs i)
    · exact h
  refine ⟨n, h1, hall, ?_⟩
  obtain ⟨sched, e1, _, e3⟩ := hp.sys
  rcases h3 with h | h | ⟨d, e, todo, hd, h⟩ | h
  · exact absurd h hg
  · refine .inl ?_
    have hcr : (Proc.run env W (Proc.start L peers) (firstPSteps τ n)).sys.handler = .crashed := by
      have hns : (Proc.run env W (Proc.start L peers) (firstPSteps τ n)).sys.handler ≠ .stopped := by
        rw [e1]
        exact stopped_ctrlC env (by simp [init]) rfl fun hm => hno (e3 hm)
      unfold handlerAlive at h
      split at h
      · cases h
      · cases h
      · assumption
      · rename_i h'; exact absurd h' hns
    refine ⟨hcr, ?_⟩
    rw [e1] at hcr ⊢
    exact crashed_run env peers sched hcr
  · exact .inr (.inl ⟨d, e, todo, hN d hd, h⟩)
  · have hd : AllDone env N (Proc.run env W (Proc.start L peers) (firstPSteps τ n)).sys :=
      ⟨h.handler, h.events, fun c hc => h.outbox c (hall c hc), fun c hc => h.queue c (hall c hc), fun c hc => h.read c (hall c hc)⟩
    refine .inr (.inr ⟨hd, fun c hc hsp => ?_⟩)
    rw [e1] at hd hsp ⊢
    exact allDone_complete (P := fun c => c < N) (reads_run env peers sched) (endsComplete_run env peers sched) hd hc hsp

/-- C86, the part that holds: if fewer connections than there are worker threads bring 4096 bytes or more, then, whatever they are, the
others are served: if every task gets its turn again and again and ctrl-c is not pressed, then in the end every connection that asks to be
accepted is accepted, and the handler has crashed on one of the events known to be fatal, or waits for ever for a connection whose socket
takes no more, or all packets have been handled of every accepted connection whose read task does not spin. Missing: that the number of
such connections does not matter. -/
theorem C86_served_partial (env : Env) (W L N : Nat) (peers : ConnId → Peer) (τ : Nat → PStep) (hf : PFair N L τ) (hk : Knocking N L τ)
    (hs : ∀ i, τ i ≠ .signal) (hW : ((List.range N).filter fun c => 4096 ≤ (peers c).segs.flatten.length).length < W) :
    ∃ n, (∀ m, n ≤ m → Proc.run env W (Proc.start L peers) (firstPSteps τ m) = Proc.run env W (Proc.start L peers) (firstPSteps τ n))
      ∧ (∀ c, c < N → c ∈ (Proc.run env W (Proc.start L peers) (firstPSteps τ n)).accepted)
      ∧ (((Proc.run env W (Proc.start L peers) (firstPSteps τ n)).sys.handler = .crashed
            ∧ Fatal env.auth ((Proc.run env W (Proc.start L peers) (firstPSteps τ n)).sys.log.map Prod.fst))
        ∨ (∃ d e todo, d < N ∧ Stuck (Proc.run env W (Proc.start L peers) (firstPSteps τ n)).sys d e todo)
        ∨ (AllDone env N (Proc.run env W (Proc.start L peers) (firstPSteps τ n)).sys
          ∧ ∀ c, c < N → ((Proc.run env W (Proc.start L peers) (firstPSteps τ n)).sys.conns c).phase ≠ .stuck → ∀ ps,
              Decodes env.profile (peers c).segs.flatten (peers c).fin ps →
              eventsOf (peers c) c ps <+: ((Proc.run env W (Proc.start L peers) (firstPSteps τ n)).sys.log.map Prod.fst).filter (From c))) :=
  served_unless_spinning env W L N peers τ hf hk hs fun n =>
    Nat.lt_of_le_of_lt (Proc.spinning_le (Proc.pinv_run env W L peers (firstPSteps τ n)) (Proc.accepted_few hf.few n)) hW

-- with one worker thread two connections are accepted and served
example : ∃ n, ∀ c, c < 2 → c ∈ (Proc.run exampleEnv 1 (Proc.start 1 examplePeers) (firstPSteps (procRound false) n)).accepted :=
  let ⟨n, _, h, _⟩ := C86_served_partial exampleEnv 1 1 2 examplePeers _ (procRound_fair false) (procRound_knocking false)
    (fun i h => by
      unfold procRound at h
      split at h <;> cases h)
    (by
      rw [List.filter_eq_nil_iff.mpr]
      · decide
      · intro c _
        have := examplePeers_short c
        simp only [decide_eq_true_eq]
        omega)
  ⟨n, h⟩

/-! ### C87 -/

/-- C87 is violated: whatever is queued, unread or waiting to be handled, when nobody spins and the handler is between two events, ctrl-c
can end the process at once, and well, without a byte more being written and without an event more being handled. -/
theorem C87_dropped_fails (env : Env) (W L : Nat) (peers : ConnId → Peer) (ps : List PStep) (hW : 0 < W)
    (hm : (Proc.run env W (Proc.start L peers) ps).main = .serving)
    (hh : (Proc.run env W (Proc.start L peers) ps).sys.handler = .idle) (hs : (Proc.run env W (Proc.start L peers) ps).spinning = 0) :
    ∃ ps', (Proc.run env W (Proc.start L peers) (ps ++ ps')).main = .exited true
      ∧ (Proc.run env W (Proc.start L peers) (ps ++ ps')).sys.conns = (Proc.run env W (Proc.start L peers) ps).sys.conns
      ∧ (Proc.run env W (Proc.start L peers) (ps ++ ps')).sys.events = (Proc.run env W (Proc.start L peers) ps).sys.events
      ∧ (Proc.run env W (Proc.start L peers) (ps ++ ps')).sys.log = (Proc.run env W (Proc.start L peers) ps).sys.log :=
  ⟨endIt L, endIt_ends env W L peers ps hW hm hh hs⟩

-- the answer to a CONNECT is queued, and never gets out
example : ∃ ps ps', (Proc.run exampleEnv 4 (Proc.start 1 examplePeers) (ps ++ ps')).main = .exited true
    ∧ ((Proc.run exampleEnv 4 (Proc.start 1 examplePeers) (ps ++ ps')).sys.conns 0).queue = [.controlPacket (.connAck ⟨false, .accepted⟩)] := by
  obtain ⟨rd, hsp, _⟩ := next_hello (env := exampleEnv) (c := 0) (k := (examplePeers 0).conn) (id := "s") (by decide)
    (next_new (examplePeers 0) subscriberPackets (by simp [examplePeers]) subscriber_sendable (by decide +kernel)) rfl
  obtain ⟨sched, hq, _, hc, h0, _⟩ := turn_one exampleEnv (s := init examplePeers) (m := .new) ⟨rfl, rfl, rfl⟩ hsp (handle_hello _ _ _ _ _)
    (by simp [Peer.conn]) (by simp [Peer.conn])
  obtain ⟨r1, r2, r3, r4⟩ := Proc.realize exampleEnv 4 1 examplePeers (by decide) (by decide) sched fun _ _ c _ => not_spinning (examplePeers_short c)
  have hst := (Proc.pinv_run exampleEnv 4 1 examplePeers (sched.flatMap Proc.asSteps)).stage
  have hm : (Proc.run exampleEnv 4 (Proc.start 1 examplePeers) (sched.flatMap Proc.asSteps)).main = .serving := by
    have hcc : (Proc.run exampleEnv 4 (Proc.start 1 examplePeers) (sched.flatMap Proc.asSteps)).sys.ctrlC = false := by rw [r1, hc]; rfl
    have hh : (Proc.run exampleEnv 4 (Proc.start 1 examplePeers) (sched.flatMap Proc.asSteps)).sys.handler = .idle := by rw [r1]; exact hq.idle
    unfold Proc.Stage at hst
    split at hst <;> simp_all [Proc.gone]
  obtain ⟨ps', h1, h2, _⟩ := C87_dropped_fails exampleEnv 4 1 examplePeers (sched.flatMap Proc.asSteps) (by decide) hm (by rw [r1]; exact hq.idle) r4
  refine ⟨_, ps', h1, ?_⟩
  rw [h2, r1, h0]
  simp [setConn, Peer.conn]

/-- C87, the part that holds: the process does not end well in the middle of an event. When it does end, everything that the sequential
broker sends for the events handled had been put into the queues of the connections, so a message went to all its subscribers' queues or
to none. Missing: that the queues are written out. -/
theorem C87_whole_events_partial (env : Env) (W L : Nat) (peers : ConnId → Peer) (ps : List PStep)
    (h : (Proc.run env W (Proc.start L peers) ps).main = .exited true) (d : ConnId) :
    ((Proc.run env W (Proc.start L peers) ps).sys.conns d).delivered
      = Broker.start.outputs env.auth ((Proc.run env W (Proc.start L peers) ps).sys.log.map Prod.fst) d := by
  have hh := ((C83_exit env W L peers ps true h).2.1 rfl).2.2
  obtain ⟨sched, h1, _, _⟩ := (Proc.pinv_run env W L peers ps).sys
  rw [h1] at hh ⊢
  cases (inv_run env peers sched).serves with
  | rest b _ _ _ ho => exact ho d
  | sending _ _ _ _ _ _ h' => rw [hh] at h'; cases h'
  | failed _ _ _ h' => rw [hh] at h'; cases h'
  | broken _ _ _ _ _ _ h' => rw [hh] at h'; cases h'

end Ratel
