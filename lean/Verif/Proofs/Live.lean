/-
The broker among clients that react, with the waiting list: one step, and what carries over from `Open` and `Fifo`.
-/
import Verif.Spec.Endless
import Verif.Proofs.Open
import Verif.Proofs.Waiting
import Verif.Proofs.SysBound

namespace Ratel.Live

open Spec

/-- The state of the channel. -/
def fifo (l : Live) : Fifo := ⟨l.opn.sys, l.permits, l.waiting, l.granted⟩

theorem run_append (env : Env) (l : Live) (a b : List OStep) : run env l (a ++ b) = run env (run env l a) b := List.foldl_append

theorem run_snoc (env : Env) (l : Live) (a : List OStep) (st : OStep) : run env l (a ++ [st]) = step env (run env l a) st := by
  rw [run_append]; rfl

/-! ### Steps that have nothing to do with the channel to the handler -/

/-- Only queues and sockets differ. -/
structure Frame (s s' : Sys) : Prop where
  events : s'.events = s.events
  log : s'.log = s.log
  handler : s'.handler = s.handler
  ctrlC : s'.ctrlC = s.ctrlC
  phase : ∀ d, (s'.conns d).phase = (s.conns d).phase
  outbox : ∀ d, (s'.conns d).outbox = (s.conns d).outbox
  queue : ∀ d, (s'.conns d).queue.length ≤ (s.conns d).queue.length
  written : ∀ d, (s.conns d).written <+: (s'.conns d).written
  open_ : ∀ d, (s'.conns d).rxOpen = true → (s.conns d).rxOpen = true

theorem Frame.refl (s : Sys) : Frame s s :=
  ⟨rfl, rfl, rfl, rfl, fun _ => rfl, fun _ => rfl, fun _ => Nat.le_refl _, fun _ => List.prefix_rfl, fun _ => id⟩

theorem Frame.trans {s t u : Sys} (h : Frame s t) (h' : Frame t u) : Frame s u :=
  ⟨h'.events.trans h.events, h'.log.trans h.log, h'.handler.trans h.handler, h'.ctrlC.trans h.ctrlC, fun d => (h'.phase d).trans (h.phase d),
    fun d => (h'.outbox d).trans (h.outbox d), fun d => Nat.le_trans (h'.queue d) (h.queue d), fun d => (h.written d).trans (h'.written d),
    fun d e => h.open_ d (h'.open_ d e)⟩

theorem frame_set (s : Sys) (c : ConnId) (k : Conn) (h1 : k.phase = (s.conns c).phase) (h2 : k.outbox = (s.conns c).outbox)
    (h3 : k.queue.length ≤ (s.conns c).queue.length) (h4 : (s.conns c).written <+: k.written)
    (h5 : k.rxOpen = true → (s.conns c).rxOpen = true) : Frame s (s.setConn c k) := by
  refine ⟨rfl, rfl, rfl, rfl, fun d => ?_, fun d => ?_, fun d => ?_, fun d => ?_, fun d => ?_⟩
  all_goals
    by_cases hd : d = c
    · subst hd; rw [Sys.setConn_self]; assumption
    · rw [Sys.setConn_other _ _ hd]; first | done | exact List.prefix_rfl | exact Nat.le_refl _ | exact id | rfl

theorem frame_goOn (env : Env) (o : Open) (c : ConnId) (p : ControlPacket) : Frame o.sys (Open.goOn env o c p).sys := by
  unfold Open.goOn
  rcases @Encoder.writePacket _ (WStream.sink env.alloc) p (o.sys.conns c).wr with ⟨r, wr⟩
  cases r
  case pending => exact Frame.refl _
  all_goals
    refine frame_set _ _ _ rfl rfl ?_ (List.prefix_append _ _) ?_
    · simp [Open.endWrite]
    · simp [Open.endWrite]

theorem frame_step (env : Env) (o : Open) (st : OStep) (h : ∀ t, st = .task t → ∃ c, t = .write c) : Frame o.sys (Open.step env o st).sys := by
  cases st with
  | task t =>
    obtain ⟨c, rfl⟩ := h t rfl
    show Frame o.sys (Open.stepWrite env o c).sys
    unfold Open.stepWrite
    cases o.hand c with
    | some p => exact frame_goOn env o c p
    | none =>
      simp only
      split
      · rename_i ho
        match hq : (o.sys.conns c).queue with
        | .controlPacket p :: rest =>
          simp only
          refine Frame.trans ?_ (frame_goOn env _ c p)
          exact frame_set _ _ _ rfl rfl (by rw [hq]; simp) List.prefix_rfl id
        | .disconnect :: rest =>
          simp only
          unfold Sys.stepWrite
          simp only [ho, ↓reduceIte, hq]
          exact frame_set _ _ _ rfl rfl (by simp) List.prefix_rfl (by simp)
        | [] =>
          simp only
          unfold Sys.stepWrite
          simp only [ho, ↓reduceIte, hq]
          split
          · exact Frame.refl _
          · exact frame_set _ _ _ rfl rfl (by simp) List.prefix_rfl (by simp)
      · exact Frame.refl _
  | arrive c seg => exact frame_set _ _ _ rfl rfl (Nat.le_refl _) List.prefix_rfl id
  | hangUp c fin => exact frame_set _ _ _ rfl rfl (Nat.le_refl _) List.prefix_rfl id
  | answer c a => exact frame_set _ _ _ rfl rfl (Nat.le_refl _) List.prefix_rfl id

/-! ### The channel -/

theorem waits_some {env : Env} {k : Conn} {ev : ClientEvent} (h : k.outbox = some ev) : Open.waits env k = false := by
  unfold Open.waits; simp only [h]

theorem open_read_some {env : Env} {o : Open} {c : ConnId} {ev : ClientEvent} (h : (o.sys.conns c).outbox = some ev) :
    (Open.step env o (.task (.read c))).sys = Sys.stepRead env o.sys c := by
  show (Open.stepRead env o c).sys = _
  unfold Open.stepRead
  rw [waits_some h]
  rfl

theorem stepRead_push {env : Env} {s : Sys} {c : ConnId} {ev : ClientEvent} (h : (s.conns c).outbox = some ev) (ha : s.handlerAlive = true)
    (hl : s.events.length < channelCapacity) : Sys.stepRead env s c = Fifo.push s c ev := by
  unfold Sys.stepRead Fifo.push
  simp only [h, ha, ↓reduceIte, hl]

/-- A read task with something to send, and the handler, do what they do in `Fifo`. -/
theorem fifo_read {env : Env} {l : Live} (hg : Fifo.Good l.fifo) {c : ConnId} {ev : ClientEvent} (h : (l.opn.sys.conns c).outbox = some ev) :
    (step env l (.task (.read c))).fifo = Fifo.step env l.fifo (.read c) := by
  show (stepRead env l c).fifo = Fifo.stepRead env l.fifo c
  have h' : (l.fifo.sys.conns c).outbox = some ev := h
  have hal : l.fifo.sys.handlerAlive = l.opn.sys.handlerAlive := rfl
  unfold stepRead Fifo.stepRead
  simp only [h, h', hal]
  have hr := open_read_some (env := env) (o := l.opn) h
  cases ha : l.opn.sys.handlerAlive with
  | false =>
    simp only [Bool.false_eq_true, ↓reduceIte]
    unfold fifo
    simp only [hr]
  | true =>
    have hcount := hg.count ha
    unfold fifo at hcount
    simp only at hcount
    simp only [↓reduceIte]
    unfold fifo
    simp only
    split
    · rename_i hm
      have := List.length_pos_of_mem hm
      simp only [hr, stepRead_push (env := env) h ha (by omega)]
    · split
      · rfl
      · cases hp : l.permits with
        | zero => simp only
        | succ n => simp only [hr, stepRead_push (env := env) h ha (by omega)]

theorem fifo_handler (env : Env) (l : Live) (now : Instant) : (step env l (.task (.handler now))).fifo = Fifo.step env l.fifo (.handler now) := by
  show (stepHandler env now l).fifo = Fifo.stepHandler env now l.fifo
  have e1 : l.fifo.sys.handler = l.opn.sys.handler := rfl
  have e2 : l.fifo.sys.events = l.opn.sys.events := rfl
  unfold stepHandler Fifo.stepHandler
  rw [e1, e2]
  cases hh : l.opn.sys.handler with
  | idle =>
    cases he : l.opn.sys.events with
    | nil => rfl
    | cons ev rest =>
      simp only
      unfold release Fifo.release fifo
      simp only
      cases l.waiting <;> rfl
  | _ => rfl

theorem does_step {env : Env} {l : Live} (hg : Fifo.Good l.fifo) (st : OStep) : Fifo.Does env l.fifo (step env l st).fifo := by
  have other : (∀ t, st = .task t → ∃ c, t = .write c) → step env l st = { l with opn := Open.step env l.opn st } →
      Fifo.Does env l.fifo (step env l st).fifo := by
    intro h1 h2
    rw [h2]
    have hf := frame_step env l.opn st h1
    refine .other (Open.step env l.opn st).sys hf.events hf.log (fun d ev h => (hf.outbox d).trans h) fun h => ?_
    unfold Sys.handlerAlive at h ⊢
    rw [hf.handler] at h
    exact h
  cases st with
  | task t =>
    cases t with
    | read c =>
      cases ho : (l.opn.sys.conns c).outbox with
      | some ev => rw [fifo_read hg ho]; exact Fifo.does_step env l.fifo (.read c)
      | none =>
        have he : step env l (.task (.read c)) = { l with opn := Open.stepRead env l.opn c } := by
          show stepRead env l c = _
          unfold stepRead
          simp only [ho]
          rfl
        rw [he]
        unfold Open.stepRead
        by_cases hw : Open.waits env (l.opn.sys.conns c) = true
        · rw [if_pos hw]; exact .still
        · rw [if_neg hw]
          have := Fifo.does_step env l.fifo (.read c)
          have e : Fifo.step env l.fifo (.read c) = { l.fifo with sys := Sys.stepRead env l.opn.sys c } := by
            show Fifo.stepRead env l.fifo c = _
            unfold Fifo.stepRead
            have : (l.fifo.sys.conns c).outbox = none := ho
            simp only [this]
            rfl
          rw [e] at this
          exact this
    | write c => exact other (fun t h => ⟨c, by cases h; rfl⟩) rfl
    | handler now => rw [fifo_handler]; exact Fifo.does_step env l.fifo (.handler now)
    | ctrlC => exact Fifo.does_step env l.fifo .ctrlC
    | stop => exact Fifo.does_step env l.fifo .stop
  | arrive c seg => exact other (fun t h => by cases h) rfl
  | hangUp c fin => exact other (fun t h => by cases h) rfl
  | answer c a => exact other (fun t h => by cases h) rfl

theorem good_init (peers : ConnId → Sys.Peer) : Fifo.Good (init peers).fifo :=
  ⟨by simp [init, fifo], by simp [init, fifo], by simp [init, fifo, Open.init, Sys.init], by simp [init, fifo]⟩

theorem good_run (env : Env) {l : Live} (h : Fifo.Good l.fifo) (exec : List OStep) : Fifo.Good (run env l exec).fifo := by
  induction exec generalizing l with
  | nil => exact h
  | cons st exec ih => exact ih (Fifo.good_does h (does_step h st))

/-! ### Executions of `Open` -/

theorem open_step (env : Env) (l : Live) (st : OStep) :
    (step env l st).opn = Open.step env l.opn st ∨ ((step env l st).opn = l.opn ∧ ∃ t, st = .task t) := by
  cases st with
  | task t =>
    cases t with
    | read c =>
      show (stepRead env l c).opn = Open.step env l.opn (.task (.read c)) ∨ ((stepRead env l c).opn = l.opn ∧ ∃ t, OStep.task (.read c) = .task t)
      unfold stepRead
      split
      · exact .inl rfl
      · split
        · split
          · exact .inl rfl
          · split
            · exact .inr ⟨rfl, _, rfl⟩
            · split
              · exact .inr ⟨rfl, _, rfl⟩
              · exact .inl rfl
        · exact .inl rfl
    | handler now =>
      show (stepHandler env now l).opn = _ ∨ _
      unfold stepHandler
      split
      · unfold release
        simp only
        split <;> exact .inl rfl
      · exact .inl rfl
    | write c => exact .inl rfl
    | ctrlC => exact .inl rfl
    | stop => exact .inl rfl
  | arrive c seg => exact .inl rfl
  | hangUp c fin => exact .inl rfl
  | answer c a => exact .inl rfl

/-- An execution is one without the waiting list, without the turns in which a read task waits. -/
theorem open_run (env : Env) (l : Live) (exec : List OStep) :
    ∃ exec', exec'.Sublist exec ∧ (run env l exec).opn = Open.run env l.opn exec' ∧ ∀ peers, given peers exec' = given peers exec := by
  induction exec generalizing l with
  | nil => exact ⟨[], .slnil, rfl, fun _ => rfl⟩
  | cons st exec ih =>
    obtain ⟨exec', h1, h2, h3⟩ := ih (step env l st)
    rcases open_step env l st with h | ⟨h, t, rfl⟩
    · refine ⟨st :: exec', h1.cons_cons st, ?_, fun peers => ?_⟩
      · show (run env (step env l st) exec).opn = _
        rw [h2, h]; rfl
      · have := h3 (given peers [st])
        rw [← Open.given_append, ← Open.given_append] at this
        exact this
    · refine ⟨exec', h1.cons _, ?_, fun peers => ?_⟩
      · show (run env (step env l (.task t)) exec).opn = _
        rw [h2, h]
      · rw [h3]; rfl

theorem did_step (env : Env) (o : Open) (st : OStep) :
    (Open.step env o st).did = o.did ∨ ∃ t, st = .task t ∧ (Open.step env o st).did = o.did ++ [t] := by
  have hgo : ∀ (o' : Open) c p, (Open.goOn env o' c p).did = o'.did := by
    intro o' c p
    unfold Open.goOn
    rcases @Encoder.writePacket _ (WStream.sink env.alloc) p (o'.sys.conns c).wr with ⟨r, wr⟩
    cases r <;> rfl
  cases st with
  | task t =>
    cases t with
    | read c =>
      simp only [Open.step, Open.stepRead]
      split
      · exact .inl rfl
      · exact .inr ⟨_, rfl, rfl⟩
    | write c =>
      simp only [Open.step, Open.stepWrite]
      split
      · rw [hgo]; exact .inl rfl
      · split
        · split
          · rw [hgo]; exact .inr ⟨_, rfl, rfl⟩
          · exact .inr ⟨_, rfl, rfl⟩
        · exact .inl rfl
    | _ => exact .inr ⟨_, rfl, rfl⟩
  | _ => exact .inl rfl

end Ratel.Live
