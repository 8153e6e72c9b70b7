/-
Who waits for room in the channel to the packet handler, and for how long.
-/
import Verif.Model.Waiting
import Verif.Proofs.Rounds

namespace Ratel

open Decoder Encoder Spec

namespace Fifo

theorem run_append (env : Env) (f : Fifo) (a b : List Step) : run env f (a ++ b) = run env (run env f a) b := List.foldl_append

theorem run_cons (env : Env) (f : Fifo) (st : Step) (l : List Step) : run env f (st :: l) = run env (step env f st) l := rfl

theorem run_induction {env : Env} {P : Fifo → Prop} (hstep : ∀ s st, P s → P (step env s st)) {s : Fifo} (h : P s) (sched : List Step) :
    P (run env s sched) := by
  induction sched generalizing s with
  | nil => exact h
  | cons st sched ih => exact ih (hstep s st h)

/-- All events ever put into the channel. -/
def put (s : Sys) : List ClientEvent := s.log.map Prod.fst ++ s.events

/-- What a step does. -/
inductive Does (env : Env) (f : Fifo) : Fifo → Prop
  /-- nothing to do with the channel -/
  | other (s' : Sys) (he : s'.events = f.sys.events) (hl : s'.log = f.sys.log)
      (ho : ∀ d ev, (f.sys.conns d).outbox = some ev → (s'.conns d).outbox = some ev)
      (ha : s'.handlerAlive = true → f.sys.handlerAlive = true) : Does env f { f with sys := s' }
  /-- an event is taken -/
  | take (now : Instant) (ev : ClientEvent) (rest : List ClientEvent) (hi : f.sys.handler = .idle) (he : f.sys.events = ev :: rest)
      (he' : (Sys.stepHandler env now f.sys).events = rest) (hl : (Sys.stepHandler env now f.sys).log = f.sys.log ++ [(ev, now)])
      (hc : (Sys.stepHandler env now f.sys).conns = f.sys.conns) : Does env f (release { f with sys := Sys.stepHandler env now f.sys })
  /-- an event is put, by a task that was given a permit -/
  | granted (c : ConnId) (ev : ClientEvent) (ho : (f.sys.conns c).outbox = some ev) (ha : f.sys.handlerAlive = true) (hg : c ∈ f.granted) :
      Does env f { f with sys := push f.sys c ev, granted := f.granted.erase c }
  /-- an event is put, with a free permit -/
  | free (c : ConnId) (ev : ClientEvent) (n : Nat) (ho : (f.sys.conns c).outbox = some ev) (ha : f.sys.handlerAlive = true) (hg : c ∉ f.granted)
      (hw : c ∉ f.waiting) (hp : f.permits = n + 1) : Does env f { f with sys := push f.sys c ev, permits := n }
  /-- a task begins to wait -/
  | wait (c : ConnId) (ev : ClientEvent) (ho : (f.sys.conns c).outbox = some ev) (ha : f.sys.handlerAlive = true) (hg : c ∉ f.granted)
      (hw : c ∉ f.waiting) (hp : f.permits = 0) : Does env f { f with waiting := f.waiting ++ [c] }
  /-- a task goes on waiting -/
  | still : Does env f f
  /-- a send fails -/
  | dead (c : ConnId) (ha : f.sys.handlerAlive = false) : Does env f
      { f with sys := Sys.stepRead env f.sys c, waiting := f.waiting.erase c, granted := f.granted.erase c }

theorem stepRead_none {env : Env} {s : Sys} {c : ConnId} (h : (s.conns c).outbox = none) :
    Sys.stepRead env s c = s.setConn c (Sys.readTask env c (s.conns c)) := by unfold Sys.stepRead; simp only [h]

theorem stepRead_other (env : Env) (s : Sys) {c d : ConnId} (h : d ≠ c) : (Sys.stepRead env s c).conns d = s.conns d := by
  unfold Sys.stepRead
  simp only
  repeat' split
  all_goals first | rfl | exact Sys.setConn_other _ _ h

theorem stepWrite_outbox (env : Env) (s : Sys) (c d : ConnId) : ((Sys.stepWrite env s c).conns d).outbox = (s.conns d).outbox := by
  by_cases hd : d = c
  · subst hd
    unfold Sys.stepWrite
    simp only
    repeat' split
    all_goals simp
  · rw [Sys.stepWrite_other env s hd]

theorem stepHandler_outbox (env : Env) (now : Instant) (s : Sys) (d : ConnId) : ((Sys.stepHandler env now s).conns d).outbox = (s.conns d).outbox := by
  rcases Sys.stepHandler_conn env now s d with h | ⟨_, _, _, _, _, h⟩ <;> rw [h]

theorem does_step (env : Env) (f : Fifo) (st : Step) : Does env f (step env f st) := by
  cases st with
  | read c =>
    show Does env f (stepRead env f c)
    unfold stepRead
    cases ho : (f.sys.conns c).outbox with
    | none =>
      simp only
      have hr := Sys.stepRead_rest env f.sys c
      refine .other (Sys.step env f.sys (.read c)) ?_ hr.2.2.1 (fun d ev h => ?_) (fun h => ?_)
      · simp only [Sys.step, stepRead_none ho, Sys.setConn_events]
      · simp only [Sys.step, stepRead_none ho]
        rw [Sys.setConn_other _ _ (fun e => by rw [e, ho] at h; cases h)]
        exact h
      · simp only [Sys.step, Sys.handlerAlive, hr.1] at h ⊢; exact h
    | some ev =>
      simp only
      cases ha : f.sys.handlerAlive with
      | false => exact .dead c ha
      | true =>
        simp only [↓reduceIte]
        split
        · rename_i hg; exact .granted c ev ho ha hg
        · split
          · exact .still
          · rename_i hg hw
            cases hp : f.permits with
            | zero => have := Does.wait (env := env) c ev ho ha hg hw hp; rwa [hp] at this
            | succ n => exact .free c ev n ho ha hg hw hp
  | write c =>
    have hr := Sys.stepWrite_rest env f.sys c
    exact .other (Sys.step env f.sys (.write c)) hr.1 hr.2.2.2.1 (fun d ev h => by simp only [Sys.step, stepWrite_outbox]; exact h)
      (fun h => by simp only [Sys.step, Sys.handlerAlive, hr.2.1] at h ⊢; exact h)
  | handler now =>
    show Does env f (stepHandler env now f)
    unfold stepHandler
    split
    · rename_i ev rest hi he
      refine .take now ev rest hi he ?_ ?_ ?_ <;>
      · unfold Sys.stepHandler
        simp only [hi, he]
        split <;> rfl
    · rename_i hno
      refine .other (Sys.step env f.sys (.handler now)) ?_ ?_ (fun d ev h => by simp only [Sys.step, stepHandler_outbox]; exact h) (Sys.stepHandler_alive env now f.sys)
      · simp only [Sys.step]
        unfold Sys.stepHandler
        cases hh : f.sys.handler with
        | idle =>
          cases he : f.sys.events with
          | nil => exact he
          | cons ev rest => exact absurd he (hno ev rest hh)
        | busy t =>
          cases t with
          | nil => rfl
          | cons x t => simp only; repeat' split
                        all_goals rfl
        | crashed => rfl
        | stopped => rfl
      · simp only [Sys.step]
        unfold Sys.stepHandler
        cases hh : f.sys.handler with
        | idle =>
          cases he : f.sys.events with
          | nil => rfl
          | cons ev rest => exact absurd he (hno ev rest hh)
        | busy t =>
          cases t with
          | nil => rfl
          | cons x t => simp only; repeat' split
                        all_goals rfl
        | crashed => rfl
        | stopped => rfl
  | ctrlC => exact .other (Sys.step env f.sys .ctrlC) rfl rfl (fun _ _ h => h) id
  | stop =>
    have hsys : Sys.step env f.sys .stop = f.sys ∨ f.sys.handler = .idle ∧ Sys.step env f.sys .stop = { f.sys with handler := .stopped } := by
      unfold Sys.step
      cases hh : f.sys.handler with
      | idle => simp only; split; exact .inr ⟨trivial, rfl⟩; exact .inl rfl
      | _ => exact .inl rfl
    refine .other (Sys.step env f.sys .stop) ?_ ?_ (fun d ev h => ?_) (fun h => ?_) <;> rcases hsys with e | ⟨_, e⟩
    all_goals first | rw [e] at h | rw [e]
    all_goals first | assumption | skip
    simp [Sys.handlerAlive] at h

/-! ### The semaphore counts right -/

/-- The permits add up; nobody is in the lists twice; those in the lists have something to send; nobody waits while there are permits. -/
structure Good (f : Fifo) : Prop where
  nodup : (f.waiting ++ f.granted).Nodup
  out : ∀ c, c ∈ f.waiting ++ f.granted → ∃ ev, (f.sys.conns c).outbox = some ev
  count : f.sys.handlerAlive = true → f.permits + f.granted.length + f.sys.events.length = channelCapacity
  busy : f.sys.handlerAlive = true → f.waiting ≠ [] → f.permits = 0

theorem push_outbox (s : Sys) (c d : ConnId) (ev : ClientEvent) (h : d ≠ c) : ((push s c ev).conns d).outbox = (s.conns d).outbox := by
  unfold push
  rw [Sys.setConn_other _ _ h]

theorem erase_sub {l : List ConnId} {c d : ConnId} (h : d ∈ l.erase c) : d ∈ l := List.mem_of_mem_erase h

theorem good_does {env : Env} {f f' : Fifo} (h : Good f) (hd : Does env f f') : Good f' := by
  obtain ⟨h1, h2, h3, h4⟩ := h
  have hw := (List.nodup_append.mp h1).1
  have hg := (List.nodup_append.mp h1).2.1
  have hwg := (List.nodup_append.mp h1).2.2
  cases hd with
  | other st he hl ho ha =>
    refine ⟨h1, fun c hc => ?_, fun a => ?_, fun a => h4 (ha a)⟩
    · obtain ⟨ev, hev⟩ := h2 c hc
      exact ⟨ev, ho c ev hev⟩
    · simp only [he]; exact h3 (ha a)
  | take now ev rest hi he he' hl hc =>
    have ha : f.sys.handlerAlive = true := by simp [Sys.handlerAlive, hi]
    have hcount := h3 ha
    rw [he] at hcount
    simp only [List.length_cons] at hcount
    unfold release
    simp only
    cases hww : f.waiting with
    | nil =>
      refine ⟨by rw [hww] at h1; exact h1, fun c hc' => ?_, fun _ => ?_, fun _ hne => absurd rfl hne⟩
      · simp only [hc]; exact h2 c (by rw [hww]; exact hc')
      · simp only [he']; omega
    | cons c ws =>
      have hp := h4 ha (by rw [hww]; simp)
      rw [hww] at h1 h2
      refine ⟨?_, fun d hd => ?_, fun _ => ?_, fun _ _ => hp⟩
      · simp only
        have : (ws ++ (f.granted ++ [c])).Perm (c :: ws ++ f.granted) := by
          rw [← List.append_assoc]
          exact List.perm_append_comm
        exact this.nodup_iff.mpr h1
      · simp only [hc]
        refine h2 d ?_
        simp only [List.mem_append, List.mem_cons, List.not_mem_nil, or_false] at hd ⊢
        rcases hd with hd | hd | hd
        · exact .inl (.inr hd)
        · exact .inr hd
        · exact .inl (.inl hd)
      · simp only [he', List.length_append, List.length_singleton]; omega
  | granted c ev ho ha hcg =>
    have hcount := h3 ha
    have hpos : 0 < f.granted.length := List.length_pos_of_mem hcg
    refine ⟨?_, fun d hd => ?_, fun _ => ?_, fun _ => h4 ha⟩
    · exact h1.sublist (List.Sublist.append_left List.erase_sublist _)
    · simp only [List.mem_append] at hd
      have hne : d ≠ c := by
        rintro rfl
        rcases hd with hd | hd
        · exact hwg d hd d hcg rfl
        · exact (List.Nodup.mem_erase_iff hg).mp hd |>.1 rfl
      simp only [push_outbox _ _ _ _ hne]
      exact h2 d (List.mem_append.mpr (hd.imp id erase_sub))
    · simp only [push, List.length_erase_of_mem hcg, Sys.setConn_events, List.length_append, List.length_singleton]; omega
  | free c ev n ho ha hcg hcw hp =>
    have hcount := h3 ha
    refine ⟨h1, fun d hd => ?_, fun _ => ?_, fun _ hne => ?_⟩
    · have hne : d ≠ c := by
        rintro rfl
        rcases List.mem_append.mp hd with hd | hd
        · exact hcw hd
        · exact hcg hd
      simp only [push_outbox _ _ _ _ hne]
      exact h2 d hd
    · simp only [push, Sys.setConn_events, List.length_append, List.length_singleton]; omega
    · have := h4 ha hne
      omega
  | wait c ev ho ha hcg hcw hp =>
    refine ⟨?_, fun d hd => ?_, h3, fun _ _ => hp⟩
    · simp only
      rw [List.append_assoc, List.singleton_append]
      have : (f.waiting ++ c :: f.granted).Perm (c :: (f.waiting ++ f.granted)) := List.perm_middle
      refine this.nodup_iff.mpr (List.nodup_cons.mpr ⟨fun hm => ?_, h1⟩)
      rcases List.mem_append.mp hm with hm | hm
      · exact hcw hm
      · exact hcg hm
    · simp only [List.mem_append, List.mem_cons, List.not_mem_nil, or_false] at hd
      by_cases hdc : d = c
      · subst hdc; exact ⟨ev, ho⟩
      · exact h2 d (by rw [List.mem_append]; exact hd.elim (fun hd => hd.elim .inl fun e => absurd e hdc) .inr)
  | still => exact ⟨h1, h2, h3, h4⟩
  | dead c ha =>
    have hr := Sys.stepRead_rest env f.sys c
    have hdead : (Sys.stepRead env f.sys c).handlerAlive = false := by simp only [Sys.handlerAlive, hr.1] at ha ⊢; exact ha
    refine ⟨h1.sublist (List.Sublist.append List.erase_sublist List.erase_sublist), fun d hd => ?_,
      fun a => absurd (hdead.symm.trans a) (by decide), fun a => absurd (hdead.symm.trans a) (by decide)⟩
    have hne : d ≠ c := by
      rintro rfl
      rcases List.mem_append.mp hd with hd | hd
      · exact (List.Nodup.mem_erase_iff hw).mp hd |>.1 rfl
      · exact (List.Nodup.mem_erase_iff hg).mp hd |>.1 rfl
    simp only [stepRead_other env f.sys hne]
    exact h2 d (List.mem_append.mpr ((List.mem_append.mp hd).imp erase_sub erase_sub))

theorem good_run (env : Env) (peers : ConnId → Sys.Peer) (sched : List Step) : Good (run env (init peers) sched) :=
  run_induction (fun f st h => good_does h (does_step env f st)) ⟨by simp [init], by simp [init], by simp [init, Sys.init], by simp [init]⟩ sched

/-- A step is one of the broker as before, or leaves it alone. -/
theorem sys_does {env : Env} {f : Fifo} (h : Good f) (st : Step) :
    (step env f st).sys = Sys.step env f.sys st ∨ (step env f st).sys = f.sys := by
  cases st with
  | read c =>
    show (stepRead env f c).sys = Sys.stepRead env f.sys c ∨ (stepRead env f c).sys = f.sys
    unfold stepRead
    cases ho : (f.sys.conns c).outbox with
    | none => exact .inl rfl
    | some ev =>
      simp only
      cases ha : f.sys.handlerAlive with
      | false => exact .inl rfl
      | true =>
        have hcount := h.count ha
        have hpush : f.sys.events.length < channelCapacity → push f.sys c ev = Sys.stepRead env f.sys c := by
          intro hlt
          unfold Sys.stepRead push
          simp only [ho, ha, ↓reduceIte, hlt]
        simp only [↓reduceIte]
        split
        · rename_i hg
          have := List.length_pos_of_mem hg
          exact .inl (hpush (by omega))
        · split
          · exact .inr rfl
          · cases hp : f.permits with
            | zero => exact .inr rfl
            | succ n => exact .inl (hpush (by omega))
  | handler now =>
    show (stepHandler env now f).sys = _ ∨ _
    unfold stepHandler
    split
    · unfold release
      simp only
      split <;> exact .inl rfl
    · exact .inl rfl
  | write c => exact .inl rfl
  | ctrlC => exact .inl rfl
  | stop => exact .inl rfl

/-- So an execution is one of the broker as before. -/
theorem sys_run (env : Env) (peers : ConnId → Sys.Peer) (sched : List Step) :
    ∃ sched', sched'.Sublist sched ∧ (run env (init peers) sched).sys = Sys.run env (Sys.init peers) sched' := by
  have key : ∀ (sched : List Step) (f : Fifo), Good f → ∃ sched', sched'.Sublist sched ∧ (run env f sched).sys = Sys.run env f.sys sched' := by
    intro sched
    induction sched with
    | nil => exact fun f _ => ⟨[], .slnil, rfl⟩
    | cons st sched ih =>
      intro f hf
      obtain ⟨sched', h1, h2⟩ := ih (step env f st) (good_does hf (does_step env f st))
      rw [run_cons]
      rcases sys_does (env := env) hf st with h | h
      · exact ⟨st :: sched', h1.cons_cons st, by rw [h2, h, Sys.run_cons]⟩
      · exact ⟨sched', h1.cons st, by rw [h2, h]⟩
  exact key sched (init peers) (good_run env peers [])

/-! ### Waiting -/

/-- Where a packet is that its read task has begun to send: `L` events had been taken and `T` put when it asked, and `p` tasks waited
before it. -/
inductive Where (c : ConnId) (ev : ClientEvent) (L p : Nat) (T : List ClientEvent) (f : Fifo) : Prop
  | waits (l r : List ConnId) (hw : f.waiting = l ++ c :: r) (ho : (f.sys.conns c).outbox = some ev) (hp : l.length + f.sys.log.length = L + p)
      (hT : T <+: put f.sys)
  | granted (hg : c ∈ f.granted) (ho : (f.sys.conns c).outbox = some ev) (hT : T <+: put f.sys)
  | sent (X : List ClientEvent) (hT : T <+: X) (hX : X ++ [ev] <+: put f.sys) (hl : X.length ≤ f.sys.log.length + 31)

theorem alive_does {env : Env} {f f' : Fifo} (hd : Does env f f') (ha : f'.sys.handlerAlive = true) : f.sys.handlerAlive = true := by
  cases hd with
  | other st he hl ho h => exact h ha
  | take now ev rest hi he he' hl hc => simp [Sys.handlerAlive, hi]
  | granted c ev ho ha' hg => exact ha'
  | free c ev n ho ha' hg hw hp => exact ha'
  | wait c ev ho ha' hg hw hp => exact ha'
  | still => exact ha
  | dead c h =>
    have hr := Sys.stepRead_rest env f.sys c
    simp only [Sys.handlerAlive, hr.1] at ha h
    rw [h] at ha; cases ha

theorem alive_run {env : Env} {f : Fifo} (sched : List Step) (ha : (run env f sched).sys.handlerAlive = true) : f.sys.handlerAlive = true := by
  induction sched generalizing f with
  | nil => exact ha
  | cons st sched ih => exact alive_does (does_step env f st) (ih ha)

/-- What has been put and taken stays so. -/
theorem put_does {env : Env} {f f' : Fifo} (hd : Does env f f') : put f.sys <+: put f'.sys ∧ f.sys.log.length ≤ f'.sys.log.length := by
  cases hd with
  | other st he hl ho h => simp only [put, he, hl]; exact ⟨List.prefix_refl _, Nat.le_refl _⟩
  | take now ev rest hi he he' hl hc =>
    have : (release { f with sys := Sys.stepHandler env now f.sys }).sys = Sys.stepHandler env now f.sys := by
      unfold release; simp only; split <;> rfl
    rw [this]
    simp only [put, he, hl, he', List.map_append, List.map_cons, List.map_nil, List.append_assoc, List.singleton_append, List.length_append,
      List.length_singleton]
    exact ⟨List.prefix_refl _, by omega⟩
  | granted c ev ho ha' hg => simp only [put, push, Sys.setConn_log, Sys.setConn_events]; exact ⟨by rw [← List.append_assoc]; exact List.prefix_append _ _, Nat.le_refl _⟩
  | free c ev n ho ha' hg hw hp => simp only [put, push, Sys.setConn_log, Sys.setConn_events]; exact ⟨by rw [← List.append_assoc]; exact List.prefix_append _ _, Nat.le_refl _⟩
  | wait c ev ho ha' hg hw hp => exact ⟨List.prefix_refl _, Nat.le_refl _⟩
  | still => exact ⟨List.prefix_refl _, Nat.le_refl _⟩
  | dead c h =>
    have hr := Sys.stepRead_rest env f.sys c
    simp only [put, hr.2.2.1]
    exact ⟨(List.prefix_append_right_inj _).mpr (Sys.stepRead_events env f.sys c), Nat.le_refl _⟩

theorem put_run {env : Env} (f : Fifo) (sched : List Step) :
    put f.sys <+: put (run env f sched).sys ∧ f.sys.log.length ≤ (run env f sched).sys.log.length := by
  induction sched generalizing f with
  | nil => exact ⟨List.prefix_refl _, Nat.le_refl _⟩
  | cons st sched ih =>
    have h1 := put_does (does_step env f st)
    have h2 := ih (step env f st)
    exact ⟨h1.1.trans h2.1, Nat.le_trans h1.2 h2.2⟩

/-- The event is sent: at most 31 others are before it. -/
theorem sent_now {f : Fifo} (h : Good f) {c : ConnId} {ev : ClientEvent} {L p : Nat} {T : List ClientEvent} (ha : f.sys.handlerAlive = true)
    (hpos : 0 < f.permits + f.granted.length) (hT : T <+: put f.sys) (f' : Fifo) (he : f'.sys = push f.sys c ev) : Where c ev L p T f' := by
  have hcount := h.count ha
  refine .sent (put f.sys) hT ?_ ?_
  · rw [he]; simp only [put, push, Sys.setConn_log, Sys.setConn_events, List.append_assoc]; exact List.prefix_refl _
  · rw [he]
    simp only [put, push, Sys.setConn_log, List.length_append, List.length_map]
    unfold channelCapacity at hcount
    omega

theorem where_does {env : Env} {f f' : Fifo} (h : Good f) {c : ConnId} {ev : ClientEvent} {L p : Nat} {T : List ClientEvent}
    (hd : Does env f f') (ha : f'.sys.handlerAlive = true) (hw : Where c ev L p T f) : Where c ev L p T f' := by
  have hput := put_does hd
  have hal := alive_does hd ha
  cases hw with
  | sent X hT hX hl => exact .sent X hT (hX.trans hput.1) (by omega)
  | granted hg ho hT =>
    have hT' := hT.trans hput.1
    cases hd with
    | other st he hl hout h => exact .granted hg (hout _ _ ho) hT'
    | take now e rest hi he he' hl hc =>
      refine .granted ?_ ?_ hT'
      · unfold release; simp only; split
        · exact hg
        · simp only; exact List.mem_append_left _ hg
      · have : (release { f with sys := Sys.stepHandler env now f.sys }).sys = Sys.stepHandler env now f.sys := by
          unfold release; simp only; split <;> rfl
        rw [this, hc]; exact ho
    | granted d e ho' ha' hg' =>
      by_cases hdc : d = c
      · subst hdc
        rw [ho] at ho'
        cases ho'
        exact sent_now h hal (by have := List.length_pos_of_mem hg; omega) hT _ rfl
      · exact .granted ((List.mem_erase_of_ne (Ne.symm hdc)).mpr hg) (by simp only [push_outbox _ _ _ _ (Ne.symm hdc)]; exact ho) hT'
    | free d e n ho' ha' hg' hw' hp =>
      have hdc : c ≠ d := by rintro rfl; exact hg' hg
      exact .granted hg (by simp only [push_outbox _ _ _ _ hdc]; exact ho) hT'
    | wait d e ho' ha' hg' hw' hp => exact .granted hg ho hT'
    | still => exact .granted hg ho hT
    | dead d h => rw [hal] at h; cases h
  | waits l r hwt ho hp hT =>
    have hT' := hT.trans hput.1
    cases hd with
    | other st he hl hout h => exact .waits l r hwt (hout _ _ ho) (by simp only [hl]; exact hp) hT'
    | take now e rest hi he he' hl hc =>
      have hsys : (release { f with sys := Sys.stepHandler env now f.sys }).sys = Sys.stepHandler env now f.sys := by
        unfold release; simp only; split <;> rfl
      cases l with
      | nil =>
        refine .granted ?_ (by rw [hsys, hc]; exact ho) hT'
        unfold release; simp [hwt]
      | cons x l =>
        refine .waits l r ?_ (by rw [hsys, hc]; exact ho) ?_ hT'
        · unfold release; simp [hwt]
        · rw [hsys, hl]; simp only [List.length_append, List.length_cons, List.length_nil] at hp ⊢; omega
    | granted d e ho' ha' hg' =>
      have hdc : c ≠ d := by
        rintro rfl
        exact (List.nodup_append.mp h.nodup).2.2 c (by rw [hwt]; simp) c hg' rfl
      exact .waits l r hwt (by simp only [push_outbox _ _ _ _ hdc]; exact ho) hp hT'
    | free d e n ho' ha' hg' hw' hp' =>
      have hdc : c ≠ d := by rintro rfl; exact hw' (by rw [hwt]; simp)
      exact .waits l r hwt (by simp only [push_outbox _ _ _ _ hdc]; exact ho) hp hT'
    | wait d e ho' ha' hg' hw' hp' => exact .waits l (r ++ [d]) (by simp [hwt]) ho hp hT'
    | still => exact .waits l r hwt ho hp hT
    | dead d h => rw [hal] at h; cases h

theorem where_run {env : Env} {f : Fifo} (h : Good f) {c : ConnId} {ev : ClientEvent} {L p : Nat} {T : List ClientEvent} (sched : List Step)
    (ha : (run env f sched).sys.handlerAlive = true) (hw : Where c ev L p T f) : Where c ev L p T (run env f sched) := by
  induction sched generalizing f with
  | nil => exact hw
  | cons st sched ih =>
    have hd := does_step env f st
    exact ih (good_does h hd) ha (where_does h hd (alive_run sched ha) hw)

/-- After its turn, a task with something to send has sent it or waits behind those that waited already. -/
theorem where_asked {env : Env} {f : Fifo} (h : Good f) {c : ConnId} {ev : ClientEvent} (ho : (f.sys.conns c).outbox = some ev)
    (ha : f.sys.handlerAlive = true) : ∃ p, p ≤ f.waiting.length ∧ Where c ev f.sys.log.length p (put f.sys) (step env f (.read c)) := by
  show ∃ p, _ ∧ Where _ _ _ _ _ (stepRead env f c)
  unfold stepRead
  simp only [ho, ha, ↓reduceIte]
  split
  · rename_i hg
    exact ⟨0, Nat.zero_le _, sent_now h ha (by have := List.length_pos_of_mem hg; omega) (List.prefix_refl _) _ rfl⟩
  · split
    · rename_i hw
      obtain ⟨l, r, hlr⟩ := List.append_of_mem hw
      exact ⟨l.length, by rw [hlr]; simp, .waits l r hlr ho (by omega) (List.prefix_refl _)⟩
    · cases hp : f.permits with
      | zero => exact ⟨f.waiting.length, Nat.le_refl _, .waits f.waiting [] rfl ho (by simp only; omega) (List.prefix_refl _)⟩
      | succ n => exact ⟨0, Nat.zero_le _, sent_now h ha (by omega) (List.prefix_refl _) _ rfl⟩

/-- A task with a permit uses it on its next turn. -/
theorem where_turn {env : Env} {f : Fifo} (h : Good f) {c : ConnId} {ev : ClientEvent} {L p : Nat} {T : List ClientEvent}
    (ha : f.sys.handlerAlive = true) (hw : Where c ev L p T f) (hn : L + p < f.sys.log.length) :
    ∃ X, T <+: X ∧ X ++ [ev] <+: put (step env f (.read c)).sys ∧ X.length ≤ f.sys.log.length + 31 := by
  cases hw with
  | waits l r hwt ho hp hT => omega
  | granted hg ho hT =>
    have : step env f (.read c) = { f with sys := push f.sys c ev, granted := f.granted.erase c } := by
      show stepRead env f c = _
      unfold stepRead
      simp only [ho, ha, ↓reduceIte, hg]
    rw [this]
    have hcount := h.count ha
    have := List.length_pos_of_mem hg
    refine ⟨put f.sys, hT, ?_, ?_⟩
    · simp only [put, push, Sys.setConn_log, Sys.setConn_events, List.append_assoc]; exact List.prefix_refl _
    · simp only [put, List.length_append, List.length_map]
      unfold channelCapacity at hcount
      omega
  | sent X hT hX hl => exact ⟨X, hT, hX.trans (put_does (does_step env f (.read c))).1, hl⟩

/-! ### The same states as before -/

/-- Nobody waits. -/
structure Clear (f : Fifo) : Prop where
  waiting : f.waiting = []
  granted : f.granted = []
  count : f.sys.handlerAlive = true → f.permits + f.sys.events.length = channelCapacity

/-- A step of the broker as before, if it does anything, is a step here. -/
theorem clear_step {env : Env} {f : Fifo} (h : Clear f) (hg : Good f) (st : Step) :
    Sys.step env f.sys st = f.sys ∨ (Clear (step env f st) ∧ (step env f st).sys = Sys.step env f.sys st) := by
  have hgood := good_does hg (does_step env f st)
  have clear : (step env f st).waiting = [] → (step env f st).granted = [] → Clear (step env f st) := fun h1 h2 =>
    ⟨h1, h2, fun ha => by have := hgood.count ha; rw [h2] at this; simpa using this⟩
  have hw := h.waiting
  have hgr := h.granted
  cases st with
  | read c =>
    cases ho : (f.sys.conns c).outbox with
    | none =>
      have he : step env f (.read c) = { f with sys := Sys.stepRead env f.sys c } := by
        show stepRead env f c = _
        unfold stepRead; simp only [ho]
      exact .inr ⟨clear (by rw [he]; exact hw) (by rw [he]; exact hgr), by rw [he]; rfl⟩
    | some ev =>
      cases ha : f.sys.handlerAlive with
      | false =>
        have he : step env f (.read c) = { f with sys := Sys.stepRead env f.sys c, waiting := f.waiting.erase c, granted := f.granted.erase c } := by
          show stepRead env f c = _
          unfold stepRead; simp only [ho, ha, Bool.false_eq_true, ↓reduceIte]
        exact .inr ⟨clear (by rw [he]; simp only [hw]; rfl) (by rw [he]; simp only [hgr]; rfl), by rw [he]; rfl⟩
      | true =>
        have hcount := h.count ha
        by_cases hlt : f.sys.events.length < channelCapacity
        · obtain ⟨n, hn⟩ : ∃ n, f.permits = n + 1 := ⟨f.permits - 1, by omega⟩
          have he : step env f (.read c) = { f with sys := push f.sys c ev, permits := n } := by
            show stepRead env f c = _
            unfold stepRead; simp only [ho, ha, ↓reduceIte, hw, hgr, List.not_mem_nil, hn]
          refine .inr ⟨clear (by rw [he]; exact hw) (by rw [he]; exact hgr), ?_⟩
          rw [he]
          show push f.sys c ev = Sys.stepRead env f.sys c
          unfold Sys.stepRead push
          simp only [ho, ha, ↓reduceIte, hlt]
        · refine .inl ?_
          show Sys.stepRead env f.sys c = f.sys
          unfold Sys.stepRead
          simp only [ho, ha, ↓reduceIte, hlt]
  | write c => exact .inr ⟨clear hw hgr, rfl⟩
  | handler now =>
    have he : (step env f (.handler now)).waiting = [] ∧ (step env f (.handler now)).granted = []
        ∧ (step env f (.handler now)).sys = Sys.stepHandler env now f.sys := by
      show (stepHandler env now f).waiting = [] ∧ (stepHandler env now f).granted = [] ∧ (stepHandler env now f).sys = _
      unfold stepHandler
      split
      · unfold release
        simp only [hw]
        exact ⟨trivial, hgr, trivial⟩
      · exact ⟨hw, hgr, rfl⟩
    exact .inr ⟨clear he.1 he.2.1, he.2.2⟩
  | ctrlC => exact .inr ⟨clear hw hgr, rfl⟩
  | stop => exact .inr ⟨clear hw hgr, rfl⟩

theorem run_sys (env : Env) (peers : ConnId → Sys.Peer) (sched : List Step) :
    ∃ sched', sched'.Sublist sched ∧ (run env (init peers) sched').sys = Sys.run env (Sys.init peers) sched := by
  have key : ∀ (sched : List Step) (f : Fifo), Good f → Clear f → ∃ sched', sched'.Sublist sched ∧ (run env f sched').sys = Sys.run env f.sys sched := by
    intro sched
    induction sched with
    | nil => exact fun f _ _ => ⟨[], .slnil, rfl⟩
    | cons st sched ih =>
      intro f hg hc
      rcases clear_step (env := env) hc hg st with h | ⟨h1, h2⟩
      · obtain ⟨sched', h3, h4⟩ := ih f hg hc
        exact ⟨sched', h3.cons st, by rw [h4, Sys.run_cons, h]⟩
      · obtain ⟨sched', h3, h4⟩ := ih _ (good_does hg (does_step env f st)) h1
        exact ⟨st :: sched', h3.cons_cons st, by rw [run_cons, h4, h2, Sys.run_cons]⟩
  exact key sched (init peers) (good_run env peers []) ⟨rfl, rfl, fun _ => rfl⟩

/-! ### How many wait -/

theorem waiting_step (env : Env) (f : Fifo) (st : Step) {c : ConnId} (h : c ∈ (step env f st).waiting) : c ∈ f.waiting ∨ st = .read c := by
  cases st with
  | read d =>
    have h : c ∈ (stepRead env f d).waiting := h
    unfold stepRead at h
    split at h
    · exact .inl h
    · split at h
      · split at h
        · exact .inl h
        · split at h
          · exact .inl h
          · split at h
            · simp only [List.mem_append, List.mem_cons, List.not_mem_nil, or_false] at h
              exact h.imp id fun e => by rw [e]
            · exact .inl h
      · exact .inl (erase_sub h)
  | handler now =>
    have h : c ∈ (stepHandler env now f).waiting := h
    unfold stepHandler at h
    split at h
    · unfold release at h
      simp only at h
      split at h
      · exact .inl h
      · rename_i hw
        exact .inl (by rw [hw]; exact List.mem_cons_of_mem _ h)
    · exact .inl h
  | write d => exact .inl h
  | ctrlC => exact .inl h
  | stop => exact .inl h

theorem waiting_below (env : Env) (peers : ConnId → Sys.Peer) {N : Nat} {sched : List Step} (hN : ReadsBelow N sched) :
    ∀ c : Nat, c ∈ (run env (init peers) sched).waiting → c < N := by
  have key : ∀ (sched : List Step) (f : Fifo), ReadsBelow N sched → (∀ c : Nat, c ∈ f.waiting → c < N) → ∀ c : Nat, c ∈ (run env f sched).waiting → c < N := by
    intro sched
    induction sched with
    | nil => exact fun f _ h => h
    | cons st sched ih =>
      intro f hN hf
      refine ih _ (fun st' hst => hN st' (List.mem_cons_of_mem _ hst)) fun c hc => ?_
      rcases waiting_step env f st hc with h | h
      · exact hf c h
      · exact hN st List.mem_cons_self c h
  exact key sched (init peers) hN (by simp [init])

/-- Not more tasks wait than there are connections. -/
theorem waiting_few (env : Env) (peers : ConnId → Sys.Peer) {N : Nat} {sched : List Step} (hN : ReadsBelow N sched) :
    (run env (init peers) sched).waiting.length ≤ N := by
  have h := (List.nodup_append.mp (good_run env peers sched).nodup).1
  have : (run env (init peers) sched).waiting.length ≤ (List.range N).length :=
    h.length_le_of_subset fun d hd => List.mem_range.mpr (waiting_below env peers hN d hd)
  simpa using this

end Fifo

end Ratel
