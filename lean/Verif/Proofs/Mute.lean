/-
Connections on which no CONNECT comes.
-/
import Verif.Spec.Mute
import Verif.Proofs.Files
import Verif.Proofs.SysMore
import Verif.Proofs.SysBound
import Verif.Proofs.Ends

namespace Ratel

open Spec Sys

namespace Sys

theorem unfinished_iff (env : Env) (peer : Peer) :
    letI := RStream.source env.alloc
    Unfinished env peer ↔ ((Decoder.readPacket env.profile : M RStream _) (RStream.new 4096 peer.segs peer.fin)).1 = .pending
      ∨ ((Decoder.readPacket env.profile : M RStream _) (RStream.new 4096 peer.segs peer.fin)).1 = .hang := by
  letI := RStream.source env.alloc
  unfold Unfinished received
  rcases hr : (Decoder.readPacket env.profile : M RStream _) (RStream.new 4096 peer.segs peer.fin) with ⟨r, s'⟩
  cases r with
  | ok p =>
    rw [readMany, M.bind_ok hr]
    exact iff_of_false (fun h => by rcases h with h | h <;> cases h) (fun h => by rcases h with h | h <;> cases h)
  | err e => rw [readMany, M.bind_err hr]; simp
  | panic => rw [readMany, M.bind_panic hr]; simp
  | hang => rw [readMany, M.bind_hang hr]; simp
  | pending => rw [readMany, M.bind_pending hr]; simp

/-- Mute connections are among those whose first packet does not come to an end. -/
theorem mute_unfinished {env : Env} {peer : Peer} (h : Mute env.profile peer) : Unfinished env peer := by
  letI := RStream.source env.alloc
  refine (unfinished_iff env peer).mpr (.inl ?_)
  have hsim := Sim.readPacket env.alloc closed_small env.profile (RStream.new 4096 peer.segs peer.fin) _ (rel_new 4096 peer.segs peer.fin)
    (by simpa [Small, RStream.total, RStream.new, BytesMut.withCapacity] using h.short)
  have hb := h.begins
  unfold decoded at hb
  rw [← h.open_] at hb
  rcases hm : (Decoder.readPacket env.profile : M RStream _) (RStream.new 4096 peer.segs peer.fin) with ⟨r, s'⟩
  rw [hm] at hsim
  cases r with
  | ok a => obtain ⟨p', h1, _⟩ := hsim; rw [h1] at hb; cases hb
  | err e => obtain ⟨_, h1⟩ := hsim; rw [h1] at hb; cases hb
  | panic => obtain ⟨_, h1⟩ := hsim; rw [h1] at hb; cases hb
  | pending => rfl
  | hang => exact hsim.elim

/-- A connection of fewer than 4096 bytes whose first packet does not come to an end is mute. -/
theorem unfinished_mute {env : Env} {peer : Peer} (hs : peer.segs.flatten.length < 4096) (h : Unfinished env peer) : Mute env.profile peer := by
  letI := RStream.source env.alloc
  rw [unfinished_iff] at h
  have hsim := Sim.readPacket env.alloc closed_small env.profile (RStream.new 4096 peer.segs peer.fin) _ (rel_new 4096 peer.segs peer.fin)
    (by simpa [Small, RStream.total, RStream.new, BytesMut.withCapacity] using hs)
  rcases hm : (Decoder.readPacket env.profile : M RStream _) (RStream.new 4096 peer.segs peer.fin) with ⟨r, s'⟩
  rw [hm] at hsim h
  cases r with
  | pending =>
    obtain ⟨p', h1⟩ := hsim
    have hf : peer.fin = .silence := Classical.byContradiction fun hf =>
      absurd (by rw [h1]) (NoWait.readPacket env.profile ⟨peer.segs.flatten, peer.fin⟩ hf).1
    refine ⟨hs, hf, ?_⟩
    unfold decoded
    rw [← hf, h1]
  | hang => exact hsim.elim
  | ok a => rcases h with h | h <;> cases h
  | err e => rcases h with h | h <;> cases h
  | panic => rcases h with h | h <;> cases h

/-- As long as the first packet has not been read the connection is as it was. -/
def Fresh (peer : Peer) (k : Conn) : Prop := k.phase = .first → k.outbox = none ∧ k.rd = RStream.new 4096 peer.segs peer.fin

theorem Fresh.congr {peer : Peer} {k k' : Conn} (h : Fresh peer k) (hr : SameReader k k') : Fresh peer k' := by
  intro hp
  rw [hr.outbox, hr.rd]
  exact h (hr.phase.symm.trans hp)

/-- In the first phase the read task does nothing, or leaves that phase: it ends, goes round for ever, or has got a CONNECT. -/
theorem readTask_first (env : Env) (c : ConnId) {peer : Peer} {k : Conn} (hp : k.phase = .first) (hr : k.rd = RStream.new 4096 peer.segs peer.fin) :
    (Unfinished env peer ∧ (readTask env c k = k ∨ (readTask env c k).phase = .stuck))
    ∨ (¬ Unfinished env peer ∧ ((readTask env c k).phase = .ended ∨ ∃ id, (readTask env c k).phase = .running id)) := by
  letI := RStream.source env.alloc
  rw [unfinished_iff]
  unfold readTask
  simp only [hp, hr]
  rcases hm : (Decoder.readPacket env.profile : M RStream _) (RStream.new 4096 peer.segs peer.fin) with ⟨r, s'⟩
  cases r with
  | ok q =>
    refine .inr ⟨fun h => (by rcases h with h | h <;> cases h), ?_⟩
    cases q with
    | connect q => exact .inr ⟨_, rfl⟩
    | _ => exact .inl rfl
  | err e => exact .inr ⟨fun h => (by rcases h with h | h <;> cases h), .inl rfl⟩
  | panic => exact .inr ⟨fun h => (by rcases h with h | h <;> cases h), .inl rfl⟩
  | hang => exact .inl ⟨.inr rfl, .inr rfl⟩
  | pending => exact .inl ⟨.inl rfl, .inl rfl⟩

/-- What steps do to a connection: nothing as far as reading goes, hand over an event, or read on. -/
theorem step_reader (env : Env) (s : Sys) (st : Step) (c : ConnId) :
    SameReader (s.conns c) ((step env s st).conns c)
    ∨ (st = .read c ∧ (s.conns c).outbox.isSome = true ∧ ((step env s st).conns c).phase = (s.conns c).phase)
    ∨ (st = .read c ∧ (s.conns c).outbox = none ∧ (step env s st).conns c = readTask env c (s.conns c)) := by
  cases st with
  | read d =>
    by_cases hd : c = d
    · subst hd
      right
      simp only [step, stepRead]
      cases ho : (s.conns c).outbox with
      | none => exact .inr ⟨trivial, rfl, by simp⟩
      | some ev =>
        refine .inl ⟨trivial, rfl, ?_⟩
        repeat' split
        all_goals simp_all
    · left
      simp only [step, stepRead]
      repeat' split
      all_goals first | exact SameReader.refl _ | (rw [setConn_other _ _ hd]; exact SameReader.refl _)
  | write d => exact .inl (stepWrite_reader env s d c)
  | handler now => exact .inl (stepHandler_reader env now s c)
  | ctrlC => exact .inl (SameReader.refl _)
  | stop =>
    left
    simp only [step]
    repeat' split
    all_goals exact SameReader.refl _

theorem firstRead_run (env : Env) (peers : ConnId → Peer) (c : ConnId) (sched : List Step) : Fresh (peers c) ((run env (init peers) sched).conns c) := by
  refine run_induction (P := fun s => Fresh (peers c) (s.conns c)) (fun s st h => ?_) (fun _ => ⟨rfl, rfl⟩) sched
  rcases step_reader env s st c with hr | ⟨_, h1, h2⟩ | ⟨_, h1, h2⟩
  · exact h.congr hr
  · intro hp
    rw [(h (h2.symm.trans hp)).1] at h1
    cases h1
  · rw [h2]
    intro hp
    by_cases hf : (s.conns c).phase = .first
    · rcases readTask_first env c hf (h hf).2 with ⟨_, h3 | h3⟩ | ⟨_, h3 | ⟨id, h3⟩⟩
      · rw [h3]; exact h hf
      all_goals rw [h3] at hp; cases hp
    · exfalso
      unfold readTask at hp
      cases hk : (s.conns c).phase with
      | first => exact hf hk
      | running id =>
        rw [hk] at hp
        simp only at hp
        split at hp <;> simp_all
      | ended => simp [hk] at hp
      | stuck => simp [hk] at hp

/-- A connection whose first packet does not come to an end is read for ever. -/
theorem unfinished_run (env : Env) (peers : ConnId → Peer) {c : ConnId} (hu : Unfinished env (peers c)) (sched : List Step) :
    ((run env (init peers) sched).conns c).phase = .first ∨ ((run env (init peers) sched).conns c).phase = .stuck := by
  have key : Fresh (peers c) ((run env (init peers) sched).conns c)
      ∧ (((run env (init peers) sched).conns c).phase = .first ∨ ((run env (init peers) sched).conns c).phase = .stuck) := by
    refine snoc_induction (P := fun sched => Fresh (peers c) ((run env (init peers) sched).conns c)
      ∧ (((run env (init peers) sched).conns c).phase = .first ∨ ((run env (init peers) sched).conns c).phase = .stuck))
      ⟨fun _ => ⟨rfl, rfl⟩, .inl rfl⟩ (fun l st ih => ?_) sched
    refine ⟨firstRead_run env peers c _, ?_⟩
    rw [run_append]
    show ((step env (run env (init peers) l) st).conns c).phase = .first ∨ ((step env (run env (init peers) l) st).conns c).phase = .stuck
    obtain ⟨ih1, ih2⟩ := ih
    generalize run env (init peers) l = s at *
    rcases step_reader env s st c with hr | ⟨_, _, h2⟩ | ⟨_, _, h2⟩
    · rw [hr.phase]; exact ih2
    · rw [h2]; exact ih2
    · rw [h2]
      rcases ih2 with hp | hp
      · rcases readTask_first env c hp (ih1 hp).2 with ⟨_, h3 | h3⟩ | ⟨h3, _⟩
        · rw [h3]; exact .inl hp
        · exact .inr h3
        · exact absurd hu h3
      · right
        simp [readTask, hp]
  exact key.2

/-- A connection on which no CONNECT comes is read no more once its read task had a turn, if its first packet comes to an end. -/
theorem read_ends (env : Env) (peers : ConnId → Peer) (a : List Step) {c : ConnId} (hn : NoConnect (peers c).segs.flatten)
    (hu : ¬ Unfinished env (peers c)) : ((run env (init peers) (a ++ [.read c])).conns c).phase = .ended := by
  have ho := no_outbox env peers a hn
  have hfr := firstRead_run env peers c
  have hnr := not_running (inv_run env peers (a ++ [.read c])).reads hn
  have key : ∀ sched : List Step, ((run env (init peers) sched).conns c).phase ≠ .stuck := by
    intro sched
    refine snoc_induction (P := fun sched => ((run env (init peers) sched).conns c).phase ≠ .stuck) (by simp [run, init, Peer.conn]) (fun l st ih => ?_) sched
    have hf := hfr l
    have hr := not_running (inv_run env peers l).reads hn
    rw [run_append]
    show ((step env (run env (init peers) l) st).conns c).phase ≠ .stuck
    generalize run env (init peers) l = s at *
    rcases step_reader env s st c with h | ⟨_, _, h2⟩ | ⟨_, _, h2⟩
    · rw [h.phase]; exact ih
    · rw [h2]; exact ih
    · rw [h2]
      cases hp : (s.conns c).phase with
      | first =>
        rcases readTask_first env c hp (hf hp).2 with ⟨h3, _⟩ | ⟨_, h3 | ⟨id, h3⟩⟩
        · exact absurd h3 hu
        · rw [h3]; simp
        · rw [h3]; simp
      | running id => exact absurd hp (hr id)
      | ended => simp [readTask, hp]
      | stuck => exact absurd hp ih
  have hst := key a
  have hr := not_running (inv_run env peers a).reads hn
  have hf := hfr a
  rw [run_append] at hnr ⊢
  change ∀ id, ((stepRead env (run env (init peers) a) c).conns c).phase ≠ .running id at hnr
  show ((stepRead env (run env (init peers) a) c).conns c).phase = .ended
  generalize run env (init peers) a = s at *
  simp only [stepRead, ho, setConn_self] at hnr ⊢
  cases hp : (s.conns c).phase with
  | running id => exact absurd hp (hr id)
  | stuck => exact absurd hp hst
  | ended => simp [readTask, hp]
  | first =>
    rcases readTask_first env c hp (hf hp).2 with ⟨h3, _⟩ | ⟨_, h3 | ⟨id, h3⟩⟩
    · exact absurd h3 hu
    · exact h3
    · exact absurd h3 (hnr id)

theorem ended_step (env : Env) (s : Sys) (st : Step) {c : ConnId} (h : (s.conns c).phase = .ended) : ((step env s st).conns c).phase = .ended := by
  cases st with
  | read d =>
    by_cases hd : c = d
    · subst hd
      simp only [step, stepRead]
      split
      · repeat' split
        all_goals simpa using h
      · rw [setConn_self]
        simp [readTask, h]
    · simp only [step, stepRead]
      repeat' split
      all_goals first | exact h | (rw [setConn_other _ _ hd]; exact h)
  | write d => exact (stepWrite_reader env s d c).phase.trans h
  | handler now => exact (stepHandler_reader env now s c).phase.trans h
  | ctrlC => exact h
  | stop =>
    simp only [step]
    repeat' split
    all_goals exact h

/-- Then its write task ends at its next turn. -/
theorem write_ends (env : Env) (peers : ConnId → Peer) (a : List Step) {c : ConnId} (hn : NoConnect (peers c).segs.flatten)
    (hp : ((run env (init peers) a).conns c).phase = .ended) : Freed (run env (init peers) (a ++ [.write c])) c := by
  have hinv := inv_run env peers a
  have ho := no_outbox env peers a hn
  have hno := no_events hinv.reads hn
  obtain ⟨hdel, htodo⟩ := silent_delivered hinv hn
  have hkeys := keys_run env peers a
  have hwait := waitsRightly_run env peers a c
  rw [run_append]
  show Freed (stepWrite env (run env (init peers) a) c) c
  generalize run env (init peers) a = s at *
  have hfrom : ∀ ev ∈ s.log.map Prod.fst ++ s.events, ¬ From c ev := by
    unfold taken at hno
    rw [List.filter_eq_nil_iff] at hno
    exact fun ev hev hf => hno ev hev (by simpa using hf)
  have htx : ∀ ev, eventTx c ev = true → From c ev := by
    intro ev h
    cases ev <;> simp_all [eventTx, From]
  have hsend : s.hasSender c = false := by
    unfold hasSender
    rw [hp, ho]
    simp only [Bool.false_or, Bool.and_eq_false_imp]
    intro ha
    simp only [Bool.or_eq_false_iff]
    refine ⟨⟨?_, ?_⟩, ?_⟩
    · rw [List.any_eq_false]
      exact fun ev hev h => hfrom ev (List.mem_append_right _ hev) (htx ev h)
    · cases hh : s.handler with
      | busy todo =>
        simp only [Bool.or_eq_false_iff]
        refine ⟨?_, ?_⟩
        · rw [List.any_eq_false]
          rintro ⟨d, e⟩ hde h
          have hd : d = c := by simpa using h
          subst hd
          unfold Sys.todo at htodo
          rw [hh] at htodo
          have : e ∈ sentTo todo d :=
            List.mem_map.mpr ⟨_, List.mem_filter.mpr ⟨hde, by simp⟩, rfl⟩
          rw [htodo] at this
          cases this
        · cases hl : s.log.getLast? with
          | none => rfl
          | some x =>
            cases hx : eventTx c x.1 with
            | false => simp [hx]
            | true =>
              exact (hfrom x.1 (List.mem_append_left _ (List.mem_map.mpr ⟨x, List.mem_of_getLast? hl, rfl⟩)) (htx _ hx)).elim
      | _ => rfl
    · rw [List.any_eq_false]
      rintro ⟨x, session⟩ hm hse
      have : (s.messaging.sessions.get x).map Session.sender = some c := by
        rw [SessionRepository.get, (AssocMap.mem_iff hkeys.nodup x session).mp hm]
        simpa using hse
      obtain ⟨pre, p, addr, post, he, _⟩ := (session_reached hinv ha x c).mp this
      refine hfrom (.connected p addr c) (List.mem_append_left _ ?_) rfl
      show _ ∈ s.served
      rw [he]
      simp
  have hw := hinv.writes c
  have hq : (s.conns c).queue = [] ∧ (s.conns c).written = [] := by
    have := hw.sent
    rw [hdel] at this
    have := List.prefix_nil.mp this
    obtain ⟨h1, h2⟩ := List.append_eq_nil_iff.mp this
    exact ⟨h2, by simpa using h1⟩
  have hb : (s.conns c).wrBlocked = false := by
    cases hx : (s.conns c).wrBlocked with
    | false => rfl
    | true =>
      have := hwait hx
      rw [hq.2] at this
      simp [writesForAll] at this
  unfold Freed HungUp
  cases hx : (s.conns c).rxOpen with
  | true => simp [stepWrite, hx, hb, hq.1, hsend, hp, ho]
  | false => simp [stepWrite, hx, hp, ho]

end Sys

end Ratel
