/-
The process: its invariant, and that it goes through states of the system model only.
-/
import Verif.Proofs.SysFair
import Verif.Spec.Process

namespace Ratel

open Decoder Encoder Spec Sys

namespace Proc

theorem run_append (env : Env) (W : Nat) (p : Proc) (a b : List PStep) : run env W p (a ++ b) = run env W (run env W p a) b :=
  List.foldl_append

theorem run_cons (env : Env) (W : Nat) (p : Proc) (st : PStep) (l : List PStep) : run env W p (st :: l) = run env W (step env W p st) l := rfl

/-- What is known in each phase of the main task; `sig`: ctrl-c was pressed. -/
def Stage (sig : Prop) (p : Proc) : Prop :=
  match p.main with
  | .serving => ¬ sig ∧ p.sys.ctrlC = false
  | .joinListeners => sig ∧ p.sys.ctrlC = true
  | .joinMessaging => sig ∧ p.sys.ctrlC = true ∧ p.listeners.all (!·) = true
  | .joinHandler => sig ∧ p.sys.ctrlC = true ∧ p.listeners.all (!·) = true ∧ p.messagingUp = false
  | .returned => sig ∧ p.listeners.all (!·) = true ∧ p.messagingUp = false ∧ p.sys.handler = .stopped
  | .exited true => sig ∧ p.listeners.all (!·) = true ∧ p.messagingUp = false ∧ p.sys.handler = .stopped
  | .panicked => sig ∧ p.sys.handler = .crashed
  | .exited false => sig ∧ p.sys.handler = .crashed

structure PInv (env : Env) (peers : ConnId → Peer) (L : Nat) (sig : Prop) (p : Proc) : Prop where
  sys : ∃ sched, p.sys = Sys.run env (init peers) sched ∧ (∀ st ∈ sched, ∀ c, st = .read c ∨ st = .write c → c ∈ p.accepted)
    ∧ (.ctrlC ∈ sched → sig)
  listeners : p.listeners.length = L
  down : p.messagingUp = false → p.sys.handlerAlive = false
  nodup : p.accepted.Nodup
  stage : Stage sig p

theorem pinv_start (env : Env) (L : Nat) (peers : ConnId → Peer) : PInv env peers L False (start L peers) where
  sys := ⟨[], rfl, by simp, by simp⟩
  listeners := by simp [start]
  down := by simp [start]
  nodup := .nil
  stage := ⟨id, rfl⟩

theorem dead_step (env : Env) {s : Sys} (h : s.handlerAlive = false) (st : Step) : (Sys.step env s st).handler = s.handler := by
  have h' : s.handler = .crashed ∨ s.handler = .stopped := by
    unfold handlerAlive at h
    cases hh : s.handler <;> simp [hh] at h ⊢
  exact (still_dead env s h' [st]).handler

theorem alive_of_handler {s s' : Sys} (h : s'.handler = s.handler) : s'.handlerAlive = s.handlerAlive := by
  unfold handlerAlive; rw [h]

theorem ctrlC_step (env : Env) {s : Sys} {st : Step} (h : st ≠ .ctrlC) : (Sys.step env s st).ctrlC = s.ctrlC := by
  cases st with
  | ctrlC => exact absurd rfl h
  | read c => show (stepRead env s c).ctrlC = _; unfold stepRead; simp only; repeat' split
              all_goals rfl
  | write c => show (stepWrite env s c).ctrlC = _; unfold stepWrite; simp only; repeat' split
               all_goals rfl
  | handler now => show (stepHandler env now s).ctrlC = _; unfold stepHandler; simp only; repeat' split
                   all_goals rfl
  | stop => simp only [Sys.step]; repeat' split
            all_goals rfl

/-- A spinning task stays where it is. -/
theorem stuck_stays (env : Env) {s : Sys} {c : ConnId} (h : (s.conns c).phase = .stuck) (st : Step) :
    ((Sys.step env s st).conns c).phase = .stuck := by
  have other : ∀ (s : Sys) d k, ((s.conns c).phase = .stuck) → (d = c → k.phase = .stuck) → ((s.setConn d k).conns c).phase = .stuck := by
    intro s d k h1 h2
    by_cases hd : d = c
    · subst hd; simp [setConn, h2 rfl]
    · rw [setConn_other _ _ (fun e => hd e.symm)]; exact h1
  cases st with
  | ctrlC => exact h
  | stop => simp only [Sys.step]; repeat' split
            all_goals exact h
  | read d =>
    show ((stepRead env s d).conns c).phase = _
    unfold stepRead; simp only
    split
    · split
      · split
        · exact other _ _ _ h fun e => by subst e; exact h
        · exact h
      · exact other _ _ _ h fun e => by subst e; exact h
    · refine other _ _ _ h fun e => ?_
      subst e
      simp [readTask, h]
  | write d =>
    show ((stepWrite env s d).conns c).phase = _
    unfold stepWrite; simp only
    repeat' split
    all_goals first | exact h | exact other _ _ _ h fun e => by subst e; exact h
  | handler now =>
    show ((stepHandler env now s).conns c).phase = _
    unfold stepHandler; simp only
    repeat' split
    all_goals first | exact h | exact other _ _ _ h fun e => by subst e; exact h

theorem pinv_step {env : Env} {peers : ConnId → Peer} {L W : Nat} {sig : Prop} {p : Proc} (h : PInv env peers L sig p) (st : PStep) :
    PInv env peers L (sig ∨ st = .signal) (step env W p st) := by
  obtain ⟨sched, hs1, hs2, hs3⟩ := h.sys
  have hmono : ∀ {st : PStep}, st ≠ .signal → (sig ∨ st = .signal) = sig := fun {st} hne => by simp [hne]
  cases st with
  | accept l c =>
    rw [hmono (by simp)]
    simp only [step]
    split
    · rename_i hc
      refine ⟨⟨sched, hs1, fun st hst d hd => List.mem_cons_of_mem _ (hs2 st hst d hd), hs3⟩, h.listeners, h.down, ?_, h.stage⟩
      simp only [Bool.and_eq_true, Bool.not_eq_true', List.contains_eq_mem, decide_eq_false_iff_not] at hc
      exact List.nodup_cons.mpr ⟨hc.2, h.nodup⟩
    · exact h
  | task st =>
    rw [hmono (by simp)]
    simp only [step]
    split
    · rename_i hc
      simp only [Bool.and_eq_true] at hc
      have hne : st ≠ .ctrlC := by rintro rfl; simp [runnable] at hc
      have hgone : p.gone = false := by have := hc.1; simp [free] at this; exact this.2
      refine ⟨⟨sched ++ [st], by rw [Sys.run_append, ← hs1]; rfl, ?_, ?_⟩, h.listeners, fun hm => ?_, h.nodup, ?_⟩
      · intro st' hst' d hd
        rcases List.mem_append.mp hst' with h' | h'
        · exact hs2 st' h' d hd
        · rw [List.mem_singleton] at h'
          subst h'
          rcases hd with rfl | rfl
          · simpa [runnable] using hc.2
          · simpa [runnable] using hc.2
      · intro hm
        rcases List.mem_append.mp hm with h' | h'
        · exact hs3 h'
        · rw [List.mem_singleton] at h'; exact absurd h'.symm hne
      · have := h.down hm
        rw [alive_of_handler (dead_step env this st)]
        exact this
      · have hst := h.stage
        unfold Stage at hst ⊢
        simp only [ctrlC_step env hne]
        cases hm : p.main with
        | exited ok => simp [gone, hm] at hgone
        | returned =>
          rw [hm] at hst
          refine ⟨hst.1, hst.2.1, hst.2.2.1, ?_⟩
          rw [dead_step env (h.down hst.2.2.1)]
          exact hst.2.2.2
        | panicked =>
          rw [hm] at hst
          refine ⟨hst.1, ?_⟩
          rw [dead_step env (by simp [handlerAlive, hst.2])]
          exact hst.2
        | _ => rw [hm] at hst; exact hst
    · exact h
  | stopListening l =>
    rw [hmono (by simp)]
    simp only [step]
    split
    · rename_i hc
      simp only [Bool.and_eq_true] at hc
      have hall : p.listeners.all (!·) = true → (p.listeners.set l false).all (!·) = true := by
        intro ha
        rw [List.all_eq_true] at ha ⊢
        intro x hx
        rcases List.mem_or_eq_of_mem_set hx with hx | rfl
        · exact ha x hx
        · rfl
      refine ⟨⟨sched, hs1, hs2, hs3⟩, by simpa using h.listeners, h.down, h.nodup, ?_⟩
      have hst := h.stage
      unfold Stage at hst ⊢
      simp only
      cases hm : p.main with
      | exited ok =>
        cases ok with
        | true => rw [hm] at hst; exact ⟨hst.1, hall hst.2.1, hst.2.2⟩
        | false => rw [hm] at hst; exact hst
      | returned => rw [hm] at hst; exact ⟨hst.1, hall hst.2.1, hst.2.2⟩
      | joinMessaging => rw [hm] at hst; exact ⟨hst.1, hst.2.1, hall hst.2.2⟩
      | joinHandler => rw [hm] at hst; exact ⟨hst.1, hst.2.1, hall hst.2.2.1, hst.2.2.2⟩
      | _ => rw [hm] at hst; exact hst
    · exact h
  | messagingEnds =>
    rw [hmono (by simp)]
    simp only [step]
    split
    · rename_i hc
      simp only [Bool.and_eq_true, Bool.not_eq_true'] at hc
      refine ⟨⟨sched, hs1, hs2, hs3⟩, h.listeners, fun _ => hc.2, h.nodup, ?_⟩
      have hst := h.stage
      unfold Stage at hst ⊢
      simp only
      cases hm : p.main with
      | exited ok =>
        cases ok with
        | true => rw [hm] at hst; exact ⟨hst.1, hst.2.1, trivial, hst.2.2.2⟩
        | false => rw [hm] at hst; exact hst
      | returned => rw [hm] at hst; exact ⟨hst.1, hst.2.1, trivial, hst.2.2.2⟩
      | joinHandler => rw [hm] at hst; exact ⟨hst.1, hst.2.1, hst.2.2.1, trivial⟩
      | _ => rw [hm] at hst; exact hst
    · exact h
  | signal =>
    have hsig : (sig ∨ PStep.signal = .signal) = True := by simp
    rw [hsig]
    show PInv _ _ _ _ (stepSignal p)
    unfold stepSignal
    have hst := h.stage
    unfold Stage at hst
    cases hm : p.main with
    | serving =>
      rw [hm] at hst
      simp only
      split
      · refine ⟨⟨sched ++ [.ctrlC], by rw [Sys.run_append, ← hs1]; rfl, ?_, fun _ => trivial⟩, h.listeners, h.down, h.nodup, trivial, rfl⟩
        intro st' hst' d hd
        rcases List.mem_append.mp hst' with h' | h'
        · exact hs2 st' h' d hd
        · rw [List.mem_singleton] at h'
          subst h'
          rcases hd with hd | hd <;> cases hd
      · rename_i hc
        refine ⟨⟨sched, hs1, hs2, fun _ => trivial⟩, h.listeners, h.down, h.nodup, trivial, ?_⟩
        simp only [Bool.or_eq_true, not_or, Bool.not_eq_true] at hc
        have hns : p.sys.handler ≠ .stopped := by
          rw [hs1]
          exact stopped_ctrlC env (by simp [init]) rfl fun hmem => hst.1 (hs3 hmem)
        have hd := hc.1
        unfold handlerAlive at hd
        show p.sys.handler = .crashed
        cases hh : p.sys.handler with
        | crashed => rfl
        | stopped => exact absurd hh hns
        | idle => rw [hh] at hd; cases hd
        | busy t => rw [hh] at hd; cases hd
    | exited ok =>
      refine ⟨⟨sched, hs1, hs2, fun _ => trivial⟩, h.listeners, h.down, h.nodup, ?_⟩
      unfold Stage
      cases ok <;> simp only [hm] at hst ⊢ <;> exact ⟨trivial, hst.2⟩
    | _ =>
      refine ⟨⟨sched, hs1, hs2, fun _ => trivial⟩, h.listeners, h.down, h.nodup, ?_⟩
      unfold Stage
      simp only [hm] at hst ⊢
      exact ⟨trivial, hst.2⟩
  | main =>
    rw [hmono (by simp)]
    show PInv _ _ _ _ (stepMain p)
    unfold stepMain
    have hst := h.stage
    unfold Stage at hst
    cases hm : p.main with
    | serving => exact h
    | joinListeners =>
      simp only; rw [hm] at hst
      split
      · rename_i hc; exact ⟨⟨sched, hs1, hs2, hs3⟩, h.listeners, h.down, h.nodup, hst.1, hst.2, hc⟩
      · exact h
    | joinMessaging =>
      simp only; rw [hm] at hst
      split
      · exact h
      · rename_i hc; exact ⟨⟨sched, hs1, hs2, hs3⟩, h.listeners, h.down, h.nodup, hst.1, hst.2.1, hst.2.2, by simpa using hc⟩
    | joinHandler =>
      simp only; rw [hm] at hst
      split
      · rename_i hc; exact ⟨⟨sched, hs1, hs2, hs3⟩, h.listeners, h.down, h.nodup, hst.1, hst.2.2.1, hst.2.2.2, hc⟩
      · rename_i hc; exact ⟨⟨sched, hs1, hs2, hs3⟩, h.listeners, h.down, h.nodup, hst.1, hc⟩
      · exact h
    | returned =>
      simp only; rw [hm] at hst
      split
      · exact ⟨⟨sched, hs1, hs2, hs3⟩, h.listeners, h.down, h.nodup, hst⟩
      · exact h
    | panicked =>
      simp only; rw [hm] at hst
      split
      · exact ⟨⟨sched, hs1, hs2, hs3⟩, h.listeners, h.down, h.nodup, hst⟩
      · exact h
    | exited ok => exact h

theorem pinv_run (env : Env) (W L : Nat) (peers : ConnId → Peer) (ps : List PStep) :
    PInv env peers L (.signal ∈ ps) (run env W (start L peers) ps) := by
  have key : ∀ (ps : List PStep) (sig : Prop) (p : Proc), PInv env peers L sig p → PInv env peers L (sig ∨ .signal ∈ ps) (run env W p ps) := by
    intro ps
    induction ps with
    | nil => intro sig p h; simpa [run] using h
    | cons st ps ih =>
      intro sig p h
      have := ih _ _ (pinv_step (W := W) h st)
      rw [run_cons]
      have he : (sig ∨ .signal ∈ st :: ps) = ((sig ∨ st = .signal) ∨ .signal ∈ ps) := by
        simp only [List.mem_cons, eq_comm, or_assoc]
      rw [he]
      exact this
  simpa using key ps False _ (pinv_start env L peers)

end Proc

end Ratel
