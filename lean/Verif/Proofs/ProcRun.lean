/-
Particular executions of the process.
-/
import Verif.Proofs.ProcFair
import Verif.Proofs.SysBound
import Verif.Proofs.SysTook

namespace Ratel

open Decoder Encoder Spec Sys

namespace Proc

/-- No connection that brings fewer bytes than a buffer holds spins. -/
theorem short_spinning {env : Env} {peers : ConnId → Peer} {L : Nat} {sig : Prop} {p : Proc} (h : PInv env peers L sig p)
    (hs : ∀ c ∈ p.accepted, ¬ Spinning env (peers c)) : p.spinning = 0 := by
  unfold spinning
  rw [List.length_eq_zero_iff, List.filter_eq_nil_iff]
  intro c hc
  obtain ⟨sched, h1, _⟩ := h.sys
  rw [h1]
  simpa using fun h => hs c hc (stuck_spinning env peers sched c h)

/-- Only connections that cannot be read to their end can spin. -/
theorem spinning_few {env : Env} {peers : ConnId → Peer} {L : Nat} {sig : Prop} {p : Proc} (h : PInv env peers L sig p) {N : Nat}
    (hN : ∀ c ∈ p.accepted, (c : Nat) < N) {bad : List ConnId} (hbad : ∀ c, c < N → Spinning env (peers c) → c ∈ bad) :
    p.spinning ≤ bad.length := by
  unfold spinning
  refine List.Nodup.length_le_of_subset (List.Pairwise.filter _ h.nodup) fun c hc => ?_
  rw [List.mem_filter] at hc
  obtain ⟨sched, h1, _⟩ := h.sys
  refine hbad c (hN c hc.1) (stuck_spinning env peers sched c ?_)
  rw [← h1]
  simpa using hc.2

/-- Only connections that bring at least as many bytes as a buffer holds can spin. -/
theorem spinning_le {env : Env} {peers : ConnId → Peer} {L : Nat} {sig : Prop} {p : Proc} (h : PInv env peers L sig p) {N : Nat}
    (hN : ∀ c ∈ p.accepted, (c : Nat) < N) :
    p.spinning ≤ ((List.range N).filter fun c => 4096 ≤ (peers c).segs.flatten.length).length :=
  spinning_few h hN fun c hc hs => List.mem_filter.mpr ⟨List.mem_range.mpr hc, decide_eq_true (Nat.le_of_not_lt fun hlt => not_spinning hlt hs)⟩

/-- The steps of the process that amount to a step of the system. -/
def asSteps : Step → List PStep
  | .read c => [.accept 0 c, .task (.read c)]
  | .write c => [.accept 0 c, .task (.write c)]
  | .handler now => [.task (.handler now)]
  | .stop => [.task .stop]
  | .ctrlC => [.signal]

/-- Every execution of the system on input that can be read to its end is one of the process. -/
theorem realize (env : Env) (W L : Nat) (peers : ConnId → Peer) (hW : 0 < W) (hL : 0 < L) (sched : List Step)
    (hshort : ∀ st ∈ sched, ∀ c, st = .read c ∨ st = .write c → ¬ Spinning env (peers c)) :
    (run env W (start L peers) (sched.flatMap asSteps)).sys = Sys.run env (init peers) sched
    ∧ (run env W (start L peers) (sched.flatMap asSteps)).gone = false
    ∧ (run env W (start L peers) (sched.flatMap asSteps)).listeners = List.replicate L true
    ∧ (run env W (start L peers) (sched.flatMap asSteps)).spinning = 0 := by
  have hl0 : (List.replicate L true)[0]? = some true := by simp [hL]
  have hany : (List.replicate L true).any (·) = true := by simp; omega
  have key : ∀ (sched : List Step) (sig : Prop) (p : Proc), PInv env peers L sig p →
      (∀ st ∈ sched, ∀ c, st = .read c ∨ st = .write c → ¬ Spinning env (peers c)) →
      (∀ c ∈ p.accepted, ¬ Spinning env (peers c)) → p.listeners = List.replicate L true →
      ((p.main = .serving) ∨ (p.main = .joinListeners ∧ p.sys.ctrlC = true)) →
      (run env W p (sched.flatMap asSteps)).sys = Sys.run env p.sys sched ∧ (run env W p (sched.flatMap asSteps)).gone = false
        ∧ (run env W p (sched.flatMap asSteps)).listeners = List.replicate L true
        ∧ (run env W p (sched.flatMap asSteps)).spinning = 0 := by
    intro sched
    induction sched with
    | nil =>
      intro sig p h _ ha hl hm
      refine ⟨rfl, ?_, hl, short_spinning h ha⟩
      rcases hm with hm | hm
      · simp [run, gone, hm]
      · simp [run, gone, hm.1]
    | cons st sched ih =>
      intro sig p h hs ha hl hm
      rw [List.flatMap_cons, run_append, Sys.run_cons]
      have hg : p.gone = false := by rcases hm with hm | hm <;> simp [gone, hm]
      have hfree : p.free W = true := by simp [free, hg, short_spinning h ha, hW]
      have hs' := fun st' hst' => hs st' (List.mem_cons_of_mem _ hst')
      -- accepting the connection, if need be
      have acc : ∀ c, ¬ Spinning env (peers c) → ∃ sig', PInv env peers L sig' (step env W p (.accept 0 c))
          ∧ (step env W p (.accept 0 c)).sys = p.sys ∧ (step env W p (.accept 0 c)).listeners = p.listeners
          ∧ (step env W p (.accept 0 c)).main = p.main ∧ c ∈ (step env W p (.accept 0 c)).accepted
          ∧ ∀ d ∈ (step env W p (.accept 0 c)).accepted, ¬ Spinning env (peers d) := by
        intro c hc
        refine ⟨_, pinv_step (W := W) h (.accept 0 c), ?_⟩
        simp only [step, hfree, hl, hl0, Bool.true_and, BEq.rfl]
        cases hcon : p.accepted.contains c with
        | true =>
          simp only [Bool.not_true, Bool.false_eq_true, ↓reduceIte]
          exact ⟨trivial, hl, trivial, by simpa using hcon, ha⟩
        | false =>
          simp only [Bool.not_false, ↓reduceIte]
          refine ⟨trivial, trivial, trivial, List.mem_cons_self, fun d hd => ?_⟩
          rcases List.mem_cons.mp hd with rfl | hd
          · exact hc
          · exact ha d hd
      have task : ∀ (q : Proc) (sig' : Prop) (st : Step), st ≠ .ctrlC → PInv env peers L sig' q → (∀ c ∈ q.accepted, ¬ Spinning env (peers c)) →
          q.sys = p.sys → q.listeners = List.replicate L true → q.main = p.main → q.runnable st = true →
          (run env W (step env W q (.task st)) (sched.flatMap asSteps)).sys = Sys.run env (Sys.step env p.sys st) sched
          ∧ (run env W (step env W q (.task st)) (sched.flatMap asSteps)).gone = false
          ∧ (run env W (step env W q (.task st)) (sched.flatMap asSteps)).listeners = List.replicate L true
          ∧ (run env W (step env W q (.task st)) (sched.flatMap asSteps)).spinning = 0 := by
        intro q sig' st hne hq hqa hqs hql hqm hr
        have hqf : q.free W = true := by
          have : q.gone = false := by simpa [gone, hqm] using hg
          simp [free, this, short_spinning hq hqa, hW]
        have he : step env W q (.task st) = { q with sys := Sys.step env q.sys st } := by
          simp only [step, hqf, hr, Bool.and_self, ↓reduceIte]
        have := ih _ _ (pinv_step (W := W) hq (.task st)) hs' (by rw [he]; exact hqa) (by rw [he]; exact hql) (by
          rw [he]
          rcases hm with hm | hm
          · exact .inl (hqm.trans hm)
          · refine .inr ⟨hqm.trans hm.1, ?_⟩
            show (Sys.step env q.sys st).ctrlC = true
            rw [ctrlC_step env hne, hqs, hm.2])
        rw [he] at this ⊢
        rw [hqs] at this ⊢
        exact this
      cases st with
      | read c =>
        obtain ⟨sig', a1, a2, a3, a4, a5, a6⟩ := acc c (hs _ List.mem_cons_self c (.inl rfl))
        exact task _ sig' _ (by simp) a1 a6 a2 (a3.trans hl) a4 (by simpa [runnable] using a5)
      | write c =>
        obtain ⟨sig', a1, a2, a3, a4, a5, a6⟩ := acc c (hs _ List.mem_cons_self c (.inr rfl))
        exact task _ sig' _ (by simp) a1 a6 a2 (a3.trans hl) a4 (by simpa [runnable] using a5)
      | handler now => exact task p sig _ (by simp) h ha rfl hl rfl rfl
      | stop => exact task p sig _ (by simp) h ha rfl hl rfl rfl
      | ctrlC =>
        have hstep : (step env W p .signal).sys = Sys.step env p.sys .ctrlC ∧ (step env W p .signal).main = .joinListeners
            ∧ (step env W p .signal).accepted = p.accepted ∧ (step env W p .signal).listeners = p.listeners := by
          rcases hm with hm | ⟨hm, hc⟩
          · simp only [step, stepSignal, hm, hl, hany, Bool.or_true, ↓reduceIte]
            exact ⟨rfl, trivial, trivial, trivial⟩
          · simp only [step, stepSignal, hm]
            refine ⟨?_, trivial, trivial, trivial⟩
            show p.sys = { p.sys with ctrlC := true }
            rw [← hc]
        have := ih _ _ (pinv_step (W := W) h .signal) hs' (by rw [hstep.2.2.1]; exact ha) (by rw [hstep.2.2.2]; exact hl)
          (.inr ⟨hstep.2.1, by rw [hstep.1]; rfl⟩)
        rw [hstep.1] at this
        exact this
  exact key sched False _ (pinv_start env L peers) hshort (fun c hc => by cases hc) rfl (.inl rfl)

/-- Whatever the process does later is something the system does. -/
theorem later {env : Env} {W L : Nat} {peers : ConnId → Peer} {sig : Prop} {p : Proc} (h : PInv env peers L sig p) (ps : List PStep) :
    ∃ sched, (run env W p ps).sys = Sys.run env p.sys sched := by
  induction ps generalizing p sig with
  | nil => exact ⟨[], rfl⟩
  | cons st ps ih =>
    obtain ⟨sched, hs⟩ := ih (pinv_step (W := W) h st)
    rw [run_cons, hs]
    have one : ∃ a, (step env W p st).sys = Sys.run env p.sys a := by
      cases st with
      | accept l d => simp only [step]; split <;> exact ⟨[], rfl⟩
      | task st => simp only [step]; split
                   · exact ⟨[st], rfl⟩
                   · exact ⟨[], rfl⟩
      | stopListening l => simp only [step]; split <;> exact ⟨[], rfl⟩
      | messagingEnds => simp only [step]; split <;> exact ⟨[], rfl⟩
      | signal => simp only [step, stepSignal]; repeat' split
                  all_goals first | exact ⟨[], rfl⟩ | exact ⟨[.ctrlC], rfl⟩
      | main => simp only [step, stepMain]; repeat' split
                all_goals exact ⟨[], rfl⟩
    obtain ⟨a, ha⟩ := one
    exact ⟨a ++ sched, by rw [ha, Sys.run_append]⟩

/-- One connection after the other is accepted and starts to spin. -/
theorem hogs (env : Env) (W : Nat) {peers : ConnId → Peer} {L l : Nat} (A : List ConnId) (hA : A.Nodup) (hhog : ∀ c ∈ A, Hog (peers c))
    {sig : Prop} {p : Proc} (h : PInv env peers L sig p) (hnew : ∀ c ∈ A, c ∉ p.accepted) (hl : p.listeners[l]? = some true)
    (hg : p.gone = false) :
    ∃ ps, min W (p.spinning + A.length) ≤ (run env W p ps).spinning ∧ (run env W p ps).gone = false := by
  induction A generalizing p sig with
  | nil => exact ⟨[], by simp only [List.length_nil]; exact Nat.min_le_right _ _, hg⟩
  | cons c A ih =>
    rw [List.nodup_cons] at hA
    by_cases hW : p.spinning < W
    · have hfree : p.free W = true := by simp [free, hg, hW]
      have hc : c ∉ p.accepted := hnew c List.mem_cons_self
      obtain ⟨f1, f2, f3, _⟩ := unaccepted h hc
      have e1 : step env W p (.accept l c) = { p with accepted := c :: p.accepted } := by
        have : p.accepted.contains c = false := by simpa using hc
        simp only [step, hfree, hl, this, BEq.rfl, Bool.not_false, Bool.and_self, ↓reduceIte]
      have sp1 : (step env W p (.accept l c)).spinning = p.spinning := by
        rw [e1]; simp [spinning, f1]
      have free1 : (step env W p (.accept l c)).free W = true := by
        have : (step env W p (.accept l c)).gone = false := by rw [e1]; exact hg
        simp [free, this, sp1, hW]
      have e2 : step env W (step env W p (.accept l c)) (.task (.read c))
          = { p with accepted := c :: p.accepted, sys := Sys.step env p.sys (.read c) } := by
        have hr : (step env W p (.accept l c)).runnable (.read c) = true := by rw [e1]; simp [runnable]
        simp only [step] at free1 hr ⊢
        simp only [free1, hr, Bool.and_self, ↓reduceIte]
        simp only [step] at e1
        rw [e1]
      have stuck : (((step env W (step env W p (.accept l c)) (.task (.read c))).sys.conns c).phase) = .stuck := by
        rw [e2]
        exact hog_spins env (hhog c List.mem_cons_self) f1 f2 f3
      have h1 := pinv_step (W := W) h (.accept l c)
      have h2 := pinv_step (W := W) h1 (.task (.read c))
      have sp2 : p.spinning + 1 ≤ (step env W (step env W p (.accept l c)) (.task (.read c))).spinning := by
        have hsub : c :: (p.accepted.filter fun d => (p.sys.conns d).phase = .stuck) ⊆
            (step env W (step env W p (.accept l c)) (.task (.read c))).accepted.filter fun d =>
              ((step env W (step env W p (.accept l c)) (.task (.read c))).sys.conns d).phase = .stuck := by
          intro d hd
          rw [List.mem_filter]
          rcases List.mem_cons.mp hd with rfl | hd
          · exact ⟨by rw [e2]; exact List.mem_cons_self, by simpa using stuck⟩
          · rw [List.mem_filter] at hd
            refine ⟨by rw [e2]; exact List.mem_cons_of_mem _ hd.1, ?_⟩
            refine decide_eq_true (stuck_step env W _ _ ?_)
            exact stuck_step env W _ _ (by simpa using hd.2)
        have := List.Nodup.length_le_of_subset (List.nodup_cons.mpr ⟨fun hm => hc (List.mem_filter.mp hm).1, List.Pairwise.filter _ h.nodup⟩) hsub
        simpa [spinning] using this
      obtain ⟨ps, i1, i2⟩ := ih hA.2 (fun d hd => hhog d (List.mem_cons_of_mem _ hd)) h2
        (fun d hd => by
          rw [e2]
          intro hm
          rcases List.mem_cons.mp hm with rfl | hm
          · exact hA.1 hd
          · exact hnew d (List.mem_cons_of_mem _ hd) hm)
        (by rw [e2]; exact hl) (by rw [e2]; exact hg)
      refine ⟨.accept l c :: .task (.read c) :: ps, ?_, ?_⟩
      · rw [run_cons, run_cons]
        refine Nat.le_trans ?_ i1
        simp only [List.length_cons]
        omega
      · rw [run_cons, run_cons]; exact i2
    · exact ⟨[], by show min W _ ≤ p.spinning; omega, hg⟩

end Proc

end Ratel
