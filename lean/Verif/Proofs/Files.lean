/-
The process with a limited number of sockets.
-/
import Verif.Spec.Files
import Verif.Proofs.ProcRun
import Verif.Props.Process

namespace Ratel

open Spec Sys

namespace Files

theorem holds_iff (s : Sys) (d : ConnId) : holds (s.conns d) = true ↔ ¬ Freed s d := by
  unfold holds Freed HungUp
  cases hx : (s.conns d).rxOpen with
  | true => simp
  | false =>
    cases hp : (s.conns d).phase <;> cases ho : (s.conns d).outbox <;> simp

theorem run_snoc (env : Env) (W F : Nat) (p : Proc) (a : List PStep) (st : PStep) :
    run env W F p (a ++ [st]) = step env W F (run env W F p a) st := by
  unfold run; rw [List.foldl_append]; rfl

/-- The endless schedule with the refused attempts left out: nobody presses ctrl-c through a task. -/
def admitted (env : Env) (W F : Nat) (p : Proc) (τ : Nat → PStep) (n : Nat) : PStep :=
  if refused F (run env W F p (firstPSteps τ n)) (τ n) then .task .ctrlC else τ n

theorem void_step (env : Env) (W : Nat) (p : Proc) : Proc.step env W p (.task .ctrlC) = p := by
  simp [Proc.step, Proc.runnable]

/-- An execution with a limited number of sockets is one without limit, in which some connections do not ask. -/
theorem run_admitted (env : Env) (W F : Nat) (p : Proc) (τ : Nat → PStep) (n : Nat) :
    Proc.run env W p (firstPSteps (admitted env W F p τ) n) = run env W F p (firstPSteps τ n) := by
  induction n with
  | zero => rfl
  | succ n ih =>
    rw [Proc.prun_succ, ih, Proc.firstPSteps_succ, run_snoc]
    unfold admitted step
    split
    · rw [void_step]
    · rfl

theorem admitted_eq {env : Env} {W F : Nat} {p : Proc} {τ : Nat → PStep} {n : Nat} (h : ∀ l c, τ n ≠ .accept l c) :
    admitted env W F p τ n = τ n := by
  unfold admitted
  cases hτ : τ n with
  | accept l c => exact absurd hτ (h l c)
  | _ => simp [refused]

theorem admitted_few {env : Env} {W F N : Nat} {p : Proc} {τ : Nat → PStep} (h : PFew N τ) : PFew N (admitted env W F p τ) := by
  intro n l c hn
  unfold admitted at hn
  split at hn
  · cases hn
  · exact h n l c hn

theorem admitted_fair {env : Env} {W F N L : Nat} {p : Proc} {τ : Nat → PStep} (h : PFair N L τ) : PFair N L (admitted env W F p τ) := by
  have key : ∀ st : PStep, (∀ l c, st ≠ .accept l c) → ∀ m, τ m = st → admitted env W F p τ m = st := by
    intro st hst m hm
    rw [admitted_eq (by rw [hm]; exact hst), hm]
  refine ⟨admitted_few h.few, fun c hc n => ?_, fun c hc n => ?_, fun n => ?_, fun n => ?_, fun l hl n => ?_, fun n => ?_, fun n => ?_⟩
  · obtain ⟨m, h1, h2⟩ := h.read c hc n; exact ⟨m, h1, key _ (by simp) m h2⟩
  · obtain ⟨m, h1, h2⟩ := h.write c hc n; exact ⟨m, h1, key _ (by simp) m h2⟩
  · obtain ⟨m, now, h1, h2⟩ := h.handler n; exact ⟨m, now, h1, key _ (by simp) m h2⟩
  · obtain ⟨m, h1, h2⟩ := h.stop n; exact ⟨m, h1, key _ (by simp) m h2⟩
  · obtain ⟨m, h1, h2⟩ := h.listeners l hl n; exact ⟨m, h1, key _ (by simp) m h2⟩
  · obtain ⟨m, h1, h2⟩ := h.messaging n; exact ⟨m, h1, key _ (by simp) m h2⟩
  · obtain ⟨m, h1, h2⟩ := h.main n; exact ⟨m, h1, key _ (by simp) m h2⟩

theorem admitted_signal {env : Env} {W F : Nat} {p : Proc} {τ : Nat → PStep} (h : ∀ i, τ i ≠ .signal) (i : Nat) :
    admitted env W F p τ i ≠ .signal := by
  unfold admitted
  split
  · simp
  · exact h i

/-- What is known of an execution with a limited number of sockets in which ctrl-c is not pressed. -/
structure Ran (env : Env) (peers : ConnId → Peer) (L N : Nat) (p : Proc) : Prop where
  sys : ∃ sched, p.sys = Sys.run env (init peers) sched ∧ (∀ st ∈ sched, ∀ c, st = .read c ∨ st = .write c → c ∈ p.accepted)
    ∧ .ctrlC ∉ sched
  nodup : p.accepted.Nodup
  few : ∀ c ∈ p.accepted, (c : Nat) < N
  listeners : p.listeners = List.replicate L true
  alive : p.gone = false

theorem ran (env : Env) (W F L : Nat) (peers : ConnId → Peer) {N : Nat} {τ : Nat → PStep} (hf : PFew N τ) (hs : ∀ i, τ i ≠ .signal) (n : Nat) :
    Ran env peers L N (run env W F (Proc.start L peers) (firstPSteps τ n)) := by
  rw [← run_admitted]
  have hno : ¬ (PStep.signal ∈ firstPSteps (admitted env W F (Proc.start L peers) τ) n) := by
    intro hm
    obtain ⟨i, _, he⟩ := List.mem_map.mp hm
    exact admitted_signal hs i he
  have hp := Proc.pinv_run env W L peers (firstPSteps (admitted env W F (Proc.start L peers) τ) n)
  obtain ⟨sched, e1, e2, e3⟩ := hp.sys
  refine ⟨⟨sched, e1, e2, fun h => hno (e3 h)⟩, hp.nodup, Proc.accepted_few (admitted_few hf) n, listening_run env W L peers _ hno, ?_⟩
  have hst := hp.stage
  unfold Proc.Stage at hst
  unfold Proc.gone
  split
  · rename_i ok hm
    rw [hm] at hst
    cases ok <;> exact absurd hst.1 hno
  · rfl

/-- A socket that is closed stays closed. -/
theorem freed_step (env : Env) (s : Sys) (st : Step) {d : ConnId} (h : Freed s d) : Freed (Sys.step env s st) d := by
  obtain ⟨h1, h2, h3⟩ := h
  unfold HungUp at h1
  have same : ∀ s' : Sys, s'.conns d = s.conns d → Freed s' d := fun s' e => ⟨by unfold HungUp; rw [e]; exact h1, by rw [e]; exact h2, by rw [e]; exact h3⟩
  cases st with
  | read c =>
    refine same _ ?_
    by_cases hc : d = c
    · subst hc
      simp only [Sys.step, stepRead, h3, setConn_self]
      simp [readTask, h2]
    · simp only [Sys.step, stepRead]
      repeat' split
      all_goals first | rfl | rw [setConn_other _ _ hc]
  | write c =>
    refine same _ ?_
    by_cases hc : d = c
    · subst hc
      simp [Sys.step, stepWrite, h1]
    · exact stepWrite_other env s hc
  | handler now =>
    refine same _ ?_
    rcases stepHandler_conn env now s d with he | ⟨e, todo, _, hrx, _⟩
    · exact he
    · rw [h1] at hrx; cases hrx
  | ctrlC => exact same _ rfl
  | stop =>
    refine same _ ?_
    simp only [Sys.step]
    repeat' split
    all_goals rfl

theorem filter_le {α : Type} (l : List α) (f g : α → Bool) (h : ∀ a, f a = true → g a = true) : (l.filter f).length ≤ (l.filter g).length := by
  induction l with
  | nil => exact Nat.le_refl _
  | cons a l ih =>
    rw [List.filter_cons, List.filter_cons]
    by_cases hf : f a = true
    · rw [if_pos hf, if_pos (h a hf)]
      exact Nat.succ_le_succ ih
    · rw [if_neg hf]
      split
      · exact Nat.le_succ_of_le ih
      · exact ih

theorem sockets_sys {p p' : Proc} (ha : p'.accepted = p.accepted) (h : ∀ d, Freed p.sys d → Freed p'.sys d) : sockets p' ≤ sockets p := by
  unfold sockets
  rw [ha]
  refine filter_le _ _ _ fun d hd => ?_
  rw [holds_iff] at hd ⊢
  exact fun hf => hd (h d hf)

/-- There are never more than `F` sockets. -/
theorem sockets_le (env : Env) (W F L : Nat) (peers : ConnId → Peer) (ps : List PStep) :
    sockets (run env W F (Proc.start L peers) ps) ≤ F := by
  have key : ∀ ps p, sockets p ≤ F → sockets (run env W F p ps) ≤ F := by
    intro ps
    induction ps with
    | nil => intro p h; exact h
    | cons st ps ih =>
      intro p h
      refine ih _ ?_
      unfold step
      split
      · exact h
      · rename_i hr
        cases st with
        | accept l c =>
          have hlt : sockets p < F := by simpa [refused] using hr
          simp only [Proc.step]
          split
          · show ((c :: p.accepted).filter fun c => holds (p.sys.conns c)).length ≤ F
            rw [List.filter_cons]
            unfold sockets at hlt
            split
            · exact hlt
            · omega
          · exact h
        | task st =>
          simp only [Proc.step]
          split
          · exact Nat.le_trans (sockets_sys (p := p) rfl fun d => freed_step env p.sys st) h
          · exact h
        | stopListening l => simp only [Proc.step]; split <;> exact h
        | messagingEnds => simp only [Proc.step]; split <;> exact h
        | signal =>
          simp only [Proc.step, Proc.stepSignal]
          repeat' split
          all_goals exact h
        | main =>
          simp only [Proc.step, Proc.stepMain]
          repeat' split
          all_goals exact h
  exact key ps _ (by simp [sockets, Proc.start])

/-- Where a fair schedule ends up, if ctrl-c is not pressed and a worker thread remains free. -/
structure AtRest (env : Env) (W F N : Nat) (p : Proc) : Prop where
  read : ∀ c ∈ p.accepted, Sys.step env p.sys (.read c) = p.sys
  write : ∀ c ∈ p.accepted, Sys.step env p.sys (.write c) = p.sys
  sys : p.sys.handler = .crashed ∨ p.sys.handler = .stopped ∨ (∃ d e todo, d ∈ p.accepted ∧ Stuck p.sys d e todo) ∨ Done env (· ∈ p.accepted) p.sys
  room : sockets p < F → ∀ c : ConnId, (c : Nat) < N → c ∈ p.accepted

theorem comes_to_rest (env : Env) (W F L : Nat) (peers : ConnId → Peer) {N : Nat} {τ : Nat → PStep} (hf : PFair N L τ) (hk : Knocking N L τ)
    (hs : ∀ i, τ i ≠ .signal) :
    ∃ n, (∀ m, n ≤ m → run env W F (Proc.start L peers) (firstPSteps τ m) = run env W F (Proc.start L peers) (firstPSteps τ n))
      ∧ ((run env W F (Proc.start L peers) (firstPSteps τ n)).spinning < W → AtRest env W F N (run env W F (Proc.start L peers) (firstPSteps τ n))) := by
  obtain ⟨n, hn⟩ := Proc.pcomes_to_rest env W L peers (admitted_few (env := env) (W := W) (F := F) (p := Proc.start L peers) hf.few)
  simp only [run_admitted] at hn
  refine ⟨n, hn, fun hW => ?_⟩
  have hran := ran env W F L peers hf.few hs n
  have key : ∀ m st, n ≤ m → τ m = st → step env W F (run env W F (Proc.start L peers) (firstPSteps τ n)) st
      = run env W F (Proc.start L peers) (firstPSteps τ n) := by
    intro m st hm hst
    have := run_snoc env W F (Proc.start L peers) (firstPSteps τ m) (τ m)
    rw [← Proc.firstPSteps_succ, hn m hm, hn (m + 1) (by omega), hst] at this
    exact this.symm
  have hp := Proc.pinv_run env W L peers (firstPSteps (admitted env W F (Proc.start L peers) τ) n)
  rw [run_admitted] at hp
  generalize run env W F (Proc.start L peers) (firstPSteps τ n) = p at *
  have hfree : p.free W = true := by simp [Proc.free, hran.alive, hW]
  have htask : ∀ m st, n ≤ m → τ m = .task st → p.runnable st = true → Sys.step env p.sys st = p.sys := by
    intro m st hm hst hr
    have := key m _ hm hst
    simp only [step, refused, Bool.false_eq_true, ↓reduceIte, Proc.step, hfree, hr, Bool.and_self] at this
    exact congrArg Proc.sys this
  have hread : ∀ c ∈ p.accepted, Sys.step env p.sys (.read c) = p.sys := fun c hc => by
    obtain ⟨m, hm, hst⟩ := hf.read c (hran.few c hc) n
    exact htask m _ hm hst (by simpa [Proc.runnable] using hc)
  have hwrite : ∀ c ∈ p.accepted, Sys.step env p.sys (.write c) = p.sys := fun c hc => by
    obtain ⟨m, hm, hst⟩ := hf.write c (hran.few c hc) n
    exact htask m _ hm hst (by simpa [Proc.runnable] using hc)
  refine ⟨hread, hwrite, ?_, fun hroom c hc => ?_⟩
  · obtain ⟨mh, now, hmh, hnow⟩ := hf.handler n
    obtain ⟨sched, h1, _⟩ := hran.sys
    exact at_rest env (by rw [h1]; exact inv_run env peers sched) (fun d hd => (Proc.unaccepted hp hd).1) hread hwrite (htask mh _ hmh hnow rfl)
  · obtain ⟨m, l, hm, hl, hst⟩ := hk c hc n
    refine Classical.byContradiction fun hnot => ?_
    have := key m _ hm hst
    have hup : p.listeners[l]? = some true := by rw [hran.listeners]; simp [hl]
    have hroom' : ¬ F ≤ sockets p := by omega
    simp only [step, refused, hroom', decide_false, Bool.false_eq_true, ↓reduceIte, Proc.step, hfree, hup, BEq.rfl, Bool.and_self, Bool.true_and,
      List.contains_eq_mem, hnot, Bool.not_false] at this
    have := congrArg (fun q : Proc => q.accepted.length) this
    simp at this

end Files

end Ratel
